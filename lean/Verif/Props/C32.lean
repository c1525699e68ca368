import Verif.Lemmas.Mmap
/-!
# C32 — The memory-mapped condensor's index keeps ids sorted, unique and with their maximum level

Full statement: after any sequence of node observations the index lists each id once, in increasing order, with the largest level
seen, and the computed byte ranges of different nodes do not overlap and fill the file exactly.

Proved: `index_exact` for every sequence of observations, `analyze_exact` for the bytes of every log of the operations the analyser
knows (`unknown_operation_fails` for the others), `ranges_partition` for the byte ranges whenever the total fits 64 bits.  The ranges
themselves can be too small: at level 65535 the size wraps (`size_wraps`).
-/
namespace Fave.C32
open Fave.Mmap
open Fave.Log (RErr LogOp encodeAll)

/-- Every sequence of observations: each id once, increasing, with the largest level seen. -/
theorem index_exact (obs : List (Nat × Nat)) : Exact (obs.foldl (fun ns o => upsert ns o.1 o.2) []) obs := by
  have key : ∀ (rest done : List (Nat × Nat)) (ns : List MNode), Exact ns done →
      Exact (rest.foldl (fun ns o => upsert ns o.1 o.2) ns) (done ++ rest) := by
    intro rest
    induction rest with
    | nil => intro done ns h; simpa using h
    | cons o rest ih =>
      intro done ns h
      have := ih (done ++ [o]) _ (exact_upsert h o.1 o.2)
      simpa using this
  simpa using key obs [] [] exact_empty

/-- The bytes of every log of known operations: no error, and the index is exact for what the log mentions since its last
reset. -/
theorem analyze_exact (ops : List LogOp) (hk : ∀ op ∈ ops, Known op) (hr : ∀ op ∈ ops, op.InRange) :
    ∃ ns, analyze (encodeAll ops) = (ns, none) ∧ Exact ns (ops.foldl observe []) := by
  have hl := length_le ops
  obtain ⟨ns, h1, h2⟩ := loop_known ops (fuel := (encodeAll ops).length + 1) exact_empty hk hr [] (by omega)
  rw [List.append_nil] at h1
  refine ⟨ns, ?_, h2⟩
  unfold analyze
  rw [h1]
  have : (encodeAll ops).length + 1 - ops.length = ((encodeAll ops).length - ops.length) + 1 := by omega
  rw [this]
  rfl

/-- The first operation the analyser does not know ends the analysis with an error. -/
theorem unknown_operation_fails (ops rest : List LogOp) (op : LogOp) (hk : ∀ op ∈ ops, Known op) (hr : ∀ op ∈ ops, op.InRange)
    (hu : ¬ Known op) : (analyze (encodeAll (ops ++ op :: rest))).2 = some .badType := by
  have hl := length_le ops
  have e : encodeAll (ops ++ op :: rest) = encodeAll ops ++ op.tag :: (op.payload ++ encodeAll rest) := by
    simp [encodeAll, LogOp.encode]
  obtain ⟨ns, h1, -⟩ := loop_known ops (fuel := (encodeAll (ops ++ op :: rest)).length + 1) exact_empty hk hr
    (op.tag :: (op.payload ++ encodeAll rest)) (by rw [e]; simp; omega)
  unfold analyze
  rw [← e] at h1
  rw [h1]
  have : (encodeAll (ops ++ op :: rest)).length + 1 - ops.length = ((encodeAll (ops ++ op :: rest)).length - ops.length) + 1 := by
    rw [e]; simp; omega
  rw [this]
  cases op <;> first | rfl | exact absurd trivial hu

/-- After every sequence of observations whose total size fits 64 bits: ids and levels are unchanged, the first range starts at 0,
every range starts where the one before ends (so they do not overlap), and the last one ends at the computed file size. -/
theorem ranges_partition (obs : List (Nat × Nat)) (c : Nat)
    (h : totalSize c (obs.foldl (fun ns o => upsert ns o.1 o.2) []) < 2 ^ 64) :
    let ns := obs.foldl (fun ns o => upsert ns o.1 o.2) []
    let out := offsets c none ns
    out.map (fun x : MNode => (x.id, x.maxLevel)) = ns.map (fun x : MNode => (x.id, x.maxLevel)) ∧
    (∀ x, out[0]? = some x → x.offset = 0) ∧
    (∀ (k : Nat) (x y : MNode), out[k]? = some x → out[k + 1]? = some y → y.offset = x.offset + x.size c) ∧
    (∀ (j k : Nat) (x y : MNode), j < k → out[j]? = some x → out[k]? = some y → x.offset + x.size c ≤ y.offset) ∧
    (out ≠ [] → indexSize c out = totalSize c ns) := by
  intro ns out
  obtain ⟨h1, h2, h3⟩ := offsets_spec (index_exact obs).unplaced h
  have hsz : ∀ (k : Nat) (x y : MNode), out[k]? = some x → ns[k]? = some y → x.size c = y.size c := by
    intro k x y hx hy
    have := h3 k
    rw [show (offsets c none ns)[k]? = some x from hx, show ns[k]? = some y from hy] at this
    simp only [Option.map_some, Option.some.injEq, Prod.mk.injEq] at this
    unfold MNode.size
    rw [this.2]
  have hget : ∀ (k : Nat) (x : MNode), out[k]? = some x → ∃ y, ns[k]? = some y := by
    intro k x hx
    obtain ⟨hk, -⟩ := List.getElem?_eq_some_iff.1 hx
    have hk' : k < ns.length := by have : out.length = ns.length := h1; omega
    exact ⟨ns[k], List.getElem?_eq_getElem hk'⟩
  refine ⟨?_, fun x hx => ?_, fun k x y hx hy => ?_, fun j k x y hjk hx hy => ?_, fun hne => ?_⟩
  · refine List.ext_getElem? fun k => ?_
    rw [List.getElem?_map, List.getElem?_map]
    exact h3 k
  · have := h2 0 x hx
    simpa [totalSize] using this
  · obtain ⟨z, hz⟩ := hget k x hx
    rw [h2 (k + 1) y hy, h2 k x hx, hsz k x z hx hz, total_split hz]
  · obtain ⟨z, hz⟩ := hget j x hx
    rw [h2 k y hy, h2 j x hx, hsz j x z hx hz, ← total_split hz]
    exact total_mono hjk
  · unfold indexSize
    rw [List.getLast?_eq_getElem?]
    have hlen : 0 < out.length := List.length_pos_iff.2 hne
    obtain ⟨x, hx⟩ : ∃ x, out[out.length - 1]? = some x := ⟨_, List.getElem?_eq_getElem (by omega)⟩
    rw [hx]
    obtain ⟨z, hz⟩ := hget _ x hx
    have hl : ns.take (out.length - 1 + 1) = ns := by
      have : out.length = ns.length := h1
      rw [List.take_of_length_le (by omega)]
    have := total_split (c := c) hz
    rw [hl] at this
    dsimp only
    rw [h2 _ x hx, hsz _ x z hx hz, this]
    push_cast
    rfl

/-- At level 65535 the number of levels wraps to 0: the range is smaller than that of level 0 with enough links per level. -/
theorem size_wraps : (⟨1, 0, 65535⟩ : MNode).size 200000 < (⟨1, 0, 0⟩ : MNode).size 200000 ∧
    (⟨1, 0, 65535⟩ : MNode).size 64 < (⟨1, 0, 65534⟩ : MNode).size 64 := by decide

/-- ids in any order, repeated with lower and higher levels -/
example : [(5, 1), (2, 0), (9, 3), (5, 0), (5, 2), (2, 0), (7, 1)].foldl (fun ns (o : Nat × Nat) => upsert ns o.1 o.2) [] =
    [⟨2, 0, 0⟩, ⟨5, 0, 2⟩, ⟨7, 0, 1⟩, ⟨9, 0, 3⟩] := by decide

example : offsets 64 none [⟨2, 0, 0⟩, ⟨5, 0, 2⟩, ⟨7, 0, 1⟩, ⟨9, 0, 3⟩] =
    [⟨2, 0, 0⟩, ⟨5, 64, 2⟩, ⟨7, 260, 1⟩, ⟨9, 390, 3⟩] ∧
    indexSize 64 (offsets 64 none [⟨2, 0, 0⟩, ⟨5, 0, 2⟩, ⟨7, 0, 1⟩, ⟨9, 0, 3⟩]) = 652 := by decide

/-- a log: deleted nodes stay in the index, a reset empties it -/
example : analyze (encodeAll [.addNode 4 1, .resetIndex, .addNode 3 1, .setEntryPoint 3 1, .addLink 1 2 3, .replaceLinks 3 4 [1, 1],
    .addTombstone 1, .removeTombstone 1, .clearLinks 3, .deleteNode 1]) = ([⟨1, 0, 2⟩, ⟨3, 0, 4⟩], none) := by decide

/-- a log of the condensor cannot be analysed -/
example : (analyze (encodeAll [.addNode 4 1, .addLinks 4 0 [1]])).2 = some .badType := by decide

/-- an empty log yields the size -1, with which the scratch file cannot be created -/
example : indexSize 64 (offsets 64 none (analyze []).1) = -1 := by decide

end Fave.C32
