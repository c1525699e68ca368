import Verif.Lemmas.CondenseOps
import Verif.Props.C25
/-!
# C27 — Condensing a commit log preserves the replayed state

Full statement: replaying the condensed form of a commit log gives the same vectors, links, search start and deletion marks as
replaying the original, also when further logs were replayed before.

**False** as soon as the log takes something away that an older log had stored: deleted nodes, removed deletion marks, cleared
links and a reset are forgotten (`deletion_forgotten`, `unmark_forgotten`, `clear_forgotten`, `reset_forgotten`,
`level_clear_forgotten`); clearing links of a node that does not exist creates it (`phantom_node`); more than 65535 links make the
condensed log unreadable (`too_many_links`).  `condense_preserves_partial` proves the statement for every older state and every
log outside these cases (`Condensable`), in particular for every log that is the first one
(`condense_first_partial`).
-/
namespace Fave.C27
open Fave.Log

/-- For every older state and every log whose operations are condensable on top of it: condensing succeeds, and the condensed
log replays without error to the same state as the log itself, whatever the iteration order over the deletion marks. -/
theorem condense_preserves_partial {maxLen : Nat} (hm : 56250 ≤ maxLen) (st : LogState) (ops : List LogOp)
    (hr : ∀ op ∈ ops, op.InRange) (hf : ∀ op ∈ ops, op.Fits maxLen) (hc : Condensable st.view ops)
    (hl : ∀ i l, linkLens ops i l ≤ 65535) (order : LogState → List Nat) (ho : ∀ s, (order s).Perm s.tombs) :
    ∃ bs s1 n s2, condense maxLen order (encodeAll ops) = .ok bs ∧
      replay maxLen false st (encodeAll ops) = (s1, n, none) ∧
      replay maxLen false st bs = (s2, bs.length, none) ∧ s2.view = s1.view := by
  obtain ⟨s, -, -, h1, h2, h3⟩ := condense_ops hm st.view ops hr hf hc hl order ho
  obtain ⟨s1, n, h4, h5, -⟩ := C25.replay_reproduces_partial maxLen st ops hr hf
  obtain ⟨s2, n2, h6, h7, h8⟩ := C25.replay_reproduces_partial maxLen st (condOps s (order s)) (fun op h => (h2 op h).1)
    (fun op h => (h2 op h).2.1)
  exact ⟨_, s1, n, s2, h1, h4, by rw [h6, h8 fun op h => (h2 op h).2.2], by rw [h7, h5, h3]⟩

/-- The first log: nothing older exists, so everything may be taken away again; only quantisation data and the clearing of
links of absent nodes are excluded. -/
theorem condense_first_partial {maxLen : Nat} (hm : 56250 ≤ maxLen) (ops : List LogOp) (hr : ∀ op ∈ ops, op.InRange)
    (hf : ∀ op ∈ ops, op.Fits maxLen) (hq : C25.NoPQ ops)
    (hc : ∀ done id l rest, ops = done ++ .clearLinksAtLevel id l :: rest → (semAll View.empty done).node id ≠ none)
    (hl : ∀ i l, linkLens ops i l ≤ 65535) (order : LogState → List Nat) (ho : ∀ s, (order s).Perm s.tombs) :
    ∃ bs s1 n s2, condense maxLen order (encodeAll ops) = .ok bs ∧
      replay maxLen false fresh (encodeAll ops) = (s1, n, none) ∧
      replay maxLen false fresh bs = (s2, bs.length, none) ∧ s2.view = s1.view := by
  refine condense_preserves_partial hm fresh ops hr hf ?_ hl order ho
  rw [fresh_view]
  intro done op rest h
  cases op with
  | addNode id l => right; intro v hv; cases hv
  | removeTombstone id => rfl
  | clearLinks id => rfl
  | deleteNode id => rfl
  | resetIndex => exact ⟨fun _ => rfl, rfl, rfl⟩
  | clearLinksAtLevel id l => exact ⟨hc done id l rest h, fun hh => absurd rfl hh⟩
  | addPQ d => exact absurd rfl (hq _ (by rw [h]; simp) d)
  | _ => trivial

/-! ## where the full statement fails -/

/-- the iteration order of the witnesses -/
def asStored (s : LogState) : List Nat := s.tombs

theorem condensed_empty {n : Nat} {f : Nat → Option LVertex} (hf : ∀ i, f i = none) {st : LogState} (h : st.nodes = ⟨n, f⟩)
    (he : st.epChanged = false) (ht : st.tombs = []) : condensed st st.tombs = [] := by
  unfold condensed
  rw [he, ht, h]
  have : ((fun i => writeVertex st (f i)) : Nat → Bytes) = fun _ => [] := by funext i; rw [hf i]; rfl
  show (List.range n).flatMap (fun i => writeVertex st (f i)) ++ [] ++ [] = []
  rw [this]
  simp

theorem condense_to_nothing {maxLen : Nat} {op : LogOp} (hr : op.InRange) {st : LogState}
    (ha : applyOp maxLen true fresh op = .ok st) {n : Nat} {f : Nat → Option LVertex} (hf : ∀ i, f i = none)
    (h : st.nodes = ⟨n, f⟩) (he : st.epChanged = false) (ht : st.tombs = []) :
    condense maxLen asStored (encodeAll [op]) = .ok [] := by
  have h1 : applyAll maxLen true fresh [op] = .ok st := by simp [applyAll, ha]
  unfold condense
  rw [replay_encode (by simpa using hr) h1]
  show Except.ok (condensed st st.tombs) = _
  rw [condensed_empty hf h he ht]

/-- A node deleted in a later log is back after condensing that log. -/
theorem deletion_forgotten :
    let older := (replay (2 ^ 45) false fresh (encodeAll [.addNode 5 0])).1
    condense (2 ^ 45) asStored (encodeAll [.deleteNode 5]) = .ok [] ∧
    (replay (2 ^ 45) false older (encodeAll [.deleteNode 5])).1.view.node 5 = none ∧
    (replay (2 ^ 45) false older []).1.view.node 5 = some ⟨5, 0, [[]]⟩ := by
  refine ⟨condense_to_nothing (by simp [LogOp.InRange]) rfl (f := fun j => if j = 5 then none else none) (fun i => ite_self _) rfl rfl rfl,
    ?_⟩
  decide +kernel

/-- A deletion mark removed in a later log is back after condensing that log. -/
theorem unmark_forgotten :
    let older := (replay (2 ^ 45) false fresh (encodeAll [.addTombstone 5])).1
    condense (2 ^ 45) asStored (encodeAll [.removeTombstone 5]) = .ok [] ∧
    (replay (2 ^ 45) false older (encodeAll [.removeTombstone 5])).1.view.tomb 5 = false ∧
    (replay (2 ^ 45) false older []).1.view.tomb 5 = true := by
  refine ⟨condense_to_nothing (by simp [LogOp.InRange]) rfl (fun _ => rfl) rfl rfl rfl, ?_⟩
  decide +kernel

/-- Links cleared in a later log are back after condensing that log. -/
theorem clear_forgotten :
    let older := (replay (2 ^ 45) false fresh (encodeAll [.addLink 5 0 6])).1
    condense (2 ^ 45) asStored (encodeAll [.clearLinks 5]) = .ok [] ∧
    (replay (2 ^ 45) false older (encodeAll [.clearLinks 5])).1.view.node 5 = some ⟨5, 0, [[]]⟩ ∧
    (replay (2 ^ 45) false older []).1.view.node 5 = some ⟨5, 0, [[6]]⟩ := by
  refine ⟨condense_to_nothing (by simp [LogOp.InRange]) rfl (fun _ => rfl) rfl rfl rfl, ?_⟩
  decide +kernel

/-- A reset of the index in a later log is forgotten. -/
theorem reset_forgotten :
    let older := (replay (2 ^ 45) false fresh (encodeAll [.addNode 5 0, .setEntryPoint 5 0])).1
    condense (2 ^ 45) asStored (encodeAll [.resetIndex]) = .ok [] ∧
    (replay (2 ^ 45) false older (encodeAll [.resetIndex])).1.view.node 5 = none ∧
    (replay (2 ^ 45) false older []).1.view.node 5 = some ⟨5, 0, [[]]⟩ ∧ (replay (2 ^ 45) false older []).1.view.ep = 5 := by
  refine ⟨condense_to_nothing (by simp [LogOp.InRange]) rfl (fun _ => rfl) rfl rfl rfl, ?_⟩
  decide +kernel

/-- Links cleared at one level are forgotten if the node's number is beyond the initial table of 25000. -/
theorem level_clear_forgotten :
    let older := (replay (2 ^ 45) false fresh (encodeAll [.addLink 30000 0 6])).1
    condense (2 ^ 45) asStored (encodeAll [.clearLinksAtLevel 30000 0]) = .ok [] ∧
    (replay (2 ^ 45) false older (encodeAll [.clearLinksAtLevel 30000 0])).1.view.node 30000 = some ⟨30000, 0, [[]]⟩ ∧
    (replay (2 ^ 45) false older []).1.view.node 30000 = some ⟨30000, 0, [[6]]⟩ := by
  refine ⟨condense_to_nothing (by simp [LogOp.InRange]) rfl (fun _ => rfl) rfl rfl rfl, ?_⟩
  decide +kernel

theorem flatMap_range_single {α : Type} {f : Nat → List α} {n i : Nat} (hi : i < n) (h : ∀ j, j ≠ i → f j = []) :
    (List.range n).flatMap f = f i := by
  induction n with
  | zero => omega
  | succ n ih =>
    rw [List.range_succ, List.flatMap_append]
    by_cases h1 : i < n
    · rw [ih h1]; simp [h n (by omega)]
    · have : i = n := by omega
      subst this
      have : (List.range i).flatMap f = [] := by
        rw [List.flatMap_eq_nil_iff]
        intro j hj; exact h j (by have := List.mem_range.1 hj; omega)
      rw [this]; simp

/-- Clearing the links of a node that does not exist creates it in the condensed log. -/
theorem phantom_node :
    condense (2 ^ 45) asStored (encodeAll [.clearLinksAtLevel 5 0]) = .ok (encodeAll [.replaceLinks 5 0 []]) ∧
    (replay (2 ^ 45) false fresh (encodeAll [.clearLinksAtLevel 5 0])).1.view.node 5 = none ∧
    (replay (2 ^ 45) false fresh (encodeAll [.replaceLinks 5 0 []])).1.view.node 5 = some ⟨5, 0, [[]]⟩ := by
  refine ⟨?_, by decide +kernel⟩
  obtain ⟨st, ha, hn, he, ht⟩ : ∃ st, applyAll (2 ^ 45) true fresh [.clearLinksAtLevel 5 0] = .ok st ∧
      st.nodes = ⟨25000, fun j => if j = 5 then some ⟨5, 0, [[]]⟩ else none⟩ ∧ st.epChanged = false ∧ st.tombs = [] :=
    ⟨_, rfl, rfl, rfl, rfl⟩
  have hrep : st.replaced 5 0 = true := by
    have h2 : applyAll (2 ^ 45) true fresh [.clearLinksAtLevel 5 0] = .ok st := ha
    cases h2; rfl
  unfold condense
  rw [replay_encode (by simp [LogOp.InRange]) ha]
  show Except.ok (condensed st st.tombs) = _
  unfold condensed
  rw [he, ht, hn]
  show Except.ok ((List.range 25000).flatMap (fun i => writeVertex st (if i = 5 then some ⟨5, 0, [[]]⟩ else none)) ++ [] ++ []) = _
  rw [flatMap_range_single (i := 5) (by decide) (fun j hj => by rw [if_neg hj]; rfl)]
  have : writeVertex st (if 5 = 5 then some ⟨5, 0, [[]]⟩ else none) = writeLevels st 5 0 [[]] := rfl
  rw [this]
  simp only [writeLevels]
  rw [show (0 : Nat) % 2 ^ 16 = 0 from rfl, if_pos hrep]
  rfl

theorem condense_one_node (ts : List Nat) :
    ∃ st, applyAll (2 ^ 45) true fresh [.addLinks 1 0 ts, .addLink 1 0 8] = .ok st ∧
      condensed st (asStored st) = writeAddLinks 1 0 (ts ++ [8]) := by
  refine ⟨_, rfl, ?_⟩
  unfold condensed
  show (List.range 25000).flatMap (fun i => writeVertex _ (if i = 1 then some ⟨1, 0, [ts ++ [8]]⟩ else if i = 1 then _ else none)) ++
    [] ++ [] = _
  rw [flatMap_range_single (i := 1) (by decide) (fun j hj => by rw [if_neg hj, if_neg hj]; rfl)]
  show writeLevels _ 1 0 [ts ++ [8]] ++ [] ++ [] = _
  simp only [writeLevels]
  rw [List.append_nil, List.append_nil, List.append_nil]
  rfl

theorem wrapped_length_crashes {ts rest : List Nat} (h : ts = 8 :: 8 :: rest) (hl : ts.length = 65536) :
    (replay (2 ^ 45) false fresh (writeAddLinks 1 0 ts)).2.2 = some .panic := by
  have hb : ∃ r, writeAddLinks 1 0 ts =
      encodeAll [.addLinks 1 0 [], .resetIndex] ++
        (LogOp.addNode (2 ^ 51) 0).tag :: ((LogOp.addNode (2 ^ 51) 0).payload ++ r) := by
    refine ⟨[0, 0, 0, 0] ++ rest.flatMap (le 8), ?_⟩
    unfold writeAddLinks
    rw [hl, h]
    have e1 : le 2 65536 = le 2 0 := by decide
    rw [e1, List.flatMap_cons, List.flatMap_cons]
    generalize rest.flatMap (le 8) = r
    rfl
  obtain ⟨r, hb⟩ := hb
  rw [hb]
  obtain ⟨s2, h3, -⟩ := applyAll_view (maxLen := 2 ^ 45) (ops := [.addLinks 1 0 [], .resetIndex])
    (by simp [LogOp.Fits]) fresh
  have h4 : s2.nodes.len = 25000 := by cases h3; rfl
  have h5 : applyOp (2 ^ 45) false s2 (.addNode (2 ^ 51) 0) = .error .panic := by
    have hgrow : Grow.grow (2 ^ 45) s2.nodes (2 ^ 51) = .error .panic := by
      rw [C31.grow_fails_iff, h4]; decide
    simp only [applyOp, putNode, growTab, hgrow]
  have h6 := (readRecord_encode (2 ^ 45) false s2 (.addNode (2 ^ 51) 0) (by simp [LogOp.InRange]) r).2 _ h5
  unfold replay
  have hfu : (encodeAll [.addLinks 1 0 [], .resetIndex] ++
        (LogOp.addNode (2 ^ 51) 0).tag :: ((LogOp.addNode (2 ^ 51) 0).payload ++ r)).length + 1 =
      [LogOp.addLinks 1 0 [], .resetIndex].length + ((r.length + 23) + 1) := by
    have e2 : (encodeAll [.addLinks 1 0 [], .resetIndex]).length = 14 := by decide
    have e3 : (LogOp.addNode (2 ^ 51) 0).payload.length = 10 := by decide
    rw [List.length_append, List.length_cons, List.length_append, e2, e3]
    simp; omega
  rw [hfu, replayLoop_encode (by simp [LogOp.InRange]) h3]
  simp only [replayLoop]
  generalize readRecord (2 ^ 45) false (LogOp.addNode (2 ^ 51) 0).tag s2 ((LogOp.addNode (2 ^ 51) 0).payload ++ r) = z at h6
  obtain ⟨z1, z2⟩ := z
  dsimp only at h6
  subst h6
  rfl

/-- With 65536 links at one level the length in the condensed record wraps to 0; the links are then read as records, and the
replay crashes.  (65536 links to node 8.) -/
theorem too_many_links {ts : List Nat} (hts : ts = List.replicate 65535 8) :
    (∀ op ∈ [LogOp.addLinks 1 0 ts, .addLink 1 0 8], op.InRange ∧ op.Fits (2 ^ 45)) ∧
    (∃ s n, replay (2 ^ 45) false fresh (encodeAll [.addLinks 1 0 ts, .addLink 1 0 8]) = (s, n, none)) ∧
    ∃ bs, condense (2 ^ 45) asStored (encodeAll [.addLinks 1 0 ts, .addLink 1 0 8]) = .ok bs ∧
      (replay (2 ^ 45) false fresh bs).2.2 = some .panic := by
  have hlen : ts.length = 65535 := by rw [hts, List.length_replicate]
  have hall : ∀ t ∈ ts, t = 8 := fun t ht => by rw [hts] at ht; exact List.eq_of_mem_replicate ht
  clear hts
  have h8 : ∃ rest, ts ++ [8] = 8 :: 8 :: rest := by
    match ts, hlen, hall with
    | a :: b :: r, _, hall =>
      have h1 := hall a (by simp)
      have h2 := hall b (by simp)
      subst h1; subst h2
      exact ⟨r ++ [8], rfl⟩
  have hrf : ∀ op ∈ [LogOp.addLinks 1 0 ts, .addLink 1 0 8], op.InRange ∧ op.Fits (2 ^ 45) := by
    intro op ho
    simp only [List.mem_cons, List.not_mem_nil, or_false] at ho
    rcases ho with rfl | rfl
    · refine ⟨⟨by decide, by decide, by rw [hlen]; decide, fun t ht => by rw [hall t ht]; decide⟩, by decide, by decide, by decide⟩
    · exact ⟨⟨by decide, by decide, by decide⟩, by decide, by decide, by decide⟩
  refine ⟨hrf, ?_, ?_⟩
  · obtain ⟨s, n, h, -⟩ := C25.replay_from_scratch_partial (2 ^ 45) _ (fun op ho => (hrf op ho).1) (fun op ho => (hrf op ho).2)
    exact ⟨s, n, h⟩
  · obtain ⟨st, h1, h2⟩ := condense_one_node ts
    refine ⟨condensed st (asStored st), ?_, ?_⟩
    · unfold condense
      rw [replay_encode (fun op ho => (hrf op ho).1) h1]
    · rw [h2]
      obtain ⟨rest, h8⟩ := h8
      exact wrapped_length_crashes h8 (by rw [List.length_append, hlen]; rfl)

/-! ## the hypotheses are met -/

/-- the sample log of C25 is condensable as a first log -/
example : C25.NoPQ C25.sample ∧
    (∀ done id l rest, C25.sample = done ++ .clearLinksAtLevel id l :: rest → (semAll View.empty done).node id ≠ none) ∧
    ∀ i l, linkLens C25.sample i l ≤ 65535 := by
  refine ⟨by simp [C25.NoPQ, C25.sample], ?_, ?_⟩
  · intro done id l rest h
    have h1 : (C25.sample.drop done.length).head? = some (.clearLinksAtLevel id l) := by rw [h]; simp
    have h2 : done = C25.sample.take done.length := by rw [h]; simp
    have h3 : done.length < 15 := by
      have : C25.sample.length = done.length + (rest.length + 1) := by rw [h]; simp
      have h15 : C25.sample.length = 15 := rfl
      omega
    rw [h2]
    generalize done.length = n at h1 h3 ⊢
    have : ∀ n ∈ List.range 15, ∀ id l, (C25.sample.drop n).head? = some (.clearLinksAtLevel id l) → n = 11 ∧ id = 30000 := by
      intro n hn id l hh
      simp only [List.mem_range] at hn
      have hc : n = 0 ∨ n = 1 ∨ n = 2 ∨ n = 3 ∨ n = 4 ∨ n = 5 ∨ n = 6 ∨ n = 7 ∨ n = 8 ∨ n = 9 ∨ n = 10 ∨ n = 11 ∨ n = 12 ∨
        n = 13 ∨ n = 14 := by omega
      rcases hc with rfl | rfl | rfl | rfl | rfl | rfl | rfl | rfl | rfl | rfl | rfl | rfl | rfl | rfl | rfl <;>
        simp [C25.sample] at hh ⊢ <;> omega
    obtain ⟨rfl, rfl⟩ := this n (by simpa using h3) id l h1
    decide
  · intro i l
    simp only [linkLens, C25.sample, List.foldl, LogOp.linkLens]
    repeat' split
    all_goals simp

/-- a second log on top of the sample: new node, links added and replaced at old and new nodes, new search start -/
def second : List LogOp :=
  [.addNode 7 2, .addLinks 7 0 [3, 4], .addLink 3 0 7, .replaceLinks 30000 1 [7], .setEntryPoint 7 2, .addTombstone 30000,
   .addNode 8 0, .addLink 8 0 7, .deleteNode 8]

theorem second_condensable : Condensable (semAll View.empty C25.sample) second := by
  have h8 : (semAll View.empty C25.sample).node 8 = none := by decide
  intro done op rest h
  have hm : op ∈ second := by rw [h]; simp
  simp only [second, List.mem_cons, List.not_mem_nil, or_false] at hm
  rcases hm with rfl | rfl | rfl | rfl | rfl | rfl | rfl | rfl | rfl
  all_goals first
    | trivial
    | exact .inl (by decide)
    | exact .inr (fun v hv => by rw [h8] at hv; cases hv)
    | exact h8

/-- and condensing it merges both records of node 3 and drops node 8 -/
example : (semAll (semAll View.empty C25.sample) second).node 3 = some ⟨3, 1, [[4, 30000, 7], [4, 4]]⟩ ∧
    (semAll (semAll View.empty C25.sample) second).node 8 = none ∧
    (semAll (semAll View.empty C25.sample) second).node 30000 = some ⟨30000, 2, [[], [7], []]⟩ := by decide

end Fave.C27
