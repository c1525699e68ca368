import Verif.Lemmas.Decode
/-!
# C25 — Commit-log records round trip

Full statement: replaying a commit log reproduces exactly the sequence of operations that was written, for every operation with
ids below 2^64 and levels below 2^16, and consumes exactly the bytes written.

The encoding itself loses nothing (`encoding_injective`, all arguments in range).  The replay computes the meaning of the
operations (`replay_reproduces_partial`) for all logs the reader can hold in memory: level 65535 and ids that need a
table longer than the runtime allows make it crash (`last_level_crashes`, `huge_id_crashes`).  The number of bytes reported
is right except for quantisation records, for which only ten bytes are counted (`quantisation_miscounted`).
-/
namespace Fave.C25
open Fave.Log

/-- Two different logs never have the same bytes. -/
theorem encoding_injective {a b : List LogOp} (ha : ∀ op ∈ a, op.InRange) (hb : ∀ op ∈ b, op.InRange)
    (h : encodeAll a = encodeAll b) : a = b := encodeAll_injective ha hb h

/-- does not contain quantisation data -/
def NoPQ (ops : List LogOp) : Prop := ∀ op ∈ ops, ∀ d, op ≠ .addPQ d

theorem counted_eq {ops : List LogOp} (h : NoPQ ops) : counted ops = (encodeAll ops).length := by
  induction ops with
  | nil => rfl
  | cons op ops ih =>
    have h1 : op.counted = op.payload.length := by
      cases op with
      | addPQ d => exact absurd rfl (h (.addPQ d) (by simp) d)
      | _ => rfl
    rw [encodeAll_cons]
    have : counted (op :: ops) = 1 + op.counted + counted ops := by simp [counted]
    rw [this, ih fun o ho => h o (by simp [ho]), h1]
    simp; omega

/-- Replaying the bytes of a log, on top of any state, succeeds and gives the meaning of its operations in their order; the
reported length is the length of the log (if it has no quantisation records). -/
theorem replay_reproduces_partial (maxLen : Nat) (st : LogState) (ops : List LogOp) (hr : ∀ op ∈ ops, op.InRange)
    (hf : ∀ op ∈ ops, op.Fits maxLen) :
    ∃ st' n, replay maxLen false st (encodeAll ops) = (st', n, none) ∧ st'.view = semAll st.view ops ∧
      (NoPQ ops → n = (encodeAll ops).length) := by
  obtain ⟨st', h1, h2⟩ := applyAll_view hf st
  exact ⟨st', counted ops, replay_encode hr h1, h2, counted_eq⟩

/-- From scratch: the log builds the index its operations describe. -/
theorem replay_from_scratch_partial (maxLen : Nat) (ops : List LogOp) (hr : ∀ op ∈ ops, op.InRange)
    (hf : ∀ op ∈ ops, op.Fits maxLen) :
    ∃ st' n, replay maxLen false fresh (encodeAll ops) = (st', n, none) ∧ st'.view = semAll View.empty ops := by
  obtain ⟨st', n, h1, h2, -⟩ := replay_reproduces_partial maxLen fresh ops hr hf
  rw [fresh_view] at h2
  exact ⟨st', n, h1, h2⟩

/-- Logs can be replayed piecewise, file after file. -/
theorem replay_piecewise_partial (maxLen : Nat) (st : LogState) (a b : List LogOp) (hr : ∀ op ∈ a ++ b, op.InRange)
    (hf : ∀ op ∈ a ++ b, op.Fits maxLen) :
    ∃ s1 n1, replay maxLen false st (encodeAll a) = (s1, n1, none) ∧
      ∃ s2 n2, replay maxLen false s1 (encodeAll b) = (s2, n2, none) ∧
        replay maxLen false st (encodeAll (a ++ b)) = (s2, n1 + n2, none) := by
  obtain ⟨s1, h1, -⟩ := applyAll_view (fun op ho => hf op (List.mem_append_left _ ho)) st
  obtain ⟨s2, h2, -⟩ := applyAll_view (fun op ho => hf op (List.mem_append_right _ ho)) s1
  have h3 : applyAll maxLen false st (a ++ b) = .ok s2 := by rw [applyAll_append h1, h2]
  refine ⟨s1, _, replay_encode (fun op ho => hr op (List.mem_append_left _ ho)) h1, s2, _,
    replay_encode (fun op ho => hr op (List.mem_append_right _ ho)) h2, ?_⟩
  rw [replay_encode hr h3]
  simp [counted]

/-- A link at the last level a record can express crashes the replay. -/
theorem last_level_crashes :
    (LogOp.addLink 7 65535 8).InRange ∧
    (replay (2 ^ 45) false fresh (encodeAll [.addLink 7 65535 8])).2.2 = some .panic := by
  refine ⟨by simp [LogOp.InRange], ?_⟩
  decide +kernel

/-- An id for which no table can be allocated crashes the replay. -/
theorem huge_id_crashes :
    (LogOp.addNode (2 ^ 60) 0).InRange ∧
    (replay (2 ^ 45) false fresh (encodeAll [.addNode (2 ^ 60) 0])).2.2 = some .panic := by
  refine ⟨by simp [LogOp.InRange], ?_⟩
  decide +kernel

/-- Ids from 2^63 on become negative in the comparison that is to protect the table: clearing the links of such an id or deleting it
crashes the replay, on top of every state, instead of being passed over like other ids outside the table. -/
theorem negative_id_crashes (maxLen : Nat) (keep : Bool) (st : LogState) (id : Nat) (h1 : 2 ^ 63 ≤ id) (h2 : id < 2 ^ 64)
    (hlen : st.nodes.len ≤ 2 ^ 63) (level : Nat) (hl : level < 2 ^ 16) :
    ∀ op ∈ [LogOp.clearLinks id, LogOp.clearLinksAtLevel id level, LogOp.deleteNode id], op.InRange ∧
      (replay maxLen keep st (encodeAll [op])).2.2 = some .panic := by
  have hb : outOfBounds id st.nodes.len = false := by
    unfold Log.outOfBounds; rw [decide_eq_false (by omega)]; rfl
  have hp : st.nodes.len ≤ id := by omega
  have hid : ∀ r, readNum 8 (le 8 id ++ r) = .ok (id, r) := readNum_le (by omega)
  have hlv : ∀ r, readNum 2 (le 2 level ++ r) = .ok (level, r) := readNum_le (by omega)
  intro op hop
  simp only [List.mem_cons, List.not_mem_nil, or_false] at hop
  rcases hop with rfl | rfl | rfl
  · refine ⟨by simpa [LogOp.InRange] using h2, ?_⟩
    have hid := hid []
    simp only [List.append_nil] at hid
    simp [replay, encodeAll, LogOp.encode, LogOp.payload, LogOp.tag, replayLoop, readRecord, readClearLinks, clearNode, hid, hb, hp]
  · refine ⟨by simpa [LogOp.InRange] using ⟨h2, hl⟩, ?_⟩
    have hlv := hlv []
    simp only [List.append_nil] at hlv
    simp [replay, encodeAll, LogOp.encode, LogOp.payload, LogOp.tag, replayLoop, readRecord, readClearLinksAtLevel, clearLevel, hid, hlv, hb, hp]
  · refine ⟨by simpa [LogOp.InRange] using h2, ?_⟩
    have hid := hid []
    simp only [List.append_nil] at hid
    simp [replay, encodeAll, LogOp.encode, LogOp.payload, LogOp.tag, replayLoop, readRecord, readDeleteNode, dropNode, hid, hb, hp]

/-- the empty state meets the hypotheses, and the largest id that is not affected is passed over -/
example : fresh.nodes.len ≤ 2 ^ 63 ∧ (replay (2 ^ 45) false fresh (encodeAll [.deleteNode (2 ^ 64 - 1)])).2.2 = some .panic ∧
    (replay (2 ^ 45) false fresh (encodeAll [.deleteNode (2 ^ 63 - 1)])).2.2 = none :=
  ⟨by decide +kernel, (negative_id_crashes (2 ^ 45) false fresh (2 ^ 64 - 1) (by omega) (by omega) (by decide +kernel) 0 (by omega) _ (by simp)).2,
    by decide +kernel⟩

/-- quantisation data with one tile encoder -/
def pq1 : PQData := { dims := 4, enc := 0, ks := 2, m := 1, encoders := [.tile [1, 2, 3, 4, 5, 6] 7 0] }

/-- A quantisation record is restored but its length is reported as ten bytes although it has sixty-one. -/
theorem quantisation_miscounted :
    (encodeAll [.addPQ pq1]).length = 61 ∧
    (replay (2 ^ 45) false fresh (encodeAll [.addPQ pq1])).2 = (10, none) ∧
    (replay (2 ^ 45) false fresh (encodeAll [.addPQ pq1])).1.pq = pq1 := by
  decide +kernel

/-- a log that uses every kind of operation except quantisation -/
def sample : List LogOp :=
  [.addNode 3 1, .setEntryPoint 3 1, .addNode 4 0, .addLink 4 0 3, .replaceLinks 3 1 [4, 4], .addLinks 3 0 [4, 30000],
   .addTombstone 4, .addTombstone 9, .removeTombstone 9, .addNode 30000 2, .addLink 30000 1 3, .clearLinksAtLevel 30000 1,
   .clearLinks 4, .addNode 5 0, .deleteNode 5]

/-- non-vacuity: the sample meets the hypotheses, its meaning is not trivial, and a reset is covered as well -/
example : (∀ op ∈ sample ++ [LogOp.resetIndex], op.InRange) ∧ (∀ op ∈ sample ++ [LogOp.resetIndex], op.Fits (2 ^ 45)) := by
  simp [sample, LogOp.InRange, LogOp.Fits]

example : (semAll View.empty sample).node 3 = some ⟨3, 1, [[4, 30000], [4, 4]]⟩ ∧
    (semAll View.empty sample).node 30000 = some ⟨30000, 2, [[], [], []]⟩ ∧
    (semAll View.empty sample).node 4 = some ⟨4, 0, [[]]⟩ ∧ (semAll View.empty sample).node 5 = none ∧
    (semAll View.empty sample).ep = 3 ∧ (semAll View.empty sample).tomb 4 = true ∧
    (semAll View.empty sample).tomb 9 = false := by decide

/-- and the reader itself, run on the bytes, agrees -/
example : (replay (2 ^ 45) false fresh (encodeAll sample)).2 = ((encodeAll sample).length, none) ∧
    (replay (2 ^ 45) false fresh (encodeAll sample)).1.nodes.len = 50000 ∧
    (replay (2 ^ 45) false fresh (encodeAll sample)).1.view.node 3 = some ⟨3, 1, [[4, 30000], [4, 4]]⟩ := by decide +kernel

example : PQOk pq1 := by
  refine ⟨by decide, by decide, by decide, by decide, by decide, by decide, fun i e h => ?_⟩
  match i with
  | 0 => cases h; exact ⟨rfl, rfl, by decide, by decide, by decide⟩
  | i + 1 => cases h

end Fave.C25
