import Verif.Props.C25
/-!
# C26 — A torn commit log replays to the last complete operation

Full statement: a commit log cut at any byte replays to the state of the complete operations before the cut, and the number of
their bytes is reported as the valid length.

**False** in two cases: if the cut falls inside a change of the search start, the search start is reset to node 0
(`torn_entry_point_reset`); after a quantisation record the valid length is too small, so that truncating the file to it
destroys complete records (`truncation_destroys_records`).  `torn_log_partial` proves everything else: nodes, links and
deletion marks are always those of the complete operations; search start and level too, unless the cut operation is a change of
the search start; and truncating to the valid length leaves exactly the complete operations.
-/
namespace Fave.C26
open Fave.Log

/-- end of file, reported or silently recognised -/
def Tolerated (e : Option RErr) : Prop := e = none ∨ e = some .eof ∨ e = some .unexpected

/-- For every log, every cut and every state before it. -/
theorem torn_log_partial (maxLen : Nat) (st : LogState) (ops : List LogOp) (hr : ∀ op ∈ ops, op.InRange)
    (hf : ∀ op ∈ ops, op.Fits maxLen) (k : Nat) :
    ∃ complete rest st' valid err,
      ops = complete ++ rest ∧
      replay maxLen false st ((encodeAll ops).take k) = (st', valid, err) ∧ Tolerated err ∧
      -- the complete operations are exactly those whose bytes are all there
      (encodeAll complete).length ≤ k.min (encodeAll ops).length ∧
      (∀ op, rest.head? = some op → k < (encodeAll (complete ++ [op])).length) ∧
      -- an error is reported exactly if the cut falls inside an operation
      (err = none ↔ (encodeAll ops).take k = encodeAll complete) ∧
      -- nodes, links and deletion marks
      st'.view.node = (semAll st.view complete).node ∧ st'.view.tomb = (semAll st.view complete).tomb ∧
      -- everything, unless the operation that was cut is one of the two bad ones
      ((∀ op, rest.head? = some op → (∀ i l, op ≠ .setEntryPoint i l) ∧ ∀ d, op ≠ .addPQ d) →
        st'.view = semAll st.view complete) ∧
      -- the valid length
      (C25.NoPQ complete → valid = (encodeAll complete).length) := by
  obtain ⟨done, rest, hops, hcut⟩ := cut_cases ops k
  have hr1 : ∀ op ∈ done, op.InRange := fun o ho => hr o (by rw [hops]; exact List.mem_append_left _ ho)
  have hf1 : ∀ op ∈ done, op.Fits maxLen := fun o ho => hf o (by rw [hops]; exact List.mem_append_left _ ho)
  obtain ⟨s1, h1, h2⟩ := applyAll_view hf1 st
  have hlen : (encodeAll ops).length = (encodeAll done).length + (encodeAll rest).length := by
    rw [hops]; simp [encodeAll]
  rcases hcut with ⟨hc, hk⟩ | ⟨op, rest', p, s, hrest, hs, hp, hc, hk⟩
  · refine ⟨done, rest, s1, counted done, none, hops, by rw [hc]; exact replay_encode hr1 h1, .inl rfl, ?_, ?_,
      ⟨fun _ => hc, fun _ => rfl⟩, by rw [h2], by rw [h2], fun _ => h2, C25.counted_eq⟩
    · rcases hk with hk | hk
      · subst hk
        have hl : ((encodeAll ops).take k).length = (encodeAll done).length := by rw [hc]
        rw [List.length_take] at hl
        exact Nat.le_of_eq hl.symm
      · show _ ≤ min k _
        omega
    · intro op ho
      rcases hk with hk | hk
      · subst hk; cases ho
      · rw [hk]; simp [encodeAll, LogOp.encode]
  · subst hrest
    have hro := hr op (by rw [hops]; simp)
    have hfo := hf op (by rw [hops]; simp)
    obtain ⟨s2, h3, h4, -⟩ := applyOp_view s1 op hfo
    obtain ⟨e, h5, h6⟩ := readRecord_torn hro h3 hp hs
    have h7 := readRecord_torn_state h5
    have hrep : replay maxLen false st ((encodeAll ops).take k) =
        ((readRecord maxLen false op.tag s1 p).1, counted done, some e) := by
      have hl := length_le_encodeAll done
      unfold replay
      rw [hc]
      have hfu : (encodeAll done ++ op.tag :: p).length + 1 =
          done.length + (((encodeAll done).length - done.length + p.length + 1) + 1) := by simp; omega
      rw [hfu, replayLoop_encode hr1 h1, Nat.zero_add]
      simp only [replayLoop]
      clear h7
      generalize readRecord maxLen false op.tag s1 p = z at h5 ⊢
      obtain ⟨z1, z2⟩ := z
      dsimp only at h5
      subst h5
      rfl
    refine ⟨done, op :: rest', _, _, some e, hops, hrep, ?_, ?_, ?_, ⟨fun he => (by cases he), fun he => ?_⟩, ?_, ?_, ?_, C25.counted_eq⟩
    · rcases h6 with rfl | rfl
      · exact .inr (.inl rfl)
      · exact .inr (.inr rfl)
    · show _ ≤ min k _
      have : (encodeAll (op :: rest')).length = 1 + op.payload.length + (encodeAll rest').length := by
        rw [encodeAll_cons]; simp; omega
      omega
    · intro o ho
      cases ho
      have : p.length < op.payload.length := by
        rw [← hp, List.length_append]
        have := List.length_pos_iff.2 hs
        omega
      simp only [encodeAll, List.flatMap_append, List.length_append, List.flatMap_cons, List.flatMap_nil, List.append_nil,
        LogOp.encode, List.length_cons] at *
      omega
    · rw [hc] at he
      have := congrArg List.length he
      simp at this
    · rw [h7, ← h2]; cases op <;> rfl
    · rw [h7, ← h2]; cases op <;> rfl
    · intro hb
      have hb := hb op rfl
      rw [h7, ← h2]
      cases op with
      | setEntryPoint i l => exact absurd rfl (hb.1 i l)
      | addPQ d => exact absurd rfl (hb.2 d)
      | _ => rfl

/-- After the start-up code has cut the file to the valid length, the file contains exactly the complete operations, so that
the next replay is complete and agrees (no quantisation records). -/
theorem truncation_repairs_partial (maxLen : Nat) (st : LogState) (ops : List LogOp) (hr : ∀ op ∈ ops, op.InRange)
    (hf : ∀ op ∈ ops, op.Fits maxLen) (hq : C25.NoPQ ops) (k : Nat) :
    ∃ complete rest, ops = complete ++ rest ∧
      ((encodeAll ops).take k).take (replay maxLen false st ((encodeAll ops).take k)).2.1 = encodeAll complete ∧
      ∃ st', replay maxLen false st (encodeAll complete) = (st', (encodeAll complete).length, none) ∧
        st'.view = semAll st.view complete := by
  obtain ⟨c, rest, st', valid, err, h1, h2, -, h4, -, -, -, -, -, h9⟩ := torn_log_partial maxLen st ops hr hf k
  have hqc : C25.NoPQ c := fun o ho => hq o (by rw [h1]; exact List.mem_append_left _ ho)
  refine ⟨c, rest, h1, ?_, ?_⟩
  · rw [h2]
    show List.take valid _ = _
    rw [h9 hqc, List.take_take, h1]
    have h5 : (encodeAll c).length ≤ k := Nat.le_trans h4 (Nat.min_le_left _ _)
    rw [Nat.min_eq_left h5]
    simp [encodeAll]
  · obtain ⟨s2, n, a1, a2, a3⟩ := C25.replay_reproduces_partial maxLen st c
      (fun o ho => hr o (by rw [h1]; exact List.mem_append_left _ ho))
      (fun o ho => hf o (by rw [h1]; exact List.mem_append_left _ ho))
    exact ⟨s2, by rw [a1, a3 hqc], a2⟩

/-- The full statement fails: if the crash interrupts a change of the search start, the replay forgets the old search start
(node 3 at level 2) and starts searches at node 0, which does not exist. -/
theorem torn_entry_point_reset :
    let ops : List LogOp := [.addNode 3 2, .setEntryPoint 3 2, .addNode 4 0, .setEntryPoint 4 0]
    let st := (replay (2 ^ 45) false fresh ((encodeAll ops).take 40)).1
    (encodeAll ops).length = 44 ∧ (semAll View.empty (ops.take 3)).ep = 3 ∧ (semAll View.empty (ops.take 3)).level = 2 ∧
      st.view.ep = 0 ∧ st.view.level = 0 ∧ st.view.node 0 = none := by
  decide +kernel

/-- The full statement fails for the valid length: a log with quantisation data, a complete node and a torn record.  The start-up
code truncates the file to 21 bytes, inside the quantisation record, and so destroys the complete records. -/
theorem truncation_destroys_records :
    let ops : List LogOp := [.addPQ C25.pq1, .addNode 5 0, .addNode 6 0]
    let torn := (encodeAll ops).take 75
    let r := replay (2 ^ 45) false fresh torn
    r.1.view.node 5 = some ⟨5, 0, [[]]⟩ ∧ r.1.compressed = true ∧ r.2 = (21, some .unexpected) ∧
      (replay (2 ^ 45) false fresh (torn.take r.2.1)).1.view.node 5 = none ∧
      (replay (2 ^ 45) false fresh (torn.take r.2.1)).1.compressed = false := by
  decide +kernel

/-- non-vacuity: the sample log of C25 cut in the middle of a link record keeps the five operations before it -/
example : (replay (2 ^ 45) false fresh ((encodeAll C25.sample).take 70)).2 = (52, some .unexpected) ∧
    (encodeAll (C25.sample.take 4)).length = 52 ∧
    (replay (2 ^ 45) false fresh ((encodeAll C25.sample).take 70)).1.view.node 4 = some ⟨4, 0, [[3]]⟩ := by
  decide +kernel

/-- a cut directly after a type byte is an `EOF`, not an `ErrUnexpectedEOF` -/
example : (replay (2 ^ 45) false fresh ((encodeAll C25.sample).take 12)).2 = (11, some .eof) := by decide +kernel

end Fave.C26
