import Verif.Lemmas.MemWalk
/-!
# C51 — link lists share no memory
-/
namespace Fave.C51
open Mem

/-- **In memory, link lists behave like plain lists.**  Any sequence of the operations of the code — in particular any interleaving of operations
of additions and clean-ups running at the same time, since each runs under the lock of its vertex — leaves every link list exactly as the same
operations on plain lists would: no write to one list shows in another, whatever the floating point decisions, capacities and spare room; and the
operations panic exactly where they do on plain lists. -/
theorem lists_behave (F : Floats) (ops : List Op) : (runs F St.empty ops).map St.lists = Lists.runs (fun _ => none) ops := by
  suffices h : ∀ (ops : List Op) (s : St), Disjoint s → (runs F s ops).map St.lists = s.lists.runs ops by
    have := h ops St.empty empty_disjoint
    rw [this]
    rfl
  intro ops
  induction ops with
  | nil => intro s _; rfl
  | cons o os ih =>
    intro s hd
    have h := run_lists F s hd o
    unfold runs Lists.runs
    rw [← h.1]
    cases he : run F s o with
    | none => rfl
    | some s' => exact ih s' (h.2 s' he)

/-- …in particular two link lists have no cell in common. -/
theorem no_common_cell (F : Floats) (ops : List Op) (s : St) (he : runs F St.empty ops = some s) (i j l m : Nat) (v w : Vert) (a b : Slice)
    (hv : s.verts i = some v) (hw : s.verts j = some w) (ha : v.conns[l]? = some a) (hb : w.conns[m]? = some b) (hne : ¬ (i = j ∧ l = m)) :
    a.arr ≠ b.arr ∨ s.heap.cells a.arr = [] := by
  have hd : Disjoint s := by
    have : ∀ (ops : List Op) (t : St), Disjoint t → runs F t ops = some s → Disjoint s := by
      intro ops
      induction ops with
      | nil => intro t ht he; cases he; exact ht
      | cons o os ih =>
        intro t ht he
        unfold runs at he
        cases hr : run F t o with
        | none => rw [hr] at he; cases he
        | some t' => rw [hr] at he; exact ih t' ((run_lists F t ht o).2 t' hr) he
    exact this ops St.empty empty_disjoint he
  by_cases h : a.arr = b.arr
  · exact .inr (hd.sep i j v w l m a b hv hw ha hb h hne)
  · exact .inl h

/-- **An addition goes through exactly the links it has chosen**, although the list it goes through may be the very memory of the links it has set
(`setConnectionsAtLevel` keeps the slice it is given) and other additions change these links meanwhile.  Needed of the floating point decision:
an array is only given up for a shorter list (`1 - n/c > 0.33` implies `n < c`). -/
theorem loop_goes_through_chosen (F : Floats) (hF : ∀ n c, F.shrink n c = true → n < c) (M : Nat) (s : St) (made : Nat → Option Nat)
    (done : List (Nat × Nat)) (h : Adds F M s made done) (w : Slice × List Nat) (hw : w ∈ s.walks) : s.heap.read w.1 = w.2 := by
  have hx := adds_walk hF h
  unfold Heap.read
  rw [hx.cells w hw, (hx.bound w hw).2, List.take_length]

/-- the decision of the code, in exact arithmetic, is such -/
theorem exact_shrinks (n c : Nat) (h : exact.shrink n c = true) : n < c := by
  have := of_decide_eq_true h
  omega

/-- **A clean-up at the same time disturbs the loop**: vertex 7 has chosen 1, 2, 3 and is going through them; the clean-up cuts its links and sets
4, 5, 6, which fit into the same memory — the addition goes on with 4, 5, 6.  (`reassignNeighbor` holds no lock that additions take,
delete.go:304-396.) -/
theorem clean_up_disturbs_loop :
    ∃ s s', runs exact St.empty [.create 7 0 (limit 4), .set 7 0 [1, 2, 3]] = some s ∧
      runs exact s [.clear 7, .set 7 0 [4, 5, 6]] = some s' ∧
      ∃ w ∈ s.walks, w ∈ s'.walks ∧ s.heap.read w.1 = [1, 2, 3] ∧ s'.heap.read w.1 = [4, 5, 6] :=
  ⟨_, _, rfl, rfl, (⟨2, 3⟩, [1, 2, 3]), by decide +kernel, by decide +kernel, by decide +kernel, by decide +kernel⟩

/-! ### Cases -/

/-- two vertices, links set, links made, a full list chosen anew, a level added -/
def ops5 : List Op :=
  [.create 0 0 (limit 2), .create 1 1 (limit 2), .set 1 0 [0], .connect 0 0 1 4 id, .load 2 0 [[0, 1]] (fun _ => 3), .connect 1 0 2 4 id,
   .connect 0 0 2 4 id, .connect 0 0 3 4 id, .connect 0 0 4 4 id, .connect 0 0 5 4 (fun l => l.take 2 ++ [5]), .connect 2 1 9 2 id]

example : ((runs exact St.empty ops5).map (fun s => [s.links 0 0, s.links 1 0, s.links 1 1, s.links 2 0, s.links 2 1])) =
    some [some [1, 2, 5], some [0, 2], some [], some [0, 1], some [9]] := by decide +kernel

/-- additions meeting the hypotheses: vertex 1 chooses 0 (its list is the memory gone through); meanwhile vertex 2 connects to it, which moves the
links of vertex 1 away from the list gone through -/
example : ∃ (s : St) (made : Nat → Option Nat) (done : List (Nat × Nat)), Adds exact 2 s made done ∧
    s.walks = [(⟨3, 1⟩, [0])] ∧ s.links 1 0 = some [0, 2] ∧ s.heap.read ⟨3, 1⟩ = [0] := by
  refine ⟨_, _, _, .connect 1 0 2 (fun _ => []) (.set 1 0 0 [0] (.create 1 0 (.create 0 0 .empty rfl rfl) rfl rfl) rfl (Nat.le_refl _)
    (by simp) (by decide) rfl) (by intro; exact Nat.zero_le _) rfl, rfl, ?_, ?_⟩
  · decide +kernel
  · decide +kernel

/-- the floats of the code in exact arithmetic: lists grow by quarters of the limit and shrink when more than a third is unused -/
example : [1, 3, 4, 7, 8, 9, 11, 12, 15, 16].map (fun n => exact.target n 16) = [4, 4, 8, 8, 12, 12, 12, 16, 16, 16] ∧
    exact.shrink 66 100 = true ∧ exact.shrink 67 100 = false ∧ exact.shrink 0 0 = false := by decide

end Fave.C51
