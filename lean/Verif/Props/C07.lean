import Verif.Lemmas.Visited
/-!
# C07 — the visited set behaves like a set across reuse
-/
namespace Fave.C07

/-- what a search does with a visited list -/
inductive Op where
  | visit (node : Nat)
  | reset

/-- the code -/
def step (l : ListSet) : Op → ListSet
  | .visit n => l.visit n
  | .reset => l.reset

/-- specification: the ids marked since the last reset -/
def marked : List Nat → List Op → List Nat
  | s, [] => s
  | s, .visit n :: ops => marked (n :: s) ops
  | _, .reset :: ops => marked [] ops

theorem refines_aux (ops : List Op) (l : ListSet) (s : List Nat) (hw : l.WF)
    (hs : ∀ k, l.visited k = decide (k ∈ s)) :
    (ops.foldl step l).WF ∧ ∀ k, (ops.foldl step l).visited k = decide (k ∈ marked s ops) := by
  induction ops generalizing l s with
  | nil => exact ⟨hw, hs⟩
  | cons op ops ih =>
    cases op with
    | visit n =>
      apply ih _ (n :: s) (ListSet.wf_visit l hw n)
      intro k
      show (l.visit n).visited k = _
      rw [ListSet.visited_visit l hw, hs]
      simp
    | reset =>
      apply ih _ [] (ListSet.wf_reset l hw)
      intro k
      show l.reset.visited k = _
      rw [ListSet.visited_reset l hw]
      simp

/-- After any sequence of marking and resetting (any number of resets, any growth), an id is reported
visited exactly if it was marked since the last reset. -/
theorem visited_iff_marked_since_reset (size : Nat) (ops : List Op) (node : Nat) :
    (ops.foldl step (ListSet.new size)).visited node = true ↔ node ∈ marked [] ops := by
  have h := (refines_aux ops (ListSet.new size) [] (ListSet.wf_new size)
    (fun k => by simp [ListSet.visited_new])).2 node
  rw [h]; simp

/-! ## the pool -/

/-- what the index does with a pool: lists that were taken are kept in `taken` (by position) -/
inductive POp where
  | borrow
  | use (i : Nat) (op : Op)
  | giveBack (i : Nat)
  | destroy

structure PState where
  pool : Pool
  taken : List ListSet

/-- one pool operation; `use`/`giveBack` with an unknown position do nothing -/
def pstep (s : PState) : POp → PState
  | .borrow => let r := s.pool.borrow; ⟨r.2, s.taken ++ [r.1]⟩
  | .use i op =>
    match s.taken[i]? with
    | some l => ⟨s.pool, s.taken.set i (step l op)⟩
    | none => s
  | .giveBack i =>
    match s.taken[i]? with
    | some l => ⟨s.pool.giveBack l, s.taken.eraseIdx i⟩
    | none => s
  | .destroy => ⟨s.pool.destroy, s.taken⟩

def PInv (s : PState) : Prop :=
  (∀ l ∈ s.pool.listSets, l.WF ∧ ∀ k, l.visited k = false) ∧ ∀ l ∈ s.taken, l.WF

theorem borrow_clean (p : Pool) (h : ∀ l ∈ p.listSets, l.WF ∧ ∀ k, l.visited k = false) :
    p.borrow.1.WF ∧ (∀ k, p.borrow.1.visited k = false) ∧
    ∀ l ∈ p.borrow.2.listSets, l.WF ∧ ∀ k, l.visited k = false := by
  unfold Pool.borrow
  split
  · rename_i l hl
    have hmem := List.mem_of_getLast? hl
    exact ⟨(h l hmem).1, (h l hmem).2, fun x hx => h x (List.dropLast_subset _ hx)⟩
  · exact ⟨ListSet.wf_new _, ListSet.visited_new _, h⟩

theorem pinv_step (s : PState) (op : POp) (h : PInv s) : PInv (pstep s op) := by
  obtain ⟨h1, h2⟩ := h
  cases op with
  | borrow =>
    obtain ⟨a, _, c⟩ := borrow_clean s.pool h1
    refine ⟨c, ?_⟩
    intro l hl
    simp only [pstep, List.mem_append, List.mem_singleton] at hl
    rcases hl with hl | rfl
    · exact h2 l hl
    · exact a
  | use i op =>
    simp only [pstep]
    split
    · rename_i l hl
      refine ⟨h1, ?_⟩
      intro x hx
      rcases List.mem_or_eq_of_mem_set hx with hx | rfl
      · exact h2 x hx
      · have := h2 l (List.mem_of_getElem? hl)
        cases op with
        | visit n => exact ListSet.wf_visit l this n
        | reset => exact ListSet.wf_reset l this
    · exact ⟨h1, h2⟩
  | giveBack i =>
    simp only [pstep]
    split
    · rename_i l hl
      have hw := h2 l (List.mem_of_getElem? hl)
      refine ⟨?_, fun x hx => h2 x (List.mem_of_mem_eraseIdx hx)⟩
      intro x hx
      simp only [Pool.giveBack] at hx
      split at hx
      · exact h1 x hx
      · simp only [List.mem_append, List.mem_singleton] at hx
        rcases hx with hx | rfl
        · exact h1 x hx
        · exact ⟨ListSet.wf_reset l hw, ListSet.visited_reset l hw⟩
    · exact ⟨h1, h2⟩
  | destroy =>
    refine ⟨?_, h2⟩
    intro l hl
    simp [pstep, Pool.destroy] at hl

/-- However the pool was used before (lists borrowed, marked, reset, returned dirty, grown, the pool
destroyed), the next borrowed list reports nothing as visited. -/
theorem borrowed_list_is_clean (n size : Nat) (ops : List POp) (node : Nat) :
    ((ops.foldl pstep ⟨Pool.new n size, []⟩).pool.borrow.1).visited node = false := by
  have hinv : PInv (ops.foldl pstep ⟨Pool.new n size, []⟩) := by
    have h0 : PInv ⟨Pool.new n size, []⟩ := by
      refine ⟨?_, by simp⟩
      intro l hl
      have := List.eq_of_mem_replicate hl
      subst this
      exact ⟨ListSet.wf_new _, ListSet.visited_new _⟩
    clear node
    generalize (⟨Pool.new n size, []⟩ : PState) = s at h0
    induction ops generalizing s with
    | nil => exact h0
    | cons op ops ih => exact ih _ (pinv_step s op h0)
  exact (borrow_clean _ hinv.1).2.1 node

/-! Non-vacuity: 300 resets (past the wrap-around) with a mark in between, and growth far beyond the size. -/
example : marked [] ([.visit 7] ++ List.replicate 300 .reset ++ [.visit 5, .visit 9000]) = [9000, 5] := by decide +kernel
example : (ListSet.new 2).reset.marker = 2 ∧ ((List.replicate 255 Op.reset).foldl step (ListSet.new 2)).marker = 1 := by
  decide +kernel
example : ((ListSet.new 2).visit 3).visited 3 = true ∧ ¬ 3 < (ListSet.new 2).len :=
  ⟨(visited_iff_marked_since_reset 2 [.visit 3] 3).mpr (by decide), by decide⟩
example : (pstep ⟨Pool.new 1 2, []⟩ .borrow).pool.listSets = [] ∧
    ([POp.borrow, .use 0 (.visit 1), .giveBack 0].foldl pstep ⟨Pool.new 1 2, []⟩).pool.listSets.length = 1 := by
  decide +kernel
/-- a list that comes back is kept if it has grown by no more than a tenth -/
example : [9, 10, 11, 12].map (fun n => ((Pool.new 0 10).giveBack (ListSet.new n)).listSets.length) = [0, 1, 1, 0] := by decide +kernel

end Fave.C07
