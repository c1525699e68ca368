import Verif.Model.Queue
/-! Helper lemmas about the heap. -/
namespace Fave.Queue
variable {α : Type}

/-- comparison is a strict weak order -/
structure SWO (less : α → α → Bool) : Prop where
  irrefl : ∀ a, less a a = false
  trans : ∀ a b c, less a b = true → less b c = true → less a c = true
  cotrans : ∀ a b c, less a c = true → less a b = true ∨ less b c = true

theorem SWO.le_trans {less : α → α → Bool} (h : SWO less) {a b c : α}
    (h1 : less b a = false) (h2 : less c b = false) : less c a = false := by
  cases hc : less c a with
  | false => rfl
  | true =>
    rcases h.cotrans c b a hc with h' | h'
    · rw [h2] at h'; cases h'
    · rw [h1] at h'; cases h'

theorem SWO.asymm {less : α → α → Bool} (h : SWO less) {a b : α}
    (h1 : less a b = true) : less b a = false := by
  cases hc : less b a with
  | false => rfl
  | true => have := h.trans _ _ _ h1 hc; rw [h.irrefl] at this; cases this

theorem swo_min {D : Type} [Dist D] [LawfulDist D] : SWO (lessMin (D := D)) where
  irrefl a := LawfulDist.irrefl a.dist
  trans a b c := LawfulDist.trans a.dist b.dist c.dist
  cotrans a b c := LawfulDist.cotrans a.dist b.dist c.dist

theorem swo_max {D : Type} [Dist D] [LawfulDist D] : SWO (lessMax (D := D)) where
  irrefl a := LawfulDist.irrefl a.dist
  trans _ _ _ h1 h2 := LawfulDist.trans _ _ _ h2 h1
  cotrans a b c h := (LawfulDist.cotrans c.dist b.dist a.dist h).symm

theorem swo_minIx {D : Type} [Dist D] [LawfulDist D] : SWO (lessMinIx (D := D)) where
  irrefl a := LawfulDist.irrefl a.dist
  trans a b c := LawfulDist.trans a.dist b.dist c.dist
  cotrans a b c := LawfulDist.cotrans a.dist b.dist c.dist

/-! ## permutations and sizes (any comparison) -/

theorem swapIfInBounds_perm (a : Array α) (i j : Nat) : (a.swapIfInBounds i j).toList.Perm a.toList := by
  unfold Array.swapIfInBounds
  split
  · split
    · exact (Array.swap_perm _ _).toList
    · rfl
  · rfl

theorem swapIfInBounds_size (a : Array α) (i j : Nat) : (a.swapIfInBounds i j).size = a.size := by
  simp

theorem heapify_perm (less : α → α → Bool) (f : Nat) (a : Array α) (i : Nat) :
    (heapify less f a i).toList.Perm a.toList := by
  induction f generalizing a i with
  | zero => exact List.Perm.refl _
  | succ f ih =>
    unfold heapify
    simp only
    split
    · exact (ih _ _).trans (swapIfInBounds_perm _ _ _)
    · exact List.Perm.refl _

theorem siftUp_perm (less : α → α → Bool) (f : Nat) (a : Array α) (i : Nat) :
    (siftUp less f a i).toList.Perm a.toList := by
  induction f generalizing a i with
  | zero => exact List.Perm.refl _
  | succ f ih =>
    unfold siftUp
    split
    · exact (ih _ _).trans (swapIfInBounds_perm _ _ _)
    · exact List.Perm.refl _

theorem insert_perm (less : α → α → Bool) (q : Array α) (x : α) :
    (insert less q x).toList.Perm (x :: q.toList) := by
  unfold insert
  refine (siftUp_perm _ _ _ _).trans ?_
  simp

theorem insert_size (less : α → α → Bool) (q : Array α) (x : α) :
    (insert less q x).size = q.size + 1 := by
  have := (insert_perm less q x).length_eq
  simpa using this

theorem setPop_perm (q : Array α) (out last : α) (h0 : q[0]? = some out) (hl : q.back? = some last) :
    q.toList.Perm (out :: ((q.setIfInBounds 0 last).pop).toList) := by
  obtain ⟨l⟩ := q
  cases l with
  | nil => simp at h0
  | cons x l =>
    simp at h0; subst h0
    rcases List.eq_nil_or_concat l with rfl | ⟨m, y, rfl⟩
    · simp
    · rw [List.concat_eq_append, List.back?_toArray, ← List.cons_append, List.getLast?_append] at hl
      simp at hl
      subst hl
      simp only [List.setIfInBounds_toArray, List.set_cons_zero, List.concat_eq_append,
        List.pop_toArray, List.perm_cons]
      rw [← List.cons_append, List.dropLast_concat]
      exact List.perm_append_comm (l₂ := [y])

theorem pop_perm (less : α → α → Bool) {q q' : Array α} {x : α} (h : pop less q = some (x, q')) :
    q.toList.Perm (x :: q'.toList) := by
  unfold pop at h
  split at h
  · rename_i out last h0 hl
    simp at h
    obtain ⟨rfl, rfl⟩ := h
    exact (setPop_perm q _ _ h0 hl).trans ((heapify_perm _ _ _ _).symm.cons _)
  · simp at h

theorem pop_size (less : α → α → Bool) {q q' : Array α} {x : α} (h : pop less q = some (x, q')) :
    q.size = q'.size + 1 := by
  have := (pop_perm less h).length_eq
  simpa using this

theorem pop_isSome (less : α → α → Bool) {q : Array α} (h : 0 < q.size) : ∃ x q', pop less q = some (x, q') := by
  unfold pop
  have h0 : q[0]? = some q[0] := by simp [h]
  have hb : ∃ y, q.back? = some y := ⟨q[q.size - 1], by rw [Array.back?_eq_getElem?]; simp⟩
  obtain ⟨y, hy⟩ := hb
  simp [h0, hy]

theorem pop_none (less : α → α → Bool) {q : Array α} (h : pop less q = none) : q.size = 0 := by
  rcases Nat.eq_zero_or_pos q.size with h0 | h0
  · exact h0
  · obtain ⟨x, q', h'⟩ := pop_isSome less h0
    rw [h] at h'; cases h'

theorem pop_fst (less : α → α → Bool) {q q' : Array α} {x : α} (h : pop less q = some (x, q')) :
    q[0]? = some x := by
  unfold pop at h
  split at h
  · rename_i out last h0 hl
    simp at h
    rw [h0, h.1]
  · simp at h

/-! ## heap order -/

/-- transposition of `i` and `j` -/
def tr (i j k : Nat) : Nat := if k = i then j else if k = j then i else k

theorem getElem?_swapIfInBounds (a : Array α) {i j : Nat} (hi : i < a.size) (hj : j < a.size) (k : Nat) :
    (a.swapIfInBounds i j)[k]? = a[tr i j k]? := by
  unfold Array.swapIfInBounds tr
  simp only [hi, hj, dite_true]
  rw [Array.getElem?_swap]
  grind

theorem lessAt_swap (less : α → α → Bool) (a : Array α) {i j : Nat} (hi : i < a.size) (hj : j < a.size)
    (x y : Nat) :
    lessAt less (a.swapIfInBounds i j) x y = lessAt less a (tr i j x) (tr i j y) := by
  unfold lessAt
  rw [getElem?_swapIfInBounds a hi hj, getElem?_swapIfInBounds a hi hj]

theorem lessAt_get (less : α → α → Bool) (a : Array α) {i j : Nat} (hi : i < a.size) (hj : j < a.size) :
    lessAt less a i j = less a[i] a[j] := by
  unfold lessAt; simp [hi, hj]

theorem lessAt_le_trans {less : α → α → Bool} (h : SWO less) (a : Array α) {x y z : Nat}
    (hy : y < a.size) (h1 : lessAt less a y x = false) (h2 : lessAt less a z y = false) :
    lessAt less a z x = false := by
  unfold lessAt at *
  have hy' : a[y]? = some a[y] := by simp [hy]
  rw [hy'] at h1 h2
  cases hx : a[x]? <;> cases hz : a[z]? <;> simp_all
  exact h.le_trans h1 h2

theorem lessAt_asymm {less : α → α → Bool} (h : SWO less) (a : Array α) {x y : Nat}
    (h1 : lessAt less a y x = true) : lessAt less a x y = false := by
  unfold lessAt at *
  cases hx : a[x]? <;> cases hz : a[y]? <;> simp_all
  exact h.asymm h1

/-- heap order -/
def Heap (less : α → α → Bool) (a : Array α) : Prop :=
  ∀ i, 0 < i → i < a.size → lessAt less a i ((i - 1) / 2) = false

theorem siftUp_heap {less : α → α → Bool} (h : SWO less) (f : Nat) (a : Array α) (i : Nat)
    (hi : i < a.size) (hf : i ≤ f)
    (h1 : ∀ j, 0 < j → j < a.size → j ≠ i → lessAt less a j ((j - 1) / 2) = false)
    (h2 : ∀ j, 0 < j → j < a.size → (j - 1) / 2 = i → 0 < i → lessAt less a j ((i - 1) / 2) = false) :
    Heap less (siftUp less f a i) := by
  induction f generalizing a i with
  | zero =>
    intro j hj hjs
    exact h1 j hj hjs (by omega)
  | succ f ih =>
    unfold siftUp
    split
    · rename_i hc
      simp only [ne_eq, decide_not, Bool.and_eq_true, Bool.not_eq_true', decide_eq_false_iff_not] at hc
      obtain ⟨hi0, hl⟩ := hc
      have hp : (i - 1) / 2 < a.size := by omega
      have key := lessAt_swap less a hi hp
      apply ih
      · simpa using hp
      · omega
      · intro j hj hjs hne
        simp only [Array.size_swapIfInBounds] at hjs
        rw [key]
        unfold tr
        by_cases hji : j = i
        · subst hji
          have : ¬ ((j - 1) / 2 = j) := by omega
          simp only [this, if_true, if_false]
          exact lessAt_asymm h a hl
        · simp only [hji, hne, if_false]
          split
          · rename_i hpj
            -- child of i: compare with parent of i
            exact h2 j hj hjs hpj (by omega)
          · split
            · rename_i hpj
              -- sibling of i
              have hs := h1 j hj hjs hji
              rw [hpj] at hs
              exact lessAt_le_trans h a hp (lessAt_asymm h a hl) hs
            · exact h1 j hj hjs hji
      · intro j hj hjs hpj hpos
        simp only [Array.size_swapIfInBounds] at hjs
        rw [key]
        unfold tr
        have e1 : ¬ (((i - 1) / 2 - 1) / 2 = i) := by omega
        have e2 : ¬ (((i - 1) / 2 - 1) / 2 = (i - 1) / 2) := by omega
        have e3 : ¬ (j = (i - 1) / 2) := by omega
        simp only [e1, e2, e3, if_false]
        have hup := h1 ((i - 1) / 2) hpos hp (by omega)
        split
        · exact hup
        · rename_i hji
          have hs := h1 j hj hjs hji
          rw [hpj] at hs
          exact lessAt_le_trans h a hp hup hs
    · rename_i hc
      intro j hj hjs
      by_cases hji : j = i
      · subst hji
        have : j ≠ 0 := by omega
        simpa [this] using hc
      · exact h1 j hj hjs hji

theorem lessAt_push (less : α → α → Bool) (a : Array α) (x : α) {i j : Nat} (hi : i < a.size)
    (hj : j < a.size) : lessAt less (a.push x) i j = lessAt less a i j := by
  unfold lessAt
  rw [Array.getElem?_push, Array.getElem?_push]
  have h1 : i ≠ a.size := by omega
  have h2 : j ≠ a.size := by omega
  simp [h1, h2]

theorem insert_heap {less : α → α → Bool} (h : SWO less) {q : Array α} (hq : Heap less q) (x : α) :
    Heap less (insert less q x) := by
  unfold insert
  apply siftUp_heap h
  · simp
  · exact Nat.le_refl _
  · intro j hj hjs hne
    simp at hjs
    rw [lessAt_push _ _ _ (by omega) (by omega)]
    exact hq j hj (by omega)
  · intro j hj hjs hp
    simp at hjs
    omega

theorem smallest_spec (less : α → α → Bool) (a : Array α) (i : Nat) :
    (smallest less a i = i ∨ smallest less a i = 2 * i + 1 ∨ smallest less a i = 2 * i + 2) := by
  unfold smallest; simp only; split <;> split <;> simp

theorem smallest_lt {less : α → α → Bool} {a : Array α} {i : Nat} (h : smallest less a i ≠ i) :
    smallest less a i < a.size := by
  unfold smallest at *; simp only [Bool.and_eq_true, decide_eq_true_eq] at *
  by_cases h1 : 2 * i + 1 < a.size ∧ lessAt less a (2 * i + 1) i = true
  · rw [if_pos h1] at h ⊢
    split <;> omega
  · rw [if_neg h1] at h ⊢
    split at h
    · rename_i h2; rw [if_pos h2]; omega
    · exact absurd rfl h

theorem smallest_less {less : α → α → Bool} (hs : SWO less) {a : Array α} {i : Nat} (hi : i < a.size) :
    lessAt less a i (smallest less a i) = false := by
  have hrefl : lessAt less a i i = false := by rw [lessAt_get _ _ hi hi]; exact hs.irrefl _
  unfold smallest; simp only [Bool.and_eq_true, decide_eq_true_eq]
  by_cases h1 : 2 * i + 1 < a.size ∧ lessAt less a (2 * i + 1) i = true
  · rw [if_pos h1]
    split
    · rename_i h2
      exact lessAt_le_trans hs a h1.1 (lessAt_asymm hs a h2.2) (lessAt_asymm hs a h1.2)
    · exact lessAt_asymm hs a h1.2
  · rw [if_neg h1]
    split
    · rename_i h2; exact lessAt_asymm hs a h2.2
    · exact hrefl

theorem smallest_child {less : α → α → Bool} (hs : SWO less) {a : Array α} {i j : Nat}
    (hj : 0 < j) (hjs : j < a.size) (hp : (j - 1) / 2 = i) :
    lessAt less a j (smallest less a i) = false := by
  have hrefl : lessAt less a j j = false := by rw [lessAt_get _ _ hjs hjs]; exact hs.irrefl _
  have hi : i < a.size := by omega
  have hj2 : j = 2 * i + 1 ∨ j = 2 * i + 2 := by omega
  unfold smallest; simp only [Bool.and_eq_true, decide_eq_true_eq]
  by_cases h1 : 2 * i + 1 < a.size ∧ lessAt less a (2 * i + 1) i = true
  · rw [if_pos h1]
    split
    · rename_i h2
      rcases hj2 with rfl | rfl
      · exact lessAt_asymm hs a h2.2
      · exact hrefl
    · rename_i h2
      rcases hj2 with rfl | rfl
      · exact hrefl
      · simpa [hjs] using h2
  · rw [if_neg h1]
    split
    · rename_i h2
      rcases hj2 with rfl | rfl
      · have h1' : lessAt less a (2 * i + 1) i = false := by simpa [hjs] using h1
        exact lessAt_le_trans hs a hi (lessAt_asymm hs a h2.2) h1'
      · exact hrefl
    · rename_i h2
      rcases hj2 with rfl | rfl
      · simpa [hjs] using h1
      · simpa [hjs] using h2

theorem heapify_heap {less : α → α → Bool} (h : SWO less) (f : Nat) (a : Array α) (i : Nat)
    (hf : a.size ≤ f + i)
    (h1 : ∀ j, 0 < j → j < a.size → (j - 1) / 2 ≠ i → lessAt less a j ((j - 1) / 2) = false)
    (h2 : ∀ j, 0 < j → j < a.size → (j - 1) / 2 = i → 0 < i → lessAt less a j ((i - 1) / 2) = false) :
    Heap less (heapify less f a i) := by
  induction f generalizing a i with
  | zero =>
    intro j hj hjs
    exact h1 j hj hjs (by simp only [heapify] at hjs; omega)
  | succ f ih =>
    unfold heapify
    simp only
    split
    · rename_i hne
      have hsz := smallest_lt hne
      have hch := smallest_spec less a i
      have hi : i < a.size := by omega
      have key := lessAt_swap less a hi hsz
      have hchild : ∀ j, 0 < j → j < a.size → (j - 1) / 2 = i → lessAt less a j (smallest less a i) = false :=
        fun j hj hjs hp => smallest_child h hj hjs hp
      have hroot := smallest_less h hi
      have hpar : (smallest less a i - 1) / 2 = i := by omega
      apply ih
      · simp; omega
      · intro j hj hjs hp
        simp only [Array.size_swapIfInBounds] at hjs
        rw [key]
        unfold tr
        by_cases hjs' : j = smallest less a i
        · rw [← hjs'] at hpar hroot hne ⊢
          simp only [hpar, hne, if_true, if_false]
          exact hroot
        · by_cases hji : j = i
          · subst hji
            have e1 : ¬ ((j - 1) / 2 = j) := by omega
            have e2 : ¬ ((j - 1) / 2 = smallest less a j) := by omega
            simp only [e1, e2, if_true, if_false]
            exact h2 _ (by omega) hsz hpar hj
          · simp only [hjs', hji, if_false]
            split
            · rename_i hpi
              exact hchild j hj hjs hpi
            · rename_i e1
              exact h1 j hj hjs e1
      · intro j hj hjs hp hpos
        simp only [Array.size_swapIfInBounds] at hjs
        rw [key, hpar]
        unfold tr
        have e1 : ¬ (j = i) := by omega
        have e2 : ¬ (j = smallest less a i) := by omega
        simp only [e1, e2, if_true, if_false]
        have := h1 j hj hjs (by omega)
        rw [hp] at this
        exact this
    · rename_i hne
      simp only [ne_eq, Decidable.not_not] at hne
      intro j hj hjs
      by_cases hp : (j - 1) / 2 = i
      · have := smallest_child h hj hjs hp
        rw [hne] at this
        rw [hp]; exact this
      · exact h1 j hj hjs hp

theorem lessAt_setPop (less : α → α → Bool) (q : Array α) (last : α) {i j : Nat} (hi : 0 < i) (hj : 0 < j)
    (hi' : i < q.size - 1) (hj' : j < q.size - 1) :
    lessAt less ((q.setIfInBounds 0 last).pop) i j = lessAt less q i j := by
  unfold lessAt
  have e1 : 0 ≠ i := by omega
  have e2 : 0 ≠ j := by omega
  rw [Array.getElem?_pop, Array.getElem?_pop]
  simp only [Array.size_setIfInBounds, hi', hj', if_true]
  rw [Array.getElem?_setIfInBounds_ne e1, Array.getElem?_setIfInBounds_ne e2]

theorem pop_heap {less : α → α → Bool} (h : SWO less) {q q' : Array α} {x : α} (hq : Heap less q)
    (hp : pop less q = some (x, q')) : Heap less q' := by
  unfold pop at hp
  split at hp
  · rename_i out last h0 hl
    simp only [Option.some.injEq, Prod.mk.injEq] at hp
    obtain ⟨_, rfl⟩ := hp
    apply heapify_heap h
    · omega
    · intro j hj hjs hne
      simp at hjs
      rw [lessAt_setPop _ _ _ hj (by omega) hjs (by omega)]
      exact hq j hj (by omega)
    · intro j hj hjs hp h0; omega
  · simp at hp

theorem heap_root {less : α → α → Bool} (h : SWO less) {q : Array α} (hq : Heap less q) (i : Nat)
    (hi : i < q.size) : lessAt less q i 0 = false := by
  induction i using Nat.strongRecOn with
  | ind i ih =>
    rcases Nat.eq_zero_or_pos i with rfl | h0
    · rw [lessAt_get _ _ hi hi]; exact h.irrefl _
    · exact lessAt_le_trans h q (by omega) (ih ((i-1)/2) (by omega) (by omega)) (hq i h0 hi)

theorem top_min {less : α → α → Bool} (h : SWO less) {q : Array α} (hq : Heap less q) {x : α}
    (hx : q[0]? = some x) (y : α) (hy : y ∈ q.toList) : less y x = false := by
  obtain ⟨i, hi, rfl⟩ := List.getElem_of_mem hy
  have hi' : i < q.size := by simpa using hi
  have := heap_root h hq i hi'
  obtain ⟨h0, rfl⟩ := Array.getElem?_eq_some_iff.mp hx
  rw [lessAt_get _ _ hi' h0] at this
  simpa using this

theorem heap_empty (less : α → α → Bool) : Heap less (#[] : Array α) := by
  intro i _ hi; simp at hi

/-! ## drain -/

theorem drainAux_perm (less : α → α → Bool) (n : Nat) (q : Array α) (hn : q.size = n) :
    (drainAux less n q).Perm q.toList := by
  induction n generalizing q with
  | zero => have : q = #[] := by simpa using hn
            subst this; exact List.Perm.refl _
  | succ n ih =>
    obtain ⟨x, q', h⟩ := pop_isSome less (q := q) (by omega)
    unfold drainAux
    rw [h]
    have hs := pop_size less h
    exact ((ih q' (by omega)).cons x).trans (pop_perm less h).symm

theorem drain_perm (less : α → α → Bool) (q : Array α) : (drain less q).Perm q.toList :=
  drainAux_perm less _ q rfl

theorem drainAux_sorted {less : α → α → Bool} (h : SWO less) (n : Nat) (q : Array α) (hn : q.size = n)
    (hq : Heap less q) : (drainAux less n q).Pairwise (fun a b => less b a = false) := by
  induction n generalizing q with
  | zero => unfold drainAux; exact List.Pairwise.nil
  | succ n ih =>
    obtain ⟨x, q', hp⟩ := pop_isSome less (q := q) (by omega)
    unfold drainAux
    rw [hp]
    have hs := pop_size less hp
    refine List.Pairwise.cons ?_ (ih q' (by omega) (pop_heap h hq hp))
    intro y hy
    have hy' : y ∈ q'.toList := (drainAux_perm less n q' (by omega)).mem_iff.mp hy
    exact top_min h hq (pop_fst less hp) y ((pop_perm less hp).mem_iff.mpr (List.mem_cons_of_mem _ hy'))

theorem drain_sorted {less : α → α → Bool} (h : SWO less) {q : Array α} (hq : Heap less q) :
    (drain less q).Pairwise (fun a b => less b a = false) :=
  drainAux_sorted h _ q rfl hq

end Fave.Queue
