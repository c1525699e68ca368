import Verif.Model.Flat
/-!
# Paging by distance: lemmas
-/
namespace Fave.Paging
variable {D : Type}

/-- where the pages end: 100, 1100, 11100, … -/
def pageEnd : Nat → Nat
  | 0 => 100
  | n + 1 => pageEnd n + 1000 * 10 ^ n

theorem page_mem {res : List (Item D)} {a b : Nat} {x : Item D} (h : x ∈ page res a b) : x ∈ res :=
  List.mem_of_mem_take (List.mem_of_mem_drop h)

theorem page_nil {res : List (Item D)} {a b : Nat} (h : res.length ≤ a) : page res a b = [] := by
  unfold page
  rw [List.drop_eq_nil_iff]
  simp; omega

theorem loop_stops (search : Nat → Except Err (List (Item D))) (within near : D → Bool) (maxLimit : Int) (N : Nat)
    (hN : ∀ k res, search k = .ok res → res.length ≤ N) (hf : ∀ k, search k ≠ .error .fuel) (fuel limit total : Nat) (acc : List (Item D))
    (hl : 0 < limit) (h0 : 0 < fuel) (h1 : N < fuel + total) : loop search within near maxLimit fuel limit total acc ≠ .error .fuel := by
  induction fuel generalizing limit total acc with
  | zero => omega
  | succ fuel ih =>
    unfold loop
    simp only
    split
    · simp
    · split
      · rename_i e he
        intro hc
        injection hc with hc
        subst hc
        unfold round at he
        split at he
        · rename_i e' he'
          injection he with he
          subst he
          exact hf _ he'
        · simp only at he
          split at he <;> cases he
      · rename_i hits hr
        have hlt : total < N := by
          refine Classical.byContradiction (fun hc => ?_)
          unfold round at hr
          split at hr
          · cases hr
          · rename_i res hres
            rw [page_nil (by have := hN _ _ hres; omega)] at hr
            simp at hr
        exact ih _ _ _ (by omega) (by omega) (by omega)
      · simp

theorem round_in_range {search : Nat → Except Err (List (Item D))} {within near : D → Bool} {a b : Nat} {hits : List (Item D)} {c : Bool}
    (h : round search within near a b = .ok (hits, c)) : ∀ x ∈ hits, (within x.dist = true ∨ near x.dist = true) ∧ ∃ res, search b = .ok res ∧ x ∈ res := by
  unfold round at h
  split at h
  · cases h
  · rename_i res hres
    simp only at h
    split at h
    · cases h; simp
    · cases h
      intro x hx
      have h1 := List.all_eq_true.mp (List.all_takeWhile (l := page res a b) (p := fun x => within x.dist || near x.dist)) x hx
      exact ⟨by simpa using h1, res, hres, page_mem ((List.takeWhile_sublist _).subset hx)⟩

theorem loop_in_range (search : Nat → Except Err (List (Item D))) (within near : D → Bool) (maxLimit : Int) (fuel limit total : Nat) (acc r : List (Item D))
    (h : loop search within near maxLimit fuel limit total acc = .ok r)
    (hacc : ∀ x ∈ acc, (within x.dist = true ∨ near x.dist = true) ∧ ∃ k res, search k = .ok res ∧ x ∈ res) :
    ∀ x ∈ r, (within x.dist = true ∨ near x.dist = true) ∧ ∃ k res, search k = .ok res ∧ x ∈ res := by
  induction fuel generalizing limit total acc with
  | zero => cases h
  | succ fuel ih =>
    unfold loop at h
    simp only at h
    split at h
    · cases h; exact hacc
    · split at h
      · cases h
      · rename_i hits hr
        refine ih _ _ _ h ?_
        intro x hx
        rcases List.mem_append.mp hx with hx | hx
        · exact hacc x hx
        · obtain ⟨h1, h2⟩ := round_in_range hr x hx; exact ⟨h1, _, h2⟩
      · rename_i hits hr
        cases h
        intro x hx
        rcases List.mem_append.mp hx with hx | hx
        · exact hacc x hx
        · obtain ⟨h1, h2⟩ := round_in_range hr x hx; exact ⟨h1, _, h2⟩

/-! ## Consistent underlying searches -/

theorem page_take (all : List (Item D)) {a b : Nat} (h : a ≤ b) : all.take a ++ page (all.take b) a b = all.take b := by
  unfold page
  have e : (all.take b).take (min b (all.take b).length) = all.take b := by
    rw [List.take_take, List.length_take]
    by_cases hb : b ≤ all.length
    · congr 1; omega
    · rw [List.take_of_length_le (by omega), List.take_of_length_le (by omega)]
  rw [e]
  by_cases ha : a ≤ (all.take b).length
  · rw [Nat.min_eq_left ha]
    have : all.take a = (all.take b).take a := by rw [List.take_take, Nat.min_eq_left h]
    rw [this, List.take_append_drop]
  · rw [Nat.min_eq_right (by omega), List.drop_of_length_le (Nat.le_refl _), List.append_nil]
    simp at ha
    rw [List.take_of_length_le (by omega), List.take_of_length_le (by omega)]

theorem takeWhile_append_all {α : Type} {p : α → Bool} {l₁ l₂ : List α} (h : ∀ x ∈ l₁, p x = true) :
    (l₁ ++ l₂).takeWhile p = l₁ ++ l₂.takeWhile p := by
  induction l₁ with
  | nil => rfl
  | cons a l ih => simp [h a (by simp), ih (fun x hx => h x (by simp [hx]))]

theorem takeWhile_all {α : Type} {p : α → Bool} {l : List α} (h : ∀ x ∈ l, p x = true) : l.takeWhile p = l := by
  have := takeWhile_append_all (l₂ := []) h
  simpa using this

/-- one round over a consistent search, when everything before is within the distance -/
theorem round_take {all : List (Item D)} {search : Nat → Except Err (List (Item D))} {within near : D → Bool}
    (hc : ∀ k, 0 < k → search k = .ok (all.take k)) (hs : all.Pairwise (fun x y => within y.dist = true → within x.dist = true))
    {a b : Nat} (hab : a < b) (hw : ∀ x ∈ all.take a, within x.dist = true) {hits : List (Item D)} {c : Bool}
    (h : round search within near a b = .ok (hits, c)) :
    all.take a ++ hits = (all.take b).takeWhile (fun x => within x.dist || near x.dist) ∧
    (c = true → all.take a ++ hits = all.take b ∧ ∀ x ∈ all.take b, within x.dist = true) ∧
    (c = false → ∀ x ∈ all.drop b, within x.dist = false) := by
  unfold round at h
  rw [hc b (by omega)] at h
  simp only at h
  have hpt := page_take all (Nat.le_of_lt hab)
  split at h
  · rename_i hl
    cases h
    have hn : page (all.take b) a b = [] := List.getLast?_eq_none_iff.mp hl
    rw [hn, List.append_nil] at hpt
    refine ⟨?_, by (intro h; cases h), ?_⟩
    · rw [← hpt, takeWhile_all (fun x hx => by simp [hw x hx]), List.append_nil]
    · intro _ x hx
      exfalso
      have : (all.take a).length = (all.take b).length := by rw [hpt]
      simp at this
      have hx' := List.length_pos_of_mem hx
      simp at hx'
      omega
  · rename_i last hl
    have hlast := List.mem_of_getLast? hl
    have hin : ∀ x ∈ page (all.take b) a b, within last.dist = true → within x.dist = true := by
      intro x hx hwl
      have hsp : (page (all.take b) a b).Pairwise (fun x y => within y.dist = true → within x.dist = true) :=
        hs.sublist ((List.drop_sublist _ _).trans ((List.take_sublist _ _).trans (List.take_sublist _ _)))
      obtain ⟨i, hi, rfl⟩ := List.getElem_of_mem hx
      rw [List.getLast?_eq_getElem?] at hl
      obtain ⟨hj, hl⟩ := List.getElem?_eq_some_iff.mp hl
      by_cases e : i = (page (all.take b) a b).length - 1
      · subst e; rw [hl]; exact hwl
      · have := List.pairwise_iff_getElem.mp hsp i _ hi hj (by omega)
        rw [hl] at this; exact this hwl
    cases h
    have h1 : all.take a ++ (page (all.take b) a b).takeWhile (fun x => within x.dist || near x.dist) =
        (all.take b).takeWhile (fun x => within x.dist || near x.dist) := by
      conv => rhs; rw [← hpt]
      rw [takeWhile_append_all (fun x hx => by simp [hw x hx])]
    refine ⟨h1, ?_, ?_⟩
    · intro hwl
      have hall : ∀ x ∈ all.take b, within x.dist = true := by
        rw [← hpt]
        intro x hx
        rcases List.mem_append.mp hx with hx | hx
        · exact hw x hx
        · exact hin x hx hwl
      exact ⟨by rw [h1]; exact takeWhile_all (fun x hx => by simp [hall x hx]), hall⟩
    · intro hwl x hx
      have hlm : last ∈ all.take b := by rw [← hpt]; exact List.mem_append_right _ hlast
      have hs' := hs
      rw [← List.take_append_drop b all] at hs'
      have := (List.pairwise_append.mp hs').2.2 last hlm x hx
      cases hh : within x.dist with
      | false => rfl
      | true => rw [this hh] at hwl; cases hwl

theorem pageEnd_lt (n : Nat) : pageEnd n < pageEnd (n + 1) := by
  have : 0 < 10 ^ n := Nat.pow_pos (by decide)
  simp only [pageEnd]; omega

/-- the loop over a consistent search -/
theorem loop_take {all : List (Item D)} {search : Nat → Except Err (List (Item D))} {within near : D → Bool} {maxLimit : Int}
    (hc : ∀ k, 0 < k → search k = .ok (all.take k)) (hs : all.Pairwise (fun x y => within y.dist = true → within x.dist = true))
    (fuel n : Nat) (hw : ∀ x ∈ all.take (pageEnd n), within x.dist = true) (hn : n = 0 ∨ maxLimit < 0 ∨ (pageEnd n : Int) ≤ maxLimit) {r : List (Item D)}
    (h : loop search within near maxLimit fuel (100 * 10 ^ n) (pageEnd n) (all.take (pageEnd n)) = .ok r) :
    ∃ m, r = (all.take (pageEnd m)).takeWhile (fun x => within x.dist || near x.dist) ∧
      (m = 0 ∨ maxLimit < 0 ∨ (pageEnd m : Int) ≤ maxLimit) ∧
      ((∀ x ∈ all.drop (pageEnd m), within x.dist = false) ∨ (0 ≤ maxLimit ∧ maxLimit < (pageEnd (m + 1) : Int))) := by
  induction fuel generalizing n with
  | zero => cases h
  | succ fuel ih =>
    unfold loop at h
    simp only at h
    have e1 : 100 * 10 ^ n * 10 = 100 * 10 ^ (n + 1) := by rw [Nat.pow_succ]; omega
    have e2 : pageEnd n + 100 * 10 ^ n * 10 = pageEnd (n + 1) := by simp only [pageEnd]; omega
    rw [e2, e1] at h
    split at h
    · rename_i hm
      cases h
      exact ⟨n, (takeWhile_all (fun x hx => by simp [hw x hx])).symm, hn, .inr ⟨hm.1, by omega⟩⟩
    · rename_i hm
      have hn' : n + 1 = 0 ∨ maxLimit < 0 ∨ (pageEnd (n + 1) : Int) ≤ maxLimit := by omega
      split at h
      · cases h
      · rename_i hits hr
        obtain ⟨_, h2, _⟩ := round_take hc hs (pageEnd_lt n) hw hr
        obtain ⟨h3, h4⟩ := h2 rfl
        rw [h3] at h
        exact ih (n + 1) h4 hn' h
      · rename_i hits hr
        cases h
        obtain ⟨h1, _, h3⟩ := round_take hc hs (pageEnd_lt n) hw hr
        exact ⟨n + 1, h1, hn', .inl (h3 rfl)⟩

end Fave.Paging
