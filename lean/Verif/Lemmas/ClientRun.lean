import Verif.Lemmas.Client
/-! # Sequences of requests; keys of the document cache -/
namespace Fave.Client
variable {F D : Type} [Dist D] [DecidableEq F]

theorem ns_inj {a b : Str} (h : ns ++ a = ns ++ b) : a = b := List.append_cancel_left h
theorem ns_ne {a b : Str} (h : a ≠ b) : ns ++ a ≠ ns ++ b := fun e => h (ns_inj e)

/-- requests that are about no collection act alike on what belongs to a name -/
theorem same_serve_none (E : Env F D) {w w' : World F} (r : Req F D) (hr : r.about = none) {c : Str} (h : SameFor w w' c) :
    SameFor (serve E w r).1 (serve E w' r).1 c := by
  cases r with
  | login ok =>
    simp only [serve, login]
    split
    · exact ⟨rfl, h.pod, h.lookup, h.coll, h.db⟩
    · exact h
  | openPod ok =>
    simp only [serve, openPod, h.session]
    split
    · exact h
    · split
      · exact ⟨rfl, rfl, h.lookup, h.coll, h.db⟩
      · exact h
  | list o => exact h
  | restart => exact ⟨rfl, rfl, h.lookup, by simp [serve, restart, h.coll], h.db⟩
  | create o name ix => cases hr
  | delete o name => cases hr
  | add o name ti docs => cases hr
  | nearVector o name q max limit => cases hr
  | nearText o name text max limit => cases hr
  | get o sat name p v => cases hr

theorem run_nil (E : Env F D) (w : World F) : run E w [] = w := rfl
theorem run_cons (E : Env F D) (w : World F) (r : Req F D) (rs : List (Req F D)) : run E w (r :: rs) = run E (serve E w r).1 rs := rfl
theorem run_append (E : Env F D) (w : World F) (rs ss : List (Req F D)) : run E w (rs ++ ss) = run E (run E w rs) ss := List.foldl_append ..

/-- of a sequence of requests only those about `m` or about no collection matter for `m` -/
theorem run_filter (E : Env F D) (m : Str) (p : Req F D → Bool) (hp : ∀ r, p r = true ↔ ∀ n, r.about = some n → n = m) (rs : List (Req F D))
    {w w' : World F} (h : SameFor w w' (ns ++ m)) : SameFor (run E w rs) (run E w' (rs.filter p)) (ns ++ m) := by
  induction rs generalizing w w' with
  | nil => exact h
  | cons r rs ih =>
    rw [run_cons, List.filter_cons]
    by_cases hpr : p r = true
    · rw [if_pos hpr, run_cons]
      apply ih
      cases ha : r.about with
      | none => exact same_serve_none E r ha h
      | some n =>
        have := (hp r).mp hpr n ha
        subst this
        exact (same_serve E r ha h).1
    · rw [if_neg hpr]
      apply ih
      have : ∃ n, r.about = some n ∧ n ≠ m := by
        apply Classical.byContradiction
        intro hc
        apply hpr
        rw [hp]
        intro n hn
        apply Classical.byContradiction
        intro hne
        exact hc ⟨n, hn, hne⟩
      obtain ⟨n, hn, hne⟩ := this
      exact ((onlyAt_serve E w r hn).same (ns_ne (Ne.symm hne))).symm.trans h

/-! ## Keys -/

theorem digits_ne_nil (n : Nat) : digits n ≠ [] := by
  unfold digits
  split <;> simp

theorem char_inj {a b : Nat} (ha : a < 10) (hb : b < 10) (h : Char.ofNat (48 + a) = Char.ofNat (48 + b)) : a = b := by
  have key : ∀ a ∈ List.range 10, ∀ b ∈ List.range 10, Char.ofNat (48 + a) = Char.ofNat (48 + b) → a = b := by decide +kernel
  exact key a (by simpa using ha) b (by simpa using hb) h

theorem digits_inj {a b : Nat} (h : digits a = digits b) : a = b := by
  induction a using Nat.strongRecOn generalizing b with
  | ind a ih =>
    rw [digits, digits.eq_def b] at h
    by_cases ha : a < 10 <;> by_cases hb : b < 10
    · rw [if_pos ha, if_pos hb] at h
      exact char_inj ha hb (by simpa using h)
    · rw [if_pos ha, if_neg hb] at h
      have := congrArg List.length h
      have hl := List.length_pos_iff.mpr (digits_ne_nil (b / 10))
      rw [List.length_append] at this
      simp only [List.length_singleton] at this
      omega
    · rw [if_neg ha, if_pos hb] at h
      have := congrArg List.length h
      have hl := List.length_pos_iff.mpr (digits_ne_nil (a / 10))
      rw [List.length_append] at this
      simp only [List.length_singleton] at this
      omega
    · rw [if_neg ha, if_neg hb] at h
      obtain ⟨h1, h2⟩ := List.append_inj_left' h rfl, List.append_inj_right' h rfl
      have e1 := ih (a / 10) (by omega) h1
      have e2 := char_inj (Nat.mod_lt a (by omega)) (Nat.mod_lt b (by omega)) (by simpa using h2)
      omega

theorem digits_no_slash (n : Nat) : '/' ∉ digits n := by
  have hc : ∀ a ∈ List.range 10, Char.ofNat (48 + a) ≠ '/' := by decide +kernel
  have hc' : ∀ a, a < 10 → '/' ≠ Char.ofNat (48 + a) := fun a ha => Ne.symm (hc a (by simpa using ha))
  induction n using Nat.strongRecOn with
  | ind n ih =>
    rw [digits]
    by_cases h : n < 10
    · rw [if_pos h]; simp only [List.mem_singleton]; exact hc' n h
    · rw [if_neg h]
      simp only [List.mem_append, List.mem_singleton, not_or]
      exact ⟨ih _ (by omega), hc' _ (Nat.mod_lt n (by omega))⟩

/-- a text is determined by what precedes and follows its last slash -/
theorem last_slash {a b x y : Str} (hx : '/' ∉ x) (hy : '/' ∉ y) (h : a ++ '/' :: x = b ++ '/' :: y) : a = b ∧ x = y := by
  rcases List.append_eq_append_iff.mp h with ⟨z, h1, h2⟩ | ⟨z, h1, h2⟩
  · cases z with
    | nil => simp at h1 h2; exact ⟨h1.symm, h2⟩
    | cons c z =>
      simp only [List.cons_append, List.cons.injEq] at h2
      exact absurd (by rw [h2.2]; simp) hx
  · cases z with
    | nil => simp at h1 h2; exact ⟨h1, h2.symm⟩
    | cons c z =>
      simp only [List.cons_append, List.cons.injEq] at h2
      exact absurd (by rw [h2.2]; simp) hy

end Fave.Client
