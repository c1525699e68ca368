import Verif.Model.Grow
/-!
# C31 — Growing the id table keeps its content

Full statement: whenever the table must grow to hold an id, the new table is larger than the id and contains the old
content unchanged, for every table size and id.

It is **false** for the 25000 largest ids (`huge_id_truncates`): the addition `id + 25000` wraps around, the "grown" table is
smaller than the old one and drops content.  `grow_keeps_content_partial` proves it for every table and all other ids; the
only other outcome is a panic of `make` when the memory cannot be had.
-/
namespace Fave.C31
open Fave.Grow

/-- what a caller of the growth may rely on: a larger table with the same content and nothing new in it -/
def Extends {α : Type} (t t' : Slots α) (id : Nat) : Prop :=
  id < t'.len ∧ t.len ≤ t'.len ∧ (∀ i, i < t.len → t'.get i = t.get i) ∧ ∀ i, t.len ≤ i → i < t'.len → t'.get i = none

/-- For every table and every id below `2^64 - 25000`: if the table has to grow, either no memory is available or the
result is a real extension.  (A Go slice is shorter than `2^63`.) -/
theorem grow_keeps_content_partial {α : Type} (maxLen : Nat) (t : Slots α) (id : Nat)
    (hid : id + 25000 < 2 ^ 64) {t' : Slots α} (h : grow maxLen t id = .ok (some t')) :
    Extends t t' id := by
  unfold grow at h
  by_cases h1 : id < t.len
  · rw [if_pos h1] at h; cases h
  · rw [if_neg h1] at h
    by_cases h2 : newSize t.len id > maxLen
    · rw [if_pos h2] at h; cases h
    · rw [if_neg h2] at h
      cases h
      have hs : id < newSize t.len id := by
        have hd : delta = 25000 := rfl
        simp only [newSize]
        generalize (if round53 t.len < 4 * delta then (t.len + delta) % 2 ^ 64 else round53 (5 * round53 t.len) / 4) = s
        by_cases h3 : s ≤ id
        · rw [if_pos h3]; omega
        · rw [if_neg h3]; omega
      refine ⟨hs, by show t.len ≤ newSize _ _; omega, fun i hi => ?_, fun i hi _ => ?_⟩
      · show (if i < t.len ∧ i < newSize t.len id then t.get i else none) = _
        rw [if_pos ⟨hi, by omega⟩]
      · show (if i < t.len ∧ i < newSize t.len id then t.get i else none) = _
        rw [if_neg (by omega)]

/-- The table grows exactly when the id does not fit; an id that fits leaves it alone. -/
theorem grow_only_if_needed {α : Type} (maxLen : Nat) (t : Slots α) (id : Nat) :
    grow maxLen t id = .ok none ↔ id < t.len := by
  unfold grow
  by_cases h1 : id < t.len
  · simp [h1]
  · rw [if_neg h1]
    by_cases h2 : newSize t.len id > maxLen
    · simp [h2, h1]
    · simp [h2, h1]

/-- Growing fails (the runtime refuses the allocation) only when the new size exceeds the limit of the runtime. -/
theorem grow_fails_iff {α : Type} (maxLen : Nat) (t : Slots α) (id : Nat) :
    grow maxLen t id = .error .panic ↔ t.len ≤ id ∧ maxLen < newSize t.len id := by
  unfold grow
  by_cases h1 : id < t.len
  · rw [if_pos h1]; simp; omega
  · rw [if_neg h1]
    by_cases h2 : newSize t.len id > maxLen
    · rw [if_pos h2]; simp; omega
    · rw [if_neg h2]; simp; omega

theorem round53_small {n : Nat} (h : n < 2 ^ 53) : round53 n = n := by simp [round53, h]

/-- Below `2^50` entries (far more than memory holds) no rounding happens and the table grows by a quarter, at least by
25000, or up to 25000 beyond the id: growth is geometric, and never more than that. -/
theorem grown_size {α : Type} {maxLen : Nat} {t t' : Slots α} {id : Nat} (hl : t.len < 2 ^ 50) (hid : id + 25000 < 2 ^ 64)
    (h : grow maxLen t id = .ok (some t')) :
    t'.len = max (t.len + 25000) (t.len * 5 / 4) ∨
      (t'.len = id + 25000 ∧ max (t.len + 25000) (t.len * 5 / 4) ≤ id) := by
  unfold grow at h
  by_cases h1 : id < t.len
  · rw [if_pos h1] at h; cases h
  · rw [if_neg h1] at h
    by_cases h2 : newSize t.len id > maxLen
    · rw [if_pos h2] at h; cases h
    · rw [if_neg h2] at h
      cases h
      show newSize t.len id = _ ∨ newSize t.len id = _ ∧ _
      have e1 : round53 t.len = t.len := round53_small (by omega)
      have e2 : round53 (5 * t.len) = 5 * t.len := round53_small (by omega)
      simp only [newSize, delta, e1, e2]
      by_cases h3 : t.len < 4 * 25000
      · rw [if_pos h3]
        have : (t.len + 25000) % 2 ^ 64 = t.len + 25000 := Nat.mod_eq_of_lt (by omega)
        rw [this]
        by_cases h4 : t.len + 25000 ≤ id
        · rw [if_pos h4]; right; omega
        · rw [if_neg h4]; left; omega
      · rw [if_neg h3]
        by_cases h4 : 5 * t.len / 4 ≤ id
        · rw [if_pos h4]; right; omega
        · rw [if_neg h4]; left; omega

/-- The full statement fails: asked to make room for id `2^64 - 1`, the function returns a table of 24999 places in which
neither the id nor the old entry 24999 has a place. -/
theorem huge_id_truncates :
    ∃ (t t' : Slots Nat), t.len = 25000 ∧ t.get 24999 = some 7 ∧
      grow (2 ^ 45) t (2 ^ 64 - 1) = .ok (some t') ∧ t'.len = 24999 ∧ ¬ (2 ^ 64 - 1 < t'.len) :=
  ⟨⟨25000, fun i => if i = 24999 then some 7 else none⟩, _, rfl, by decide, rfl, by decide, by decide⟩

/-- non-vacuity: a full table of 25000 entries grows to 50000 and keeps entry 24999 -/
example : ∃ t', grow (2 ^ 45) (⟨25000, fun i => some i⟩ : Slots Nat) 25000 = .ok (some t') ∧ t'.len = 50000 ∧
    t'.get 24999 = some 24999 ∧ t'.get 25000 = none :=
  ⟨_, rfl, by decide, by decide, by decide⟩

/-- a table of 200000 entries grows by a quarter, and far beyond that if the id demands it -/
example : newSize 200000 200000 = 250000 ∧ newSize 200000 999999 = 1024999 ∧ newSize 25000 25000 = 50000 := by decide

/-- rounding does happen for astronomically large tables -/
example : round53 (2 ^ 53 + 1) = 2 ^ 53 ∧ round53 (2 ^ 53 + 3) = 2 ^ 53 + 4 := by decide

end Fave.C31
