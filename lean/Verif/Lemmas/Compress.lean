import Verif.Spec.Compress
import Verif.Lemmas.VecCache
/-!
# Facts about compression
-/
namespace Fave
namespace Compress
open VecCache

variable {V B : Type}

/-- the place of an id -/
abbrev at_ {α : Type} (c : Cache α) (id : Nat) : Option α := (c.slots[id]?).getD none

theorem put_self {α : Type} (m : Nat → Option α) (id : Nat) (v : Option α) : put m id v id = v := if_pos rfl

theorem put_other {α : Type} (m : Nat → Option α) {id i : Nat} (h : i ≠ id) (v : Option α) : put m id v i = m i := if_neg h

theorem preload_some {α : Type} {c c' : Cache α} {id : Nat} {v : Option α} (h : c.preload id v = some c') :
    id < c.slots.length ∧ c'.slots = c.slots.set id v ∧ c'.count = c.count + 1 ∧ c'.maxSize = c.maxSize := by
  obtain ⟨h1, rfl⟩ := write_some (show c.bump.write id v = some c' from h)
  exact ⟨h1, rfl, rfl, rfl⟩

theorem preload_of_lt {α : Type} {c : Cache α} {id : Nat} (h : id < c.slots.length) (v : Option α) :
    c.preload id v = some { c with slots := c.slots.set id v, count := c.count + 1 } := by
  unfold Cache.preload Cache.write
  rw [if_pos (by exact h)]
  rfl

theorem at_set {α : Type} {c c' : Cache α} {id : Nat} {v : Option α} (hl : id < c.slots.length) (h : c'.slots = c.slots.set id v)
    (i : Nat) : at_ c' i = if i = id then v else at_ c i := by
  unfold at_
  rw [h, List.getElem?_set]
  by_cases hi : i = id
  · subst hi; simp [hl]
  · rw [if_neg (by omega), if_neg hi]

theorem delete_some {α : Type} {c c' : Cache α} {id : Nat} (h : c.delete id = some c') :
    c'.slots.length = c.slots.length ∧ at_ c' id = none ∧ ∀ i, i ≠ id → at_ c' i = at_ c i := by
  unfold Cache.delete at h
  cases hs : c.slots[id]? with
  | none =>
    rw [hs] at h
    dsimp only at h
    by_cases hid : id < 2 ^ 63
    · rw [if_pos hid] at h; cases h; exact ⟨rfl, by unfold at_; rw [hs]; rfl, fun _ _ => rfl⟩
    · rw [if_neg hid] at h; cases h
  | some o =>
    rw [hs] at h
    have hlt : id < c.slots.length := (List.getElem?_eq_some_iff.mp hs).1
    cases o with
    | none => cases h; exact ⟨rfl, by unfold at_; rw [hs]; rfl, fun _ _ => rfl⟩
    | some v =>
      cases h
      refine ⟨by simp, ?_, fun i hi => ?_⟩
      · rw [at_set (c := c) hlt rfl]; rw [if_pos rfl]
      · rw [at_set (c := c) hlt rfl]; rw [if_neg hi]

theorem tick_at {α : Type} (c : Cache α) (id : Nat) : at_ c.tick id = at_ c id ∨ at_ c.tick id = none := by
  unfold Cache.tick
  split
  · exact Or.inr (clear_get c id)
  · exact Or.inl rfl

theorem clear_length {α : Type} (c : Cache α) : c.clear.slots.length = c.slots.length := by simp [Cache.clear]

theorem tick_length {α : Type} (c : Cache α) : c.tick.slots.length = c.slots.length := by
  unfold Cache.tick
  split
  · exact clear_length c
  · rfl

theorem grow_at {α : Type} (c : Cache α) {n : Nat} (hn : n + 25000 < 2 ^ 64) (id : Nat) : at_ (c.grow n) id = at_ c id := by
  unfold Cache.grow
  split
  · rfl
  · exact growLocked_get c hn (by omega) id

theorem grow_length {α : Type} (c : Cache α) {n : Nat} (hn : n + 25000 < 2 ^ 64) : n < (c.grow n).slots.length := by
  unfold Cache.grow
  split
  · assumption
  · rw [growLocked_length c hn (by omega)]; omega

theorem code_eq {c : Cache B} {id : Nat} (h : id < c.slots.length) :
    code c id = match at_ c id with | some b => .ok (some b) | none => .fail .notImplemented := by
  unfold code at_
  rw [List.getElem?_eq_getElem h]
  cases c.slots[id] <;> rfl

theorem code_ok {c : Cache B} {id : Nat} {b : Option B} (h : code c id = .ok b) : ∃ b', b = some b' ∧ at_ c id = some b' := by
  unfold code at h
  unfold at_
  cases hs : c.slots[id]? with
  | none => rw [hs] at h; cases h
  | some o =>
    rw [hs] at h
    cases o with
    | none => cases h
    | some b' => cases h; exact ⟨b', rfl, rfl⟩

theorem code_of_at {c : Cache B} {id : Nat} {b : B} (h : at_ c id = some b) : code c id = .ok (some b) := by
  unfold at_ at h
  unfold code
  cases hs : c.slots[id]? with
  | none => rw [hs] at h; cases h
  | some o =>
    rw [hs] at h
    cases o with
    | none => cases h
    | some b' => cases h; rfl

/-! ## the places without the empty ones -/

theorem clean_none (t : List (Option V)) : (none :: t).filterMap id = t.filterMap id := rfl

theorem clean_some (v : V) (t : List (Option V)) : (some v :: t).filterMap id = v :: t.filterMap id := rfl

theorem filterMap_gapless : ∀ (l : List (Option V)), (∀ i j : Nat, i < j → (l[i]?).getD none = none → (l[j]?).getD none = none) →
    ∀ i : Nat, (l.filterMap id)[i]? = (l[i]?).getD none
  | [], _, i => by simp
  | none :: t, h, i => by
    have hall : ∀ j : Nat, (t[j]?).getD none = none := fun j => by
      have := h 0 (j + 1) (by omega) (by simp)
      simpa using this
    have hnil : t.filterMap id = [] := by
      rw [List.filterMap_eq_nil_iff]
      intro o ho
      obtain ⟨j, hj, rfl⟩ := List.getElem_of_mem ho
      have := hall j
      rw [List.getElem?_eq_getElem hj] at this
      exact this
    rw [clean_none, hnil]
    cases i with
    | zero => simp
    | succ i => simpa using (hall i).symm
  | some v :: t, h, i => by
    rw [clean_some]
    cases i with
    | zero => simp
    | succ i =>
      simpa using filterMap_gapless t (fun a b hab ha => by
        have := h (a + 1) (b + 1) (by omega) (by simpa using ha)
        simpa using this) i

/-- a place with a vector comes before the end, and no more vectors than places are before it -/
theorem filterMap_le (l : List (Option V)) : (l.filterMap id).length ≤ l.length := List.length_filterMap_le _ _

/-- if some vector is there, the last one is at a place with no vector behind -/
theorem last_filled : ∀ (l : List (Option V)), l.filterMap id ≠ [] → ∃ j v, l[j]? = some (some v) ∧ (l.filterMap id).length ≤ j + 1
  | [], h => absurd rfl h
  | o :: t, h => by
    by_cases ht : t.filterMap id = []
    · cases o with
      | none => rw [clean_none] at h; exact absurd ht h
      | some v => exact ⟨0, v, by simp, by rw [clean_some, ht]; simp⟩
    · obtain ⟨j, v, h1, h2⟩ := last_filled t ht
      refine ⟨j + 1, v, by simpa using h1, ?_⟩
      cases o with
      | none => rw [clean_none]; omega
      | some w => rw [clean_some, List.length_cons]; omega

/-- conversely: if every vector is found at its own place, no place before is empty -/
theorem gapless_of_filterMap : ∀ (l : List (Option V)),
    (∀ (i : Nat) (v : V), l[i]? = some (some v) → ((l.filterMap id)[i]?).isSome) →
    ∀ i j : Nat, i < j → (l[i]?).getD none = none → (l[j]?).getD none = none
  | [], _, i, j, _, _ => by simp
  | none :: t, h, i, j, hij, _ => by
    have hnil : t.filterMap id = [] := by
      by_cases hn : t.filterMap id = []
      · exact hn
      · obtain ⟨k, v, h1, h2⟩ := last_filled t hn
        have h3 := h (k + 1) v (by simpa using h1)
        rw [clean_none, Option.isSome_iff_exists] at h3
        obtain ⟨w, h3⟩ := h3
        have h3 := (List.getElem?_eq_some_iff.mp h3).1
        omega
    rw [List.filterMap_eq_nil_iff] at hnil
    obtain ⟨k, rfl⟩ : ∃ k, j = k + 1 := ⟨j - 1, by omega⟩
    rw [List.getElem?_cons_succ]
    cases hk : t[k]? with
    | none => rfl
    | some o =>
      have := hnil o (List.mem_of_getElem? hk)
      simpa using this
  | some v :: t, h, i, j, hij, hi => by
    obtain ⟨k, rfl⟩ : ∃ k, j = k + 1 := ⟨j - 1, by omega⟩
    cases i with
    | zero => simp at hi
    | succ i =>
      rw [List.getElem?_cons_succ] at hi ⊢
      refine gapless_of_filterMap t (fun a w ha => ?_) i k (by omega) hi
      have := h (a + 1) w (by simpa using ha)
      rw [clean_some] at this
      simpa using this

/-- what stands at place `i` without the empty ones comes from place `i` or behind; from behind if there is an empty place before -/
theorem filterMap_from : ∀ (l : List (Option V)) (i : Nat) (v : V), (l.filterMap id)[i]? = some v →
    ∃ p, i ≤ p ∧ l[p]? = some (some v) ∧ ((∃ g, g ≤ i ∧ l[g]? = some none) → i < p)
  | [], i, v, h => by simp at h
  | none :: t, i, v, h => by
    rw [clean_none] at h
    obtain ⟨p, h1, h2, -⟩ := filterMap_from t i v h
    exact ⟨p + 1, by omega, by simpa using h2, fun _ => by omega⟩
  | some w :: t, i, v, h => by
    rw [clean_some] at h
    cases i with
    | zero =>
      refine ⟨0, Nat.le_refl _, by simpa using h, fun ⟨g, hg, hn⟩ => ?_⟩
      have : g = 0 := by omega
      subst this
      simp at hn
    | succ i =>
      rw [List.getElem?_cons_succ] at h
      obtain ⟨p, h1, h2, h3⟩ := filterMap_from t i v h
      refine ⟨p + 1, by omega, by simpa using h2, fun ⟨g, hg, hn⟩ => ?_⟩
      cases g with
      | zero => simp at hn
      | succ g =>
        have := h3 ⟨g, by omega, by simpa using hn⟩
        omega

/-! ## keeping the codes -/

theorem keepAll_spec {V B : Type} (enc : V → B) (todo : List V) : ∀ (order : List Nat) (s : Sys V B), order.Nodup →
    (∀ i ∈ order, i < todo.length) → todo.length ≤ s.codes.slots.length →
    ∃ t, s.keepAll enc todo order = some t ∧ t.plain = s.plain ∧ t.source = s.source ∧
      t.codes.slots.length = s.codes.slots.length ∧ t.codes.maxSize = s.codes.maxSize ∧ s.codes.count ≤ t.codes.count ∧
      (∀ i, i ∈ order → at_ t.codes i = (todo[i]?).map enc ∧ t.store i = (todo[i]?).map enc) ∧
      ∀ i, i ∉ order → at_ t.codes i = at_ s.codes i ∧ t.store i = s.store i
  | [], s, _, _, _ => ⟨s, rfl, rfl, rfl, rfl, rfl, Int.le_refl _, fun i hi => by simp at hi, fun _ _ => ⟨rfl, rfl⟩⟩
  | i :: order, s, hn, hlt, hl => by
    obtain ⟨hi, hn⟩ := List.nodup_cons.mp hn
    have hit := hlt i (by simp)
    have hk : s.keep enc todo i = some { s with
        store := put s.store i (some (enc todo[i])),
        codes := { s.codes with slots := s.codes.slots.set i (some (enc todo[i])), count := s.codes.count + 1 } } := by
      unfold Sys.keep preload
      rw [List.getElem?_eq_getElem hit]
      dsimp only
      rw [preload_of_lt (by omega)]
      rfl
    obtain ⟨t, h1, h2, h3, h4, h5, h6, h7, h8⟩ := keepAll_spec enc todo order { s with
        store := put s.store i (some (enc todo[i])),
        codes := { s.codes with slots := s.codes.slots.set i (some (enc todo[i])), count := s.codes.count + 1 } } hn
        (fun k hk => hlt k (by simp [hk])) (by simpa using hl)
    refine ⟨t, ?_, h2, h3, by simpa using h4, h5, ?_, fun k hk => ?_, fun k hk => ?_⟩
    · unfold Sys.keepAll; rw [hk]; exact h1
    · have : s.codes.count + 1 ≤ t.codes.count := h6
      omega
    · rcases List.mem_cons.mp hk with rfl | hk
      · obtain ⟨h9, h10⟩ := h8 k hi
        rw [h9, h10]
        rw [at_set (c := s.codes) (by omega) rfl]
        rw [if_pos rfl, List.getElem?_eq_getElem hit]
        exact ⟨rfl, put_self _ _ _⟩
      · exact h7 k hk
    · rw [List.mem_cons, not_or] at hk
      obtain ⟨h9, h10⟩ := h8 k hk.2
      rw [h9, h10]
      rw [at_set (c := s.codes) (by omega) rfl]
      rw [if_neg hk.1]
      exact ⟨rfl, put_other _ hk.1 _⟩

end Compress
end Fave
