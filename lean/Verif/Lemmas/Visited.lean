import Verif.Model.Visited
/-! Lemmas about the visited list. -/
namespace Fave.ListSet

theorem growLoop_ge (size f n : Nat) : n ≤ growLoop size f n := by
  induction f generalizing n with
  | zero => exact Nat.le_refl _
  | succ f ih =>
    unfold growLoop
    split
    · have := ih (n + (n + threshold) / 4); omega
    · omega

theorem growLoop_size (size f n : Nat) (h0 : 0 < n) (hf : size ≤ f + n) : size ≤ growLoop size f n := by
  induction f generalizing n with
  | zero => unfold growLoop; omega
  | succ f ih =>
    unfold growLoop
    split
    · apply ih <;> simp only [threshold] <;> omega
    · rename_i h; simp at h; omega

theorem growth_ge (o s : Nat) : o ≤ growth o s ∧ s ≤ growth o s := by
  unfold growth
  simp only
  split
  · omega
  · split
    · omega
    · rename_i h1 h2
      simp only [threshold] at h2
      exact ⟨growLoop_ge _ _ _, growLoop_size _ _ _ (by omega) (by omega)⟩

/-- reachable lists: at least the marker cell, marker not 0, no cell above the marker -/
structure WF (l : ListSet) : Prop where
  size : 0 < l.set.size
  marker : l.marker ≠ 0
  le : ∀ (i : Nat) (x : UInt8), l.set[i]? = some x → x ≤ l.marker

theorem zeroed_get {n i : Nat} {x : UInt8}
    (h : ((Array.replicate n (0 : UInt8)).setIfInBounds 0 1)[i]? = some x) : (i = 0 ∧ x = 1) ∨ (0 < i ∧ x = 0) := by
  rcases Nat.eq_zero_or_pos i with rfl | hi
  · left
    rcases Nat.eq_zero_or_pos n with rfl | hn
    · simp at h
    · rw [Array.getElem?_setIfInBounds_self_of_lt (by simpa using hn)] at h
      exact ⟨rfl, (Option.some.inj h).symm⟩
  · right
    rw [Array.getElem?_setIfInBounds_ne (by omega), Array.getElem?_replicate] at h
    split at h
    · exact ⟨hi, (Option.some.inj h).symm⟩
    · simp at h

theorem zeroed_marker {n : Nat} (h : 0 < n) : marker ⟨(Array.replicate n (0 : UInt8)).setIfInBounds 0 1⟩ = 1 := by
  unfold marker; simp [h]

theorem wf_zeroed {n : Nat} (h : 0 < n) : WF ⟨(Array.replicate n (0 : UInt8)).setIfInBounds 0 1⟩ := by
  refine ⟨by simpa using h, by rw [zeroed_marker h]; decide, ?_⟩
  intro i x hx
  rw [zeroed_marker h]
  rcases zeroed_get hx with ⟨_, rfl⟩ | ⟨_, rfl⟩ <;> decide

theorem visited_zeroed {n : Nat} (h : 0 < n) (k : Nat) :
    visited ⟨(Array.replicate n (0 : UInt8)).setIfInBounds 0 1⟩ k = false := by
  unfold visited
  rw [zeroed_marker h, Array.getD_eq_getD_getElem?]
  cases hx : ((Array.replicate n (0 : UInt8)).setIfInBounds 0 1)[k + 1]? with
  | none => simp
  | some x =>
    rcases zeroed_get hx with ⟨h, _⟩ | ⟨_, rfl⟩
    · omega
    · simp

theorem wf_new (n : Nat) : WF (new n) := wf_zeroed (Nat.succ_pos n)

theorem visited_new (n k : Nat) : (new n).visited k = false := visited_zeroed (Nat.succ_pos n) k

theorem resize_size (s : Array UInt8) {n : Nat} (h : s.size ≤ n) : (resize s n).size = n := by
  simp [resize]; omega

theorem resize_get (s : Array UInt8) {n i : Nat} (h : i < s.size) : (resize s n)[i]? = s[i]? := by
  unfold resize
  rw [List.getElem?_toArray, List.getElem?_append_left (by simpa using h), Array.getElem?_toList]

theorem resize_get_ge (s : Array UInt8) {n i : Nat} (h : s.size ≤ i) (hn : i < n) : (resize s n)[i]? = some 0 := by
  unfold resize
  rw [List.getElem?_toArray, List.getElem?_append_right (by simpa using h), List.getElem?_replicate]
  rw [if_pos (by simp; omega)]

/-- the set used by `visit` after the optional resize -/
theorem visit_set (l : ListSet) (hw : WF l) (node : Nat) :
    ∃ s : Array UInt8, (l.visit node).set = s.setIfInBounds (node + 1) l.marker ∧ node + 1 < s.size ∧ l.set.size ≤ s.size ∧
      (∀ i, i < l.set.size → s[i]? = l.set[i]?) ∧ (∀ i, l.set.size ≤ i → i < s.size → s[i]? = some 0) := by
  have h0 := hw.size
  unfold visit
  simp only
  by_cases h : node ≥ l.len
  · simp only [h, if_true]
    have hg := growth_ge l.set.size (node + 1024)
    refine ⟨resize l.set (growth l.set.size (node + 1024)), ?_, ?_, ?_, ?_, ?_⟩
    · congr 1
      unfold marker
      rw [Array.getD_eq_getD_getElem?, Array.getD_eq_getD_getElem?, resize_get _ h0]
    · rw [resize_size _ hg.1]; omega
    · rw [resize_size _ hg.1]; omega
    · intro i hi; exact resize_get _ hi
    · intro i hi hi'; rw [resize_size _ hg.1] at hi'; exact resize_get_ge _ hi hi'
  · simp only [h, if_false]
    refine ⟨l.set, rfl, ?_, Nat.le_refl _, fun _ _ => rfl, ?_⟩
    · simp only [len] at h; omega
    · intro i h1 h2; omega

theorem marker_visit (l : ListSet) (hw : WF l) (node : Nat) : (l.visit node).marker = l.marker := by
  obtain ⟨s, h1, h2, h3, h4, h5⟩ := visit_set l hw node
  have h0 := hw.size
  unfold marker
  rw [h1, Array.getD_eq_getD_getElem?, Array.getElem?_setIfInBounds_ne (by omega), h4 0 h0,
    ← Array.getD_eq_getD_getElem?]

theorem visited_visit (l : ListSet) (hw : WF l) (node k : Nat) :
    (l.visit node).visited k = (decide (k = node) || l.visited k) := by
  have hm := marker_visit l hw node
  obtain ⟨s, h1, h2, h3, h4, h5⟩ := visit_set l hw node
  have h0 := hw.size
  unfold visited
  rw [hm]
  have hl : (l.visit node).len = s.size - 1 := by unfold len; rw [h1]; simp
  have hl' : l.len = l.set.size - 1 := rfl
  rw [hl, hl', h1]
  by_cases hk : k = node
  · subst hk
    have : k < s.size - 1 := by omega
    simp [this, Array.getD_eq_getD_getElem?, h2]
  · simp only [hk, decide_false, Bool.false_or]
    rw [Array.getD_eq_getD_getElem?, Array.getElem?_setIfInBounds_ne (by omega), Array.getD_eq_getD_getElem?]
    by_cases hk1 : k + 1 < l.set.size
    · rw [h4 _ hk1]
      have e1 : k < s.size - 1 := by omega
      have e2 : k < l.set.size - 1 := by omega
      simp [e1, e2]
    · have e2 : ¬ k < l.set.size - 1 := by omega
      simp only [e2, decide_false, Bool.false_and]
      by_cases hk2 : k + 1 < s.size
      · rw [h5 _ (by omega) hk2]
        have := hw.marker
        simp
        intro _ hc
        exact this hc.symm
      · have e3 : ¬ k < s.size - 1 := by omega
        simp [e3]

theorem wf_visit (l : ListSet) (hw : WF l) (node : Nat) : WF (l.visit node) := by
  have hm := marker_visit l hw node
  obtain ⟨s, h1, h2, h3, h4, h5⟩ := visit_set l hw node
  refine ⟨?_, ?_, ?_⟩
  · rw [h1]; simp; omega
  · rw [hm]; exact hw.marker
  · intro i x hg
    rw [hm]
    rw [h1] at hg
    by_cases hin : i = node + 1
    · subst hin
      rw [Array.getElem?_setIfInBounds_self_of_lt h2] at hg
      rw [← Option.some.inj hg]
      exact UInt8.le_refl _
    · rw [Array.getElem?_setIfInBounds_ne (by omega)] at hg
      by_cases hi2 : i < l.set.size
      · rw [h4 i hi2] at hg
        exact hw.le i x hg
      · by_cases hi3 : i < s.size
        · rw [h5 i (by omega) hi3] at hg
          rw [← Option.some.inj hg]
          exact UInt8.le_iff_toNat_le.mpr (by simp)
        · simp [hi3] at hg

theorem succ_marker_toNat {m : UInt8} (h : m + 1 ≠ 0) : (m + 1).toNat = m.toNat + 1 := by
  have h2 : m.toNat < 256 := UInt8.toNat_lt _
  have h3 : (1 : UInt8).toNat = 1 := rfl
  rw [UInt8.toNat_add, h3]
  by_cases h4 : m.toNat + 1 = 256
  · exfalso
    apply h
    apply UInt8.toNat_inj.mp
    rw [UInt8.toNat_add, h3, h4]
    rfl
  · exact Nat.mod_eq_of_lt (by omega)

theorem bumped_marker (l : ListSet) (hw : WF l) : marker ⟨l.set.setIfInBounds 0 (l.marker + 1)⟩ = l.marker + 1 := by
  have h0 := hw.size
  unfold marker; simp [h0]

theorem visited_reset (l : ListSet) (hw : WF l) (k : Nat) : l.reset.visited k = false := by
  have h0 := hw.size
  unfold reset
  simp only
  split
  · exact visited_zeroed h0 k
  · rename_i hne
    unfold visited
    simp only [len, Array.size_setIfInBounds]
    rw [bumped_marker l hw, Array.getD_eq_getD_getElem?, Array.getElem?_setIfInBounds_ne (by omega)]
    cases hx : l.set[k + 1]? with
    | none =>
      have : ¬ k < l.set.size - 1 := by
        have := Array.getElem?_eq_none_iff.mp hx
        omega
      simp [this]
    | some x =>
      have hle := UInt8.le_iff_toNat_le.mp (hw.le _ x hx)
      have hs := succ_marker_toNat hne
      simp only [Option.getD_some, Bool.and_eq_false_imp, beq_eq_false_iff_ne, ne_eq]
      intro _ hc
      rw [hc, hs] at hle
      omega

theorem wf_reset (l : ListSet) (hw : WF l) : WF l.reset := by
  have h0 := hw.size
  unfold reset
  simp only
  split
  · exact wf_zeroed h0
  · rename_i hne
    refine ⟨by simpa using h0, by rw [bumped_marker l hw]; exact hne, ?_⟩
    intro i x hx
    rw [bumped_marker l hw]
    apply UInt8.le_iff_toNat_le.mpr
    have hs := succ_marker_toNat hne
    rcases Nat.eq_zero_or_pos i with rfl | hi
    · rw [Array.getElem?_setIfInBounds_self_of_lt h0] at hx
      rw [← Option.some.inj hx]; exact Nat.le_refl _
    · rw [Array.getElem?_setIfInBounds_ne (by omega)] at hx
      have hle := UInt8.le_iff_toNat_le.mp (hw.le _ x hx)
      omega

end Fave.ListSet
