import Verif.Lemmas.JsonPrefix
/-!
# Lemmas about JSON texts: whatever is read has proper numbers
-/
namespace Fave.Json

theorem digits_digits {t a b : Text} (h : digits t = (a, b)) (ha : a ≠ []) : Digits a := by
  refine ⟨ha, fun c hc => ?_⟩
  simp only [digits, Prod.mk.injEq] at h
  rw [← h.1] at hc
  clear h ha
  induction t with
  | nil => simp at hc
  | cons d t ih =>
    rw [List.takeWhile_cons] at hc
    split at hc
    · rename_i hd
      rcases List.mem_cons.1 hc with rfl | hc
      · exact hd
      · exact ih hc
    · simp at hc

theorem readFrac_ok {t : Text} {f : Option Text} {r : Text} (h : readFrac t = some (f, r)) : ∀ x, f = some x → Digits x := by
  intro x hx
  subst hx
  unfold readFrac at h
  split at h
  · split at h
    · simp at h
    · rename_i a b hne hd
      simp only [Option.some.injEq, Prod.mk.injEq] at h
      obtain ⟨h1, -⟩ := h
      subst h1
      exact digits_digits hd (fun e => hne (by rw [e]))
  · simp at h

theorem readExp_ok {t : Text} {x : Option (Bool × Text)} {r : Text} (h : readExp t = some (x, r)) : ∀ n e, x = some (n, e) → Digits e := by
  intro n e hx
  subst hx
  unfold readExp at h
  split at h
  · simp at h
  · split at h
    · split at h
      · simp at h
      · rename_i a b hne hd
        simp only [Option.some.injEq, Prod.mk.injEq] at h
        obtain ⟨⟨-, h1⟩, -⟩ := h
        subst h1
        exact digits_digits hd (fun e => hne (by rw [e]))
    · simp at h

theorem readBody_ok {neg : Bool} {t : Text} {l : Lit} {r : Text} (h : readBody neg t = some (l, r)) : l.Ok := by
  unfold readBody at h
  split at h
  · simp at h
  · rename_i hc
    simp only [not_or, not_and] at hc
    split at h
    · simp at h
    · rename_i f s hf
      obtain ⟨⟨x, s'⟩, hx, e⟩ := Option.map_eq_some_iff.1 h
      simp only [Prod.mk.injEq] at e
      obtain ⟨rfl, -⟩ := e
      exact ⟨digits_digits rfl hc.1, fun h0 => Decidable.not_not.1 (hc.2 h0), readFrac_ok hf, readExp_ok hx⟩

theorem readNum_ok {t : Text} {l : Lit} {r : Text} (h : readNum t = some (l, r)) : l.Ok := by
  unfold readNum at h
  split at h <;> exact readBody_ok h

theorem reads_ok (n : Nat) : (∀ t v r, value n t = some (v, r) → v.Ok) ∧ (∀ t l r, elems n t = some (l, r) → ∀ v ∈ l, v.Ok) ∧
    (∀ t l r, members n t = some (l, r) → ∀ m ∈ l, m.2.Ok) := by
  induction n with
  | zero => simp [value, elems, members]
  | succ n ih =>
    obtain ⟨h1, h2, h3⟩ := ih
    refine ⟨?_, ?_, ?_⟩
    · intro t v r h
      unfold value at h
      split at h
      · obtain ⟨x, -, e⟩ := Option.map_eq_some_iff.1 h
        simp only [Prod.mk.injEq] at e
        rw [← e.1]; exact .str _
      · split at h
        · simp only [Option.some.injEq, Prod.mk.injEq] at h
          rw [← h.1]; exact .arr _ (by simp)
        · obtain ⟨x, hx, e⟩ := Option.map_eq_some_iff.1 h
          simp only [Prod.mk.injEq] at e
          rw [← e.1]; exact .arr _ (h2 _ _ _ hx)
      · split at h
        · simp only [Option.some.injEq, Prod.mk.injEq] at h
          rw [← h.1]; exact .obj _ (by simp)
        · obtain ⟨x, hx, e⟩ := Option.map_eq_some_iff.1 h
          simp only [Prod.mk.injEq] at e
          rw [← e.1]; exact .obj _ (h3 _ _ _ hx)
      · simp only [Option.some.injEq, Prod.mk.injEq] at h; rw [← h.1]; exact .null
      · simp only [Option.some.injEq, Prod.mk.injEq] at h; rw [← h.1]; exact .bool _
      · simp only [Option.some.injEq, Prod.mk.injEq] at h; rw [← h.1]; exact .bool _
      · obtain ⟨x, hx, e⟩ := Option.map_eq_some_iff.1 h
        simp only [Prod.mk.injEq] at e
        rw [← e.1]; exact .num _ (readNum_ok (r := x.2) hx)
    · intro t l r h
      unfold elems at h
      split at h
      · simp at h
      · rename_i v s hv
        split at h
        · obtain ⟨x, hx, e⟩ := Option.map_eq_some_iff.1 h
          simp only [Prod.mk.injEq] at e
          rw [← e.1]
          intro w hw
          rcases List.mem_cons.1 hw with rfl | hw
          · exact h1 _ _ _ hv
          · exact h2 _ _ _ hx w hw
        · simp only [Option.some.injEq, Prod.mk.injEq] at h
          rw [← h.1]
          intro w hw
          rw [List.mem_singleton.1 hw]
          exact h1 _ _ _ hv
        · simp at h
    · intro t l r h
      unfold members at h
      split at h
      · split at h
        · simp at h
        · rename_i k s hk
          split at h
          · split at h
            · simp at h
            · rename_i v s' hv
              split at h
              · obtain ⟨x, hx, e⟩ := Option.map_eq_some_iff.1 h
                simp only [Prod.mk.injEq] at e
                rw [← e.1]
                intro w hw
                rcases List.mem_cons.1 hw with rfl | hw
                · exact h1 _ _ _ hv
                · exact h3 _ _ _ hx w hw
              · simp only [Option.some.injEq, Prod.mk.injEq] at h
                rw [← h.1]
                intro w hw
                rw [List.mem_singleton.1 hw]
                exact h1 _ _ _ hv
              · simp at h
          · simp at h
      · simp at h

/-- whatever is read has proper numbers, so that it could have been written -/
theorem parse_ok {t : Text} {v : J} (h : parse t = some v) : v.Ok := by
  unfold parse at h
  split at h
  · rename_i w r hw
    split at h
    · simp only [Option.some.injEq] at h
      rw [← h]
      exact (reads_ok _).1 _ _ _ hw
    · simp at h
  · simp at h

end Fave.Json
