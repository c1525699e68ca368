import Verif.Lemmas.History
/-! # After a successful addition the new vector is stored under its number -/
namespace Fave.Index
variable {V D : Type} [Dist D]

theorem add_self {P : Params V D} {vo : VecOracle V} {sched : Graph.Scheds D} {s s' : Index V} {x : Nat} {vec : V} {level : Nat} (hi : IdsOk s)
    (h : add P vo sched s x vec level = (s', none)) : ∃ v, s'.get x = some v ∧ v.id = x ∧ v.vec = P.norm vec := by
  unfold add at h
  split at h
  · cases h
  · unfold insertNode at h
    split at h
    · unfold insertInitial at h
      simp only [Prod.mk.injEq] at h
      obtain ⟨rfl, _⟩ := h
      refine ⟨⟨x, 0, [[]], false, P.norm vec, false⟩, ?_, rfl, rfl⟩
      rw [get_put, if_pos rfl]
    · simp only at h
      split at h
      · cases h
      · have h0 : IdsOk ({ s with once := true } : Index V) := ⟨hi.cache, hi.kv⟩
        have h1 := idsOk_put h0 (newNode x (P.norm vec) level)
        have hg : (({ s with once := true } : Index V).put (newNode x (P.norm vec) level)).get x = some (newNode x (P.norm vec) level) := by
          rw [get_put, if_pos (show x = (newNode x (P.norm vec) level).id from rfl)]
        unfold connectNew at h
        split at h
        · cases h
        · rename_i ep _
          split at h
          · cases h
          · rename_i s1 he
            have hx := doLevels_ext P vo sched (P.norm vec) x (Nat.min level ({ s with once := true } : Index V).maxLayer + 1) _ ep h1
            rw [show (Nat.min level ({ s with once := true } : Index V).maxLayer) = Nat.min level (({ s with once := true } : Index V).put (newNode x (P.norm vec) level)).maxLayer from rfl, he] at hx
            obtain ⟨v1, g1, g2⟩ := hx.self h1 _ hg
            have hi1 := hx.ids h1
            split at h
            · cases h
            · rename_i v hv
              simp only at g1
              obtain rfl : v = v1 := by rw [hv] at g1; exact Option.some.inj g1
              have hvid := hi1.get hv
              have hgx : (s1.put { v with maint := false }).get x = some { v with maint := false } := by
                rw [get_put, if_pos (show x = v.id from hvid.symm)]
              simp only at h
              split at h
              · cases h; exact ⟨_, hgx, hvid, g2⟩
              · cases h; exact ⟨_, hgx, hvid, g2⟩

end Fave.Index
