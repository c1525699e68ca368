import Verif.Lemmas.CondenseInv
/-!
# The operations in a condensed log
-/
namespace Fave
namespace Log

/-- Condensing a log that is condensable on top of `w` gives the encoding of operations that do the same on top of `w`. -/
theorem condense_ops {maxLen : Nat} (hm : 56250 ≤ maxLen) (w : View) (ops : List LogOp)
    (hr : ∀ op ∈ ops, op.InRange) (hf : ∀ op ∈ ops, op.Fits maxLen) (hc : Condensable w ops)
    (hl : ∀ i l, linkLens ops i l ≤ 65535) (order : LogState → List Nat) (ho : ∀ s, (order s).Perm s.tombs) :
    ∃ s, applyAll maxLen true fresh ops = .ok s ∧ CInv maxLen w ops s ∧
      condense maxLen order (encodeAll ops) = .ok (encodeAll (condOps s (order s))) ∧
      (∀ op ∈ condOps s (order s), op.InRange ∧ op.Fits maxLen ∧ ∀ d, op ≠ .addPQ d) ∧
      semAll w (condOps s (order s)) = semAll w ops := by
  obtain ⟨s, h1, h2⟩ := (CInv.init maxLen w).all hm hr hf hc
  rw [List.nil_append] at h2
  have hview : ∀ i v, i < s.nodes.len → s.nodes.get i = some v → s.view.node i = some v := fun i v hi hv => by
    show (if i < s.nodes.len then _ else _) = _
    rw [if_pos hi, hv]
  have hsmall : ∀ i v, i < s.nodes.len → s.nodes.get i = some v → v.Small := fun i v hi hv => by
    have hk := h2.node i v (hview i v hi hv)
    refine ⟨hk.levels, fun c hc => ?_⟩
    obtain ⟨l, hl'⟩ := List.getElem?_of_mem hc
    have := (hk.links l c hl').1
    have := hl i l
    omega
  have hsane : Sane s := fun i v hi hv => by
    have hk := h2.node i v (hview i v hi hv)
    exact ⟨hk.id, hk.level⟩
  have hmem : ∀ op ∈ condOps s (order s), op.InRange ∧ op.Fits maxLen ∧ ∀ d, op ≠ .addPQ d := by
    intro op hop
    unfold condOps nodeOps at hop
    rcases List.mem_append.1 hop with hop | hop
    · rcases List.mem_append.1 hop with hop | hop
      · obtain ⟨i, hi, hop⟩ := List.mem_flatMap.1 hop
        cases hv : s.nodes.get i with
        | none => rw [hv] at hop; cases hop
        | some v =>
          rw [hv] at hop
          have hi : i < s.nodes.len := by simpa using hi
          have hk := h2.node i v (hview i v hi hv)
          have hi50 := hk.fits
          have hid := hk.id
          simp only [vertexOps] at hop
          rcases List.mem_append.1 hop with hop | hop
          · by_cases h0 : v.level > 0
            · rw [if_pos h0] at hop
              simp only [List.mem_singleton] at hop
              subst hop
              have a1 := hk.level
              have a2 := hk.levels
              simp only [LogOp.InRange, LogOp.Fits, hid]
              exact ⟨⟨by omega, by omega⟩, ⟨by omega, hi50.1, hi50.2⟩, by simp⟩
            · rw [if_neg h0] at hop; cases hop
          · -- level records
            have key : ∀ (cs : List (List Nat)) (k : Nat), k + cs.length < 2 ^ 16 →
                (∀ c ∈ cs, c.length < 2 ^ 16 ∧ ∀ t ∈ c, t < 2 ^ 64) →
                op ∈ levelOps (s.replaced v.id) v.id k cs → op.InRange ∧ op.Fits maxLen ∧ ∀ d, op ≠ .addPQ d := by
              intro cs
              induction cs with
              | nil => intro k _ _ h; cases h
              | cons c cs ih =>
                intro k hk1 hcs h
                simp only [List.length_cons] at hk1
                rcases List.mem_cons.1 h with h | h
                · subst h
                  have := hcs c (by simp)
                  by_cases hrep : s.replaced v.id k = true
                  · rw [if_pos hrep]
                    simp only [LogOp.InRange, LogOp.Fits, hid]
                    exact ⟨⟨by omega, by omega, this⟩, ⟨by omega, hi50⟩, by simp⟩
                  · rw [if_neg hrep]
                    simp only [LogOp.InRange, LogOp.Fits, hid]
                    exact ⟨⟨by omega, by omega, this⟩, ⟨by omega, hi50⟩, by simp⟩
                · exact ih (k + 1) (by omega) (fun d hd => hcs d (by simp [hd])) h
            refine key v.conns 0 (by have := hk.levels; omega) (fun c hc => ?_) hop
            obtain ⟨l, hl'⟩ := List.getElem?_of_mem hc
            have h5 := hk.links l c hl'
            have := hl i l
            exact ⟨by omega, h5.2⟩
      · by_cases he : s.epChanged = true
        · rw [if_pos he] at hop
          simp only [List.mem_singleton] at hop
          subst hop
          exact ⟨h2.ep, trivial, by simp⟩
        · rw [if_neg he] at hop; cases hop
    · obtain ⟨t, ht, rfl⟩ := List.mem_map.1 hop
      refine ⟨h2.tomb t ?_, trivial, by simp⟩
      rw [view_tomb]
      simpa using (ho s).mem_iff.1 ht
  refine ⟨s, h1, h2, ?_, hmem, ?_⟩
  · unfold condense
    rw [replay_encode hr h1, ← condensed_eq s (order s) hsmall]
  · rw [semAll_condOps w s hsane (ho s), h2.sem]

end Log
end Fave
