import Verif.Model.LogFiles
/-!
# Listing and combining files: lemmas
-/
namespace Fave
namespace Log

/-- every log exists in one form only -/
structure Dir.Clean (d : Dir) : Prop where
  nodup : d.names.Nodup
  ts : ((d.names.filter FName.visible).map FName.ts).Nodup

theorem insertTs_perm (n : FName) (l : List FName) : (insertTs n l).Perm (n :: l) := by
  induction l with
  | nil => exact .refl _
  | cons m l ih =>
    unfold insertTs
    split
    · exact .refl _
    · exact (ih.cons m).trans (.swap n m l)

theorem insertTs_sorted (n : FName) {l : List FName} (h : l.Pairwise (fun a b => a.ts ≤ b.ts)) :
    (insertTs n l).Pairwise (fun a b => a.ts ≤ b.ts) := by
  induction l with
  | nil => exact List.pairwise_singleton _ _
  | cons m l ih =>
    rw [List.pairwise_cons] at h
    unfold insertTs
    split
    · rename_i hle
      rw [List.pairwise_cons, List.pairwise_cons]
      refine ⟨fun x hx => ?_, h⟩
      rcases List.mem_cons.1 hx with hx | hx
      · subst hx; exact hle
      · have := h.1 x hx; omega
    · rename_i hle
      rw [List.pairwise_cons]
      refine ⟨fun x hx => ?_, ih h.2⟩
      rcases List.mem_cons.1 ((insertTs_perm n l).mem_iff.1 hx) with hx | hx
      · subst hx; omega
      · exact h.1 x hx

theorem listing_perm (d : Dir) : d.listing.Perm (d.names.filter FName.visible) := by
  unfold Dir.listing
  induction d.names.filter FName.visible with
  | nil => exact .refl _
  | cons n l ih => exact (insertTs_perm n _).trans (ih.cons n)

theorem listing_sorted (d : Dir) : d.listing.Pairwise (fun a b => a.ts ≤ b.ts) := by
  unfold Dir.listing
  induction d.names.filter FName.visible with
  | nil => exact .nil
  | cons n l ih => exact insertTs_sorted n ih

theorem eq_of_ts {l : List FName} (h : (l.map FName.ts).Nodup) {a b : FName} (ha : a ∈ l) (hb : b ∈ l) (he : a.ts = b.ts) :
    a = b := by
  rw [List.nodup_iff_pairwise_ne, List.pairwise_map] at h
  induction l with
  | nil => cases ha
  | cons c l ih =>
    rw [List.pairwise_cons] at h
    rcases List.mem_cons.1 ha with ha1 | ha1
    · rcases List.mem_cons.1 hb with hb1 | hb1
      · rw [ha1, hb1]
      · subst ha1; exact absurd he (h.1 b hb1)
    · rcases List.mem_cons.1 hb with hb1 | hb1
      · subst hb1; exact absurd he.symm (h.1 a ha1)
      · exact ih h.2 ha1 hb1

theorem eq_of_sorted {l1 l2 : List FName} (h1 : l1.Pairwise (fun a b => a.ts ≤ b.ts)) (h2 : l2.Pairwise (fun a b => a.ts ≤ b.ts))
    (hp : l1.Perm l2) (hn : (l1.map FName.ts).Nodup) : l1 = l2 := by
  refine List.Perm.eq_of_pairwise (le := fun a b : FName => a.ts ≤ b.ts) (fun a b ha hb hab hba => ?_) h1 h2 hp
  exact eq_of_ts hn ha (hp.mem_iff.2 hb) (by omega)

theorem nodup_map_perm {l1 l2 : List FName} (hp : l1.Perm l2) (h : (l2.map FName.ts).Nodup) : (l1.map FName.ts).Nodup :=
  (hp.map FName.ts).symm.nodup h

/-- in a clean directory the listing is the only sorted arrangement -/
theorem listing_eq {d : Dir} {l : List FName} (hn : (l.map FName.ts).Nodup) (hp : l.Perm (d.names.filter FName.visible))
    (hs : l.Pairwise (fun a b => a.ts ≤ b.ts)) : d.listing = l :=
  (eq_of_sorted hs (listing_sorted d) (hp.trans (listing_perm d).symm) hn).symm

theorem Dir.Clean.listing_nodup {d : Dir} (h : d.Clean) : (d.listing.map FName.ts).Nodup :=
  nodup_map_perm (listing_perm d) h.ts

theorem mem_listing {d : Dir} {n : FName} : n ∈ d.listing ↔ n ∈ d.names ∧ n.visible = true := by
  rw [(listing_perm d).mem_iff, List.mem_filter]

/-- nothing to fix in a clean listing -/
theorem fix_clean {l : List FName} (h : (l.map FName.ts).Nodup) : fix l = l := by
  unfold fix
  rw [List.filter_eq_self]
  intro n hn
  by_cases hk : n.kind = .condensed
  · have : ¬ n.base ∈ l := fun hb => by
      have := eq_of_ts h hn hb rfl
      rw [this] at hk; cases hk
    simp [this]
  · simp [hk]

theorem firstMatch_split {size : FName → Nat} {t : Nat} {l : List FName} {a b : FName} (h : firstMatch size t l = some (a, b)) :
    ∃ pre post, l = pre ++ a :: b :: post ∧ a.kind = .condensed ∧ b.kind = .condensed ∧ size a + size b ≤ t := by
  induction l with
  | nil => cases h
  | cons x l ih =>
    cases l with
    | nil => cases h
    | cons y rest =>
      simp only [firstMatch] at h
      have skip : firstMatch size t (y :: rest) = some (a, b) →
          ∃ pre post, x :: y :: rest = pre ++ a :: b :: post ∧ a.kind = .condensed ∧ b.kind = .condensed ∧ size a + size b ≤ t := by
        intro h
        obtain ⟨pre, post, h1, h2⟩ := ih h
        exact ⟨x :: pre, post, by rw [h1]; rfl, h2⟩
      split at h
      · exact skip h
      · split at h
        · exact skip h
        · split at h
          · exact skip h
          · split at h
            · exact skip h
            · rename_i h1 h2 h3 h4
              cases h
              exact ⟨[], rest, rfl, Decidable.not_not.1 h1, Decidable.not_not.1 h2, by omega⟩

theorem filter_erase (l : List FName) (n : FName) (h : n.visible = false) :
    (l.filter (fun m => m ≠ n)).filter FName.visible = l.filter FName.visible := by
  rw [List.filter_filter]
  refine List.filter_congr fun m hm => ?_
  by_cases hmn : m = n
  · subst hmn; simp [h]
  · simp [hmn]

theorem put_names_new {d : Dir} {n : FName} {b : Bytes} (h : n ∉ d.names) : (d.put n b).names = d.names ++ [n] := by
  simp [Dir.put, h]

theorem put_visible_tmp (d : Dir) (n : FName) (b : Bytes) (h : n.visible = false) :
    (d.put n b).names.filter FName.visible = d.names.filter FName.visible := by
  unfold Dir.put
  by_cases hn : n ∈ d.names
  · simp [hn]
  · simp [hn, List.filter_append, h]

theorem replayed_congr {d d' : Dir} (h1 : d'.names.filter FName.visible = d.names.filter FName.visible)
    (h2 : ∀ n ∈ d.names, n.visible = true → d'.content n = d.content n) : d'.replayed = d.replayed := by
  have hl : d'.listing = d.listing := by unfold Dir.listing; rw [h1]
  unfold Dir.replayed
  rw [hl]
  congr 1
  refine List.map_congr_left fun n hn => ?_
  have : n ∈ d.listing := (List.mem_filter.1 hn).1
  exact h2 n (mem_listing.1 this).1 (mem_listing.1 this).2

theorem sweep_visible (d : Dir) : d.sweep.names.filter FName.visible = d.names.filter FName.visible := by
  show (d.names.filter _).filter _ = _
  rw [List.filter_filter]
  refine List.filter_congr fun n _ => ?_
  unfold FName.visible
  cases n.kind <;> rfl

theorem sweep_clean {d : Dir} (h : d.Clean) : d.sweep.Clean :=
  ⟨h.nodup.sublist List.filter_sublist, by rw [sweep_visible]; exact h.ts⟩

theorem sweep_listing (d : Dir) : d.sweep.listing = d.listing := by unfold Dir.listing; rw [sweep_visible]

theorem sweep_replayed (d : Dir) : d.sweep.replayed = d.replayed := by
  unfold Dir.replayed; rw [sweep_listing]; rfl

end Log
end Fave
