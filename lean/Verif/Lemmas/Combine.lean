import Verif.Lemmas.LogFiles
/-!
# Combining two logs: what the directory lists afterwards
-/
namespace Fave
namespace Log

theorem filter_ne_split {l r : List FName} {a : FName} (hl : a ∉ l) (hr : a ∉ r) :
    (l ++ a :: r).filter (fun m => m ≠ a) = l ++ r := by
  rw [List.filter_append, List.filter_cons_of_neg (by simp)]
  congr 1
  · rw [List.filter_eq_self]; intro x hx; simp only [ne_eq, decide_eq_true_eq]; intro e; exact hl (e ▸ hx)
  · rw [List.filter_eq_self]; intro x hx; simp only [ne_eq, decide_eq_true_eq]; intro e; exact hr (e ▸ hx)

theorem nodup_of_ts {l : List FName} (h : (l.map FName.ts).Nodup) : l.Nodup := by
  rw [List.nodup_iff_pairwise_ne] at h ⊢
  rw [List.pairwise_map] at h
  exact h.imp fun h e => h (by rw [e])

/-- the situation in which two logs are combined -/
structure Combinable (d : Dir) (a b : FName) (pre post : List FName) : Prop where
  clean : d.Clean
  split : d.listing = pre ++ a :: b :: post
  ka : a.kind = .condensed
  kb : b.kind = .condensed

namespace Combinable
variable {d : Dir} {a b : FName} {pre post : List FName}

theorem nodup (h : Combinable d a b pre post) : (pre ++ a :: b :: post).Nodup := by
  have := nodup_of_ts h.clean.listing_nodup
  rwa [h.split] at this

theorem base_new (h : Combinable d a b pre post) : a.base ∉ d.names := by
  intro hm
  have h1 : a.base ∈ d.listing := mem_listing.2 ⟨hm, rfl⟩
  have h2 : a ∈ d.listing := by rw [h.split]; simp
  have := eq_of_ts h.clean.listing_nodup h1 h2 rfl
  have hk := h.ka
  rw [← this] at hk
  cases hk

theorem base_not_listed (h : Combinable d a b pre post) : a.base ∉ pre ++ a :: b :: post := by
  intro hm
  rw [← h.split] at hm
  exact h.base_new (mem_listing.1 hm).1

theorem nots (h : Combinable d a b pre post) : a ∉ pre ∧ a ∉ b :: post ∧ b ∉ pre ∧ b ∉ post := by
  have := h.nodup
  rw [List.nodup_append] at this
  obtain ⟨h1, h2, h3⟩ := this
  rw [List.nodup_cons] at h2
  obtain ⟨h4, h5⟩ := h2
  rw [List.nodup_cons] at h5
  exact ⟨fun hm => h3 a hm a (by simp) rfl, h4, fun hm => h3 b hm b (by simp) rfl, h5.1⟩

theorem visible_renamed (h : Combinable d a b pre post) :
    (d.renamed a b).names.filter FName.visible = d.names.filter FName.visible ++ [a.base] := by
  unfold Dir.renamed
  have : a.base ∉ (d.erase a.tmp).names := by
    intro hm
    exact h.base_new (List.mem_filter.1 hm).1
  rw [put_names_new this, List.filter_append]
  show (d.names.filter _).filter FName.visible ++ _ = _
  rw [filter_erase _ _ rfl]
  rfl

theorem perm_vis (h : Combinable d a b pre post) : (d.names.filter FName.visible).Perm (pre ++ a :: b :: post) := by
  rw [← h.split]; exact (listing_perm d).symm

/-- sorted and free of repeated time stamps -/
theorem sorted_ab (h : Combinable d a b pre post) :
    ((pre ++ a :: b :: post).map FName.ts).Pairwise (· ≤ ·) ∧ ((pre ++ a :: b :: post).map FName.ts).Nodup := by
  constructor
  · have := listing_sorted d
    rw [h.split] at this
    exact List.pairwise_map.2 this
  · have := h.clean.listing_nodup
    rwa [h.split] at this

theorem sublist_done : List.Sublist ((pre ++ a.base :: post).map FName.ts) ((pre ++ a :: b :: post).map FName.ts) := by
  rw [List.map_append, List.map_append]
  refine List.Sublist.append (List.Sublist.refl _) ?_
  simp only [List.map_cons]
  exact List.Sublist.cons_cons _ (List.sublist_cons_self _ _)

theorem map_window : (pre ++ a.base :: b :: post).map FName.ts = (pre ++ a :: b :: post).map FName.ts := by
  simp [FName.base]

theorem perm_first (h : Combinable d a b pre post) :
    ((d.names.filter FName.visible ++ [a.base]).filter (fun m => m ≠ a)).Perm (pre ++ a.base :: b :: post) := by
  have hab : a.base ≠ a := by
    intro e
    have hk := h.ka
    rw [← e] at hk; cases hk
  rw [List.filter_append]
  have e1 : [a.base].filter (fun m => decide (m ≠ a)) = [a.base] := by simp [hab]
  rw [e1]
  have h1 : ((d.names.filter FName.visible).filter (fun m => m ≠ a)).Perm (pre ++ b :: post) := by
    have := h.perm_vis.filter (fun m => decide (m ≠ a))
    rwa [filter_ne_split h.nots.1 h.nots.2.1] at this
  refine (h1.append_right _).trans ?_
  rw [List.append_assoc]
  refine List.Perm.append_left pre ?_
  exact List.perm_append_comm (l₁ := b :: post) (l₂ := [a.base])

/-- between the renaming and the removal of the second source -/
theorem listing_first (h : Combinable d a b pre post) : ((d.renamed a b).erase a).listing = pre ++ a.base :: b :: post := by
  refine listing_eq ?_ ?_ ?_
  · rw [map_window]; exact h.sorted_ab.2
  · refine h.perm_first.symm.trans ?_
    rw [← h.visible_renamed]
    show List.Perm _ (((d.renamed a b).names.filter (fun m => m ≠ a)).filter FName.visible)
    rw [List.filter_filter, List.filter_filter]
    refine List.Perm.of_eq (List.filter_congr fun m hm => Bool.and_comm _ _)
  · rw [← List.pairwise_map (f := FName.ts) (R := (· ≤ ·)), map_window]; exact h.sorted_ab.1

theorem fix_renamed (h : Combinable d a b pre post) : fix (d.renamed a b).listing = pre ++ a.base :: b :: post := by
  have hp : (d.renamed a b).listing.Perm (d.names.filter FName.visible ++ [a.base]) := by
    rw [← h.visible_renamed]; exact listing_perm _
  have hf : fix (d.renamed a b).listing = (d.renamed a b).listing.filter (fun m => m ≠ a) := by
    unfold fix
    refine List.filter_congr fun n hn => ?_
    by_cases hna : n = a
    · subst hna
      have : n.base ∈ (d.renamed n b).listing := hp.mem_iff.2 (by simp)
      simp [h.ka, this]
    · by_cases hk : n.kind = .condensed
      · have : n.base ∉ (d.renamed a b).listing := by
          intro hm
          have hn' : n ∈ d.names.filter FName.visible := by
            rcases List.mem_append.1 (hp.mem_iff.1 hn) with hx | hx
            · exact hx
            · simp only [List.mem_singleton] at hx
              rw [hx] at hk; cases hk
          have ha' : a ∈ d.names.filter FName.visible := h.perm_vis.mem_iff.2 (by simp)
          rcases List.mem_append.1 (hp.mem_iff.1 hm) with hx | hx
          · have := eq_of_ts h.clean.ts hx hn' rfl
            rw [← this] at hk; cases hk
          · simp only [List.mem_singleton, FName.base, FName.mk.injEq, and_true] at hx
            exact hna (eq_of_ts h.clean.ts hn' ha' hx)
        simp [hk, hna, this]
      · simp [hk, hna]
  rw [hf]
  refine eq_of_sorted ((listing_sorted _).filter _) ?_ ((hp.filter _).trans h.perm_first) ?_
  · rw [← List.pairwise_map (f := FName.ts) (R := (· ≤ ·)), map_window]; exact h.sorted_ab.1
  · refine nodup_map_perm ((hp.filter _).trans h.perm_first) ?_
    rw [map_window]; exact h.sorted_ab.2

theorem perm_done (h : Combinable d a b pre post) :
    ((d.combine a b).names.filter FName.visible).Perm (pre ++ a.base :: post) := by
  have hba : b ≠ a.base := by intro e; have := h.kb; rw [e] at this; cases this
  have h1 := listing_perm ((d.renamed a b).erase a)
  rw [h.listing_first] at h1
  show ((((d.renamed a b).erase a).names.filter (fun m => m ≠ b)).filter FName.visible).Perm _
  rw [List.filter_filter]
  have h2 := h1.symm.filter (fun m => decide (m ≠ b))
  have e : pre ++ a.base :: b :: post = (pre ++ [a.base]) ++ b :: post := by simp
  rw [e, filter_ne_split (by simp [h.nots.2.2.1, hba]) h.nots.2.2.2, List.filter_filter] at h2
  have e2 : pre ++ [a.base] ++ post = pre ++ a.base :: post := by simp
  rw [e2] at h2
  refine (List.Perm.of_eq (List.filter_congr fun m hm => Bool.and_comm _ _)).trans h2

theorem nodup_done (h : Combinable d a b pre post) : ((pre ++ a.base :: post).map FName.ts).Nodup :=
  h.sorted_ab.2.sublist sublist_done

/-- after combining -/
theorem listing_done (h : Combinable d a b pre post) : (d.combine a b).listing = pre ++ a.base :: post := by
  refine listing_eq h.nodup_done h.perm_done.symm ?_
  rw [← List.pairwise_map (f := FName.ts) (R := (· ≤ ·))]
  exact h.sorted_ab.1.sublist sublist_done

theorem clean_done (h : Combinable d a b pre post) : (d.combine a b).Clean := by
  refine ⟨?_, nodup_map_perm h.perm_done h.nodup_done⟩
  refine List.Nodup.sublist List.filter_sublist (List.Nodup.sublist List.filter_sublist ?_)
  unfold Dir.renamed
  have hb : a.base ∉ (d.erase a.tmp).names := fun hm => h.base_new (List.mem_filter.1 hm).1
  rw [put_names_new hb, List.nodup_append]
  refine ⟨h.clean.nodup.sublist List.filter_sublist, by simp, fun x hx y hy e => ?_⟩
  simp only [List.mem_singleton] at hy
  subst hy; subst e; exact hb hx

theorem content (h : Combinable d a b pre post) {n : FName} (hn : n ∈ pre ++ a :: b :: post) :
    (d.renamed a b).content n = d.content n := by
  show (if n = a.base then _ else d.content n) = _
  rw [if_neg]
  intro e
  subst e
  exact h.base_not_listed hn

theorem content_base : (d.renamed a b).content a.base = d.merged a b := by
  show (if a.base = a.base then _ else _) = _
  rw [if_pos rfl]

theorem contents (h : Combinable d a b pre post) {l : List FName} (hl : ∀ n ∈ l, n ∈ pre ++ a :: b :: post) :
    l.map (d.renamed a b).content = l.map d.content := List.map_congr_left fun n hn => h.content (hl n hn)

theorem replayed (h : Combinable d a b pre post) :
    d.replayed = (pre.map d.content).flatten ++ d.merged a b ++ (post.map d.content).flatten := by
  unfold Dir.replayed
  rw [fix_clean h.clean.listing_nodup, h.split]
  simp [Dir.merged]

theorem replayed_done (h : Combinable d a b pre post) :
    (d.combine a b).replayed = (pre.map d.content).flatten ++ d.merged a b ++ (post.map d.content).flatten := by
  have hc : (d.combine a b).content = (d.renamed a b).content := rfl
  unfold Dir.replayed
  rw [fix_clean h.clean_done.listing_nodup, h.listing_done, hc, List.map_append, List.map_cons, content_base,
    h.contents (l := pre) (fun n hn => by simp [hn]), h.contents (l := post) (fun n hn => by simp [hn])]
  simp

theorem replayed_window (h : Combinable d a b pre post) :
    (((pre ++ a.base :: b :: post).map (d.renamed a b).content).flatten) =
      (pre.map d.content).flatten ++ d.merged a b ++ d.content b ++ (post.map d.content).flatten := by
  rw [List.map_append, List.map_cons, List.map_cons, content_base, h.content (n := b) (by simp),
    h.contents (l := pre) (fun n hn => by simp [hn]), h.contents (l := post) (fun n hn => by simp [hn])]
  simp

theorem replayed_renamed (h : Combinable d a b pre post) :
    (d.renamed a b).replayed =
      (pre.map d.content).flatten ++ d.merged a b ++ d.content b ++ (post.map d.content).flatten := by
  unfold Dir.replayed
  rw [h.fix_renamed, h.replayed_window]

theorem replayed_first (h : Combinable d a b pre post) :
    ((d.renamed a b).erase a).replayed =
      (pre.map d.content).flatten ++ d.merged a b ++ d.content b ++ (post.map d.content).flatten := by
  have hc : ((d.renamed a b).erase a).content = (d.renamed a b).content := rfl
  unfold Dir.replayed
  have hn : ((pre ++ a.base :: b :: post).map FName.ts).Nodup := by rw [map_window]; exact h.sorted_ab.2
  rw [h.listing_first, fix_clean hn, hc, h.replayed_window]

end Combinable

theorem combine_names_lt {d : Dir} {a b : FName} {pre post : List FName} (h : Combinable d a b pre post) :
    (d.combine a b).listing.length + 1 = d.listing.length := by
  rw [h.listing_done, h.split]; simp; omega

end Log
end Fave
