import Verif.Lemmas.Heuristic
/-!
# What the neighbour selection keeps and why it drops the rest
-/
namespace Fave.Index
open Queue
variable {V D : Type} [Dist D]

/-- two kept items, the first kept earlier: not farther, and the later one is not closer to the earlier one than to the reference point -/
def Apart (P : Params V D) (f : Nat → Option V) (a b : Item D) : Prop :=
  Dist.lt b.dist a.dist = false ∧ ∀ u w, f a.id = some u → f b.id = some w → Dist.lt ((P.metric.dist w u).getD Dist.zero) b.dist = false

/-- why a candidate was dropped -/
def Dropped (P : Params V D) (f : Nat → Option V) (max : Nat) (kept : List (Item D)) (c : Item D) : Prop :=
  (kept.length = max ∧ ∀ s ∈ kept, Dist.lt c.dist s.dist = false) ∨
  ∃ s ∈ kept, ∃ u w, f s.id = some u ∧ f c.id = some w ∧ Dist.lt c.dist s.dist = false ∧ Dist.lt ((P.metric.dist w u).getD Dist.zero) c.dist = true

theorem heurLoop_spec [LawfulDist D] {P : Params V D} {f : Nat → Option V} {deny : Nat → Bool} {max : Nat} {ids : List Nat} (fuel : Nat)
    {closest : Array (ItemIx D)} {kept r : List (ItemIx D)} (hfuel : closest.size ≤ fuel) (hq : Heap lessMinIx closest)
    (hix : ∀ x ∈ closest.toList, ids[x.index]? = some x.id) (hix' : ∀ x ∈ kept, ids[x.index]? = some x.id)
    (hle : ∀ a ∈ kept, ∀ c ∈ closest.toList, Dist.lt c.dist a.dist = false)
    (hlen : kept.length ≤ max)
    (hpw : (kept.map ItemIx.item).Pairwise (Apart P f)) (hden : ∀ x ∈ kept, deny x.id = false ∧ ∃ u, f x.id = some u)
    (h : heurLoop P f deny max ids fuel closest kept = .ok r) :
    (r.map ItemIx.item).Pairwise (Apart P f) ∧ (∀ x ∈ r, deny x.id = false ∧ ∃ u, f x.id = some u) ∧ (∀ x ∈ kept, x ∈ r) ∧ r.length ≤ max ∧
    ∀ c ∈ closest.toList, deny c.id = false → c ∈ r ∨ Dropped P f max (r.map ItemIx.item) c.item := by
  induction fuel generalizing closest kept with
  | zero =>
    have he : closest = #[] := Array.eq_empty_of_size_eq_zero (by omega)
    subst he
    cases h
    exact ⟨hpw, hden, fun _ h => h, hlen, by simp⟩
  | succ fuel ih =>
    unfold heurLoop at h
    split at h
    · rename_i hm
      cases h
      refine ⟨hpw, hden, fun _ h => h, hlen, fun c hc _ => .inr (.inl ⟨by rw [List.length_map]; omega, ?_⟩)⟩
      intro s hs
      obtain ⟨y, hy, rfl⟩ := List.mem_map.mp hs
      exact hle y hy c hc
    · rename_i hm
      cases hp : pop lessMinIx closest with
      | none =>
        rw [hp] at h; cases h
        have he : closest.toList = [] := by
          by_cases hz : 0 < closest.size
          · obtain ⟨a, b, hab⟩ := pop_isSome lessMinIx hz
            rw [hab] at hp; cases hp
          · have : closest = #[] := Array.eq_empty_of_size_eq_zero (by omega)
            rw [this]
        exact ⟨hpw, hden, fun _ h => h, hlen, by rw [he]; simp⟩
      | some cq =>
        obtain ⟨cur, q⟩ := cq
        rw [hp] at h
        simp only at h
        have hpm := pop_perm lessMinIx hp
        have hsz : q.size ≤ fuel := by
          have := hpm.length_eq
          simp at this; omega
        have hq' := pop_heap swo_minIx hq hp
        have hcur : cur ∈ closest.toList := hpm.mem_iff.mpr (by simp)
        have hqs : ∀ x ∈ q.toList, x ∈ closest.toList := fun x hx => hpm.mem_iff.mpr (by simp [hx])
        have hcl : ∀ x ∈ closest.toList, x = cur ∨ x ∈ q.toList := fun x hx => by
          have := hpm.mem_iff.mp hx
          simpa using this
        have hmin : ∀ c ∈ closest.toList, Dist.lt c.dist cur.dist = false := fun c hc => top_min swo_minIx hq (pop_fst _ hp) c hc
        split at h
        · rename_i hd
          obtain ⟨a1, a2, a3, a4, a5⟩ := ih hsz hq' (fun x hx => hix x (hqs x hx)) hix' (fun a ha c hc => hle a ha c (hqs c hc)) hlen hpw hden h
          refine ⟨a1, a2, a3, a4, fun c hc hcd => ?_⟩
          rcases hcl c hc with rfl | hc'
          · rw [hd] at hcd; cases hcd
          · exact a5 c hc' hcd
        · rename_i hd
          have hd : deny cur.id = false := by simpa using hd
          rw [hix cur hcur] at h
          simp only [Option.bind_some] at h
          cases hw : f cur.id with
          | none => rw [hw] at h; cases h
          | some w =>
            rw [hw] at h
            simp only at h
            split at h
            · rename_i hgood
              rw [List.all_eq_true] at hgood
              have hap : ((kept ++ [cur]).map ItemIx.item).Pairwise (Apart P f) := by
                rw [List.map_append, List.pairwise_append]
                refine ⟨hpw, by simp, fun a ha b hb => ?_⟩
                simp only [List.map_cons, List.map_nil, List.mem_singleton] at hb
                subst hb
                obtain ⟨y, hy, rfl⟩ := List.mem_map.mp ha
                refine ⟨hle y hy cur hcur, fun u w' hu hw' => ?_⟩
                have hw' : f cur.id = some w' := hw'
                have hu : f y.id = some u := hu
                rw [hw] at hw'; cases hw'
                have := hgood y hy
                rw [hix' y hy] at this
                simp only [Option.bind_some, hu] at this
                simpa [ItemIx.item] using this
              obtain ⟨a1, a2, a3, a4, a5⟩ := ih (kept := kept ++ [cur]) hsz hq' (fun x hx => hix x (hqs x hx))
                (fun x hx => by
                  rcases List.mem_append.mp hx with hx | hx
                  · exact hix' x hx
                  · simp at hx; subst hx; exact hix x hcur)
                (fun a ha c hc => by
                  rcases List.mem_append.mp ha with ha | ha
                  · exact hle a ha c (hqs c hc)
                  · simp at ha; subst ha; exact hmin c (hqs c hc))
                (by simp; omega) hap
                (fun x hx => by
                  rcases List.mem_append.mp hx with hx | hx
                  · exact hden x hx
                  · simp at hx; subst hx; exact ⟨hd, w, hw⟩) h
              refine ⟨a1, a2, fun x hx => a3 x (List.mem_append.mpr (.inl hx)), a4, fun c hc hcd => ?_⟩
              rcases hcl c hc with rfl | hc'
              · exact .inl (a3 c (by simp))
              · exact a5 c hc' hcd
            · rename_i hgood
              obtain ⟨a1, a2, a3, a4, a5⟩ := ih hsz hq' (fun x hx => hix x (hqs x hx)) hix' (fun a ha c hc => hle a ha c (hqs c hc)) hlen hpw hden h
              refine ⟨a1, a2, a3, a4, fun c hc hcd => ?_⟩
              rcases hcl c hc with rfl | hc'
              · right; right
                have hbad : ∃ y ∈ kept, (match (ids[y.index]?).bind f with
                    | none => true
                    | some u => !Dist.lt ((P.metric.dist w u).getD Dist.zero) c.dist) = false := by
                  have := hgood
                  rw [Bool.not_eq_true, List.all_eq_false] at this
                  obtain ⟨y, hy, hyb⟩ := this
                  exact ⟨y, hy, by rw [Bool.not_eq_true] at hyb; exact hyb⟩
                obtain ⟨y, hy, hyb⟩ := hbad
                rw [hix' y hy] at hyb
                simp only [Option.bind_some] at hyb
                cases hu : f y.id with
                | none => rw [hu] at hyb; cases hyb
                | some u =>
                  rw [hu] at hyb
                  simp only at hyb
                  exact ⟨y.item, List.mem_map_of_mem (a3 y hy), u, w, hu, hw, hle y hy c hc, by simpa [ItemIx.item] using hyb⟩
              · exact a5 c hc' hcd

/-- The selection: all candidates if there are fewer than `max`; otherwise a list of at most `max` candidates, from near to far, none closer to an
earlier one than to the reference point, and every other candidate was denied or has a reason to be dropped. -/
theorem selectNeighbors_spec [LawfulDist D] {P : Params V D} {f : Nat → Option V} {deny : Nat → Bool} {max : Nat} {input r : Array (Item D)}
    (hmax : max ≤ input.size) (h : selectNeighbors P f deny max input = .ok r) :
    ∃ kept, r.toList.Perm kept ∧ kept.Pairwise (Apart P f) ∧ (∀ x ∈ kept, x ∈ input.toList ∧ deny x.id = false ∧ ∃ u, f x.id = some u) ∧ kept.length ≤ max ∧
    ∀ c ∈ input.toList, deny c.id = false → c ∈ kept ∨ Dropped P f max kept c := by
  have hsub := selectNeighbors_sub h
  unfold selectNeighbors at h
  rw [if_neg (by omega)] at h
  simp only at h
  split at h
  · cases h
  · split at h
    · cases h
    · rename_i kept hk
      cases h
      let g : Item D × Nat → ItemIx D := fun x => ⟨x.1.id, x.2, x.1.dist⟩
      have hperm := foldl_insert_perm lessMinIx g (drain lessMax input).zipIdx #[]
      simp only [List.append_nil] at hperm
      have hkp := foldl_insert_perm lessMax ItemIx.item kept #[]
      simp only [List.append_nil] at hkp
      have hlen : ((drain lessMax input).zipIdx.foldl (fun q x => insert lessMinIx q (g x)) #[]).size ≤ (drain lessMax input).length := by
        have := hperm.length_eq
        simp only [Array.length_toList, List.length_map, List.length_zipIdx] at this
        omega
      obtain ⟨a1, a2, a3, a4, a5⟩ := heurLoop_spec (P := P) (f := f) (deny := deny) (max := max) (ids := (drain lessMax input).map Item.id)
        (drain lessMax input).length (closest := (drain lessMax input).zipIdx.foldl (fun q x => insert lessMinIx q (g x)) #[]) (kept := [])
        hlen (foldl_insert_heap swo_minIx g _ (heap_empty _))
        (by
          intro x hx
          obtain ⟨⟨y, i⟩, hy, rfl⟩ := List.mem_map.mp (hperm.mem_iff.mp hx)
          have hyi : (drain lessMax input)[i]? = some y := List.mem_zipIdx_iff_getElem?.mp hy
          show ((drain lessMax input).map Item.id)[i]? = some y.id
          rw [List.getElem?_map, hyi]; rfl)
        (by intro x hx; cases hx) (by intro x hx; cases hx) (by simp) .nil (by intro x hx; cases hx) hk
      refine ⟨kept.map ItemIx.item, hkp, a1, ?_, by rw [List.length_map]; exact a4, ?_⟩
      · intro x hx
        constructor
        · obtain ⟨⟨rest, hr⟩, _⟩ := hsub
          refine hr.mem_iff.mp (List.mem_append.mpr (.inl (hkp.mem_iff.mpr hx)))
        · obtain ⟨y, hy, rfl⟩ := List.mem_map.mp hx
          exact a2 y hy
      · intro c hc hcd
        have hc' : c ∈ drain lessMax input := (drain_perm lessMax input).mem_iff.mpr hc
        obtain ⟨i, hi⟩ := List.getElem?_of_mem hc'
        have hz : (c, i) ∈ (drain lessMax input).zipIdx := List.mem_zipIdx_iff_getElem?.mpr hi
        have := a5 (g (c, i)) (hperm.mem_iff.mpr (List.mem_map_of_mem hz)) hcd
        rcases this with h1 | h1
        · exact .inl (List.mem_map.mpr ⟨_, h1, rfl⟩)
        · exact .inr h1
end Fave.Index
