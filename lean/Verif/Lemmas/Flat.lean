import Verif.Model.Flat
import Verif.Lemmas.Queue
/-!
# Brute-force search: loop invariant
-/
namespace Fave.Graph
open Queue
variable {V D : Type} [Dist D]

/-- the item a filtered id contributes -/
def flatItem (g : Graph V D) (q : V) (c : Nat) : Option (Item D) :=
  match g.get c with
  | none => none
  | some _ => if g.tomb c then none else (g.distNodeVec c q).map (fun d => ⟨c, d⟩)

theorem flatItem_id {g : Graph V D} {q : V} {c : Nat} {x : Item D} (h : flatItem g q c = some x) : x.id = c := by
  unfold flatItem at h
  split at h
  · cases h
  · split at h
    · cases h
    · obtain ⟨d, _, rfl⟩ := Option.map_eq_some_iff.mp h; rfl

/-- the loop invariant after the ids in `seen` -/
structure FlatInv (g : Graph V D) (q : V) (k : Nat) (seen : List Nat) (r : Array (Item D)) : Prop where
  heap : Heap lessMax r
  sub : ∀ x ∈ r.toList, ∃ c ∈ seen, flatItem g q c = some x
  nodup : (r.toList.map Item.id).Nodup
  size : r.size = min k (seen.filterMap (flatItem g q)).length
  beat : ∀ c ∈ seen, ∀ y, flatItem g q c = some y → y ∈ r.toList ∨ (r.size = k ∧ ∀ x ∈ r.toList, Dist.lt y.dist x.dist = false)

theorem flatInv_nil (g : Graph V D) (q : V) (k : Nat) : FlatInv g q k [] #[] :=
  ⟨heap_empty _, by simp, by simp, by simp, by simp⟩

theorem FlatInv.skip {g : Graph V D} {q : V} {k : Nat} {seen : List Nat} {r : Array (Item D)} (h : FlatInv g q k seen r) {c : Nat}
    (hc : flatItem g q c = none) : FlatInv g q k (seen ++ [c]) r := by
  refine ⟨h.heap, ?_, h.nodup, ?_, ?_⟩
  · intro x hx; obtain ⟨c', h1, h2⟩ := h.sub x hx; exact ⟨c', by simp [h1], h2⟩
  · rw [h.size, List.filterMap_append]; simp [hc]
  · intro c' hc' y hy
    rcases List.mem_append.mp hc' with h1 | h1
    · exact h.beat c' h1 y hy
    · simp only [List.mem_singleton] at h1; subst h1; rw [hc] at hy; cases hy

theorem flatStep_ok [LawfulDist D] {g : Graph V D} {q : V} {k : Nat} (hk : 0 < k) {seen : List Nat} {r r' : Array (Item D)} (h : FlatInv g q k seen r) {c : Nat}
    (hc : c ∉ seen) (hs : flatStep g q k r c = .ok r') : FlatInv g q k (seen ++ [c]) r' := by
  unfold flatStep at hs
  split at hs
  · rename_i hg
    cases hs
    exact h.skip (by unfold flatItem; rw [hg])
  · rename_i v hg
    split at hs
    · rename_i ht
      cases hs
      exact h.skip (by unfold flatItem; rw [hg]; simp only; rw [if_pos ht])
    · rename_i ht
      split at hs
      · cases hs
      · rename_i d hd
        have hitem : flatItem g q c = some ⟨c, d⟩ := by
          unfold flatItem; rw [hg]; simp only; rw [if_neg ht, hd]; rfl
        have hnew : c ∉ r.toList.map Item.id := by
          intro hm
          obtain ⟨x, hx, he⟩ := List.mem_map.mp hm
          obtain ⟨c', h1, h2⟩ := h.sub x hx
          rw [flatItem_id h2] at he; subst he; exact hc h1
        have hlen : ((seen ++ [c]).filterMap (flatItem g q)).length = (seen.filterMap (flatItem g q)).length + 1 := by
          rw [List.filterMap_append]; simp [hitem]
        have hsz := h.size
        split at hs
        · rename_i hlt
          cases hs
          have hp := insert_perm lessMax r (⟨c, d⟩ : Item D)
          refine ⟨insert_heap swo_max h.heap _, ?_, ?_, ?_, ?_⟩
          · intro x hx
            rcases List.mem_cons.mp (hp.mem_iff.mp hx) with rfl | hx
            · exact ⟨c, by simp, hitem⟩
            · obtain ⟨c', h1, h2⟩ := h.sub x hx; exact ⟨c', by simp [h1], h2⟩
          · rw [(hp.map Item.id).nodup_iff]
            exact List.nodup_cons.mpr ⟨hnew, h.nodup⟩
          · rw [insert_size, hlen]; omega
          · intro c' hc' y hy
            left
            rw [hp.mem_iff]
            rcases List.mem_append.mp hc' with h1 | h1
            · rcases h.beat c' h1 y hy with h2 | h2
              · exact List.mem_cons_of_mem _ h2
              · omega
            · simp only [List.mem_singleton] at h1; subst h1
              rw [hitem] at hy; cases hy; exact List.mem_cons_self
        · rename_i hge
          split at hs
          · cases hs
          · rename_i t ht0
            have htop := top_min swo_max h.heap ht0
            split at hs
            · rename_i hlt
              split at hs
              · cases hs
              · rename_i t' r1 hpop
                cases hs
                have hfst := pop_fst lessMax hpop
                have ht0' : r[0]? = some t := ht0
                rw [ht0'] at hfst; cases hfst
                have hpp := pop_perm lessMax hpop
                have hps := pop_size lessMax hpop
                have hp := insert_perm lessMax r1 (⟨c, d⟩ : Item D)
                have hnd := (hpp.map Item.id).nodup_iff.mp h.nodup
                have hkey : ∀ x ∈ (insert lessMax r1 (⟨c, d⟩ : Item D)).toList, ∀ y : Item D, (∀ z ∈ r.toList, Dist.lt y.dist z.dist = false) → Dist.lt y.dist x.dist = false := by
                  intro x hx y hy
                  rcases List.mem_cons.mp (hp.mem_iff.mp hx) with rfl | hx
                  · cases hh : Dist.lt y.dist d with
                    | false => rfl
                    | true =>
                      have := LawfulDist.trans _ _ _ hh hlt
                      rw [hy t (hpp.mem_iff.mpr List.mem_cons_self)] at this; cases this
                  · exact hy x (hpp.mem_iff.mpr (List.mem_cons_of_mem _ hx))
                refine ⟨insert_heap swo_max (pop_heap swo_max h.heap hpop) _, ?_, ?_, ?_, ?_⟩
                · intro x hx
                  rcases List.mem_cons.mp (hp.mem_iff.mp hx) with rfl | hx
                  · exact ⟨c, by simp, hitem⟩
                  · obtain ⟨c', h1, h2⟩ := h.sub x (hpp.mem_iff.mpr (List.mem_cons_of_mem _ hx)); exact ⟨c', by simp [h1], h2⟩
                · rw [(hp.map Item.id).nodup_iff]
                  refine List.nodup_cons.mpr ⟨fun hm => hnew ((hpp.map Item.id).mem_iff.mpr (List.mem_cons_of_mem _ hm)), (List.nodup_cons.mp hnd).2⟩
                · rw [insert_size, hlen]; omega
                · intro c' hc' y hy
                  have hsz' : (insert lessMax r1 (⟨c, d⟩ : Item D)).size = k := by rw [insert_size]; omega
                  rcases List.mem_append.mp hc' with h1 | h1
                  · rcases h.beat c' h1 y hy with h2 | ⟨_, h2⟩
                    · rcases List.mem_cons.mp (hpp.mem_iff.mp h2) with rfl | h3
                      · right
                        exact ⟨hsz', fun x hx => hkey x hx y (fun z hz => htop z hz)⟩
                      · left; rw [hp.mem_iff]; exact List.mem_cons_of_mem _ h3
                    · right; exact ⟨hsz', fun x hx => hkey x hx y h2⟩
                  · simp only [List.mem_singleton] at h1; subst h1
                    rw [hitem] at hy; cases hy
                    left; rw [hp.mem_iff]; exact List.mem_cons_self
            · rename_i hnlt
              cases hs
              refine ⟨h.heap, ?_, h.nodup, ?_, ?_⟩
              · intro x hx; obtain ⟨c', h1, h2⟩ := h.sub x hx; exact ⟨c', by simp [h1], h2⟩
              · rw [hlen]; omega
              · intro c' hc' y hy
                rcases List.mem_append.mp hc' with h1 | h1
                · exact h.beat c' h1 y hy
                · simp only [List.mem_singleton] at h1; subst h1
                  rw [hitem] at hy; cases hy
                  right
                  refine ⟨by omega, fun x hx => ?_⟩
                  show Dist.lt d x.dist = false
                  cases hh : Dist.lt d x.dist with
                  | false => rfl
                  | true =>
                    have h1 : Dist.lt t.dist x.dist = false := htop x hx
                    rcases LawfulDist.cotrans _ t.dist _ hh with h2 | h2
                    · exact absurd h2 hnlt
                    · rw [h1] at h2; cases h2

theorem flatLoop_ok [LawfulDist D] {g : Graph V D} {q : V} {k : Nat} (hk : 0 < k) {seen ids : List Nat} {r r' : Array (Item D)} (h : FlatInv g q k seen r)
    (hn : (seen ++ ids).Nodup) (hs : flatLoop g q k r ids = .ok r') : FlatInv g q k (seen ++ ids) r' := by
  induction ids generalizing seen r with
  | nil => cases hs; simpa using h
  | cons c ids ih =>
    unfold flatLoop at hs
    split at hs
    · cases hs
    · rename_i r1 h1
      have hc : c ∉ seen := by
        intro hc
        have := List.nodup_append.mp hn
        exact this.2.2 c hc c (by simp) rfl
      have := ih (flatStep_ok hk h hc h1) (by simpa using hn) hs
      simpa using this

/-- the loop fails exactly if some filtered stored vector without deletion mark has no distance to the query -/
theorem flatLoop_total {g : Graph V D} {q : V} {k : Nat} (hk : 0 < k) (ids : List Nat) {r : Array (Item D)}
    (hd : ∀ c ∈ ids, ∀ v, g.get c = some v → g.tomb c = false → ∃ d, g.distNodeVec c q = some d) : ∃ r', flatLoop g q k r ids = .ok r' := by
  induction ids generalizing r with
  | nil => exact ⟨r, rfl⟩
  | cons c ids ih =>
    have : ∃ r1, flatStep g q k r c = .ok r1 := by
      unfold flatStep
      split
      · exact ⟨_, rfl⟩
      · rename_i v hv
        split
        · exact ⟨_, rfl⟩
        · rename_i ht
          obtain ⟨d, hd⟩ := hd c (by simp) v hv (by simpa using ht)
          rw [hd]
          simp only
          split
          · exact ⟨_, rfl⟩
          · rename_i hge
            have hpos : 0 < r.size := by omega
            have : top r = some r[0] := by unfold top; simp [hpos]
            rw [this]
            simp only
            split
            · obtain ⟨x, q', hp⟩ := pop_isSome lessMax hpos
              rw [hp]; exact ⟨_, rfl⟩
            · exact ⟨_, rfl⟩
    obtain ⟨r1, h1⟩ := this
    unfold flatLoop
    rw [h1]
    exact ih (fun c hc => hd c (by simp [hc]))

theorem flatLoop_error {g : Graph V D} {q : V} {k : Nat} (hk : 0 < k) (ids : List Nat) {r : Array (Item D)} {e : Err}
    (h : flatLoop g q k r ids = .error e) : e = .error ∧ ∃ c ∈ ids, ∃ v, g.get c = some v ∧ g.tomb c = false ∧ g.distNodeVec c q = none := by
  induction ids generalizing r with
  | nil => cases h
  | cons c ids ih =>
    unfold flatLoop at h
    split at h
    · rename_i e' h1
      cases h
      unfold flatStep at h1
      split at h1
      · cases h1
      · rename_i v hv
        split at h1
        · cases h1
        · rename_i ht
          split at h1
          · rename_i hd; cases h1
            exact ⟨rfl, c, by simp, v, hv, by simpa using ht, hd⟩
          · split at h1
            · cases h1
            · rename_i hge
              have hpos : 0 < r.size := by omega
              have : top r = some r[0] := by unfold top; simp [hpos]
              rw [this] at h1
              simp only at h1
              split at h1
              · obtain ⟨x, q', hp⟩ := pop_isSome lessMax hpos
                rw [hp] at h1; cases h1
              · cases h1
    · rename_i r1 _
      obtain ⟨h1, c', h2, h3⟩ := ih h
      exact ⟨h1, c', by simp [h2], h3⟩

end Fave.Graph
