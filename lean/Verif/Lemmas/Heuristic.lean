import Verif.Lemmas.Insert
import Verif.Lemmas.SearchOpt
/-!
# The neighbour selection on sorted lists

If all distances differ, the selection over heaps (`selectNeighbors`) is the greedy selection over the list sorted by distance.
-/
namespace Fave.Index
open Queue
variable {V D : Type} [Dist D]

/-- sorted by strictly increasing distance -/
def Strict (l : List (Item D)) : Prop := l.Pairwise (fun a b => Dist.lt a.dist b.dist = true)

theorem perm_strict_eq [LawfulDist D] {l l' : List (Item D)} (hp : l'.Perm l) (hs : Strict l)
    (hs' : l'.Pairwise (fun a b => Dist.lt b.dist a.dist = false)) : l' = l := by
  have hle : l.Pairwise (fun a b => Dist.lt b.dist a.dist = false) := hs.imp (fun {a b} h => swo_min.asymm (a := a) (b := b) h)
  refine List.Perm.eq_of_pairwise ?_ hs' hle hp
  intro a b ha hb h1 h2
  have ha' : a ∈ l := hp.mem_iff.mp ha
  obtain ⟨i, hi, rfl⟩ := List.getElem_of_mem ha'
  obtain ⟨j, hj, rfl⟩ := List.getElem_of_mem hb
  rcases Nat.lt_trichotomy i j with h | h | h
  · have := List.pairwise_iff_getElem.mp hs i j hi hj h
    rw [this] at h2; cases h2
  · subst h; rfl
  · have := List.pairwise_iff_getElem.mp hs j i hj hi h
    rw [this] at h1; cases h1

/-- emptying a max heap gives the list from far to near -/
theorem drain_max_strict [LawfulDist D] {q : Array (Item D)} {l : List (Item D)} (hq : Heap lessMax q) (hp : q.toList.Perm l) (hs : Strict l) :
    drain lessMax q = l.reverse := by
  have h1 : (drain lessMax q).reverse.Perm l := (List.reverse_perm _).trans ((drain_perm lessMax q).trans hp)
  have h2 := perm_strict_eq h1 hs (List.pairwise_reverse.mpr (drain_sorted swo_max hq))
  rw [← h2, List.reverse_reverse]

theorem foldl_insert_heap {α β : Type} {less : α → α → Bool} (h : SWO less) (f : β → α) (l : List β) {q : Array α} (hq : Heap less q) :
    Heap less (l.foldl (fun q x => insert less q (f x)) q) := by
  induction l generalizing q with
  | nil => exact hq
  | cons x xs ih => exact ih (insert_heap h hq (f x))

/-- the greedy selection over a sorted list: keep a candidate unless some kept one is closer to it than the reference point -/
def heurList (P : Params V D) (f : Nat → Option V) (max : Nat) : List (Item D) → List (Item D) → Except Err (List (Item D))
  | [], kept => .ok kept
  | cur :: rest, kept =>
    if max ≤ kept.length then .ok kept
    else
      match f cur.id with
      | none => .error .error
      | some w =>
        heurList P f max rest (if kept.all (fun it => match f it.id with
          | none => true
          | some u => !Dist.lt ((P.metric.dist w u).getD Dist.zero) cur.dist) then kept ++ [cur] else kept)

/-- an indexed item without its index -/
def _root_.Fave.ItemIx.item (x : ItemIx D) : Item D := ⟨x.id, x.dist⟩

theorem heurLoop_list [LawfulDist D] {P : Params V D} {f : Nat → Option V} {max : Nat} {ids : List Nat} (l : List (Item D)) (fuel : Nat) (hfuel : l.length ≤ fuel)
    {closest : Array (ItemIx D)} (kept : List (ItemIx D)) (hq : Heap lessMinIx closest) (hp : (closest.toList.map ItemIx.item).Perm l) (hs : Strict l)
    (hix : ∀ x ∈ closest.toList, ids[x.index]? = some x.id) (hix' : ∀ x ∈ kept, ids[x.index]? = some x.id) :
    (heurLoop P f (fun _ => false) max ids fuel closest kept).map (·.map ItemIx.item) = heurList P f max l (kept.map ItemIx.item) := by
  induction l generalizing fuel closest kept with
  | nil =>
    have he : closest = #[] := by
      have := hp.length_eq
      simpa using this
    subst he
    cases fuel with
    | zero => rfl
    | succ fuel =>
      unfold heurLoop heurList
      split <;> rfl
  | cons a l ih =>
    cases fuel with
    | zero => simp at hfuel
    | succ fuel =>
      have hsz : 0 < closest.size := by
        have := hp.length_eq
        simp at this; omega
      obtain ⟨cur, q, hpop⟩ := pop_isSome lessMinIx hsz
      have hpm := pop_perm lessMinIx hpop
      have hcur : cur.item = a := by
        obtain ⟨x, hx, hxa⟩ := List.mem_map.mp (hp.mem_iff.mpr (List.mem_cons_self (a := a)))
        have h1 : lessMinIx x cur = false := top_min swo_minIx hq (pop_fst _ hpop) x hx
        have h2 : cur.item ∈ a :: l := hp.mem_iff.mp (List.mem_map_of_mem (hpm.mem_iff.mpr (by simp)))
        rcases List.mem_cons.mp h2 with h2 | h2
        · exact h2
        · have h3 := (List.pairwise_cons.mp hs).1 _ h2
          rw [← hxa] at h3
          have h3 : lessMinIx x cur = true := h3
          rw [h1] at h3; cases h3
      have hp' : (q.toList.map ItemIx.item).Perm l := by
        have := (hpm.map ItemIx.item).symm.trans hp
        rw [List.map_cons, hcur] at this
        exact this.cons_inv
      have hl' := ih (fuel := fuel) (by simpa using hfuel) (closest := q)
      unfold heurLoop heurList
      rw [List.length_map]
      by_cases hm : max ≤ kept.length
      · rw [if_pos hm, if_pos hm]; rfl
      · rw [if_neg hm, if_neg hm, hpop]
        simp only [Bool.false_eq_true, if_false]
        rw [hix cur (hpm.mem_iff.mpr (by simp))]
        simp only [Option.bind_some]
        have hid : cur.id = a.id := by rw [← hcur]; rfl
        have hdist : cur.dist = a.dist := by rw [← hcur]; rfl
        rw [hid]
        cases hf : f a.id with
        | none => rfl
        | some w =>
          simp only
          generalize hA : List.all kept _ = A
          generalize hB : List.all (kept.map ItemIx.item) _ = B
          have hall : A = B := by
            rw [← hA, ← hB, List.all_map, hdist, Bool.eq_iff_iff, List.all_eq_true, List.all_eq_true]
            constructor
            · intro h x hx
              have := h x hx
              rw [hix' x hx] at this
              exact this
            · intro h x hx
              have := h x hx
              rw [hix' x hx]
              exact this
          rw [hall]
          have hqix : ∀ x ∈ q.toList, ids[x.index]? = some x.id := fun x hx => hix x (hpm.mem_iff.mpr (by simp [hx]))
          split
          · rw [hl' (kept ++ [cur]) (pop_heap swo_minIx hq hpop) hp' (List.pairwise_cons.mp hs).2 hqix (by
              intro x hx
              rcases List.mem_append.mp hx with hx | hx
              · exact hix' x hx
              · simp at hx; subst hx; exact hix x (hpm.mem_iff.mpr (by simp)))]
            rw [List.map_append]
            simp [hcur]
          · rw [hl' kept (pop_heap swo_minIx hq hpop) hp' (List.pairwise_cons.mp hs).2 hqix hix']

/-- the selection over a sorted list -/
def selList (P : Params V D) (f : Nat → Option V) (max : Nat) (l : List (Item D)) : Except Err (List (Item D)) :=
  if l.length < max then .ok l else heurList P f max l []

theorem heurList_sublist {P : Params V D} {f : Nat → Option V} {max : Nat} {l kept r : List (Item D)} (h : heurList P f max l kept = .ok r) :
    ∃ t, t.Sublist l ∧ r = kept ++ t := by
  induction l generalizing kept with
  | nil => cases h; exact ⟨[], .slnil, by simp⟩
  | cons a l ih =>
    unfold heurList at h
    split at h
    · cases h; exact ⟨[], List.nil_sublist _, by simp⟩
    · split at h
      · cases h
      · obtain ⟨t, ht, hr⟩ := ih h
        split at hr
        · exact ⟨a :: t, ht.cons_cons a, by rw [hr]; simp⟩
        · exact ⟨t, ht.cons a, hr⟩

theorem selList_sublist {P : Params V D} {f : Nat → Option V} {max : Nat} {l r : List (Item D)} (h : selList P f max l = .ok r) : r.Sublist l := by
  unfold selList at h
  split at h
  · cases h; exact List.Sublist.refl _
  · obtain ⟨t, ht, hr⟩ := heurList_sublist h
    rw [hr]; simpa using ht

/-- The selection over heaps is the selection over the sorted list. -/
theorem selectNeighbors_list [LawfulDist D] {P : Params V D} {f : Nat → Option V} {max : Nat} {input : Array (Item D)} {l : List (Item D)}
    (hq : Heap lessMax input) (hp : input.toList.Perm l) (hs : Strict l) (hc : ∀ x ∈ l, x.id < P.cacheSize) :
    (selectNeighbors P f (fun _ => false) max input).map (drain lessMax) = (selList P f max l).map List.reverse := by
  have hsz : input.size = l.length := by simpa using hp.length_eq
  have hdr := drain_max_strict hq hp hs
  unfold selectNeighbors selList
  rw [hsz]
  split
  · show Except.ok _ = Except.ok _
    rw [hdr]
  · have hany : (drain lessMax input).any (fun x => decide (P.cacheSize ≤ x.id)) = false := by
      rw [List.any_eq_false]
      intro x hx
      have := hc x (hp.mem_iff.mp ((drain_perm lessMax input).mem_iff.mp hx))
      simp; omega
    simp only [hany, Bool.false_eq_true, if_false]
    let g : Item D × Nat → ItemIx D := fun x => ⟨x.1.id, x.2, x.1.dist⟩
    have hperm := foldl_insert_perm lessMinIx g (drain lessMax input).zipIdx #[]
    simp only [List.append_nil] at hperm
    have hitem : ((drain lessMax input).zipIdx.map g).map ItemIx.item = drain lessMax input := by
      rw [List.map_map]
      have : (ItemIx.item ∘ g : Item D × Nat → Item D) = Prod.fst := rfl
      rw [this, List.zipIdx_map_fst]
    have := heurLoop_list (P := P) (f := f) (max := max) (ids := (drain lessMax input).map Item.id) l (drain lessMax input).length
      (by rw [hdr]; simp) (closest := (drain lessMax input).zipIdx.foldl (fun q x => insert lessMinIx q (g x)) #[]) [] (foldl_insert_heap swo_minIx g _ (heap_empty _))
      ((hperm.map ItemIx.item).trans (by rw [hitem]; exact (drain_perm _ _).trans hp)) hs
      (by
        intro x hx
        obtain ⟨⟨y, i⟩, hy, rfl⟩ := List.mem_map.mp (hperm.mem_iff.mp hx)
        have hyi : (drain lessMax input)[i]? = some y := List.mem_zipIdx_iff_getElem?.mp hy
        show ((drain lessMax input).map Item.id)[i]? = some y.id
        rw [List.getElem?_map, hyi]; rfl)
      (by intro x hx; cases hx)
    have hgeq : (fun (q : Array (ItemIx D)) (x : Item D × Nat) => insert lessMinIx q (g x)) = fun q x => insert lessMinIx q ⟨x.1.id, x.2, x.1.dist⟩ := rfl
    rw [hgeq] at this
    cases hl : heurLoop P f (fun _ => false) max ((drain lessMax input).map Item.id) (drain lessMax input).length
        ((drain lessMax input).zipIdx.foldl (fun q x => insert lessMinIx q ⟨x.1.id, x.2, x.1.dist⟩) #[]) [] with
    | error e =>
      rw [hl] at this
      cases hh : heurList P f max l [] with
      | error e' => rw [List.map_nil, hh] at this; simpa [Except.map] using this
      | ok r => rw [List.map_nil, hh] at this; simp [Except.map] at this
    | ok kept =>
      rw [hl] at this
      have hh : heurList P f max l [] = .ok (kept.map ItemIx.item) := this.symm
      rw [hh]
      show Except.ok _ = Except.ok _
      congr 1
      obtain ⟨t, ht, hr⟩ := heurList_sublist hh
      have hk : (kept.map ItemIx.item).Sublist l := by rw [hr]; simpa using ht
      refine drain_max_strict (foldl_insert_heap swo_max ItemIx.item kept (heap_empty _)) ?_ (hs.sublist hk)
      have := foldl_insert_perm lessMax ItemIx.item kept #[]
      rw [List.append_nil] at this
      exact this

end Fave.Index
