import Verif.Lemmas.Wider
import Verif.Lemmas.ClientNear
/-! # Lemmas on searches with stricter conditions -/
namespace Fave.Graph
open Queue Spec Search
variable {V D : Type} [Dist D] [LawfulDist D]

theorem within {max max' d : D} (h : Dist.lt max' max = false) (hd : Dist.lt max d = false) : Dist.lt max' d = false := by
  cases e : Dist.lt max' d with
  | false => rfl
  | true =>
    rcases LawfulDist.cotrans max' max d e with h' | h'
    · rw [h] at h'; cases h'
    · rw [hd] at h'; cases h'

theorem keepInRange_prefix {max max' : D} (h : Dist.lt max' max = false) (l : List (Item D)) : keepInRange max l <+: keepInRange max' l := by
  induction l with
  | nil => exact List.prefix_refl _
  | cons x l ih =>
    unfold keepInRange
    by_cases h0 : Dist.lt x.dist Dist.zero = true
    · simp only [h0, if_true]; exact ih
    · simp only [if_neg h0]
      by_cases h1 : Dist.lt max x.dist = true
      · simp only [if_pos h1]; exact List.nil_prefix
      · have h2 := within h (by simpa using h1 : Dist.lt max x.dist = false)
        simp only [if_neg h1, h2, Bool.false_eq_true, if_false]
        exact (List.prefix_cons_inj x).mpr ih

/-- behind the hits of the smaller radius is a hit that is too far -/
theorem keepInRange_next {max max' : D} (l : List (Item D)) {x : Item D} (hx : (keepInRange max' l)[(keepInRange max l).length]? = some x)
    (h : Dist.lt max' max = false) : Dist.lt max x.dist = true := by
  induction l with
  | nil => cases hx
  | cons y l ih =>
    unfold keepInRange at hx
    by_cases h0 : Dist.lt y.dist Dist.zero = true
    · simp only [if_pos h0] at hx; exact ih hx
    · simp only [if_neg h0] at hx
      by_cases h1 : Dist.lt max y.dist = true
      · simp only [if_pos h1, List.length_nil] at hx
        split at hx
        · cases hx
        · simp only [List.getElem?_cons_zero, Option.some.injEq] at hx
          rw [← hx]; exact h1
      · have h2 := within h (by simpa using h1 : Dist.lt max y.dist = false)
        simp only [if_neg h1, h2, Bool.false_eq_true, if_false, List.length_cons, List.getElem?_cons_succ] at hx
        exact ih hx

theorem knn_parts {g : Graph V D} {σ : Scheds D} {q : V} {max : D} {ef : Int} {allow : Option (Nat → Bool)} {ids : List Nat} {ds : List D}
    (h : g.knnMaxDist σ q max ef allow = .ok (ids, ds)) :
    ∃ (all : List (Item D)) (z : List D), (∀ max', ∃ z', g.knnMaxDist σ q max' ef allow =
      .ok ((keepInRange max' all).map Item.id, (keepInRange max' all).map Item.dist ++ z')) ∧
      ids = (keepInRange max all).map Item.id ∧ ds = (keepInRange max all).map Item.dist ++ z := by
  unfold knnMaxDist at h ⊢
  cases hr : g.retained σ (g.norm q) ef allow with
  | error e => rw [hr] at h; cases h
  | ok r =>
    rw [hr] at h
    cases h
    exact ⟨_, _, fun max' => ⟨_, rfl⟩, rfl, rfl⟩

end Fave.Graph

namespace Fave.Client
variable {F D : Type} [Dist D] [DecidableEq F] [LawfulDist D]

theorem nearWith_stricter {E : Env F D} {o : Oracle F D} {w : World F} {c : Str} {q : List F} {max max' : D} (hm : Dist.lt max' max = false)
    {ef limit limit' : Int} (h0 : 0 ≤ limit) (hl : limit' = 0 ∨ (limit ≠ 0 ∧ limit ≤ limit'))
    {docs' : List (Props F)} {ds' : List D} (h : (nearWith E o w c q max' ef limit').2 = .ok (docs', ds')) :
    ∃ docs ds, (nearWith E o w c q max ef limit).2 = .ok (docs, ds) ∧ docs <+: docs' ∧ (∀ i < docs.length, ds[i]? = ds'[i]?) ∧
      (docs.length < docs'.length → (docs.length : Int) = limit ∨ ∃ d, ds'[docs.length]? = some d ∧ Dist.lt max d = true) := by
  obtain ⟨idx, ids', dists', ids2, hi, rfl, k', t', l'⟩ := nearWith_ok h
  obtain ⟨all, z, hall, e1, e2⟩ := Graph.knn_parts k'
  obtain ⟨z', k⟩ := hall max
  rw [nearWith_of limit hi k]
  obtain ⟨suf, hsuf⟩ := Graph.keepInRange_prefix hm all
  have hnext : ∀ x, (Graph.keepInRange max' all)[(Graph.keepInRange max all).length]? = some x → Dist.lt max x.dist = true :=
    fun x hx => Graph.keepInRange_next all hx hm
  generalize Graph.keepInRange max all = A at *
  generalize Graph.keepInRange max' all = B at *
  have hlen2 := lookupAll_length l'
  -- how many documents
  have hcut : ∃ n, ids2 = ids'.take n ∧ (∀ i < ids2.length, ds'[i]? = dists'[i]?) ∧ (n < ids'.length → 0 < limit' ∧ (n : Int) = limit') := by
    rcases truncate_ok t' with ⟨h1, h2⟩ | ⟨h1, h2, h3⟩
    · cases h1
      exact ⟨ids'.length, by simp, fun _ _ => rfl, fun h => absurd h (Nat.lt_irrefl _)⟩
    · cases h3
      refine ⟨limit'.toNat, rfl, fun i hi => ?_, fun _ => ⟨h1, by omega⟩⟩
      rw [List.length_take] at hi
      rw [List.getElem?_take_of_lt (by omega)]
  obtain ⟨n', hn', hds', hfull'⟩ := hcut
  have hcut : ∃ n ds, truncate limit (A.map Item.id) (A.map Item.dist ++ z') = .ok ((A.map Item.id).take n, ds) ∧
      (∀ i < ((A.map Item.id).take n).length, ds[i]? = (A.map Item.dist)[i]?) ∧ (n < A.length → (n : Int) = limit) ∧ ((n : Int) ≤ limit ∨ (limit = 0 ∧ n = A.length)
        ∨ n = A.length ∧ (A.length : Int) ≤ limit) := by
    unfold truncate
    by_cases hc : limit ≠ 0 ∧ limit < ((A.map Item.id).length : Int)
    · rw [if_pos hc, if_neg (by omega)]
      refine ⟨limit.toNat, _, rfl, fun i hi => ?_, fun _ => by omega, .inl (by omega)⟩
      rw [List.length_take, List.length_map] at hi
      rw [List.getElem?_take_of_lt (by omega), List.getElem?_append_left (by rw [List.length_map]; omega)]
    · rw [if_neg hc]
      refine ⟨A.length, A.map Item.dist ++ z', ?_, fun i hi => ?_, fun h => absurd h (Nat.lt_irrefl _), ?_⟩
      · rw [List.take_of_length_le (by simp)]
      · rw [List.length_take, List.length_map] at hi
        rw [List.getElem?_append_left (by rw [List.length_map]; omega)]
      · rw [List.length_map] at hc
        by_cases hz : limit = 0
        · exact .inr (.inl ⟨hz, rfl⟩)
        · exact .inr (.inr ⟨rfl, by omega⟩)
  obtain ⟨n, ds, ht, hds, hfull, hnl⟩ := hcut
  have hAB : A.length + suf.length = B.length := by rw [← hsuf, List.length_append]
  have hids' : ids'.length = B.length := by rw [e1, List.length_map]
  have hl2 : ids2.length = min n' B.length := by rw [hn', List.length_take, hids']
  have hk : ((A.map Item.id).take n).length ≤ ids2.length := by
    rw [hl2, List.length_take, List.length_map]
    by_cases hb : n' < B.length
    · have := hfull' (by omega)
      rw [Nat.min_eq_left (by omega : n' ≤ B.length)]
      by_cases hb2 : n < A.length
      · have := hfull hb2
        omega
      · omega
    · rw [Nat.min_eq_right (by omega : B.length ≤ n')]
      omega
  have hpre : (A.map Item.id).take n = ids2.take ((A.map Item.id).take n).length := by
    have hb : ((A.map Item.id).take n).length ≤ n' := by rw [hl2] at hk; exact Nat.le_trans hk (Nat.min_le_left _ _)
    rw [hn', List.take_take, Nat.min_eq_left hb, e1, ← hsuf, List.map_append]
    rw [List.take_append_of_le_length (by rw [List.length_take]; omega)]
    rw [List.length_take, List.take_eq_take_iff]
    simp
  have hlk := lookupAll_take l' ((A.map Item.id).take n).length
  rw [← hpre] at hlk
  have hdl := lookupAll_length hlk
  refine ⟨docs'.take ((A.map Item.id).take n).length, ds, by simp only [ht, hlk], List.take_prefix _ _, fun i hi => ?_, fun hlt => ?_⟩
  · rw [hdl] at hi
    rw [hds i hi, hds' i (by omega), e2, ← hsuf]
    rw [List.length_take, List.length_map] at hi
    rw [List.getElem?_append_left (by rw [List.length_map, List.length_append]; omega), List.map_append, List.getElem?_append_left (by rw [List.length_map]; omega)]
  · rw [hdl] at hlt ⊢
    rw [hlen2] at hlt
    have hlt' := hlt
    rw [List.length_take, List.length_map] at hlt' ⊢
    by_cases hb2 : n < A.length
    · left; have := hfull hb2; omega
    · right
      rw [Nat.min_eq_right (by omega)] at hlt' ⊢
      have hB : A.length < B.length := by rw [hl2] at hlt'; have := Nat.min_le_right n' B.length; omega
      refine ⟨B[A.length].dist, ?_, hnext _ (List.getElem?_eq_getElem hB)⟩
      rw [hds' _ hlt', e2, List.getElem?_append_left (by rw [List.length_map]; exact hB)]
      simp [hB]

end Fave.Client
