import Verif.Lemmas.Paging
import Verif.Props.C38
/-!
# C39 — distance-limited paging search

The property: the paging search returns each result at most once, only results within the distance, as many as the underlying
search can deliver up to the limit, and always stops.

It always stops (`paging_stops`) and returns only results within the distance (`paging_in_range`).  The rest is false: the pages come from
separate searches, and if more than 100 vectors have the same distance a result is returned twice and another one never
(`ties_duplicate_and_lose`); the limit is not an upper bound (`limit_exceeded`).  It holds if the underlying searches are prefixes of one
list (`paging_complete_partial`), in particular for brute-force searches without ties (`paging_flat_partial`).
-/
namespace Fave.C39
open Graph Queue Paging
variable {V D : Type}

/-- **It always stops** — for every underlying search (consistent or not) that never delivers more than `N` results; `N + 1` rounds suffice. -/
theorem paging_stops (search : Nat → Except Err (List (Item D))) (within near : D → Bool) (maxLimit : Int) (N fuel : Nat) (hfuel : N < fuel)
    (hN : ∀ k res, search k = .ok res → res.length ≤ N) (hf : ∀ k, search k ≠ .error .fuel) :
    searchByDistance search within near maxLimit fuel ≠ .error .fuel := by
  unfold searchByDistance
  split
  · rename_i e he
    intro hc
    injection hc with hc
    subst hc
    unfold round at he
    split at he
    · rename_i e' he'
      injection he with he
      subst he
      exact hf _ he'
    · simp only at he
      split at he <;> cases he
  · exact loop_stops search within near maxLimit N hN hf _ _ _ _ (by omega) (by omega) (by omega)
  · simp

/-- **Only results within the distance** (or within rounding distance of it), each delivered by some underlying search. -/
theorem paging_in_range (search : Nat → Except Err (List (Item D))) (within near : D → Bool) (maxLimit : Int) (fuel : Nat) (r : List (Item D))
    (h : searchByDistance search within near maxLimit fuel = .ok r) :
    ∀ x ∈ r, (within x.dist = true ∨ near x.dist = true) ∧ ∃ k res, search k = .ok res ∧ x ∈ res := by
  unfold searchByDistance at h
  split at h
  · cases h
  · rename_i hits hr
    exact loop_in_range _ _ _ _ _ _ _ _ _ h (fun x hx => by obtain ⟨h1, h2⟩ := round_in_range hr x hx; exact ⟨h1, _, h2⟩)
  · rename_i hits hr
    cases h
    exact fun x hx => by obtain ⟨h1, h2⟩ := round_in_range hr x hx; exact ⟨h1, _, h2⟩

/-! ## Consistent underlying searches -/

/-- **Completeness for consistent searches.**  If the underlying searches deliver prefixes of one list `all` sorted by distance, the answer
is the beginning of `all` up to a page end `m`, as far as it is within the distance; the pages go on until no further result is within
the distance or the next page would exceed the limit.  The first page is not subject to the limit.
Missing from the full property: a consistency that `SearchByVector` does not have in general. -/
theorem paging_complete_partial (all : List (Item D)) (search : Nat → Except Err (List (Item D))) (within near : D → Bool) (maxLimit : Int) (fuel : Nat)
    (hc : ∀ k, 0 < k → search k = .ok (all.take k)) (hs : all.Pairwise (fun x y => within y.dist = true → within x.dist = true))
    (r : List (Item D)) (h : searchByDistance search within near maxLimit fuel = .ok r) :
    ∃ m, r = (all.take (pageEnd m)).takeWhile (fun x => within x.dist || near x.dist) ∧
      (m = 0 ∨ maxLimit < 0 ∨ (pageEnd m : Int) ≤ maxLimit) ∧
      ((∀ x ∈ all.drop (pageEnd m), within x.dist = false) ∨ (0 ≤ maxLimit ∧ maxLimit < (pageEnd (m + 1) : Int))) := by
  unfold searchByDistance at h
  split at h
  · cases h
  · rename_i hits hr
    obtain ⟨_, h2, _⟩ := round_take hc hs (by omega : 0 < 100) (by simp) hr
    obtain ⟨h3, h4⟩ := h2 rfl
    simp only [List.take_zero, List.nil_append] at h3
    rw [h3] at h
    exact loop_take hc hs fuel 0 h4 (.inl rfl) h
  · rename_i hits hr
    cases h
    obtain ⟨h1, _, h3⟩ := round_take hc hs (by omega : 0 < 100) (by simp) hr
    exact ⟨0, by rw [List.take_zero, List.nil_append] at h1; exact h1, .inl rfl, .inl (h3 rfl)⟩

theorem paging_total {all : List (Item D)} {search : Nat → Except Err (List (Item D))} {within near : D → Bool} {maxLimit : Int}
    (hc : ∀ k, 0 < k → search k = .ok (all.take k)) {fuel : Nat} (hfuel : all.length < fuel) : ∃ r, searchByDistance search within near maxLimit fuel = .ok r := by
  have hr : ∀ a b, 0 < b → ∃ hits c, round search within near a b = .ok (hits, c) := by
    intro a b hb
    unfold round
    rw [hc b hb]
    simp only
    split <;> exact ⟨_, _, rfl⟩
  let search' : Nat → Except Err (List (Item D)) := fun k => if k = 0 then .ok [] else search k
  have hsame : ∀ a b, 0 < b → round search' within near a b = round search within near a b := by
    intro a b hb
    unfold round
    have : search' b = search b := if_neg (by omega)
    rw [this]
  have hloop : ∀ (fuel : Nat) limit total acc, 0 < limit → loop search' within near maxLimit fuel limit total acc = loop search within near maxLimit fuel limit total acc := by
    intro fuel
    induction fuel with
    | zero => intros; rfl
    | succ fuel ih =>
      intro limit total acc hl
      unfold loop
      simp only
      rw [hsame _ _ (by omega)]
      split
      · rfl
      · split
        · rfl
        · exact ih _ _ _ (by omega)
        · rfl
  have hok : ∀ (fuel : Nat) limit total acc e, 0 < limit → loop search within near maxLimit fuel limit total acc = .error e → e = .fuel := by
    intro fuel
    induction fuel with
    | zero => intro _ _ _ e _ h; cases h; rfl
    | succ fuel ih =>
      intro limit total acc e hl h
      unfold loop at h
      simp only at h
      split at h
      · cases h
      · obtain ⟨hits, c, hh⟩ := hr total (total + limit * 10) (by omega)
        rw [hh] at h
        cases c with
        | true => exact ih _ _ _ _ (by omega) h
        | false => cases h
  have hstop := paging_stops search' within near maxLimit all.length fuel hfuel
    (fun k res h => by
      by_cases hk : k = 0
      · have : search' k = .ok [] := if_pos hk
        rw [this] at h; cases h; simp
      · have : search' k = search k := if_neg hk
        rw [this, hc k (by omega)] at h; cases h
        simp; omega)
    (fun k h => by
      by_cases hk : k = 0
      · have : search' k = .ok [] := if_pos hk
        rw [this] at h; cases h
      · have : search' k = search k := if_neg hk
        rw [this, hc k (by omega)] at h; cases h)
  unfold searchByDistance at hstop ⊢
  rw [hsame _ _ (by omega)] at hstop
  obtain ⟨hits, c, hh⟩ := hr 0 100 (by omega)
  rw [hh] at hstop ⊢
  cases c with
  | false => exact ⟨_, rfl⟩
  | true =>
    simp only at hstop ⊢
    rw [hloop _ _ _ _ (by omega)] at hstop
    cases hl : loop search within near maxLimit fuel 100 100 hits with
    | ok r => exact ⟨r, rfl⟩
    | error e =>
      have := hok _ _ _ _ _ (by omega) hl
      subst this
      exact absurd hl hstop

/-! ## Brute-force search without ties -/

theorem flat_consistent [Dist D] [LawfulDist D] (g : Graph V D) (cfg : EfConfig) (isEmpty : Bool) (sched : Scheds D) (vector : V)
    (ids : List Nat) (hn : ids.Nodup) (hf : cfg.forbidFlat = false) (hcut : (ids.length : Int) < cfg.flatCutoff)
    (hcomp : ∀ c ∈ ids, ∀ v, g.get c = some v → g.tomb c = false → ∃ d, g.distNodeVec c (g.norm vector) = some d)
    (htie : ∀ x y : Item D, x.id ∈ ids → y.id ∈ ids → C38.Genuine g (g.norm vector) x → C38.Genuine g (g.norm vector) y → x ≠ y →
      Dist.lt x.dist y.dist = true ∨ Dist.lt y.dist x.dist = true) :
    ∃ all, C38.Exact g (g.norm vector) (ids.length + 1) ids all ∧
      ∀ k : Nat, 0 < k → g.searchByVector cfg isEmpty sched vector k (some ids) = .ok (all.take k) := by
  have hok : ∀ k : Nat, 0 < k → ∃ hits, g.searchByVector cfg isEmpty sched vector k (some ids) = .ok hits := by
    intro k hk
    unfold searchByVector
    simp only [hf, hcut, Bool.not_false, decide_true, Bool.and_self, if_true]
    cases h : g.flatSearch (g.norm vector) k ids with
    | ok hits => exact ⟨_, rfl⟩
    | error e =>
      obtain ⟨c, h1, v, h2, h3, h4⟩ := (C38.brute_force_fails_iff g (g.norm vector) k hk ids).mp ⟨e, h⟩
      obtain ⟨d, hd⟩ := hcomp c h1 v h2 h3
      rw [h4] at hd; cases hd
  obtain ⟨all, hall⟩ := hok (ids.length + 1) (by omega)
  have hex := C38.brute_force_exact g cfg isEmpty sched vector (ids.length + 1) (by omega) ids hn hf hcut all hall
  refine ⟨all, hex, fun k hk => ?_⟩
  obtain ⟨hits, hh⟩ := hok k hk
  have hex' := C38.brute_force_exact g cfg isEmpty sched vector k hk ids hn hf hcut hits hh
  rw [hh]
  congr 1
  have hle : (ids.filter (fun c => (g.get c).isSome && !g.tomb c)).length ≤ ids.length := List.length_filter_le ..
  have hl1 := hex.many
  have hl2 := hex'.many
  refine List.ext_getElem (by rw [List.length_take]; omega) ?_
  intro i h1 h2
  have h3 : i < all.length := by rw [List.length_take] at h2; omega
  rw [List.getElem_take]
  have ha := C38.exact_unique (List.Perm.refl ids) hex hex' i h3 h1
  have hb := C38.exact_unique (List.Perm.refl ids) hex' hex i h1 h3
  refine Classical.byContradiction (fun hne => ?_)
  obtain ⟨g1, g2⟩ := hex.genuine _ (List.getElem_mem h3)
  obtain ⟨g3, g4⟩ := hex'.genuine _ (List.getElem_mem h1)
  rcases htie _ _ g3 g1 g4 g2 hne with h | h
  · rw [hb] at h; cases h
  · rw [ha] at h; cases h

/-- **Brute-force paging without ties.**  If the filter is below the cut-off, every stored filtered vector is comparable to the query, and no
two of them have the same distance, the unlimited paging search succeeds, returns each result once, only genuine ones within
the distance (`≤ target`, or within rounding distance), and all of those with distance `≤ target`. -/
theorem paging_flat_partial [Dist D] [LawfulDist D] (g : Graph V D) (cfg : EfConfig) (isEmpty : Bool) (sched : Scheds D) (vector : V)
    (ids : List Nat) (hn : ids.Nodup) (hf : cfg.forbidFlat = false) (hcut : (ids.length : Int) < cfg.flatCutoff)
    (hcomp : ∀ c ∈ ids, ∀ v, g.get c = some v → g.tomb c = false → ∃ d, g.distNodeVec c (g.norm vector) = some d)
    (htie : ∀ x y : Item D, x.id ∈ ids → y.id ∈ ids → C38.Genuine g (g.norm vector) x → C38.Genuine g (g.norm vector) y → x ≠ y →
      Dist.lt x.dist y.dist = true ∨ Dist.lt y.dist x.dist = true)
    (target : D) (near : D → Bool) (maxLimit : Int) (hmax : maxLimit < 0) :
    ∃ r, searchByDistance (fun k => g.searchByVector cfg isEmpty sched vector k (some ids)) (fun d => !Dist.lt target d) near maxLimit (ids.length + 1) = .ok r ∧
      (r.map Item.id).Nodup ∧ r.Pairwise (fun a b => Dist.lt b.dist a.dist = false) ∧
      (∀ x ∈ r, x.id ∈ ids ∧ C38.Genuine g (g.norm vector) x ∧ (Dist.lt target x.dist = false ∨ near x.dist = true)) ∧
      ∀ y : Item D, y.id ∈ ids → C38.Genuine g (g.norm vector) y → Dist.lt target y.dist = false → y ∈ r := by
  obtain ⟨all, hex, hcons⟩ := flat_consistent g cfg isEmpty sched vector ids hn hf hcut hcomp htie
  have hle : (ids.filter (fun c => (g.get c).isSome && !g.tomb c)).length ≤ ids.length := List.length_filter_le ..
  have hlen := hex.many
  have hs : all.Pairwise (fun x y => (!Dist.lt target y.dist) = true → (!Dist.lt target x.dist) = true) := by
    refine hex.sorted.imp ?_
    intro a b hab hb
    simp only [Bool.not_eq_true'] at *
    cases h : Dist.lt target a.dist with
    | false => rfl
    | true =>
      rcases LawfulDist.cotrans _ b.dist _ h with h1 | h1
      · rw [hb] at h1; cases h1
      · rw [hab] at h1; cases h1
  obtain ⟨r, hr⟩ := paging_total (near := near) (within := fun d => !Dist.lt target d) (maxLimit := maxLimit) hcons (fuel := ids.length + 1) (by omega)
  obtain ⟨m, h1, _, h3⟩ := paging_complete_partial all _ _ near maxLimit _ hcons hs r hr
  have h3 : ∀ x ∈ all.drop (pageEnd m), (!Dist.lt target x.dist) = false := by
    rcases h3 with h | h
    · exact h
    · omega
  have hsub : r.Sublist all := by rw [h1]; exact (List.takeWhile_sublist _).trans (List.take_sublist _ _)
  refine ⟨r, hr, hex.once.sublist (hsub.map _), hex.sorted.sublist hsub, ?_, ?_⟩
  · intro x hx
    obtain ⟨g1, g2⟩ := hex.genuine x (hsub.subset hx)
    have := (paging_in_range _ _ _ _ _ _ hr x hx).1
    exact ⟨g1, g2, by simpa using this⟩
  · intro y hy hg hd
    have hya : y ∈ all := by
      rcases hex.best y hy hg with h | ⟨h, _⟩
      · exact h
      · omega
    rw [← List.take_append_drop (pageEnd m) all] at hya
    rcases List.mem_append.mp hya with h | h
    · rw [h1]
      -- everything before `y` is within the distance as well
      obtain ⟨i, hi, hiy⟩ := List.getElem_of_mem h
      have hpre : ∀ x ∈ (all.take (pageEnd m)).take (i + 1), (!Dist.lt target x.dist || near x.dist) = true := by
        intro x hx
        obtain ⟨j, hj, rfl⟩ := List.mem_take_iff_getElem.mp hx
        have hj' : j < (all.take (pageEnd m)).length := by omega
        by_cases e : j = i
        · subst e; rw [hiy, hd]; rfl
        · have := List.pairwise_iff_getElem.mp (hs.sublist (List.take_sublist (pageEnd m) all)) j i hj' hi (by omega)
          rw [hiy, hd] at this
          rw [this rfl]; rfl
      have : (all.take (pageEnd m)) = (all.take (pageEnd m)).take (i + 1) ++ (all.take (pageEnd m)).drop (i + 1) := (List.take_append_drop _ _).symm
      rw [this, takeWhile_append_all hpre]
      refine List.mem_append_left _ ?_
      exact List.mem_take_iff_getElem.mpr ⟨i, by omega, hiy⟩
    · have := h3 y h
      rw [hd] at this; cases this

/-! ## The full property is false -/

/-- 101 identical vectors, no deletion marks -/
def same : Graph Nat Nat :=
  { get := fun i => if i < 101 then some ⟨i, 0, [[]], false, 7, true⟩ else none, keys := List.range 101,
    metric := ⟨fun a b => some (a - b + (b - a)), fun _ => 1⟩, norm := id, tomb := fun _ => false, cacheSize := 25000, visitedSize := 25500,
    entry := 0, maxLayer := 0 }

set_option maxRecDepth 100000 in
/-- **Ties.**  101 identical vectors, all allowed, target distance 3, no limit: the search returns number 0 twice and number 100 never. -/
theorem ties_duplicate_and_lose :
    ∃ r, searchByDistance (fun k => same.searchByVector C38.cfg false (fun _ => Sched.id) 7 k (some (List.range 101)))
        (fun d => !Dist.lt 3 d) (fun _ => false) (-1) 102 = .ok r ∧ (r.map Item.id).count 0 = 2 ∧ 100 ∉ r.map Item.id := by
  have h : (match searchByDistance (fun k => same.searchByVector C38.cfg false (fun _ => Sched.id) 7 k (some (List.range 101)))
        (fun d => !Dist.lt 3 d) (fun _ => false) (-1) 102 with
      | .ok r => decide ((r.map Item.id).count 0 = 2 ∧ 100 ∉ r.map Item.id)
      | .error _ => false) = true := by decide +kernel
  split at h
  · rename_i r hr; exact ⟨r, hr, of_decide_eq_true h⟩
  · cases h

/-- the first `n` numbers at distances 0, 1, 2, … -/
def ladder (n k : Nat) : Except Err (List (Item Nat)) := .ok (((List.range n).map (fun i => (⟨i, i⟩ : Item Nat))).take k)

set_option maxRecDepth 100000 in
/-- **The limit is not an upper bound**: with limit 5 and 100 results within the distance all 100 are returned. -/
theorem limit_exceeded : ∃ r, searchByDistance (ladder 100) (fun d => !Dist.lt 1000 d) (fun _ => false) 5 10 = .ok r ∧ r.length = 100 := by
  refine ⟨(List.range 100).map (fun i => (⟨i, i⟩ : Item Nat)), by decide +kernel, by decide +kernel⟩

/-! ## Non-vacuity -/

/-- the collection of C38: all ids, distances to 12 are 12, 11, 8, 3, (4 is deleted), 13 -/
example : searchByDistance (fun k => C38.g.searchByVector C38.cfg false (fun _ => Sched.id) 12 k (some (List.range 7)))
    (fun d => !Dist.lt 11 d) (fun _ => false) (-1) 8 = .ok [⟨3, 3⟩, ⟨2, 8⟩, ⟨1, 11⟩] := by decide +kernel
example : (∀ c ∈ List.range 7, ∀ v, C38.g.get c = some v → C38.g.tomb c = false → ∃ d, C38.g.distNodeVec c (C38.g.norm 12) = some d) ∧
    ∀ x y : Item Nat, x.id ∈ List.range 7 → y.id ∈ List.range 7 → C38.Genuine C38.g (C38.g.norm 12) x → C38.Genuine C38.g (C38.g.norm 12) y → x ≠ y →
      Dist.lt x.dist y.dist = true ∨ Dist.lt y.dist x.dist = true := by
  constructor
  · intro c _ v hv _
    unfold distNodeVec
    rw [hv]
    exact ⟨_, rfl⟩
  · rintro ⟨i, d⟩ ⟨j, e⟩ hi hj ⟨v, h1, h2, h3⟩ ⟨w, h4, h5, h6⟩ hne
    simp only at hi hj h1 h2 h3 h4 h5 h6
    have key : ∀ i ∈ List.range 7, ∀ j ∈ List.range 7, i ≠ j → (C38.g.get i).isSome = true → (C38.g.get j).isSome = true →
        C38.g.tomb i = false → C38.g.tomb j = false →
        (((C38.g.get i).bind (fun v => C38.g.metric.dist v.vec 12)).getD 0 ≠ ((C38.g.get j).bind (fun v => C38.g.metric.dist v.vec 12)).getD 0) := by
      decide
    have hij : i ≠ j := by
      intro hij
      subst hij
      rw [h1] at h4; cases h4
      rw [h3] at h6; cases h6
      exact hne rfl
    have := key i hi j hj hij (by rw [h1]; rfl) (by rw [h4]; rfl) h2 h5
    rw [h1, h4] at this
    have h3 : C38.g.metric.dist v.vec 12 = some d := h3
    have h6 : C38.g.metric.dist w.vec 12 = some e := h6
    simp only [Option.bind_some, h3, h6, Option.getD_some] at this
    show decide (d < e) = true ∨ decide (e < d) = true
    simp only [decide_eq_true_eq]
    omega

/-- a consistent underlying search with 2000 results, of which the first 1501 are within the distance; the page ends at 1100 and 11100 -/
example : (∀ k, 0 < k → ladder 2000 k = .ok (((List.range 2000).map (fun i => (⟨i, i⟩ : Item Nat))).take k)) ∧
    ((List.range 2000).map (fun i => (⟨i, i⟩ : Item Nat))).Pairwise (fun x y => (!Dist.lt 1500 y.dist) = true → (!Dist.lt 1500 x.dist) = true) := by
  refine ⟨fun k _ => rfl, ?_⟩
  rw [List.pairwise_map]
  refine List.pairwise_lt_range.imp ?_
  intro a b hab h
  simp only [Dist.lt, Bool.not_eq_true', decide_eq_false_iff_not] at *
  omega

end Fave.C39
