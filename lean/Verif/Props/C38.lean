import Verif.Lemmas.Flat
import Verif.Spec.ExampleIndex
/-!
# C38 — brute-force search is exact

A search by vector whose filter has fewer ids than the flat-search cut-off (40000 by default) looks at every filtered id.
-/
namespace Fave.C38
open Graph Queue
variable {V D : Type} [Dist D]

/-- `x` describes a stored vector without deletion mark and its true distance to `q` -/
def Genuine (g : Graph V D) (q : V) (x : Item D) : Prop :=
  ∃ v, g.get x.id = some v ∧ g.tomb x.id = false ∧ g.metric.dist v.vec q = some x.dist

/-- What an exact answer to a `k`-nearest query restricted to `ids` is: genuine, each id once, closest first, as many as possible,
and nothing that is left out is closer than anything returned. -/
structure Exact (g : Graph V D) (q : V) (k : Nat) (ids : List Nat) (hits : List (Item D)) : Prop where
  genuine : ∀ x ∈ hits, x.id ∈ ids ∧ Genuine g q x
  once : (hits.map Item.id).Nodup
  sorted : hits.Pairwise (fun a b => Dist.lt b.dist a.dist = false)
  many : hits.length = min k (ids.filter (fun c => (g.get c).isSome && !g.tomb c)).length
  best : ∀ y : Item D, y.id ∈ ids → Genuine g q y → y ∈ hits ∨ (hits.length = k ∧ ∀ x ∈ hits, Dist.lt y.dist x.dist = false)

theorem flatItem_iff {g : Graph V D} {q : V} {c : Nat} {x : Item D} (h : flatItem g q c = some x) : x.id = c ∧ Genuine g q x := by
  have hid := flatItem_id h
  subst hid
  refine ⟨rfl, ?_⟩
  unfold flatItem at h
  split at h
  · cases h
  · rename_i v hv
    split at h
    · cases h
    · rename_i ht
      obtain ⟨d, hd, hx⟩ := Option.map_eq_some_iff.mp h
      have hxd : x.dist = d := by rw [← hx]
      refine ⟨v, hv, by simpa using ht, ?_⟩
      unfold distNodeVec at hd
      rw [hv] at hd
      simp only at hd
      split at hd
      · cases hd
      · split at hd
        · cases hd
        · rw [hd, hxd]

/-- **Exactness.**  Every graph, every set of deletion marks, every filter (an iterator never delivers an id twice), every `k ≥ 1`, a filter
below the cut-off: if the search succeeds, its answer is exact. -/
theorem brute_force_exact [LawfulDist D] (g : Graph V D) (cfg : EfConfig) (isEmpty : Bool) (sched : Scheds D) (vector : V) (k : Nat) (hk : 0 < k)
    (ids : List Nat) (hn : ids.Nodup) (hf : cfg.forbidFlat = false) (hcut : (ids.length : Int) < cfg.flatCutoff) (hits : List (Item D))
    (h : g.searchByVector cfg isEmpty sched vector k (some ids) = .ok hits) : Exact g (g.norm vector) k ids hits := by
  unfold searchByVector at h
  simp only [hf, hcut, Bool.not_false, decide_true, Bool.and_self, if_true] at h
  unfold flatSearch at h
  rw [if_neg (by omega)] at h
  split at h
  · cases h
  · rename_i r hr
    cases h
    have hi := flatLoop_ok hk (flatInv_nil g (g.norm vector) k) (by simpa using hn) hr
    rw [List.nil_append] at hi
    have hp : (drain lessMax r).reverse.Perm r.toList := (List.reverse_perm _).trans (drain_perm lessMax r)
    have hlen : (drain lessMax r).reverse.length = r.size := by rw [hp.length_eq]; simp
    have htot : ∀ c ∈ ids, ∀ v, g.get c = some v → g.tomb c = false → ∃ d, g.distNodeVec c (g.norm vector) = some d := by
      intro c hc v hv ht
      cases hd : g.distNodeVec c (g.norm vector) with
      | some d => exact ⟨d, rfl⟩
      | none =>
        exfalso
        clear hi hp hlen
        revert hr
        generalize (#[] : Array (Item D)) = r0
        induction ids generalizing r0 with
        | nil => cases hc
        | cons c' ids ih =>
          intro hr
          unfold flatLoop at hr
          split at hr
          · cases hr
          · rename_i r1 h1
            rcases List.mem_cons.mp hc with rfl | hc
            · unfold flatStep at h1
              rw [hv] at h1
              simp only [ht, hd] at h1
              cases h1
            · exact ih (List.nodup_cons.mp hn).2 (by simp at hcut; omega) hc _ hr
    refine ⟨?_, ?_, ?_, ?_, ?_⟩
    · intro x hx
      obtain ⟨c, h1, h2⟩ := hi.sub x (hp.mem_iff.mp hx)
      obtain ⟨h3, h4⟩ := flatItem_iff h2
      exact ⟨h3 ▸ h1, h4⟩
    · exact (hp.map Item.id).nodup_iff.mpr hi.nodup
    · rw [List.pairwise_reverse]
      exact drain_sorted swo_max hi.heap
    · rw [hlen, hi.size]
      congr 1
      clear hr hi hp hlen hcut hn
      induction ids with
      | nil => rfl
      | cons c ids ih =>
        have ih := ih (fun c hc => htot c (by simp [hc]))
        rw [List.filterMap_cons, List.filter_cons]
        cases hg : g.get c with
        | none =>
          have : flatItem g (g.norm vector) c = none := by unfold flatItem; rw [hg]
          rw [this]; simpa using ih
        | some v =>
          cases ht : g.tomb c with
          | true =>
            have : flatItem g (g.norm vector) c = none := by unfold flatItem; rw [hg]; simp [ht]
            rw [this]; simpa using ih
          | false =>
            obtain ⟨d, hd⟩ := htot c (by simp) v hg ht
            have : flatItem g (g.norm vector) c = some ⟨c, d⟩ := by unfold flatItem; rw [hg]; simp [ht, hd]
            rw [this]; simpa using ih
    · rintro y hy ⟨v, hv, ht, hd⟩
      obtain ⟨d', hd'⟩ := htot y.id hy v hv ht
      have hitem : flatItem g (g.norm vector) y.id = some y := by
        unfold flatItem
        rw [hv]
        simp only
        rw [ht, hd']
        have : d' = y.dist := by
          unfold distNodeVec at hd'
          rw [hv] at hd'
          simp only at hd'
          split at hd'
          · cases hd'
          · split at hd'
            · cases hd'
            · rw [hd] at hd'; cases hd'; rfl
        simp [this]
      rcases hi.beat y.id hy y hitem with h1 | ⟨h1, h2⟩
      · exact .inl (hp.mem_iff.mpr h1)
      · exact .inr ⟨by rw [hlen]; exact h1, fun x hx => h2 x (hp.mem_iff.mp hx)⟩

/-- **When it fails.**  For `k ≥ 1` the brute-force search fails exactly if some filtered, stored, unmarked vector has no distance to the
query, and then with an error, not a crash. -/
theorem brute_force_fails_iff (g : Graph V D) (q : V) (k : Nat) (hk : 0 < k) (ids : List Nat) :
    (∃ e, g.flatSearch q k ids = .error e) ↔ ∃ c ∈ ids, ∃ v, g.get c = some v ∧ g.tomb c = false ∧ g.distNodeVec c q = none := by
  unfold flatSearch
  rw [if_neg (by omega)]
  constructor
  · rintro ⟨e, h⟩
    split at h
    · rename_i e' h1
      exact (flatLoop_error hk ids h1).2
    · cases h
  · rintro ⟨c, hc, v, hv, ht, hd⟩
    split
    · exact ⟨_, rfl⟩
    · rename_i r hr
      exfalso
      revert hr
      generalize (#[] : Array (Item D)) = r0
      induction ids generalizing r0 with
      | nil => cases hc
      | cons c' ids ih =>
        intro hr
        unfold flatLoop at hr
        split at hr
        · cases hr
        · rename_i r1 h1
          rcases List.mem_cons.mp hc with rfl | hc
          · unfold flatStep at h1
            rw [hv] at h1
            simp only [ht, hd] at h1
            cases h1
          · exact ih hc _ hr

theorem brute_force_error_is_no_crash (g : Graph V D) (q : V) (k : Nat) (hk : 0 < k) (ids : List Nat) (e : Err)
    (h : g.flatSearch q k ids = .error e) : e = .error := by
  unfold flatSearch at h
  rw [if_neg (by omega)] at h
  split at h
  · rename_i e' h1; cases h; exact (flatLoop_error hk ids h1).1
  · cases h

/-- Order statistics of two exact answers agree. -/
theorem exact_unique [LawfulDist D] {g : Graph V D} {q : V} {k k' : Nat} {ids ids' : List Nat} (hp : ids.Perm ids') {hits hits' : List (Item D)}
    (h : Exact g q k ids hits) (h' : Exact g q k' ids' hits') (i : Nat) (hi : i < hits.length) (hi' : i < hits'.length) :
    Dist.lt hits[i].dist hits'[i].dist = false := by
  cases hlt : Dist.lt hits[i].dist hits'[i].dist with
  | false => rfl
  | true =>
    exfalso
    -- one of the first `i + 1` hits is not among the first `i` of the other answer
    have hex : ∃ z ∈ hits.take (i + 1), z ∉ hits'.take i := by
      refine Classical.byContradiction (fun hc => ?_)
      have hsub : ∀ z ∈ hits.take (i + 1), z ∈ hits'.take i := fun z hz => Classical.byContradiction (fun hz' => hc ⟨z, hz, hz'⟩)
      have hnd : (hits.take (i + 1)).Nodup :=
        (List.Pairwise.of_map Item.id (fun a b h e => h (congrArg _ e)) h.once).sublist (List.take_sublist _ _)
      have := List.Nodup.length_le_of_subset hnd hsub
      simp at this
      omega
    obtain ⟨z, hz, hz'⟩ := hex
    obtain ⟨j, hj, rfl⟩ := List.mem_take_iff_getElem.mp hz
    have hj' : j < hits.length := by omega
    have hmem : hits[j] ∈ hits := List.getElem_mem _
    -- it is closer than `hits'[i]`
    have hle : Dist.lt hits[i].dist hits[j].dist = false := by
      by_cases e : j = i
      · subst e; exact LawfulDist.irrefl _
      · exact List.pairwise_iff_getElem.mp h.sorted j i hj' hi (by omega)
    have hzlt : Dist.lt hits[j].dist hits'[i].dist = true := by
      rcases LawfulDist.cotrans _ hits[j].dist _ hlt with h1 | h1
      · rw [hle] at h1; cases h1
      · exact h1
    obtain ⟨hid, hg⟩ := h.genuine _ hmem
    rcases h'.best hits[j] (hp.mem_iff.mp hid) hg with h1 | ⟨_, h1⟩
    · obtain ⟨m, hm, hme⟩ := List.getElem_of_mem h1
      have : i ≤ m := by
        refine Classical.byContradiction (fun hc => hz' ?_)
        rw [← hme]
        exact List.mem_take_iff_getElem.mpr ⟨m, by omega, rfl⟩
      by_cases e : i = m
      · subst e; rw [← hme, LawfulDist.irrefl] at hzlt; cases hzlt
      · have := List.pairwise_iff_getElem.mp h'.sorted i m hi' hm (by omega)
        rw [hme, hzlt] at this; cases this
    · rw [h1 _ (List.getElem_mem _)] at hzlt; cases hzlt

/-- **The order of the filter does not matter**: two orders give the same number of hits and, at each place, equivalent distances. -/
theorem filter_order_irrelevant [LawfulDist D] (g : Graph V D) (q : V) (k : Nat) (ids ids' : List Nat) (hp : ids.Perm ids')
    (hits hits' : List (Item D)) (h : Exact g q k ids hits) (h' : Exact g q k ids' hits') :
    hits.length = hits'.length ∧ ∀ i (hi : i < hits.length) (hi' : i < hits'.length),
      Dist.lt hits[i].dist hits'[i].dist = false ∧ Dist.lt hits'[i].dist hits[i].dist = false := by
  refine ⟨by rw [h.many, h'.many, (hp.filter _).length_eq], fun i hi hi' => ⟨exact_unique hp h h' i hi hi', exact_unique hp.symm h' h i hi' hi⟩⟩

/-- **Crashes.**  A negative limit always crashes; limit 0 crashes as soon as one filtered id is stored, unmarked and comparable. -/
theorem negative_limit_crashes (g : Graph V D) (q : V) (limit : Int) (hl : limit < 0) (ids : List Nat) :
    g.flatSearch q limit ids = .error .panic := by
  unfold flatSearch; rw [if_pos hl]

theorem zero_limit_crashes (g : Graph V D) (q : V) (c : Nat) (ids : List Nat) (v : Vertex V) (hv : g.get c = some v) (ht : g.tomb c = false)
    (d : D) (hd : g.distNodeVec c q = some d) : g.flatSearch q 0 (c :: ids) = .error .panic := by
  unfold flatSearch flatLoop flatStep
  rw [hv]
  simp [ht, hd, top]

/-! ## Non-vacuity -/

/-- six numbers on a line, number 4 marked as deleted -/
def g : Graph Nat Nat :=
  { get := fun i => if i < 6 then some ⟨i, 0, [[]], false, i * i, true⟩ else none, keys := List.range 6,
    metric := ⟨fun a b => some (a - b + (b - a)), fun _ => 1⟩, norm := id, tomb := fun i => i == 4, cacheSize := 10, visitedSize := 10,
    entry := 0, maxLayer := 0 }
def cfg : EfConfig := ⟨-1, 100, 500, 8, 40000, false⟩

/-- the three closest of the filtered ids to 12, for two orders of the filter; ids 4 (deleted) and 9 (not stored) do not count -/
example : g.searchByVector cfg false (fun _ => Sched.id) 12 (3 : Nat) (some [5, 1, 4, 9, 2, 3]) = .ok [⟨3, 3⟩, ⟨2, 8⟩, ⟨1, 11⟩] := by decide +kernel
example : g.searchByVector cfg false (fun _ => Sched.id) 12 (3 : Nat) (some [1, 2, 3, 4, 5, 9]) = .ok [⟨3, 3⟩, ⟨2, 8⟩, ⟨1, 11⟩] := by decide +kernel
example : [5, 1, 4, 9, 2, 3].Nodup ∧ (([5, 1, 4, 9, 2, 3] : List Nat).length : Int) < cfg.flatCutoff ∧ cfg.forbidFlat = false ∧
    [5, 1, 4, 9, 2, 3].Perm [1, 2, 3, 4, 5, 9] := by decide
example : g.get 3 = some ⟨3, 0, [[]], false, 9, true⟩ ∧ g.tomb 3 = false ∧ g.distNodeVec 3 12 = some 3 := by decide

/-- a stored vector that cannot be compared makes the search fail -/
def gbad : Graph (List Nat) Nat :=
  { get := fun i => if i = 0 then some ⟨0, 0, [[]], false, [1, 2], true⟩ else none, keys := [0], metric := Ex.vmetric, norm := id,
    tomb := fun _ => false, cacheSize := 10, visitedSize := 10, entry := 0, maxLayer := 0 }
example : gbad.flatSearch [1] 1 [0] = .error .error := by decide +kernel

end Fave.C38
