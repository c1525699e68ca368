import Verif.Props.C39
import Verif.Props.C93
/-!
# C94 — SearchByVectorDistance returns everything within the distance

`SearchByVectorDistance` asks `SearchByVector` for 100, then 1100, 11100, … vectors until the last one is beyond the distance.  The property: it
returns exactly the added vectors within the distance.  It is false beyond 61 vectors and before the first flush (`beyond_61_missed`,
`unflushed_finds_nothing`).  Up to 61 flushed vectors it holds for all search settings, also those of FaVe's collections, since the first 100 asked
for are already everything.
-/
namespace Fave.C94
open Index Graph Paging
variable {V D : Type} [Dist D]

/-- paging over searches that always deliver at most 100 -/
theorem one_page {search : Nat → Except Err (List (Item D))} {within near : D → Bool} {maxLimit : Int} {res : List (Item D)}
    (h0 : search 100 = .ok res) (hl : res.length ≤ 100) (h1 : ∃ res', search 1100 = .ok res' ∧ res'.length ≤ 100) (fuel : Nat) :
    searchByDistance search within near maxLimit (fuel + 1) = .ok (res.takeWhile (fun x => within x.dist || near x.dist)) := by
  have hp : page res 0 100 = res := by
    unfold page
    rw [Nat.min_eq_right hl, List.take_length, Nat.zero_min, List.drop_zero]
  unfold searchByDistance
  have hr : round search within near 0 100 = match res.getLast? with
      | none => .ok ([], false)
      | some last => .ok (res.takeWhile (fun x => within x.dist || near x.dist), within last.dist) := by
    unfold round
    rw [h0]
    simp only [hp]
    rfl
  rw [hr]
  cases hg : res.getLast? with
  | none =>
    have : res = [] := List.getLast?_eq_none_iff.mp hg
    subst this; rfl
  | some last =>
    simp only
    cases hw : within last.dist with
    | false => rfl
    | true =>
      simp only
      unfold loop
      simp only
      split
      · rfl
      · obtain ⟨res', h2, h3⟩ := h1
        have hr' : round search within near 100 (100 + 100 * 10) = .ok ([], false) := by
          unfold round
          have h2' : search (100 + 100 * 10) = .ok res' := h2
          rw [h2']
          have hp' : page res' 100 (100 + 100 * 10) = [] := by
            unfold page
            rw [List.drop_eq_nil_iff]
            simp only [List.length_take]
            omega
          simp only [hp']
          rfl
        rw [hr']
        simp

/-- the beginning of a sorted list up to the first item out of range is everything in range -/
theorem mem_takeWhile_sorted {l : List (Item D)} {p : D → Bool} (hs : l.Pairwise (fun a b => Dist.lt b.dist a.dist = false))
    (hp : ∀ d e, Dist.lt e d = false → p e = true → p d = true) (x : Item D) : x ∈ l.takeWhile (fun x => p x.dist) ↔ x ∈ l ∧ p x.dist = true := by
  induction l with
  | nil => simp
  | cons a l ih =>
    rw [List.pairwise_cons] at hs
    rw [List.takeWhile_cons]
    by_cases h : p a.dist = true
    · rw [if_pos h, List.mem_cons, List.mem_cons, ih hs.2]
      constructor
      · rintro (rfl | ⟨h1, h2⟩)
        · exact ⟨.inl rfl, h⟩
        · exact ⟨.inr h1, h2⟩
      · rintro ⟨rfl | h1, h2⟩
        · exact .inl rfl
        · exact .inr ⟨h1, h2⟩
    · rw [if_neg h]
      constructor
      · intro hx; cases hx
      · rintro ⟨hx, h2⟩
        exfalso
        rcases List.mem_cons.mp hx with rfl | hx
        · exact h h2
        · exact h (hp _ _ (hs.1 x hx) h2)

/-- **Everything within the distance**, for small flushed collections: any history with at most `maxConn0 + 1` and at most 100 vectors, all search
settings, all schedules (another one for every page), any limit, no filter or any filter that names no leftover of a refused vector.  `within` is
`≤ target`, `near` the rounding tolerance; together they must be closed under smaller distances. -/
theorem distance_search_exact_partial [LawfulDist D] (P : Params V D) (hP : P.Ok) (hm : 0 < P.maxConn) (hef : P.maxConn ≤ P.efC + 1) (hef0 : 0 < P.efC)
    (hdist : ∀ a b, P.metric.len a = P.metric.len b → ∃ d, P.metric.dist a b = some d)
    (hsym : ∀ a b, P.metric.dist a b = P.metric.dist b a)
    (s : Index V) (vs : List V) (h : Hist P s vs) (hn : vs ≠ []) (hfl : s.isEmpty = false) (hsm : vs.length ≤ P.maxConn0 + 1) (h100 : vs.length ≤ 100)
    (cfg : EfConfig) (scheds : Nat → Scheds D) (q : V) (hq : ∀ u ∈ vs, P.metric.len u = P.metric.len q)
    (within near : D → Bool) (hr : ∀ d e, Dist.lt e d = false → (within e || near e) = true → (within d || near d) = true) (maxLimit : Int) (fuel : Nat)
    (allow : Option (List Nat)) (hal : ∀ ids, allow = some ids → ids.Nodup ∧ ∀ id ∈ ids, s.get id ≠ none → id < vs.length) :
    ∃ hits, searchByDistance (fun k => (s.graph P).searchByVector cfg s.isEmpty (scheds k) q k allow) within near maxLimit (fuel + 1) = .ok hits ∧
      (hits.map Item.id).Nodup ∧ hits.Pairwise (fun a b => Dist.lt b.dist a.dist = false) ∧
      ∀ id d, (⟨id, d⟩ : Item D) ∈ hits ↔
        ∃ u, vs[id]? = some u ∧ C93.Allowed allow id ∧ P.metric.dist (P.norm q) (P.norm u) = some d ∧ (within d = true ∨ near d = true) := by
  have hex : ∀ k : Nat, 100 ≤ k → ∃ hits, (s.graph P).searchByVector cfg s.isEmpty (scheds k) q k allow = .ok hits ∧
      C93.Nearest P vs q k allow hits ∧ hits.length ≤ 100 := by
    intro k hk
    obtain ⟨hits, h1, h2⟩ := C93.search_by_vector_exact_partial P hP hm hef hef0 hdist hsym s vs h hn hfl cfg (scheds k) q hq k (by omega)
      (.inr ⟨hsm, by have := C46.at_least_k cfg k; omega⟩) allow hal
    refine ⟨hits, h1, h2, ?_⟩
    have hsub : hits.map Item.id ⊆ List.range vs.length := by
      intro id hid
      obtain ⟨x, hx, rfl⟩ := List.mem_map.mp hid
      obtain ⟨_, u, hu, _⟩ := h2.genuine x hx
      exact List.mem_range.mpr (List.getElem?_eq_some_iff.mp hu).1
    have := List.Nodup.length_le_of_subset h2.once hsub
    simp at this
    omega
  obtain ⟨res, h1, hN, hl⟩ := hex 100 (by omega)
  obtain ⟨res', h1', _, hl'⟩ := hex 1100 (by omega)
  refine ⟨_, one_page h1 hl ⟨res', h1', hl'⟩ fuel, hN.once.sublist ((List.takeWhile_sublist _).map _), hN.sorted.sublist (List.takeWhile_sublist _), ?_⟩
  intro id d
  rw [mem_takeWhile_sorted (p := fun d => within d || near d) hN.sorted hr]
  constructor
  · rintro ⟨hx, hw⟩
    obtain ⟨h2, u, h3, h4⟩ := hN.genuine _ hx
    exact ⟨u, h3, h2, h4, by simpa using hw⟩
  · rintro ⟨u, hu, ha, hd, hw⟩
    refine ⟨?_, by simpa using hw⟩
    rcases hN.best id u d hu ha hd with h2 | ⟨h2, _⟩
    · exact h2
    · -- a full page: 100 different numbers among at most 100
      have hsub : List.range vs.length ⊆ res.map Item.id := by
        have hsub' : res.map Item.id ⊆ List.range vs.length := by
          intro i hid
          obtain ⟨x, hx, rfl⟩ := List.mem_map.mp hid
          obtain ⟨_, u, hu, _⟩ := hN.genuine x hx
          exact List.mem_range.mpr (List.getElem?_eq_some_iff.mp hu).1
        intro i hi
        refine Classical.byContradiction (fun hc => ?_)
        have hnd : (i :: res.map Item.id).Nodup := List.nodup_cons.mpr ⟨hc, hN.once⟩
        have := List.Nodup.length_le_of_subset hnd (fun j hj => by
          rcases List.mem_cons.mp hj with rfl | hj
          · exact hi
          · exact hsub' hj)
        simp at this
        omega
      obtain ⟨x, hx, hxi⟩ := List.mem_map.mp (hsub (List.mem_range.mpr (List.getElem?_eq_some_iff.mp hu).1))
      obtain ⟨_, u', hu', hd'⟩ := hN.genuine x hx
      rw [hxi, hu] at hu'; cases hu'
      rw [hd] at hd'
      cases x with
      | mk i e => simp only at hxi hd'; cases hd'; subst hxi; exact hx

/-- FaVe's parameters, any search settings: up to 61 vectors. -/
theorem up_to_61_exact_partial [LawfulDist D] (metric : Metric V D) (norm : V → V) (jsonOk : V → Bool)
    (hlen : ∀ a b, metric.len a ≠ metric.len b → metric.dist a b = none)
    (hdist : ∀ a b, metric.len a = metric.len b → ∃ d, metric.dist a b = some d)
    (hnorm : ∀ v, metric.len (norm v) = metric.len v) (hsym : ∀ a b, metric.dist a b = metric.dist b a)
    (s : Index V) (vs : List V) (h : Hist (faveParams metric norm jsonOk) s vs) (hn : vs ≠ []) (hfl : s.isEmpty = false) (hsm : vs.length ≤ 61)
    (cfg : EfConfig) (scheds : Nat → Scheds D) (q : V) (hq : ∀ u ∈ vs, metric.len u = metric.len q) (target : D) (maxLimit : Int) (fuel : Nat) :
    ∃ hits, searchByDistance (fun k => (s.graph (faveParams metric norm jsonOk)).searchByVector cfg s.isEmpty (scheds k) q k none)
        (fun d => !Dist.lt target d) (fun _ => false) maxLimit (fuel + 1) = .ok hits ∧
      (hits.map Item.id).Nodup ∧ hits.Pairwise (fun a b => Dist.lt b.dist a.dist = false) ∧
      ∀ id d, (⟨id, d⟩ : Item D) ∈ hits ↔ ∃ u, vs[id]? = some u ∧ metric.dist (norm q) (norm u) = some d ∧ Dist.lt target d = false := by
  obtain ⟨hits, h1, h2, h3, h4⟩ := distance_search_exact_partial (faveParams metric norm jsonOk) ⟨by simp [faveParams], by simp [faveParams], hlen, hnorm⟩
    (by simp [faveParams]) (by simp [faveParams]) (by simp [faveParams]) hdist hsym s vs h hn hfl (by simpa [faveParams] using hsm) (by omega) cfg scheds q hq
    (fun d => !Dist.lt target d) (fun _ => false) (by
      intro d e hed he
      simp only [Bool.or_false, Bool.not_eq_true'] at he ⊢
      cases hd : Dist.lt target d with
      | false => rfl
      | true =>
        rcases LawfulDist.cotrans _ e _ hd with h1 | h1
        · rw [he] at h1; cases h1
        · rw [hed] at h1; cases h1) maxLimit fuel none (fun _ e => by cases e)
  refine ⟨hits, h1, h2, h3, fun id d => (h4 id d).trans ⟨?_, ?_⟩⟩
  · rintro ⟨u, a, _, b, c⟩
    exact ⟨u, a, b, by simpa using c⟩
  · rintro ⟨u, a, b, c⟩
    exact ⟨u, a, (fun _ e => by cases e), b, by simpa using c⟩

/-- **Before the first flush** nothing is found. -/
theorem unflushed_finds_nothing (P : Params V D) (hP : P.Ok) (s : Index V) (vs : List V) (h : Hist P s vs) (hf : s.kvCount = none)
    (cfg : EfConfig) (scheds : Nat → Scheds D) (q : V) (within near : D → Bool) (maxLimit : Int) (fuel : Nat) :
    searchByDistance (fun k => (s.graph P).searchByVector cfg s.isEmpty (scheds k) q k none) within near maxLimit (fuel + 1) = .ok [] := by
  have h0 : ∀ k : Nat, (s.graph P).searchByVector cfg s.isEmpty (scheds k) q k none = .ok [] := fun k =>
    C93.unflushed_finds_nothing P hP s vs h hf cfg (scheds k) q k
  rw [one_page (res := []) (h0 100) (by simp) ⟨[], h0 1100, by simp⟩ fuel]
  rfl

/-- **From 62 vectors on it is false**, for every search setting, schedule, distance and limit: number 31, which is the query itself, is missing. -/
theorem beyond_61_missed :
    ∃ s : Index Nat, Hist C10.P s C10.pts ∧ s.isEmpty = false ∧ C10.pts[31]? = some 10000 ∧
      C10.P.metric.dist (C10.P.norm 10000) (C10.P.norm 10000) = some 0 ∧
      ∀ (cfg : EfConfig) (scheds : Nat → Scheds Nat) (target : Nat) (maxLimit : Int) (fuel : Nat) (hits : List (Item Nat)),
        searchByDistance (fun k => (s.graph C10.P).searchByVector cfg s.isEmpty (scheds k) 10000 k none) (fun d => !Dist.lt target d) (fun _ => false)
          maxLimit fuel = .ok hits → 31 ∉ hits.map Item.id := by
  obtain ⟨s, h1, _, h2, h3, h4, h5⟩ := C93.beyond_61_nearest_missed
  refine ⟨s, h1, h2, h3, h4, ?_⟩
  intro cfg scheds target maxLimit fuel hits hh hmem
  obtain ⟨x, hx, hx31⟩ := List.mem_map.mp hmem
  obtain ⟨_, k, res, h6, h7⟩ := C39.paging_in_range _ _ _ _ _ _ hh x hx
  obtain ⟨hits', h8, h9, _⟩ := h5 cfg (scheds k) 10000 k
  rw [h8] at h6; cases h6
  exact h9 (List.mem_map.mpr ⟨x, h7, hx31⟩)

/-! ## Non-vacuity -/

/-- six vectors on three levels, two of them added after a flush and a restart; FaVe's settings; within distance 5, and everything -/
example : Hist Ex.PW Ex.w6 Ex.vecs ∧ Ex.PW.Ok ∧ 0 < Ex.PW.maxConn ∧ Ex.PW.maxConn ≤ Ex.PW.efC + 1 ∧ Ex.vecs.length ≤ Ex.PW.maxConn0 + 1 ∧
    Ex.w6.isEmpty = false ∧ (∀ u ∈ Ex.vecs, Ex.PW.metric.len u = Ex.PW.metric.len [12, 1]) :=
  ⟨Ex.histW6, Ex.PW_ok, by decide, by decide, by decide, by decide +kernel, by decide⟩
example : searchByDistance (fun k => (Ex.w6.graph Ex.PW).searchByVector C93.faveCfg Ex.w6.isEmpty Ex.sched [12, 1] k none)
    (fun d => decide (d ≤ 5)) (fun d => d == 6) (-1) 1 = .ok [⟨1, 1⟩, ⟨5, 2⟩, ⟨0, 3⟩, ⟨3, 5⟩] := by decide +kernel
example : searchByDistance (fun k => (Ex.w6.graph Ex.PW).searchByVector C93.faveCfg Ex.w6.isEmpty Ex.sched [12, 1] k none)
    (fun d => decide (d ≤ 500)) (fun _ => false) (-1) 1 = .ok [⟨1, 1⟩, ⟨5, 2⟩, ⟨0, 3⟩, ⟨3, 5⟩, ⟨2, 18⟩, ⟨4, 39⟩] := by decide +kernel
example : ∀ d e : Nat, Dist.lt e d = false → (decide (e ≤ 5) || e == 6) = true → (decide (d ≤ 5) || d == 6) = true := by
  intro d e h1 h2
  have h1 : decide (e < d) = false := h1
  simp at h1 h2 ⊢
  omega
/-- four vectors added and not flushed -/
example : Hist Ex.P Ex.s4 (Ex.vecs.take 4) ∧ Ex.s4.kvCount = none := ⟨Ex.hist4, by decide +kernel⟩

end Fave.C94
