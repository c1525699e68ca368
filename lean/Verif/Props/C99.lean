import Verif.Lemmas.Stricter
import Verif.Props.C98
/-!
# C99 — the conditions of a search act as conditions

Full claim: *a search with a smaller maximal distance, a lower limit or an allow list returns what the search without the condition returns,
less what the condition excludes; in particular no hit that meets the condition is lost.*

For the maximal distance and the limit of the search by vector this is an equality, for all graphs, timings, errors and ties
(`radius_cuts`, `vector_search_stricter`, `text_search_radius`): the stricter answer is the looser one cut off at the first excluded hit.

For the allow list it is not an equality: the places of excluded hits are filled, and a search that lets the excluded hits take part as
way points is the better for it (pkg/hnsw/search.go:284-297: they become candidates, not results).  Without ties no permitted hit is lost
and place by place the permitted hits are no farther (`filter_keeps_partial`, `filter_nearer_partial`, `history_filter_partial`).  False with
ties: `filter_can_lose` is a history of twelve additions after which the search finds the permitted vector 7 at distance 1, and the search
restricted to the even numbers and 7 does not find it.
-/
namespace Fave.C99
open Index Spec Search
variable {V D : Type} [Dist D]

/-- The maximal distance, any graph and timing: the search with the smaller maximal distance fails exactly if the one with the larger does;
its hits are the first of the other's, with the same distances; all of them are within `max`, and the next hit of the other is not. -/
theorem radius_cuts [LawfulDist D] (g : Graph V D) (σ : Graph.Scheds D) (q : V) (max max' : D) (hm : Dist.lt max' max = false) (ef : Int)
    (allow : Option (Nat → Bool)) :
    (∀ e, g.knnMaxDist σ q max ef allow = .error e ↔ g.knnMaxDist σ q max' ef allow = .error e) ∧
    ∀ ids' ds', g.knnMaxDist σ q max' ef allow = .ok (ids', ds') → ∃ ids ds, g.knnMaxDist σ q max ef allow = .ok (ids, ds) ∧
      ids <+: ids' ∧ (∀ i < ids.length, ∃ d, ds[i]? = some d ∧ ds'[i]? = some d ∧ Dist.lt max d = false) ∧
      (ids.length < ids'.length → ∃ d, ds'[ids.length]? = some d ∧ Dist.lt max d = true) := by
  refine ⟨fun e => ?_, fun ids' ds' h => ?_⟩
  · unfold Graph.knnMaxDist
    cases g.retained σ (g.norm q) ef allow <;> simp
  · obtain ⟨all, z, hall, e1, e2⟩ := Graph.knn_parts h
    obtain ⟨z', k⟩ := hall max
    obtain ⟨suf, hsuf⟩ := Graph.keepInRange_prefix hm all
    refine ⟨_, _, k, ?_, fun i hi => ?_, fun hlt => ?_⟩
    · rw [e1, ← hsuf, List.map_append]; exact List.prefix_append _ _
    · rw [List.length_map] at hi
      refine ⟨(Graph.keepInRange max all)[i].dist, ?_, ?_, (Graph.keepInRange_mem max all (List.getElem_mem hi)).2⟩
      · rw [List.getElem?_append_left (by rw [List.length_map]; exact hi)]; simp [hi]
      · rw [e2, ← hsuf, List.getElem?_append_left (by rw [List.length_map, List.length_append]; omega), List.map_append,
          List.getElem?_append_left (by rw [List.length_map]; exact hi)]
        simp [hi]
    · rw [e1, List.length_map, List.length_map] at hlt
      refine ⟨(Graph.keepInRange max' all)[(Graph.keepInRange max all).length].dist, ?_, Graph.keepInRange_next all (List.getElem?_eq_getElem hlt) hm⟩
      rw [List.length_map, e2, List.getElem?_append_left (by rw [List.length_map]; exact hlt)]
      simp [hlt]

/-- The search by vector as the client gets it: if a search is answered, so is every search for the same vector with a smaller or equal
maximal distance and a lower or equal limit (0 is no limit), and its documents are the first of the former's, with the same distances.  It
stops short only at the limit or at a document that is too far.  Any state, timing and errors of the storage, the same for both. -/
theorem vector_search_stricter {F : Type} [LawfulDist D] [DecidableEq F] (E : Client.Env F D) (o : Client.Oracle F D) (w : Client.World F)
    (name : Client.Str) (q : List F) (max max' : D) (hm : Dist.lt max' max = false) (limit limit' : Int) (h0 : 0 ≤ limit)
    (hl : limit' = 0 ∨ (limit ≠ 0 ∧ limit ≤ limit')) (docs' : List (Client.Props F)) (ds' : List D)
    (h : (Client.nearVector E o w name q max' limit').2 = .ok (docs', ds')) :
    ∃ docs ds, (Client.nearVector E o w name q max limit).2 = .ok (docs, ds) ∧ docs <+: docs' ∧ (∀ i < docs.length, ds[i]? = ds'[i]?) ∧
      (docs.length < docs'.length → (docs.length : Int) = limit ∨ ∃ d, ds'[docs.length]? = some d ∧ Dist.lt max d = true) := by
  unfold Client.nearVector at h ⊢
  cases ho : Client.ensureOpen o w (Client.ns ++ name) with
  | mk w1 e =>
    simp only [ho] at h ⊢
    cases e with
    | some e => cases h
    | none => exact Client.nearWith_stricter hm h0 hl h

/-- The search by text: the same of the maximal distance; the limit is also the width of that search, see C98. -/
theorem text_search_radius {F : Type} [LawfulDist D] [DecidableEq F] (E : Client.Env F D) (o : Client.Oracle F D) (w : Client.World F)
    (name text : Client.Str) (max max' : D) (hm : Dist.lt max' max = false) (limit : Int) (h0 : 0 ≤ limit)
    (docs' : List (Client.Props F)) (ds' : List D) (h : (Client.nearText E o w name text max' limit).2 = .ok (docs', ds')) :
    ∃ docs ds, (Client.nearText E o w name text max limit).2 = .ok (docs, ds) ∧ docs <+: docs' ∧ (∀ i < docs.length, ds[i]? = ds'[i]?) ∧
      (docs.length < docs'.length → (docs.length : Int) = limit ∨ ∃ d, ds'[docs.length]? = some d ∧ Dist.lt max d = true) := by
  unfold Client.nearText at h ⊢
  cases ho : Client.ensureOpen o w (Client.ns ++ name) with
  | mk w1 e =>
    simp only [ho] at h ⊢
    cases e with
    | some e => cases h
    | none =>
      simp only at h ⊢
      by_cases hlk : w1.lookup = true
      · simp only [hlk, Bool.not_true, Bool.false_eq_true, if_false] at h ⊢
        cases hq : o.corpi 0 text with
        | fail => rw [hq] at h; cases h
        | nil => rw [hq] at h; cases h
        | vec q =>
          simp only [hq] at h ⊢
          refine Client.nearWith_stricter hm h0 ?_ h
          by_cases hz : limit = 0
          · exact .inl hz
          · exact .inr ⟨hz, Int.le_refl _⟩
      · simp [hlk] at h

/-! ### allow lists -/

/-- A hit that the stricter list permits is kept, or the restricted search has as many hits as it may have, all nearer.  The restricted search
may also be wider, and have another timing.  `permits none` holds of everything.  Missing from the full statement: ties. -/
theorem filter_keeps_partial [LawfulDist D] (P : Params V D) (hs : P.cacheSize ≤ P.visitedSize) (hsym : ∀ a b, P.metric.dist a b = P.metric.dist b a)
    (hnn : ∀ a b d, P.metric.dist a b = some d → Dist.lt d Dist.zero = false) (s : Index V) (hb : ∀ id v, s.get id = some v → id < P.cacheSize)
    (q : V) (hn : NoTies P.metric (fun id => (s.get id).map Vertex.vec) (P.norm q)) (ef ef' : Int) (hef : 1 ≤ ef) (hle : ef ≤ ef')
    (allow allow' : Option (Nat → Bool)) (hal : ∀ x, permits allow' x = true → permits allow x = true)
    (σ τ : Graph.Scheds D) (max : D) (ids ids' : List Nat) (ds ds' : List D)
    (h1 : (s.graph P).knnMaxDist σ q max ef allow = .ok (ids, ds)) (h2 : (s.graph P).knnMaxDist τ q max ef' allow' = .ok (ids', ds'))
    (x : Nat) (hx : x ∈ ids) (hpx : permits allow' x = true) :
    x ∈ ids' ∨ (ef' ≤ ids'.length ∧ ∀ y ∈ ids', ∃ u w dx dy, s.get x = some u ∧ s.get y = some w ∧
      P.metric.dist (P.norm q) u.vec = some dx ∧ P.metric.dist (P.norm q) w.vec = some dy ∧ Dist.lt dy dx = true) := by
  obtain ⟨A, B, hA, hB, h⟩ := Graph.knn_wide (g := s.graph P) (calm_of_noTies hs hsym hb hn) hnn σ τ max hef hle hal h1 h2
  rw [hA.ids] at hx
  obtain ⟨a, ha, rfl⟩ := List.mem_map.mp hx
  rcases h a ha hpx with h | ⟨h, h'⟩
  · exact .inl (by rw [hB.ids]; exact List.mem_map_of_mem h)
  · refine .inr ⟨by rw [hB.ids, List.length_map]; exact h, fun y hy => ?_⟩
    rw [hB.ids] at hy
    obtain ⟨b, hb, rfl⟩ := List.mem_map.mp hy
    obtain ⟨u, hu, hdu⟩ := (hasDist_iff _ _ _).mp (hA.good a ha)
    obtain ⟨w, hw, hdw⟩ := (hasDist_iff _ _ _).mp (hB.good b hb)
    exact ⟨u, w, _, _, hu, hw, hdu, hdw, h' b hb⟩

theorem zip_items (l : List (Item D)) (t : List D) : (l.map Item.id).zip (l.map Item.dist ++ t) = l.map (fun x => (x.id, x.dist)) := by
  induction l with
  | nil => simp
  | cons x l ih => simp [ih]

theorem filter_items (p : Nat → Bool) (l : List (Item D)) :
    (l.map (fun x => (x.id, x.dist))).filter (fun e => p e.1) = (l.filter (fun x => p x.id)).map (fun x => (x.id, x.dist)) := by
  rw [List.filter_map]; rfl

/-- Place by place the restricted search is no worse than searching without restriction and dropping what is not permitted, and it has at
least as many hits; all its hits are permitted.  Missing from the full statement: ties. -/
theorem filter_nearer_partial [LawfulDist D] (P : Params V D) (hs : P.cacheSize ≤ P.visitedSize) (hsym : ∀ a b, P.metric.dist a b = P.metric.dist b a)
    (hnn : ∀ a b d, P.metric.dist a b = some d → Dist.lt d Dist.zero = false) (s : Index V) (hb : ∀ id v, s.get id = some v → id < P.cacheSize)
    (q : V) (hn : NoTies P.metric (fun id => (s.get id).map Vertex.vec) (P.norm q)) (ef ef' : Int) (hef : 1 ≤ ef) (hle : ef ≤ ef')
    (allow allow' : Option (Nat → Bool)) (hal : ∀ x, permits allow' x = true → permits allow x = true)
    (σ τ : Graph.Scheds D) (max : D) (ids ids' : List Nat) (ds ds' : List D)
    (h1 : (s.graph P).knnMaxDist σ q max ef allow = .ok (ids, ds)) (h2 : (s.graph P).knnMaxDist τ q max ef' allow' = .ok (ids', ds')) :
    (∀ x ∈ ids', permits allow' x = true) ∧ ((ids.zip ds).filter (fun e => permits allow' e.1)).length ≤ ids'.length ∧
    ∀ (i x : Nat) (d : D), ((ids.zip ds).filter (fun e => permits allow' e.1))[i]? = some (x, d) → ∃ d', ds'[i]? = some d' ∧ Dist.lt d d' = false := by
  have hc := calm_of_noTies hs hsym hb hn
  obtain ⟨A, B, hA, hB, h⟩ := Graph.knn_places (g := s.graph P) hc hnn σ τ max hef hle hal h1 h2
  have hpm := Graph.hits_permitted (g := s.graph P) hc (by omega) h2 hB
  obtain ⟨t, ht⟩ := hA.dists
  have hz : (ids.zip ds).filter (fun e => permits allow' e.1) = (A.filter (fun x => permits allow' x.id)).map (fun x => (x.id, x.dist)) := by
    rw [← ht, hA.ids, zip_items, filter_items]
  refine ⟨fun x hx => ?_, ?_, fun i x d hi => ?_⟩
  · rw [hB.ids] at hx
    obtain ⟨b, hb, rfl⟩ := List.mem_map.mp hx
    exact hpm b hb
  · rw [hz, hB.ids, List.length_map, List.length_map]
    rcases Nat.eq_zero_or_pos (A.filter (fun x => permits allow' x.id)).length with h0 | h0
    · omega
    · obtain ⟨h', _⟩ := h ((A.filter (fun x => permits allow' x.id)).length - 1) (by omega)
      omega
  · rw [hz, List.getElem?_map] at hi
    cases hg : (A.filter (fun x => permits allow' x.id))[i]? with
    | none => rw [hg] at hi; cases hi
    | some a =>
      rw [hg] at hi
      cases hi
      obtain ⟨hi, ha⟩ := List.getElem?_eq_some_iff.mp hg
      obtain ⟨hi', hlt⟩ := h i hi
      rw [ha] at hlt
      exact ⟨_, hB.dist i hi', hlt⟩

/-- In every history (additions, flushes, loads, restarts) with no two of the vectors equally far from the query both searches succeed, and
no permitted hit is lost to nothing, in terms of the added vectors alone.  Missing from the full statement: ties. -/
theorem history_filter_partial [LawfulDist D] (P : Params V D) (hP : P.Ok)
    (hdist : ∀ a b, P.metric.len a = P.metric.len b → ∃ d, P.metric.dist a b = some d)
    (hsym : ∀ a b, P.metric.dist a b = P.metric.dist b a) (hnn : ∀ a b d, P.metric.dist a b = some d → Dist.lt d Dist.zero = false)
    (s : Index V) (vs : List V) (h : Hist P s vs) (hne : vs ≠ []) (q : V) (hq : ∀ u ∈ vs, P.metric.len u = P.metric.len q)
    (hn : NoTies P.metric (fun id => vs[id]?.map P.norm) (P.norm q)) (ef : Int) (hef : 1 ≤ ef)
    (p : Nat → Bool) (σ τ : Graph.Scheds D) (max : D) :
    ∃ ids ds ids' ds', (s.graph P).knnMaxDist σ q max ef none = .ok (ids, ds) ∧ (s.graph P).knnMaxDist τ q max ef (some p) = .ok (ids', ds') ∧
      (∀ x ∈ ids', p x = true) ∧
      ∀ x ∈ ids, p x = true → x ∈ ids' ∨ (ids'.length = ef ∧ ∀ y ∈ ids', ∃ u w dx dy, vs[x]? = some u ∧ vs[y]? = some w ∧
        P.metric.dist (P.norm q) (P.norm u) = some dx ∧ P.metric.dist (P.norm q) (P.norm w) = some dy ∧ Dist.lt dy dx = true) := by
  have hi := hist_inv hP h
  have hok := firstGraph_ok hP hi
  have hvec : ∀ id v, (firstGraph P s vs.length).get id = some v → ∃ u, vs[id]? = some u ∧ v.vec = P.norm u := by
    intro id v hv
    obtain ⟨hid, hv⟩ := firstGraph_get hv
    exact ⟨vs[id], List.getElem?_eq_getElem hid, hi.holds id _ v (List.getElem?_eq_getElem hid) hv⟩
  have hc : (firstGraph P s vs.length).Calm ((firstGraph P s vs.length).norm q) := by
    refine ⟨?_, hok.cache, hok.small, hsym⟩
    rintro i j di dj ⟨v, hv, hdv⟩ ⟨w, hw, hdw⟩ hij
    obtain ⟨u, hu, eu⟩ := hvec i v hv
    obtain ⟨u', hu', eu'⟩ := hvec j w hw
    exact hn i j v.vec w.vec di dj (by show vs[i]?.map P.norm = _; rw [hu, eu]; rfl)
      (by show vs[j]?.map P.norm = _; rw [hu', eu']; rfl) hij hdv hdw
  have htot : ∀ (σ : Graph.Scheds D) (allow : Option (Nat → Bool)), ∃ ids ds, (firstGraph P s vs.length).knnMaxDist σ q max ef allow = .ok (ids, ds) := by
    intro σ allow
    obtain ⟨r, hr⟩ := hist_search_total hP hdist hsym hi hne hq σ ef allow
    have hr' : (firstGraph P s vs.length).retained σ ((firstGraph P s vs.length).norm q) ef allow = .ok r := hr
    unfold Graph.knnMaxDist
    rw [hr']
    exact ⟨_, _, rfl⟩
  obtain ⟨ids, ds, h1⟩ := htot σ none
  obtain ⟨ids', ds', h2⟩ := htot τ (some p)
  obtain ⟨A, B, hA, hB, hw⟩ := Graph.knn_wide hc hnn σ τ max hef (Int.le_refl ef) (fun _ _ => rfl) h1 h2
  have hpm := Graph.hits_permitted hc hef h2 hB
  refine ⟨ids, ds, ids', ds', by rw [firstGraph_search hP hi hne, h1], by rw [firstGraph_search hP hi hne, h2], fun x hx => ?_, fun x hx hpx => ?_⟩
  · rw [hB.ids] at hx
    obtain ⟨b, hb, rfl⟩ := List.mem_map.mp hx
    exact hpm b hb
  · rw [hA.ids] at hx
    obtain ⟨a, ha, rfl⟩ := List.mem_map.mp hx
    rcases hw a ha hpx with h | ⟨h, h'⟩
    · exact .inl (by rw [hB.ids]; exact List.mem_map_of_mem h)
    · refine .inr ⟨by rw [hB.ids, List.length_map]; exact Int.le_antisymm hB.len h, fun y hy => ?_⟩
      rw [hB.ids] at hy
      obtain ⟨b, hb, rfl⟩ := List.mem_map.mp hy
      obtain ⟨v, hv, hdv⟩ := (hasDist_iff _ _ _).mp (hA.good a ha)
      obtain ⟨w, hw, hdw⟩ := (hasDist_iff _ _ _).mp (hB.good b hb)
      obtain ⟨u, hu, eu⟩ := hvec _ v hv
      obtain ⟨u', hu', eu'⟩ := hvec _ w hw
      exact ⟨u, u', _, _, hu, hu', eu ▸ hdv, eu' ▸ hdw, h' b hb⟩

/-! ### ties -/

/-- twelve vectors, several of them equally far from `[2, 3]` -/
def tiedVecs : List (List Nat) := [[1, 4], [1, 1], [0, 3], [0, 0], [4, 4], [2, 0], [4, 2], [2, 2], [4, 3], [4, 4], [3, 2], [1, 2]]

/-- additions on the base layer, goroutines finishing in the order they were started — pkg/hnsw/insert.go:57-79 -/
def tiedAdds : Index (List Nat) → Nat → List (List Nat) → Option (Index (List Nat))
  | s, _, [] => some s
  | s, n, v :: vs =>
    match Index.add Ex.P (fun _ _ _ id => tiedVecs[id]?) (fun _ => Sched.id) s n v 0 with
    | (s, none) => tiedAdds s (n + 1) vs
    | _ => none

theorem tiedAdds_hist (vs ws : List (List Nat)) (s s' : Index (List Nat)) (h : Hist Ex.P s vs) (ha : tiedAdds s vs.length ws = some s') :
    Hist Ex.P s' (vs ++ ws) := by
  induction ws generalizing s vs with
  | nil => cases ha; simpa using h
  | cons w ws ih =>
    unfold tiedAdds at ha
    split at ha
    · rename_i s1 h1
      have := ih (vs ++ [w]) s1 (.add _ _ w 0 h h1) (by simpa using ha)
      simpa using this
    · cases ha

/-- Ties: after twelve additions the search for three hits returns vector 7, the nearest of its hits, at distance 1; the same search restricted
to the even numbers and 7 returns three hits at distance 2. -/
theorem filter_can_lose : ∃ s, Hist Ex.P s tiedVecs ∧
    (s.graph Ex.P).knnMaxDist (fun _ => Sched.id) [2, 3] 1000 3 none = .ok ([7, 2, 0], [1, 2, 2]) ∧
    (s.graph Ex.P).knnMaxDist (fun _ => Sched.id) [2, 3] 1000 3 (some (fun i => i % 2 == 0 || i == 7)) = .ok ([2, 0, 8], [2, 2, 2]) := by
  have hrun : ∃ s, tiedAdds init 0 tiedVecs = some s ∧
      (s.graph Ex.P).knnMaxDist (fun _ => Sched.id) [2, 3] 1000 3 none = .ok ([7, 2, 0], [1, 2, 2]) ∧
      (s.graph Ex.P).knnMaxDist (fun _ => Sched.id) [2, 3] 1000 3 (some (fun i => i % 2 == 0 || i == 7)) = .ok ([2, 0, 8], [2, 2, 2]) := by
    have h : (match tiedAdds init 0 tiedVecs with
        | none => false
        | some s => decide ((s.graph Ex.P).knnMaxDist (fun _ => Sched.id) [2, 3] 1000 3 none = .ok ([7, 2, 0], [1, 2, 2])) &&
          decide ((s.graph Ex.P).knnMaxDist (fun _ => Sched.id) [2, 3] 1000 3 (some (fun i => i % 2 == 0 || i == 7)) = .ok ([2, 0, 8], [2, 2, 2]))) = true := by decide +kernel
    split at h
    · cases h
    · rename_i s hs
      simp only [Bool.and_eq_true, decide_eq_true_eq] at h
      exact ⟨s, hs, h⟩
  obtain ⟨s, hs, h1, h2⟩ := hrun
  exact ⟨s, tiedAdds_hist [] tiedVecs init s .init hs, h1, h2⟩

/-! ### Non-vacuity -/

/-- the maximal distance: 3 instead of 100 -/
example : (Ex.s6.graph Ex.P).knnMaxDist Ex.sched [14, 0] 100 4 none = .ok ([1, 5, 0, 3], [2, 3, 4, 8]) ∧
    (Ex.s6.graph Ex.P).knnMaxDist Ex.sched [14, 0] 3 4 none = .ok ([1, 5], [2, 3, 0, 0]) ∧ Dist.lt 100 3 = false := by decide +kernel
/-- without ties the restricted search finds other hits at the places of the excluded: dropping the excluded would have left nothing -/
example : (Ex.s6.graph Ex.P).knnMaxDist Ex.sched [14, 0] 100 1 none = .ok ([1], [2]) ∧
    (Ex.s6.graph Ex.P).knnMaxDist Ex.sched [14, 0] 100 1 (some (· != 1)) = .ok ([5], [3]) ∧
    (Ex.s6.graph Ex.P).knnMaxDist Ex.sched [14, 0] 100 2 (some (· != 1)) = .ok ([5, 0], [3, 4]) := by decide +kernel
/-- the history of `Ex.s6` (two layers, a flush, a restart), whatever the timings and the list -/
example (p : Nat → Bool) (σ τ : Graph.Scheds Nat) : ∃ ids ds ids' ds', (Ex.s6.graph Ex.P).knnMaxDist σ [14, 0] 100 2 none = .ok (ids, ds) ∧
    (Ex.s6.graph Ex.P).knnMaxDist τ [14, 0] 100 2 (some p) = .ok (ids', ds') ∧ ∀ x ∈ ids', p x = true := by
  have hdi : ∀ a b, Ex.P.metric.len a = Ex.P.metric.len b → ∃ d, Ex.P.metric.dist a b = some d := by
    intro a b h
    have h : a.length = b.length := h
    exact ⟨_, by show (if a.length = b.length then _ else _) = _; rw [if_pos h]⟩
  obtain ⟨ids, ds, ids', ds', h1, h2, h3, _⟩ := history_filter_partial Ex.P Ex.P_ok hdi C68.metric_sym C98.vdist_nonneg Ex.s6 Ex.vecs Ex.hist6 (by decide) [14, 0]
    (by decide) (noTies_of_keys [0, 1, 2, 3, 4, 5] (by
      intro id h
      have : ¬ id < 6 := by simp at h; omega
      show Ex.vecs[id]?.map _ = none
      rw [List.getElem?_eq_none (by show 6 ≤ id; omega)]; rfl) (by decide +kernel)) 2 (by decide) p σ τ 100
  exact ⟨ids, ds, ids', ds', h1, h2, h3⟩

/-- a state as it is: the hypotheses of `filter_keeps_partial` and `filter_nearer_partial` hold of `Ex.s6`, and the searches succeed -/
example : ((∀ id v, Ex.s6.get id = some v → id < Ex.P.cacheSize) ∧
    NoTies Ex.P.metric (fun id => (Ex.s6.get id).map Vertex.vec) (Ex.P.norm [14, 0])) ∧
    (∀ x, permits (some (· != 1)) x = true → permits none x = true) := by
  refine ⟨⟨fun id v hv => Classical.byContradiction fun h => ?_,
    noTies_of_keys (Ex.s6.cache.keys ++ Ex.s6.kv.keys) (fun id h => ?_) (by decide +kernel)⟩, fun _ _ => rfl⟩
  · rw [get_none_of_keys] at hv
    · cases hv
    · intro hm
      have : ∀ k ∈ Ex.s6.cache.keys ++ Ex.s6.kv.keys, k < Ex.P.cacheSize := by decide +kernel
      exact h (this id hm)
  · show (Ex.s6.get id).map _ = none
    rw [get_none_of_keys h]; rfl

/-- searches of a client in the collection of `ExC.w1`: by vector with all documents, with a limit, with a smaller maximal distance; by text -/
example : ((Client.nearVector ExC.E ExC.o ExC.w1 ExC.books [5, 0] 100 0).2.map (fun p => (p.1.length, p.2)) = .ok (4, [1, 5, 7, 26])) ∧
    ((Client.nearVector ExC.E ExC.o ExC.w1 ExC.books [5, 0] 100 1).2.map (fun p => (p.1.length, p.2)) = .ok (1, [1])) ∧
    ((Client.nearVector ExC.E ExC.o ExC.w1 ExC.books [5, 0] 5 0).2.map (fun p => (p.1.length, p.2)) = .ok (2, [1, 5, 0, 0])) ∧
    ((Client.nearText ExC.E ExC.o ExC.w1 ExC.books ['a', 'b', 'c', 'd', 'e'] 5 3).2.map (fun p => (p.1.length, p.2)) = .ok (2, [1, 5, 0])) := by
  decide +kernel

end Fave.C99
