import Verif.Lemmas.Wider
import Verif.Props.C68
import Verif.Lemmas.HistSearch
import Verif.Lemmas.ClientNear
import Verif.Spec.ExampleIndex
import Verif.Spec.ExampleClient
/-!
# C98 — a wider search is never worse

Full claim: *whoever asks for more hits gets, place by place, hits that are no farther; and no true neighbour found by the narrower search is lost.*

`GetNearDocuments` passes the number of wanted hits as the width `ef` of the search on the base layer (pkg/document/document.go:516), so
the claim is about what a client sees.

False if vectors are equally far from the query: `wider_can_lose` is a history of ten additions after which the search for three hits
returns the vector that is searched for, at distance 0, and the search for four hits does not.

True without ties (the `_partial` theorems), for all graphs, timings and widths.
-/
namespace Fave.C98
open Index Spec Search
variable {V D : Type} [Dist D]

/-- One layer, any graph: what the search of width `ef` finds, the search of width `ef' ≥ ef` from the same start finds too, or it finds
`ef'` items all of which are nearer.  The two searches may have different timings.  Missing from the full statement: ties. -/
theorem layer_wider_partial [LawfulDist D] (env : SEnv V D) (ht : TieFree env) (σ τ : Sched D) (eps : List (Item D)) (ef ef' : Int) (level : Nat)
    (hef : 1 ≤ ef) (hle : ef ≤ ef') (hnd : (eps.map Item.id).Nodup) (hsmall : ∀ e ∈ eps, e.id < env.visitedSize)
    (hg : ∀ e ∈ eps, HasDist env e.id e.dist) (hlen : (eps.length : Int) ≤ ef)
    (r r' : Array (Item D)) (h1 : searchLayer env σ eps ef level = .ok r) (h2 : searchLayer env τ eps ef' level = .ok r')
    (x : Item D) (hx : x ∈ r) : x ∈ r' ∨ (ef' ≤ r'.size ∧ ∀ y ∈ r', Dist.lt y.dist x.dist = true) := by
  rcases searchLayer_wide (al := env.allow) ht hef hle (fun _ h => h) ⟨hnd, hsmall⟩ (fun e h => (hasDist_iff _ _ _).mpr (hg e h)) hlen h1 h2 x hx.val
    (searchLayer_inv (P := Good env) (fun _ h => h) ⟨hnd, hsmall⟩ (fun e h => (hasDist_iff _ _ _).mpr (hg e h)) h1 |>.1 x hx.val).2 with h | h
  · exact .inl ⟨h⟩
  · exact .inr ⟨h.1, fun y hy => h.2 y hy.val⟩

/-- A hit of the narrower search is a hit of the wider one, or the wider one has as many hits as it may have, all nearer.  `s` is any
state in which nodes are stored under numbers below the size of the vector cache.  Missing from the full statement: ties. -/
theorem wider_keeps_partial [LawfulDist D] (P : Params V D) (hs : P.cacheSize ≤ P.visitedSize) (hsym : ∀ a b, P.metric.dist a b = P.metric.dist b a)
    (hnn : ∀ a b d, P.metric.dist a b = some d → Dist.lt d Dist.zero = false) (s : Index V) (hb : ∀ id v, s.get id = some v → id < P.cacheSize)
    (q : V) (hn : NoTies P.metric (fun id => (s.get id).map Vertex.vec) (P.norm q)) (ef ef' : Int) (hef : 1 ≤ ef) (hle : ef ≤ ef')
    (allow : Option (Nat → Bool)) (σ τ : Graph.Scheds D) (max : D) (ids ids' : List Nat) (ds ds' : List D)
    (h1 : (s.graph P).knnMaxDist σ q max ef allow = .ok (ids, ds)) (h2 : (s.graph P).knnMaxDist τ q max ef' allow = .ok (ids', ds'))
    (x : Nat) (hx : x ∈ ids) :
    x ∈ ids' ∨ (ef' ≤ ids'.length ∧ ∀ y ∈ ids', ∀ u w dx dy, s.get x = some u → s.get y = some w →
      P.metric.dist (P.norm q) u.vec = some dx → P.metric.dist (P.norm q) w.vec = some dy → Dist.lt dy dx = true) := by
  obtain ⟨A, B, hA, hB, h⟩ := Graph.knn_wide (g := s.graph P) (calm_of_noTies hs hsym hb hn) hnn σ τ max hef hle (fun _ h => h) h1 h2
  have hpm := Graph.hits_permitted (g := s.graph P) (calm_of_noTies hs hsym hb hn) hef h1 hA
  rw [hA.ids] at hx
  obtain ⟨a, ha, rfl⟩ := List.mem_map.mp hx
  rcases h a ha (hpm a ha) with h | ⟨h, h'⟩
  · exact .inl (by rw [hB.ids]; exact List.mem_map_of_mem h)
  · refine .inr ⟨by rw [hB.ids, List.length_map]; exact h, fun y hy u w dx dy hu hw hdx hdy => ?_⟩
    rw [hB.ids] at hy
    obtain ⟨b, hb, rfl⟩ := List.mem_map.mp hy
    have e1 := hasDist_unique ((hasDist_iff _ _ _).mp (hA.good a ha)) ⟨u, hu, hdx⟩
    have e2 := hasDist_unique ((hasDist_iff _ _ _).mp (hB.good b hb)) ⟨w, hw, hdy⟩
    rw [← e1, ← e2]
    exact h' b hb

/-- Place by place the hits of the wider search are no farther, and there are at least as many.  Missing from the full statement: ties. -/
theorem wider_nearer_partial [LawfulDist D] (P : Params V D) (hs : P.cacheSize ≤ P.visitedSize) (hsym : ∀ a b, P.metric.dist a b = P.metric.dist b a)
    (hnn : ∀ a b d, P.metric.dist a b = some d → Dist.lt d Dist.zero = false) (s : Index V) (hb : ∀ id v, s.get id = some v → id < P.cacheSize)
    (q : V) (hn : NoTies P.metric (fun id => (s.get id).map Vertex.vec) (P.norm q)) (ef ef' : Int) (hef : 1 ≤ ef) (hle : ef ≤ ef')
    (allow : Option (Nat → Bool)) (σ τ : Graph.Scheds D) (max : D) (ids ids' : List Nat) (ds ds' : List D)
    (h1 : (s.graph P).knnMaxDist σ q max ef allow = .ok (ids, ds)) (h2 : (s.graph P).knnMaxDist τ q max ef' allow = .ok (ids', ds')) :
    ids.length ≤ ids'.length ∧ ∀ i < ids.length, ∃ d d', ds[i]? = some d ∧ ds'[i]? = some d' ∧ Dist.lt d d' = false :=
  Graph.knn_places_same (g := s.graph P) (calm_of_noTies hs hsym hb hn) hnn σ τ max hef hle allow h1 h2

/-- A hit to which fewer than `ef'` stored vectors are nearer — in particular each of the `ef'` true nearest — is not lost.  Missing from
the full statement: ties. -/
theorem true_neighbours_kept_partial [LawfulDist D] (P : Params V D) (hs : P.cacheSize ≤ P.visitedSize) (hsym : ∀ a b, P.metric.dist a b = P.metric.dist b a)
    (hnn : ∀ a b d, P.metric.dist a b = some d → Dist.lt d Dist.zero = false) (s : Index V) (hb : ∀ id v, s.get id = some v → id < P.cacheSize)
    (q : V) (hn : NoTies P.metric (fun id => (s.get id).map Vertex.vec) (P.norm q)) (ef ef' : Int) (hef : 1 ≤ ef) (hle : ef ≤ ef')
    (allow : Option (Nat → Bool)) (σ τ : Graph.Scheds D) (max : D) (ids ids' : List Nat) (ds ds' : List D)
    (h1 : (s.graph P).knnMaxDist σ q max ef allow = .ok (ids, ds)) (h2 : (s.graph P).knnMaxDist τ q max ef' allow = .ok (ids', ds'))
    (x : Nat) (hx : x ∈ ids)
    (hfew : ∀ l : List Nat, l.Nodup → (∀ y ∈ l, ∃ u w dx dy, s.get x = some u ∧ s.get y = some w ∧ P.metric.dist (P.norm q) u.vec = some dx ∧
      P.metric.dist (P.norm q) w.vec = some dy ∧ Dist.lt dy dx = true) → (l.length : Int) < ef') : x ∈ ids' := by
  obtain ⟨A, B, hA, hB, h⟩ := Graph.knn_wide (g := s.graph P) (calm_of_noTies hs hsym hb hn) hnn σ τ max hef hle (fun _ h => h) h1 h2
  have hpm := Graph.hits_permitted (g := s.graph P) (calm_of_noTies hs hsym hb hn) hef h1 hA
  rw [hA.ids] at hx
  obtain ⟨a, ha, rfl⟩ := List.mem_map.mp hx
  rcases h a ha (hpm a ha) with h | ⟨h, h'⟩
  · rw [hB.ids]; exact List.mem_map_of_mem h
  · exfalso
    have := hfew (B.map Item.id) hB.nodup (fun y hy => by
      obtain ⟨b, hb, rfl⟩ := List.mem_map.mp hy
      obtain ⟨u, hu, hdu⟩ := (hasDist_iff _ _ _).mp (hA.good a ha)
      obtain ⟨w, hw, hdw⟩ := (hasDist_iff _ _ _).mp (hB.good b hb)
      exact ⟨u, w, _, _, hu, hw, hdu, hdw, h' b hb⟩)
    rw [List.length_map] at this
    omega

/-- In every history (additions, flushes, loads, restarts) with no two of the vectors equally far from the query both searches succeed, and
the claim holds of them, in terms of the added vectors alone.  Missing from the full statement: ties. -/
theorem history_wider_partial [LawfulDist D] (P : Params V D) (hP : P.Ok)
    (hdist : ∀ a b, P.metric.len a = P.metric.len b → ∃ d, P.metric.dist a b = some d)
    (hsym : ∀ a b, P.metric.dist a b = P.metric.dist b a) (hnn : ∀ a b d, P.metric.dist a b = some d → Dist.lt d Dist.zero = false)
    (s : Index V) (vs : List V) (h : Hist P s vs) (hne : vs ≠ []) (q : V) (hq : ∀ u ∈ vs, P.metric.len u = P.metric.len q)
    (hn : NoTies P.metric (fun id => vs[id]?.map P.norm) (P.norm q)) (ef ef' : Int) (hef : 1 ≤ ef) (hle : ef ≤ ef')
    (allow : Option (Nat → Bool)) (σ τ : Graph.Scheds D) (max : D) :
    ∃ ids ds ids' ds', (s.graph P).knnMaxDist σ q max ef allow = .ok (ids, ds) ∧ (s.graph P).knnMaxDist τ q max ef' allow = .ok (ids', ds') ∧
      ids.length ≤ ids'.length ∧ (∀ i < ids.length, ∃ d d', ds[i]? = some d ∧ ds'[i]? = some d' ∧ Dist.lt d d' = false) ∧
      ∀ x ∈ ids, x ∈ ids' ∨ (ef' ≤ ids'.length ∧ ∀ y ∈ ids', ∃ u w dx dy, vs[x]? = some u ∧ vs[y]? = some w ∧
        P.metric.dist (P.norm q) (P.norm u) = some dx ∧ P.metric.dist (P.norm q) (P.norm w) = some dy ∧ Dist.lt dy dx = true) := by
  have hi := hist_inv hP h
  have hok := firstGraph_ok hP hi
  have hvec : ∀ id v, (firstGraph P s vs.length).get id = some v → ∃ u, vs[id]? = some u ∧ v.vec = P.norm u := by
    intro id v hv
    obtain ⟨hid, hv⟩ := firstGraph_get hv
    exact ⟨vs[id], List.getElem?_eq_getElem hid, hi.holds id _ v (List.getElem?_eq_getElem hid) hv⟩
  have hc : (firstGraph P s vs.length).Calm ((firstGraph P s vs.length).norm q) := by
    refine ⟨?_, hok.cache, hok.small, hsym⟩
    rintro i j di dj ⟨v, hv, hdv⟩ ⟨w, hw, hdw⟩ hij
    obtain ⟨u, hu, eu⟩ := hvec i v hv
    obtain ⟨u', hu', eu'⟩ := hvec j w hw
    exact hn i j v.vec w.vec di dj (by show vs[i]?.map P.norm = _; rw [hu, eu]; rfl)
      (by show vs[j]?.map P.norm = _; rw [hu', eu']; rfl) hij hdv hdw
  have htot : ∀ (σ : Graph.Scheds D) (ef : Int), ∃ ids ds, (firstGraph P s vs.length).knnMaxDist σ q max ef allow = .ok (ids, ds) := by
    intro σ ef
    obtain ⟨r, hr⟩ := hist_search_total hP hdist hsym hi hne hq σ ef allow
    have hr' : (firstGraph P s vs.length).retained σ ((firstGraph P s vs.length).norm q) ef allow = .ok r := hr
    unfold Graph.knnMaxDist
    rw [hr']
    exact ⟨_, _, rfl⟩
  obtain ⟨ids, ds, h1⟩ := htot σ ef
  obtain ⟨ids', ds', h2⟩ := htot τ ef'
  obtain ⟨p1, p2⟩ := Graph.knn_places_same hc hnn σ τ max hef hle allow h1 h2
  obtain ⟨A, B, hA, hB, hw⟩ := Graph.knn_wide hc hnn σ τ max hef hle (fun _ h => h) h1 h2
  have hpm := Graph.hits_permitted hc hef h1 hA
  refine ⟨ids, ds, ids', ds', by rw [firstGraph_search hP hi hne, h1], by rw [firstGraph_search hP hi hne, h2], p1, p2, fun x hx => ?_⟩
  rw [hA.ids] at hx
  obtain ⟨a, ha, rfl⟩ := List.mem_map.mp hx
  rcases hw a ha (hpm a ha) with h | ⟨h, h'⟩
  · exact .inl (by rw [hB.ids]; exact List.mem_map_of_mem h)
  · refine .inr ⟨by rw [hB.ids, List.length_map]; exact h, fun y hy => ?_⟩
    rw [hB.ids] at hy
    obtain ⟨b, hb, rfl⟩ := List.mem_map.mp hy
    obtain ⟨v, hv, hdv⟩ := (hasDist_iff _ _ _).mp (hA.good a ha)
    obtain ⟨w, hw, hdw⟩ := (hasDist_iff _ _ _).mp (hB.good b hb)
    obtain ⟨u, hu, eu⟩ := hvec _ v hv
    obtain ⟨u', hu', eu'⟩ := hvec _ w hw
    exact ⟨u, u', _, _, hu, hu', eu ▸ hdv, eu' ▸ hdw, h' b hb⟩

/-- The request itself: of two searches for the same text that are answered, the one with the higher limit has at least as many documents,
and place by place they are no farther.  Missing from the full statement: ties. -/
theorem text_search_wider_partial {F : Type} [LawfulDist D] [DecidableEq F] (E : Client.Env F D) (hs : E.P.cacheSize ≤ E.P.visitedSize)
    (hsym : ∀ a b, E.P.metric.dist a b = E.P.metric.dist b a) (hnn : ∀ a b d, E.P.metric.dist a b = some d → Dist.lt d Dist.zero = false)
    (o : Client.Oracle F D) (w : Client.World F) (name text : Client.Str) (q : List F) (hq : o.corpi 0 text = .vec q)
    (idx : Index (List F)) (hidx : idx = Client.loaded o ((Client.ensureOpen o w (Client.ns ++ name)).1.coll (Client.ns ++ name)).idx)
    (hb : ∀ id v, idx.get id = some v → id < E.P.cacheSize)
    (hn : NoTies E.P.metric (fun id => (idx.get id).map Vertex.vec) (E.P.norm q)) (max : D) (limit limit' : Int) (hl : 1 ≤ limit) (hle : limit ≤ limit')
    (docs docs' : List (Client.Props F)) (ds ds' : List D) (h1 : (Client.nearText E o w name text max limit).2 = .ok (docs, ds))
    (h2 : (Client.nearText E o w name text max limit').2 = .ok (docs', ds')) :
    docs.length ≤ docs'.length ∧ ∀ i < docs.length, ∃ d d', ds[i]? = some d ∧ ds'[i]? = some d' ∧ Dist.lt d d' = false := by
  unfold Client.nearText at h1 h2
  cases ho : Client.ensureOpen o w (Client.ns ++ name) with
  | mk w1 e =>
    rw [ho] at hidx
    simp only [ho] at h1 h2
    cases e with
    | some e => cases h1
    | none =>
      simp only [hq] at h1 h2
      by_cases hlk : w1.lookup = true
      · simp only [hlk, Bool.not_true, Bool.false_eq_true, if_false] at h1 h2
        obtain ⟨idx1, ids, dists, ids1, _, e1, k1, t1, l1⟩ := Client.nearWith_ok h1
        obtain ⟨idx2, ids', dists', ids2, _, e2, k2, t2, l2⟩ := Client.nearWith_ok h2
        subst e1 e2
        rw [← hidx] at k1 k2
        have hc := calm_of_noTies hs hsym hb hn
        obtain ⟨_, A, _, hA, _⟩ := Graph.knn_hits (g := idx.graph E.P) hc (o.sched 0) max hl none k1
        obtain ⟨_, B, _, hB, _⟩ := Graph.knn_hits (g := idx.graph E.P) hc (o.sched 0) max (by omega) none k2
        have ntr : ∀ (l : Int) (is : List Nat) (es : List D) (is' : List Nat) (es' : List D), (is.length : Int) ≤ l →
            Client.truncate l is es = .ok (is', es') → is = is' ∧ es = es' := by
          intro l is es is' es' hlen ht
          unfold Client.truncate at ht
          rw [if_neg (by omega)] at ht
          cases ht; exact ⟨rfl, rfl⟩
        obtain ⟨rfl, rfl⟩ := ntr _ _ _ _ _ (by rw [hA.ids, List.length_map]; exact hA.len) t1
        obtain ⟨rfl, rfl⟩ := ntr _ _ _ _ _ (by rw [hB.ids, List.length_map]; exact hB.len) t2
        rw [Client.lookupAll_length l1, Client.lookupAll_length l2]
        exact Graph.knn_places_same (g := idx.graph E.P) hc hnn _ _ max hl hle none k1 k2
      · simp [hlk] at h1

/-! ### ties -/

/-- ten vectors, several of them equally far from `[4, 0]` -/
def tiedVecs : List (List Nat) := [[1, 2], [4, 4], [0, 0], [4, 0], [0, 1], [2, 1], [1, 2], [4, 3], [4, 3], [4, 4]]

/-- additions on the base layer, goroutines finishing in the order they were started — pkg/hnsw/insert.go:57-79 -/
def tiedAdds : Index (List Nat) → Nat → List (List Nat) → Option (Index (List Nat))
  | s, _, [] => some s
  | s, n, v :: vs =>
    match Index.add Ex.P (fun _ _ _ id => tiedVecs[id]?) (fun _ => Sched.id) s n v 0 with
    | (s, none) => tiedAdds s (n + 1) vs
    | _ => none

theorem tiedAdds_hist (vs ws : List (List Nat)) (s s' : Index (List Nat)) (h : Hist Ex.P s vs) (ha : tiedAdds s vs.length ws = some s') :
    Hist Ex.P s' (vs ++ ws) := by
  induction ws generalizing s vs with
  | nil => cases ha; simpa using h
  | cons w ws ih =>
    unfold tiedAdds at ha
    split at ha
    · rename_i s1 h1
      have := ih (vs ++ [w]) s1 (.add _ _ w 0 h h1) (by simpa using ha)
      simpa using this
    · cases ha

/-- Ties: after ten additions the search for three hits returns the vector searched for, with distance 0, and the search for four hits with
the same timing does not; its nearest hit is at distance 3. -/
theorem wider_can_lose : ∃ s, Hist Ex.P s tiedVecs ∧ tiedVecs[3]? = some [4, 0] ∧
    (s.graph Ex.P).knnMaxDist (fun _ => Sched.id) [4, 0] 1000 3 none = .ok ([3, 5, 2], [0, 3, 4]) ∧
    (s.graph Ex.P).knnMaxDist (fun _ => Sched.id) [4, 0] 1000 4 none = .ok ([8, 7, 5, 9], [3, 3, 3, 4]) := by
  have hrun : ∃ s, tiedAdds init 0 tiedVecs = some s ∧
      (s.graph Ex.P).knnMaxDist (fun _ => Sched.id) [4, 0] 1000 3 none = .ok ([3, 5, 2], [0, 3, 4]) ∧
      (s.graph Ex.P).knnMaxDist (fun _ => Sched.id) [4, 0] 1000 4 none = .ok ([8, 7, 5, 9], [3, 3, 3, 4]) := by
    have h : (match tiedAdds init 0 tiedVecs with
        | none => false
        | some s => decide ((s.graph Ex.P).knnMaxDist (fun _ => Sched.id) [4, 0] 1000 3 none = .ok ([3, 5, 2], [0, 3, 4])) &&
          decide ((s.graph Ex.P).knnMaxDist (fun _ => Sched.id) [4, 0] 1000 4 none = .ok ([8, 7, 5, 9], [3, 3, 3, 4]))) = true := by decide +kernel
    split at h
    · cases h
    · rename_i s hs
      simp only [Bool.and_eq_true, decide_eq_true_eq] at h
      exact ⟨s, hs, h⟩
  obtain ⟨s, hs, h1, h2⟩ := hrun
  exact ⟨s, tiedAdds_hist [] tiedVecs init s .init hs, rfl, h1, h2⟩

/-! ### Non-vacuity -/

/-- a layer on which the search of width 1 stops at a local minimum -/
def trap : SEnv Nat Nat :=
  { get := fun i => [Vertex.mk 0 0 [[1, 2]] false 10 false, ⟨1, 0, [[0]], false, 6, false⟩, ⟨2, 0, [[3, 4]], false, 8, false⟩,
      ⟨3, 0, [[2]], false, 1, false⟩, ⟨4, 0, [[2]], false, 2, false⟩][i]?
    keys := [0, 1, 2, 3, 4], qdist := fun v => some v, tomb := fun _ => false, allow := none, cacheSize := 8, visitedSize := 8 }

theorem trap_tieFree : TieFree trap := by
  rintro i j di dj ⟨u, hu, hdu⟩ ⟨w, hw, hdw⟩ hij
  have key : ∀ i < 5, ∀ j < 5, i ≠ j →
      Dist.lt (((trap.get i).map Vertex.vec).getD 0) (((trap.get j).map Vertex.vec).getD 0) = true ∨
        Dist.lt (((trap.get j).map Vertex.vec).getD 0) (((trap.get i).map Vertex.vec).getD 0) = true := by decide +kernel
  have hi : i < 5 := (List.getElem?_eq_some_iff.mp hu).1
  have hj : j < 5 := (List.getElem?_eq_some_iff.mp hw).1
  have hdu : some u.vec = some di := hdu
  have hdw : some w.vec = some dj := hdw
  cases hdu; cases hdw
  have hu : trap.get i = some u := hu
  have hw : trap.get j = some w := hw
  simpa [hu, hw] using key i hi j hj hij

/-- the second alternative: width 1 finds only 1, at distance 6; width 2 finds 3 and 4, both nearer; width 3 finds all three -/
example : (Search.searchLayer trap Sched.id [⟨0, 10⟩] 1 0).map Array.toList = .ok [⟨1, 6⟩] ∧
    (Search.searchLayer trap Sched.rev [⟨0, 10⟩] 2 0).map Array.toList = .ok [⟨4, 2⟩, ⟨3, 1⟩] ∧
    (Search.searchLayer trap Sched.rev [⟨0, 10⟩] 3 0).map Array.toList = .ok [⟨1, 6⟩, ⟨4, 2⟩, ⟨3, 1⟩] := by decide +kernel
example (τ : Sched Nat) (r' : Array (Item Nat)) (h : Search.searchLayer trap τ [⟨0, 10⟩] 2 0 = .ok r') :
    (⟨1, 6⟩ : Item Nat) ∈ r' ∨ (2 ≤ (r'.size : Int) ∧ ∀ y ∈ r', Dist.lt y.dist 6 = true) := by
  cases hr : Search.searchLayer trap Sched.id [⟨0, 10⟩] 1 0 with
  | error e =>
    have : (Search.searchLayer trap Sched.id [⟨0, 10⟩] 1 0).map Array.toList = .ok [⟨1, 6⟩] := by decide +kernel
    rw [hr] at this; cases this
  | ok r =>
    have he : (Search.searchLayer trap Sched.id [⟨0, 10⟩] 1 0).map Array.toList = .ok [⟨1, 6⟩] := by decide +kernel
    rw [hr] at he
    have he : r.toList = [⟨1, 6⟩] := Except.ok.inj he
    exact layer_wider_partial trap trap_tieFree Sched.id τ [⟨0, 10⟩] 1 2 0 (by decide) (by decide)
      (by decide) (by decide) (by intro e he; rw [List.mem_singleton.mp he]; exact ⟨_, rfl, rfl⟩) (by decide) r r' hr h ⟨1, 6⟩ ⟨by rw [he]; simp⟩

theorem vdist_nonneg : ∀ a b d, Ex.P.metric.dist a b = some d → Dist.lt d Dist.zero = false := fun _ _ d _ => by
  show decide (d < 0) = false
  simp

/-- the history of `Ex.s6` (two layers, a flush, a restart), whatever the timings -/
example (σ τ : Graph.Scheds Nat) : ∃ ids ds ids' ds', (Ex.s6.graph Ex.P).knnMaxDist σ [14, 0] 100 2 none = .ok (ids, ds) ∧
    (Ex.s6.graph Ex.P).knnMaxDist τ [14, 0] 100 4 none = .ok (ids', ds') ∧ ids.length ≤ ids'.length := by
  have hdi : ∀ a b, Ex.P.metric.len a = Ex.P.metric.len b → ∃ d, Ex.P.metric.dist a b = some d := by
    intro a b h
    have h : a.length = b.length := h
    exact ⟨_, by show (if a.length = b.length then _ else _) = _; rw [if_pos h]⟩
  obtain ⟨ids, ds, ids', ds', h1, h2, h3, _⟩ := history_wider_partial Ex.P Ex.P_ok hdi C68.metric_sym vdist_nonneg Ex.s6 Ex.vecs Ex.hist6 (by decide) [14, 0]
    (by decide) (noTies_of_keys [0, 1, 2, 3, 4, 5] (by
      intro id h
      have : ¬ id < 6 := by simp at h; omega
      show Ex.vecs[id]?.map _ = none
      rw [List.getElem?_eq_none (by show 6 ≤ id; omega)]; rfl) (by decide +kernel)) 2 4 (by decide) (by decide) none σ τ 100
  exact ⟨ids, ds, ids', ds', h1, h2, h3⟩
example : (Ex.s6.graph Ex.P).knnMaxDist Ex.sched [14, 0] 100 2 none = .ok ([1, 5], [2, 3]) ∧
    (Ex.s6.graph Ex.P).knnMaxDist Ex.sched [14, 0] 100 4 none = .ok ([1, 5, 0, 3], [2, 3, 4, 8]) := by decide +kernel

/-- a state as it is, and its true neighbours: the hypotheses of the three theorems on states hold of `Ex.s6` -/
example : (∀ id v, Ex.s6.get id = some v → id < Ex.P.cacheSize) ∧
    NoTies Ex.P.metric (fun id => (Ex.s6.get id).map Vertex.vec) (Ex.P.norm [14, 0]) := by
  refine ⟨fun id v hv => Classical.byContradiction fun h => ?_, noTies_of_keys (Ex.s6.cache.keys ++ Ex.s6.kv.keys) (fun id h => ?_) (by decide +kernel)⟩
  · rw [get_none_of_keys] at hv
    · cases hv
    · intro hm
      have : ∀ k ∈ Ex.s6.cache.keys ++ Ex.s6.kv.keys, k < Ex.P.cacheSize := by decide +kernel
      exact h (this id hm)
  · show (Ex.s6.get id).map _ = none
    rw [get_none_of_keys h]; rfl

/-- searches for a text in the collection of `ExC.w1` -/
example : ((Client.nearText ExC.E ExC.o ExC.w1 ExC.books ['a', 'b', 'c', 'd', 'e'] 100 2).2.map (fun p => (p.1.length, p.2)) = .ok (2, [1, 5])) ∧
    ((Client.nearText ExC.E ExC.o ExC.w1 ExC.books ['a', 'b', 'c', 'd', 'e'] 100 3).2.map (fun p => (p.1.length, p.2)) = .ok (3, [1, 5, 7])) := by
  decide +kernel
example (max : Nat) (limit limit' : Int) (hl : 1 ≤ limit) (hle : limit ≤ limit') (docs docs' : List (Client.Props Nat)) (ds ds' : List Nat)
    (h1 : (Client.nearText ExC.E ExC.o ExC.w1 ExC.books ['a', 'b', 'c', 'd', 'e'] max limit).2 = .ok (docs, ds))
    (h2 : (Client.nearText ExC.E ExC.o ExC.w1 ExC.books ['a', 'b', 'c', 'd', 'e'] max limit').2 = .ok (docs', ds')) : docs.length ≤ docs'.length := by
  refine (text_search_wider_partial ExC.E (by decide) C68.metric_sym vdist_nonneg ExC.o ExC.w1 ExC.books ['a', 'b', 'c', 'd', 'e'] [5, 0] rfl _ rfl ?_ ?_
    max limit limit' hl hle docs docs' ds ds' h1 h2).1
  · intro id v hv
    refine Classical.byContradiction fun h => ?_
    rw [get_none_of_keys] at hv
    · cases hv
    · intro hm
      have : ∀ k ∈ (Client.loaded ExC.o ((Client.ensureOpen ExC.o ExC.w1 (Client.ns ++ ExC.books)).1.coll (Client.ns ++ ExC.books)).idx).cache.keys ++
        (Client.loaded ExC.o ((Client.ensureOpen ExC.o ExC.w1 (Client.ns ++ ExC.books)).1.coll (Client.ns ++ ExC.books)).idx).kv.keys, k < Ex.P.cacheSize := by decide +kernel
      exact h (this id hm)
  · refine noTies_of_keys _ (fun id h => ?_) (?_ : noTiesB _ _ _ ((Client.loaded ExC.o ((Client.ensureOpen ExC.o ExC.w1 (Client.ns ++ ExC.books)).1.coll (Client.ns ++ ExC.books)).idx).cache.keys ++
        (Client.loaded ExC.o ((Client.ensureOpen ExC.o ExC.w1 (Client.ns ++ ExC.books)).1.coll (Client.ns ++ ExC.books)).idx).kv.keys) = true)
    · show Option.map Vertex.vec (Index.get _ id) = none
      rw [get_none_of_keys h]; rfl
    · decide +kernel

end Fave.C98
