import Verif.Lemmas.Connected
import Verif.Lemmas.HistSearch
import Verif.Props.C01
import Verif.Props.C02
import Verif.Props.C04
import Verif.Spec.ExampleIndex
/-!
# C03 — small collections are searched exactly

Up to `maxConn0 + 1` (61) vectors no link list of the base level is ever cut, so the links lead from everywhere to everywhere.  From 62 vectors on
this is false: `C10.stored_vector_lost`.
-/
namespace Fave.C03
open Index Spec Search Queue
variable {V D : Type} [Dist D]

/-- Any history (levels, schedules, vector-cache behaviour, refused vectors, flushes and restarts are all arbitrary) whose collection
holds at most `maxConn0 + 1` vectors: a search of sufficient width with a query of the right length succeeds, and its answer is exactly
the list of stored vectors in range, each once, closest first, each with its true distance. -/
theorem small_collections_exact [LawfulDist D] (P : Params V D) (hP : P.Ok) (hm : 0 < P.maxConn) (hef : 0 < P.efC)
    (hdist : ∀ a b, P.metric.len a = P.metric.len b → ∃ d, P.metric.dist a b = some d)
    (hsym : ∀ a b, P.metric.dist a b = P.metric.dist b a)
    (s : Index V) (vs : List V) (h : Hist P s vs) (hn : vs ≠ []) (hsm : vs.length ≤ P.maxConn0 + 1)
    (q : V) (hq : ∀ u ∈ vs, P.metric.len u = P.metric.len q) (sched : Graph.Scheds D) (max : D) (ef : Int) (hwide : (vs.length : Int) ≤ ef) :
    ∃ (hits : List (Item D)) (ds : List D), (s.graph P).knnMaxDist sched q max ef none = .ok (hits.map Item.id, ds) ∧
      ds.take hits.length = hits.map Item.dist ∧
      (hits.map Item.id).Nodup ∧
      hits.Pairwise (fun a b => Dist.lt b.dist a.dist = false) ∧
      ∀ id d, (⟨id, d⟩ : Item D) ∈ hits ↔ ∃ u, vs[id]? = some u ∧ P.metric.dist (P.norm q) (P.norm u) = some d ∧
        Dist.lt d Dist.zero = false ∧ Dist.lt max d = false := by
  have hi := hist_inv hP h
  have htied := (hist_tied hP hm hef hdist h).1 hsm
  have hok := firstGraph_ok hP hi
  obtain ⟨r, hr⟩ := hist_search_total hP hdist hsym hi hn hq sched ef none
  obtain ⟨ids, ds, hres⟩ : ∃ ids ds, (firstGraph P s vs.length).knnMaxDist sched q max ef none = .ok (ids, ds) := by
    have hr' : (firstGraph P s vs.length).retained sched ((firstGraph P s vs.length).norm q) ef none = .ok r := hr
    unfold Graph.knnMaxDist
    rw [hr']
    exact ⟨_, _, rfl⟩
  have hgen := C01.max_dist_hits_genuine _ _ _ _ _ _ _ _ hok.small hsym hres
  obtain ⟨ret, hits, hret, hids, hds, hsorted, hmem⟩ := C02.max_dist_hits_sorted_and_in_range _ _ _ _ _ _ _ _ hok.small hsym hres
  obtain ⟨start, _, ⟨sv, hsv⟩, hall⟩ := C04.wide_search_returns_all_reachable _ _ _ _ _ _ _ _ hok.keys hok.small hsym
    (by show ((List.range vs.length).length : Int) ≤ ef; simpa using hwide) hres
  have hstart := firstGraph_get hsv
  rw [← firstGraph_search hP hi hn] at hres
  have hlen : (hits.map Item.id).length = hits.length := List.length_map ..
  refine ⟨hits, _, by rw [hres, hids], ?_, by rw [← hids]; exact hgen.1, hsorted, ?_⟩
  · rw [← hds, hids, hlen]
  · have hget : ∀ id u, vs[id]? = some u → ∃ v, (firstGraph P s vs.length).get id = some v ∧ v.vec = P.norm u := by
      intro id u hu
      have hid := (List.getElem?_eq_some_iff.mp hu).1
      obtain ⟨v, hv, _⟩ := hi.wf id hid
      exact ⟨v, by show (if id < vs.length then s.get id else none) = _; rw [if_pos hid]; exact hv, hi.holds id u v hu hv⟩
    have htrue : ∀ x ∈ hits, ∃ v, (firstGraph P s vs.length).get x.id = some v ∧ P.metric.dist (P.norm q) v.vec = some x.dist := by
      intro x hx
      obtain ⟨i, hi', hx'⟩ := List.getElem_of_mem hx
      have hxi : hits[i]? = some x := by rw [List.getElem?_eq_getElem hi', hx']
      obtain ⟨v, d, h1, h2, h3, _⟩ := hgen.2 i x.id (by rw [hids, List.getElem?_map, hxi]; rfl)
      have hd : d = x.dist := by
        have e : (ds.take (hits.map Item.id).length)[i]? = (hits.map Item.dist)[i]? := by rw [← hids, hds]
        rw [List.getElem?_take, if_pos (by rw [hlen]; exact hi'), h2, List.getElem?_map, hxi] at e
        simpa using e
      exact ⟨v, h1, by rw [← hd]; exact h3⟩
    intro id d
    constructor
    · intro hx
      obtain ⟨v, h1, h2⟩ := htrue _ hx
      obtain ⟨hid, h1'⟩ := firstGraph_get h1
      have hu : vs[id]? = some vs[id] := List.getElem?_eq_getElem hid
      have hvu := hi.holds id _ v hu h1'
      obtain ⟨_, h3, h4⟩ := (hmem _).mp hx
      exact ⟨_, hu, by rw [← hvu]; exact h2, h3, h4⟩
    · rintro ⟨u, hu, hd, hz, hm⟩
      obtain ⟨v, hv, hvu⟩ := hget id u hu
      have hid := (List.getElem?_eq_some_iff.mp hu).1
      have hd' : HasDist ((firstGraph P s vs.length).senv (P.norm q) none) id d := ⟨v, hv, by rw [hvu]; exact hd⟩
      have hreach : Reach ((firstGraph P s vs.length).senv (P.norm q) none) 0 [start] id :=
        reach_of_walk hP hdist hi hq hstart.1 (htied start id hstart.1 hid)
      have ht : (firstGraph P s vs.length).tomb id = false := by
        show s.tombs.contains id = false
        rw [hi.tombs]; rfl
      have := hall id d hreach ht (fun p hp => by cases hp) hd' hz hm
      rw [hids] at this
      obtain ⟨x, hx, rfl⟩ := List.mem_map.mp this
      obtain ⟨v', h1, h2⟩ := htrue x hx
      rw [hv] at h1; cases h1
      rw [hvu, hd] at h2
      cases h2
      exact hx

/-- FaVe's parameters and search width (`GetNearDocumentsByVector` uses 800): up to 61 vectors. -/
theorem up_to_61_vectors_exact [LawfulDist D] (metric : Metric V D) (norm : V → V) (jsonOk : V → Bool)
    (hlen : ∀ a b, metric.len a ≠ metric.len b → metric.dist a b = none)
    (hdist : ∀ a b, metric.len a = metric.len b → ∃ d, metric.dist a b = some d)
    (hnorm : ∀ v, metric.len (norm v) = metric.len v) (hsym : ∀ a b, metric.dist a b = metric.dist b a)
    (s : Index V) (vs : List V) (h : Hist (faveParams metric norm jsonOk) s vs) (hn : vs ≠ []) (hsm : vs.length ≤ 61)
    (q : V) (hq : ∀ u ∈ vs, metric.len u = metric.len q) (sched : Graph.Scheds D) (max : D) :
    ∃ (hits : List (Item D)) (ds : List D), (s.graph (faveParams metric norm jsonOk)).knnMaxDist sched q max 800 none = .ok (hits.map Item.id, ds) ∧
      ds.take hits.length = hits.map Item.dist ∧
      (hits.map Item.id).Nodup ∧
      hits.Pairwise (fun a b => Dist.lt b.dist a.dist = false) ∧
      ∀ id d, (⟨id, d⟩ : Item D) ∈ hits ↔ ∃ u, vs[id]? = some u ∧ metric.dist (norm q) (norm u) = some d ∧
        Dist.lt d Dist.zero = false ∧ Dist.lt max d = false :=
  small_collections_exact (faveParams metric norm jsonOk) ⟨by simp [faveParams], by simp [faveParams], hlen, hnorm⟩ (by simp [faveParams]) (by simp [faveParams])
    hdist hsym s vs h hn (by simpa [faveParams] using hsm) q hq sched max 800 (by omega)

/-! Non-vacuity: six vectors on three levels with a flush and restart in between; the search finds the five vectors within
distance 30, in order. -/
example : Hist Ex.PW Ex.w6 Ex.vecs ∧ Ex.PW.Ok ∧ 0 < Ex.PW.maxConn ∧ 0 < Ex.PW.efC ∧ Ex.vecs.length ≤ Ex.PW.maxConn0 + 1 ∧
    (∀ u ∈ Ex.vecs, Ex.PW.metric.len u = Ex.PW.metric.len [12, 1]) ∧
    (Ex.w6.graph Ex.PW).knnMaxDist Ex.sched [12, 1] 30 800 none = .ok ([1, 5, 0, 3, 2], [1, 2, 3, 5, 18, 0]) :=
  ⟨Ex.histW6, Ex.PW_ok, by decide, by decide, by decide, by decide, by decide +kernel⟩

/-- more vectors (4) than links are kept (2): the base lists still have room, and the search through the chosen links finds them all -/
example : Hist Ex.P Ex.s4f (Ex.vecs.take 4) ∧ 0 < Ex.P.maxConn ∧ Ex.P.maxConn < (Ex.vecs.take 4).length ∧ (Ex.vecs.take 4).length ≤ Ex.P.maxConn0 + 1 ∧
    (Ex.s4f.graph Ex.P).knnMaxDist Ex.sched [12, 1] 30 800 none = .ok ([1, 0, 3, 2], [1, 3, 5, 18]) ∧
    ((List.range 4).map (fun i => (Ex.s4f.get i).map (fun v => v.conns[0]?))) = [some (some [1, 3]), some (some [0, 2]), some (some [1]), some (some [0])] :=
  ⟨Ex.hist4f, by decide, by decide, by decide, by decide +kernel, by decide +kernel⟩

example : (∀ a b, Ex.vmetric.len a = Ex.vmetric.len b → ∃ d, Ex.vmetric.dist a b = some d) ∧
    (∀ a b, Ex.vmetric.dist a b = Ex.vmetric.dist b a) := by
  constructor
  · intro a b h
    simp only [Ex.vmetric] at *
    rw [if_pos h]; exact ⟨_, rfl⟩
  · intro a b
    simp only [Ex.vmetric]
    by_cases h : a.length = b.length
    · rw [if_pos h, if_pos h.symm, List.zipWith_comm]
      congr 3
      funext x y; omega
    · rw [if_neg h, if_neg (fun e => h e.symm)]

end Fave.C03
