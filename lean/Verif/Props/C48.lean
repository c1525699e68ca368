import Verif.Lemmas.SearchMany
import Verif.Lemmas.SearchSize
import Verif.Lemmas.HistSearch
import Verif.Lemmas.Connected
import Verif.Lemmas.Knn
import Verif.Props.C02
import Verif.Spec.Example
import Verif.Spec.ExampleIndex
/-!
# C48 — searches are not short of results
-/
namespace Fave.C48
open Graph Search Spec Queue Index
variable {V D : Type} [Dist D]

/-- One layer, any graph, any width (at least the number of entry points), any schedule: the number of results is the width or the number of
nodes that can be reached and are neither marked nor filtered out, whichever is smaller.  No order law is needed. -/
theorem result_count (env : SEnv V D) (sched : Sched D) (eps : List (Item D)) (ef : Nat) (level : Nat) (r : Array (Item D))
    (hnd : (eps.map Item.id).Nodup) (hsm : ∀ e ∈ eps, e.id < env.visitedSize) (hd : ∀ e ∈ eps, ∃ d, HasDist env e.id d)
    (hef : eps.length ≤ ef) (h : searchLayer env sched eps (ef : Int) level = .ok r)
    (found : List Nat) (hf : found.Nodup) (hfound : ∀ x, x ∈ found ↔ Reach env level (eps.map Item.id) x ∧ Eligible env level x) :
    r.size = Nat.min ef found.length := by
  have hmax : r.size ≤ ef := by
    have := searchLayer_size (m := (ef : Int)) (Int.le_refl _) (by omega) h
    omega
  obtain ⟨hin, hnod⟩ := searchLayer_inv (P := fun _ => True) (fun _ _ => trivial) ⟨hnd, hsm⟩ (fun _ _ => trivial) h
  have hle : r.size ≤ found.length := by
    have := List.Nodup.length_le_of_subset hnod (show r.toList.map Item.id ⊆ found by
      intro k hk
      obtain ⟨x, hx, rfl⟩ := List.mem_map.mp hk
      exact (hfound _).mpr ⟨searchLayer_reach h x hx, (viable_iff _ _ _).mp (hin x hx).2⟩)
    simpa using this
  rcases searchLayer_many ⟨hnd, hsm⟩ hd h with h1 | h1
  · have : Nat.min ef found.length = ef := Nat.min_eq_left (by omega)
    omega
  · have := List.Nodup.length_le_of_subset hf (show found ⊆ r.toList.map Item.id from fun k hk =>
      h1 k ((hfound k).mp hk).1 ((hfound k).mp hk).2)
    simp at this
    have : Nat.min ef found.length = found.length := Nat.min_eq_right (by omega)
    omega

/-- Whole index: if everything that can be reached from the vector at which the base-layer search starts is in range, the number of hits is
the width or the number of those vectors, whichever is smaller. -/
theorem hit_count [LawfulDist D] (g : Graph V D) (sched : Scheds D) (q : V) (max : D) (ef : Nat) (hef : 0 < ef)
    (allow : Option (Nat → Bool)) (ids : List Nat) (ds : List D)
    (hsmall : ∀ id v, g.get id = some v → id < g.visitedSize)
    (hsym : ∀ a b, g.metric.dist a b = g.metric.dist b a)
    (h : g.knnMaxDist sched q max ef allow = .ok (ids, ds)) :
    ∃ start, (g.maxLayer = 0 → start = g.entry) ∧ (∃ v, g.get start = some v) ∧
      ∀ found : List Nat, found.Nodup →
        (∀ x, x ∈ found ↔ Reach (g.senv (g.norm q) allow) 0 [start] x ∧ g.tomb x = false ∧ ∀ p, allow = some p → p x = true) →
        (∀ x ∈ found, ∀ d, HasDist (g.senv (g.norm q) allow) x d → Dist.lt d Dist.zero = false ∧ Dist.lt max d = false) →
        ids.length = Nat.min ef found.length := by
  obtain ⟨ret, hits, hret, hids, hds, hsorted, hmem⟩ := C02.max_dist_hits_sorted_and_in_range _ _ _ _ _ _ _ _ hsmall hsym h
  unfold knnMaxDist at h
  split at h
  · cases h
  · rename_i res hres
    simp only [Except.ok.injEq, Prod.mk.injEq] at h
    obtain ⟨rfl, rfl⟩ := h
    obtain ⟨d0, ep, hd0, hep, hl⟩ := retained_ok hres
    obtain ⟨hgo, v, hv⟩ := retained_start hsmall hsym hd0 hep allow
    refine ⟨ep.id, ?_, ⟨v, hv⟩, ?_⟩
    · intro h0
      rw [h0] at hep
      cases hep; rfl
    · intro found hf hfound hrange
      have hcnt := result_count _ _ [ep] ef 0 res (by simp) (by intro e he; simp at he; subst he; exact hsmall _ v hv)
        (by intro e he; simp at he; subst he; exact ⟨_, (hasDist_iff _ _ _).mp hgo⟩) hef hl found hf (by
          intro x
          rw [hfound]
          constructor
          · rintro ⟨a, b, c⟩; exact ⟨a, b, fun _ p hp => c p hp⟩
          · rintro ⟨a, b, c⟩; exact ⟨a, b, fun p hp => c rfl p hp⟩)
      rw [← hcnt]
      have hsd := retained_sound hsmall hsym hres
      have hall : ∀ y ∈ res.toList, Dist.lt y.dist Dist.zero = false ∧ Dist.lt max y.dist = false := by
        intro y hy
        have hg := hsd.1 y hy
        refine hrange y.id ?_ y.dist ((hasDist_iff _ _ _).mp hg.1)
        rw [hfound]
        have hvia := (searchLayer_inv (P := fun _ => True) (fun _ _ => trivial)
          ⟨by simp, by intro e he; simp at he; subst he; exact hsmall _ v hv⟩ (fun _ _ => trivial) hl).1 y hy
        have hel := (viable_iff _ _ _).mp hvia.2
        exact ⟨searchLayer_reach hl y hy, hel.1, fun p hp => hel.2 rfl p hp⟩
      have hperm : (drain lessMax res).reverse.Perm res.toList := (List.reverse_perm _).trans (drain_perm _ _)
      have hsorted : (drain lessMax res).reverse.Pairwise (fun a b => Dist.lt b.dist a.dist = false) := by
        rw [List.pairwise_reverse]
        exact drain_sorted swo_max (retained_heap hsmall hsym hres)
      rw [List.length_map, keepInRange_sorted max _ hsorted, List.filter_eq_self.mpr, hperm.length_eq]
      · simp
      · intro y hy
        obtain ⟨a, b⟩ := hall y (hperm.mem_iff.mp hy)
        rw [a, b]; rfl

/-- Small collections (at most `maxConn0 + 1` vectors, any history): if all vectors are in range, the number of hits is the width or the number of
stored vectors, whichever is smaller. -/
theorem small_collection_count [LawfulDist D] (P : Params V D) (hP : P.Ok) (hm : 0 < P.maxConn) (hef : 0 < P.efC)
    (hdist : ∀ a b, P.metric.len a = P.metric.len b → ∃ d, P.metric.dist a b = some d)
    (hsym : ∀ a b, P.metric.dist a b = P.metric.dist b a)
    (s : Index V) (vs : List V) (h : Hist P s vs) (hn : vs ≠ []) (hsm : vs.length ≤ P.maxConn0 + 1)
    (q : V) (hq : ∀ u ∈ vs, P.metric.len u = P.metric.len q) (sched : Graph.Scheds D) (max : D) (ef : Nat) (hpos : 0 < ef)
    (hrange : ∀ u ∈ vs, ∀ d, P.metric.dist (P.norm q) (P.norm u) = some d → Dist.lt d Dist.zero = false ∧ Dist.lt max d = false) :
    ∃ ids ds, (s.graph P).knnMaxDist sched q max ef none = .ok (ids, ds) ∧ ids.length = Nat.min ef vs.length := by
  have hi := hist_inv hP h
  have htied := (hist_tied hP hm hef hdist h).1 hsm
  have hok := firstGraph_ok hP hi
  obtain ⟨r, hr⟩ := hist_search_total hP hdist hsym hi hn hq sched ef none
  obtain ⟨ids, ds, hres⟩ : ∃ ids ds, (firstGraph P s vs.length).knnMaxDist sched q max ef none = .ok (ids, ds) := by
    have hr' : (firstGraph P s vs.length).retained sched ((firstGraph P s vs.length).norm q) ef none = .ok r := hr
    unfold Graph.knnMaxDist
    rw [hr']
    exact ⟨_, _, rfl⟩
  obtain ⟨start, _, ⟨sv, hsv⟩, hcount⟩ := hit_count _ _ _ _ ef hpos _ _ _ hok.small hsym hres
  have hstart := firstGraph_get hsv
  have hget : ∀ id, id < vs.length → ∃ v u, (firstGraph P s vs.length).get id = some v ∧ vs[id]? = some u ∧ v.vec = P.norm u := by
    intro id hid
    obtain ⟨v, hv, _⟩ := hi.wf id hid
    have hu : vs[id]? = some vs[id] := List.getElem?_eq_getElem hid
    exact ⟨v, _, by show (if id < vs.length then s.get id else none) = _; rw [if_pos hid]; exact hv, hu, hi.holds id _ v hu hv⟩
  have hd : ∀ id, id < vs.length → ∃ d, HasDist ((firstGraph P s vs.length).senv (P.norm q) none) id d := by
    intro id hid
    obtain ⟨v, u, hv, hu, hvu⟩ := hget id hid
    obtain ⟨d, hd⟩ := hdist (P.norm q) (P.norm u) (by rw [hP.norm, hP.norm, hq u (List.mem_of_getElem? hu)])
    exact ⟨d, v, hv, by rw [hvu]; exact hd⟩
  refine ⟨ids, ds, by rw [firstGraph_search hP hi hn]; exact hres, ?_⟩
  have := hcount (List.range vs.length) List.nodup_range ?_ ?_
  · rw [List.length_range] at this; exact this
  · intro x
    rw [List.mem_range]
    constructor
    · intro hx
      refine ⟨?_, ?_, fun p hp => by cases hp⟩
      · exact reach_of_walk hP hdist hi hq hstart.1 (htied start x hstart.1 hx)
      · show s.tombs.contains x = false
        rw [hi.tombs]; rfl
    · rintro ⟨hx, _⟩
      cases hx with
      | start _ hm => simp at hm; rw [hm]; exact hstart.1
      | link a b d _ _ hb => obtain ⟨v, hv, _⟩ := hb; exact (firstGraph_get (P := P) hv).1
  · intro x hx d hdx
    rw [List.mem_range] at hx
    obtain ⟨v, u, hv, hu, hvu⟩ := hget x hx
    obtain ⟨w, hw, hdw⟩ := hdx
    have hw' : (firstGraph P s vs.length).get x = some w := hw
    rw [hv] at hw'; cases hw'
    have hdw' : P.metric.dist (P.norm q) v.vec = some d := hdw
    rw [hvu] at hdw'
    exact hrange u (List.mem_of_getElem? hu) d hdw'

/-! Non-vacuity: in the sample collection four unmarked vectors can be reached from 0; widths 1 to 5 give 1, 2, 3, 4 and again 4 results.
The collection of six vectors with flush and restart in its history meets the hypotheses of `small_collection_count`: widths 1, 4 and 800 give 1, 4
and 6 hits. -/
example : [1, 2, 3, 4, 5].map (fun w : Int => (searchLayer (D := Int) (Ex.graph.senv 11 none) Sched.rev [⟨0, 1⟩] w 0).toOption.map Array.size) =
    [some 1, some 2, some 3, some 4, some 4] := by decide +kernel
example : Hist Ex.PW Ex.w6 Ex.vecs ∧ Ex.PW.Ok ∧ 0 < Ex.PW.maxConn ∧ 0 < Ex.PW.efC ∧ Ex.vecs.length ≤ Ex.PW.maxConn0 + 1 ∧
    (∀ u ∈ Ex.vecs, Ex.PW.metric.len u = Ex.PW.metric.len [12, 1]) ∧
    (∀ u ∈ Ex.vecs, ∀ d, Ex.PW.metric.dist (Ex.PW.norm [12, 1]) (Ex.PW.norm u) = some d → Dist.lt d Dist.zero = false ∧ Dist.lt (100 : Int) d = false) ∧
    [1, 4, 800].map (fun w : Int => ((Ex.w6.graph Ex.PW).knnMaxDist Ex.sched [12, 1] 100 w none).toOption.map (fun r => r.1.length)) =
      [some 1, some 4, some 6] := by
  refine ⟨Ex.histW6, Ex.PW_ok, by decide, by decide, by decide, by decide, ?_, by decide +kernel⟩
  intro u hu d hd
  simp only [Ex.vecs, List.mem_cons, List.not_mem_nil, or_false] at hu
  rcases hu with rfl | rfl | rfl | rfl | rfl | rfl <;> (cases hd; decide)

end Fave.C48
