import Verif.Lemmas.Fast
import Verif.Props.C03
/-!
# C10 — every stored vector can be found

The property: after any sequence of successful additions, a search of sufficient width and distance finds every stored vector.
It is false beyond 61 vectors: pruning a full link list can remove the only link to a vector.  `stored_vector_lost` is the witness with
FaVe's parameters; `stored_vectors_found_partial` is the property for collections of at most 61 vectors; the witness has 62.  Missing: nothing holds for larger
collections without assumptions on the geometry.
-/
namespace Fave.C10
open Index Spec Search Queue

/-- numbers on a line.  The index only compares distances, so the same happens with unit vectors at angles proportional to these
numbers (below half a turn) under the cosine distance. -/
def line : Metric Nat Nat := ⟨fun a b => some (a - b + (b - a)), fun _ => 1⟩
def P : Params Nat Nat := faveParams line id (fun _ => true)
theorem P_ok : P.Ok := ⟨by decide, by decide, fun _ _ h => absurd rfl h, fun _ => rfl⟩

/-- 200, then 0 … 29, then the far-away 10000, then 30 … 58, then 201 -/
def pts : List Nat := 200 :: (List.range 30) ++ [10000] ++ ((List.range 29).map (fun (k : Nat) => k + 30)) ++ [201]

/-- the state after the first addition -/
def first : Index Nat := { init.put { newNode 0 200 0 with maint := false } with once := true }

theorem first_hist : Hist P first [200] := by
  have : add P (fun _ _ _ id => pts[id]?) (fun _ => Sched.id) init 0 200 0 = (first, none) := by decide +kernel
  exact .add _ _ 200 0 .init this

/-- the 61 further additions, computed -/
def last : Option (Index Nat) := fastRun P (fun id => pts[id]?) first 1 pts.tail

theorem get_mem {α : Type} {t : Tab α} {k : Nat} {v : α} (h : t.get k = some v) : (k, v) ∈ t := by
  induction t with
  | nil => cases h
  | cons e t ih =>
    obtain ⟨k', v'⟩ := e
    simp only [Tab.get] at h
    split at h
    · rename_i hk; cases h; subst hk; simp
    · exact List.mem_cons_of_mem _ (ih h)

/-- nothing is linked to number 31 -/
def lost (s : Index Nat) : Bool :=
  decide (s.entry = 0) && decide (s.maxLayer = 0) && s.kv.isEmpty && s.cache.all (fun p => p.2.conns.all (fun l => !l.contains 31))

set_option maxRecDepth 100000 in
theorem last_lost : last.any lost = true := by decide +kernel

/-- The 62 vectors are added one after the other, all on level 0, every addition succeeds; afterwards no search whatsoever — any
query, width, distance limit, filter and schedule — returns number 31, although it stores the vector 10000. -/
theorem stored_vector_lost :
    ∃ (s : Index Nat), Hist P s pts ∧ pts[31]? = some 10000 ∧
      ∀ (sched : Graph.Scheds Nat) (q max : Nat) (ef : Int) (allow : Option (Nat → Bool)),
        ∃ ids ds, (s.graph P).knnMaxDist sched q max ef allow = .ok (ids, ds) ∧ 31 ∉ ids := by
  have hl := last_lost
  cases hs : last with
  | none => rw [hs] at hl; cases hl
  | some s =>
    rw [hs] at hl
    have hl : lost s = true := hl
    unfold lost at hl
    simp only [Bool.and_eq_true, decide_eq_true_eq] at hl
    obtain ⟨⟨⟨he, hm⟩, hkv⟩, hall⟩ := hl
    have hsym : ∀ a b, P.metric.dist a b = P.metric.dist b a := by
      intro a b
      show some (a - b + (b - a)) = some (b - a + (a - b))
      rw [Nat.add_comm]
    have hdi : ∀ a b, P.metric.len a = P.metric.len b → ∃ d, P.metric.dist a b = some d := fun a b _ => ⟨_, rfl⟩
    have hh : Hist P s pts :=
      fastRun_hist (vs := [200]) P_ok hdi hsym (L := 1) (by decide) (fun _ => Sched.id) first_hist (by decide) (fun _ _ => rfl) hs
    refine ⟨s, hh, by decide, ?_⟩
    intro sched q max ef allow
    have hi := hist_inv P_ok hh
    have hn : pts ≠ [] := by decide
    have hq : ∀ u ∈ pts, P.metric.len u = P.metric.len q := fun _ _ => rfl
    obtain ⟨r, hr⟩ := hist_search_total P_ok hdi hsym hi hn hq sched ef allow
    rw [firstGraph_search P_ok hi hn]
    have hok := firstGraph_ok P_ok hi
    have hr' : (firstGraph P s pts.length).retained sched ((firstGraph P s pts.length).norm q) ef allow = .ok r := hr
    unfold Graph.knnMaxDist
    rw [hr']
    refine ⟨_, _, rfl, ?_⟩
    obtain ⟨d, ep, hd, hep, hr⟩ := Graph.retained_ok hr
    have hml : (firstGraph P s pts.length).maxLayer = 0 := hm
    rw [hml] at hep
    cases hep
    obtain ⟨w, hw, _⟩ := hi.wf s.entry (hi.entry hn)
    have hwg : (firstGraph P s pts.length).get s.entry = some w := by
      show (if s.entry < pts.length then s.get s.entry else none) = _
      rw [if_pos (hi.entry hn)]; exact hw
    have hne : ∀ x ∈ r.toList, x.id ≠ 31 := by
      refine searchLayer_closed (C := fun i => i ≠ 31) ?_ ?_ (hok.keysOk _ allow) (Graph.epsOk_one hok.small _ allow hwg) hr
      · intro id v links b _ hg hl hb e
        obtain ⟨_, hg⟩ := firstGraph_get (P := P) hg
        subst e
        unfold Index.get at hg
        have hk0 : s.kv.get id = none := by
          cases hkv' : s.kv with
          | nil => rfl
          | cons a l => rw [hkv'] at hkv; cases hkv
        split at hg
        · rename_i v' hc
          cases hg
          have := List.all_eq_true.mp hall (id, v) (get_mem hc)
          have := List.all_eq_true.mp this links (List.mem_of_getElem? hl)
          simp at this
          exact this hb
        · rw [hk0] at hg; cases hg
      · intro e h0
        simp only [List.mem_singleton] at h0
        subst h0
        show s.entry ≠ 31
        rw [he]; decide
    intro hmem
    obtain ⟨x, hx, hx31⟩ := List.mem_map.mp hmem
    have hx := (Graph.keepInRange_sublist _ _).subset hx
    have hx := (drain_perm lessMax r).mem_iff.mp (List.mem_reverse.mp hx)
    exact hne x hx hx31

/-- Up to 61 vectors every stored vector is found. -/
theorem stored_vectors_found_partial {V D : Type} [Dist D] [LawfulDist D] (metric : Metric V D) (norm : V → V) (jsonOk : V → Bool)
    (hlen : ∀ a b, metric.len a ≠ metric.len b → metric.dist a b = none)
    (hdist : ∀ a b, metric.len a = metric.len b → ∃ d, metric.dist a b = some d)
    (hnorm : ∀ v, metric.len (norm v) = metric.len v) (hsym : ∀ a b, metric.dist a b = metric.dist b a)
    (s : Index V) (vs : List V) (h : Hist (faveParams metric norm jsonOk) s vs) (hn : vs ≠ []) (hsm : vs.length ≤ 61)
    (q : V) (hq : ∀ u ∈ vs, metric.len u = metric.len q) (sched : Graph.Scheds D) (max : D)
    (hmax : ∀ u ∈ vs, ∀ d, metric.dist (norm q) (norm u) = some d → Dist.lt d Dist.zero = false ∧ Dist.lt max d = false) :
    ∃ (ids : List Nat) (ds : List D), (s.graph (faveParams metric norm jsonOk)).knnMaxDist sched q max 800 none = .ok (ids, ds) ∧
      ids.Perm (List.range vs.length) := by
  obtain ⟨hits, ds, h1, h2, h3, h4, h5⟩ := C03.up_to_61_vectors_exact metric norm jsonOk hlen hdist hnorm hsym s vs h hn hsm q hq sched max
  refine ⟨_, _, h1, (List.perm_ext_iff_of_nodup h3 List.nodup_range).mpr (fun id => ?_)⟩
  rw [List.mem_range, List.mem_map]
  constructor
  · rintro ⟨⟨i, d⟩, hx, rfl⟩
    obtain ⟨u, hu, _⟩ := (h5 _ _).mp hx
    exact (List.getElem?_eq_some_iff.mp hu).1
  · intro hid
    have hm : vs[id] ∈ vs := List.getElem_mem hid
    obtain ⟨d, hd⟩ := hdist (norm q) (norm vs[id]) (by rw [hnorm, hnorm, hq _ hm])
    have := hmax _ hm d hd
    exact ⟨⟨id, d⟩, (h5 _ _).mpr ⟨_, List.getElem?_eq_getElem hid, hd, this.1, this.2⟩, rfl⟩

/-- Non-vacuity of the partial theorem: six vectors under FaVe's parameters. -/
example : ∃ s, Hist (faveParams Ex.vmetric id (fun _ => true)) s Ex.vecs ∧ Ex.vecs ≠ [] ∧ Ex.vecs.length ≤ 61 ∧
    (∀ u ∈ Ex.vecs, Ex.vmetric.len u = Ex.vmetric.len [20, 1]) ∧
    ∀ u ∈ Ex.vecs, ∀ d, Ex.vmetric.dist [20, 1] u = some d → Dist.lt d Dist.zero = false ∧ Dist.lt 40 d = false := by
  refine ⟨(Ex.addsW (faveParams Ex.vmetric id (fun _ => true)) init [(0, 0), (1, 1), (2, 0), (3, 0), (4, 2), (5, 0)]).1, ?_, by decide, by decide, by decide, by decide⟩
  exact Ex.hist_addsW _ init [] .init [0, 1, 0, 0, 2, 0] (by decide) _ (by decide +kernel)

end Fave.C10
