import Verif.Lemmas.KnnSearch
import Verif.Props.C10
import Verif.Props.C38
import Verif.Props.C46
import Verif.Spec.ExampleIndex
/-!
# C93 — SearchByVector returns the nearest vectors

`SearchByVector` goes one of two ways: with a short filter it computes the distance of every filtered vector (`flatSearch`), otherwise it follows
the links (`knnSearchByVector`).  The property: both ways return the `k` nearest of the vectors that have been added.  It is false: from 31 vectors
on with FaVe's own search settings (`fave_31_nearest_missed`), from 62 on with any (`beyond_61_nearest_missed`), and before the first flush the
second way answers that there is nothing, without an error (`unflushed_finds_nothing`).  Proved for flushed collections up to these sizes; missing:
nothing holds beyond them without assumptions on the geometry.
-/
namespace Fave.C93
open Index Graph Spec Queue Search
variable {V D : Type} [Dist D]

/-- the caller's filter lets number `id` pass -/
def Allowed (allow : Option (List Nat)) (id : Nat) : Prop := ∀ ids, allow = some ids → id ∈ ids

/-- What the answer to "the `k` nearest of the vectors `vs` to `q`, restricted to `allow`" is: numbers of allowed vectors with their true
distances, each once, closest first, as many as there are but at most `k`, and nothing left out is closer than anything returned. -/
structure Nearest (P : Params V D) (vs : List V) (q : V) (k : Nat) (allow : Option (List Nat)) (hits : List (Item D)) : Prop where
  genuine : ∀ x ∈ hits, Allowed allow x.id ∧ ∃ u, vs[x.id]? = some u ∧ P.metric.dist (P.norm q) (P.norm u) = some x.dist
  once : (hits.map Item.id).Nodup
  sorted : hits.Pairwise (fun a b => Dist.lt b.dist a.dist = false)
  few : hits.length ≤ k
  best : ∀ id u d, vs[id]? = some u → Allowed allow id → P.metric.dist (P.norm q) (P.norm u) = some d →
    (⟨id, d⟩ : Item D) ∈ hits ∨ (hits.length = k ∧ ∀ x ∈ hits, Dist.lt d x.dist = false)

/-- the `k` first, closest first, are the `k` nearest if whatever is not among them is no closer -/
theorem nearest_take [LawfulDist D] {P : Params V D} {vs : List V} {q : V} {k : Nat} {allow : Option (List Nat)} {all : List (Item D)}
    (hg : ∀ x ∈ all, Allowed allow x.id ∧ ∃ u, vs[x.id]? = some u ∧ P.metric.dist (P.norm q) (P.norm u) = some x.dist)
    (hn : (all.map Item.id).Nodup) (hs : all.Pairwise (fun a b => Dist.lt b.dist a.dist = false))
    (ha : ∀ id u d, vs[id]? = some u → Allowed allow id → P.metric.dist (P.norm q) (P.norm u) = some d →
      (⟨id, d⟩ : Item D) ∈ all ∨ (k ≤ all.length ∧ ∀ x ∈ all, Dist.lt d x.dist = false)) :
    Nearest P vs q k allow (all.take k) := by
  refine ⟨fun x hx => hg x (List.mem_of_mem_take hx), ((List.take_sublist _ _).map _).nodup hn, hs.sublist (List.take_sublist _ _),
    by simp; omega, ?_⟩
  intro id u d hu hal hd
  rcases ha id u d hu hal hd with hmem | ⟨h1, h2⟩
  · obtain ⟨i, hi, hxi⟩ := List.getElem_of_mem hmem
    by_cases h : i < k
    · exact .inl (List.mem_take_iff_getElem.mpr ⟨i, by omega, hxi⟩)
    · refine .inr ⟨by simp; omega, ?_⟩
      intro x hx
      obtain ⟨j, hj, rfl⟩ := List.mem_take_iff_getElem.mp hx
      have := List.pairwise_iff_getElem.mp hs j i (by omega) hi (by omega)
      rw [hxi] at this; exact this
  · exact .inr ⟨by simp; omega, fun x hx => h2 x (List.mem_of_mem_take hx)⟩

/-- **Both ways are exact** for small collections.  Any history (levels, schedules, vector-cache behaviour, refused vectors, flushes, restarts),
flushed at least once, with at most `maxConn` vectors, or with at most `maxConn0 + 1` and settings whose search width reaches the number of vectors;
any `k ≥ 1`; no filter or any filter that names no leftover of a refused vector: the search succeeds and returns the `k` nearest allowed vectors. -/
theorem search_by_vector_exact_partial [LawfulDist D] (P : Params V D) (hP : P.Ok) (hm : 0 < P.maxConn) (hef : P.maxConn ≤ P.efC + 1) (hef0 : 0 < P.efC)
    (hdist : ∀ a b, P.metric.len a = P.metric.len b → ∃ d, P.metric.dist a b = some d)
    (hsym : ∀ a b, P.metric.dist a b = P.metric.dist b a)
    (s : Index V) (vs : List V) (h : Hist P s vs) (hn : vs ≠ []) (hfl : s.isEmpty = false)
    (cfg : EfConfig) (sched : Scheds D) (q : V) (hq : ∀ u ∈ vs, P.metric.len u = P.metric.len q) (k : Nat) (hk : 0 < k)
    (hsm : vs.length ≤ P.maxConn ∨ vs.length ≤ P.maxConn0 + 1 ∧ (vs.length : Int) ≤ searchTimeEF cfg k) (allow : Option (List Nat))
    (hal : ∀ ids, allow = some ids → ids.Nodup ∧ ∀ id ∈ ids, s.get id ≠ none → id < vs.length) :
    ∃ hits, (s.graph P).searchByVector cfg s.isEmpty sched q k allow = .ok hits ∧ Nearest P vs q k allow hits := by
  have hi := hist_inv hP h
  have hget : ∀ id u, vs[id]? = some u → ∃ v, s.get id = some v ∧ v.vec = P.norm u := by
    intro id u hu
    obtain ⟨v, hv, _⟩ := hi.wf id (List.getElem?_eq_some_iff.mp hu).1
    exact ⟨v, hv, hi.holds id u v hu hv⟩
  have hget' : ∀ id v, id < vs.length → s.get id = some v → ∃ u, vs[id]? = some u ∧ v.vec = P.norm u := by
    intro id v hid hv
    exact ⟨vs[id], List.getElem?_eq_getElem hid, hi.holds id _ v (List.getElem?_eq_getElem hid) hv⟩
  have htomb : ∀ id, (s.graph P).tomb id = false := by
    intro id; show s.tombs.contains id = false; rw [hi.tombs]; rfl
  have htied := (hist_tied hP hm hef0 hdist h).1 (by have := hP.conn; omega)
  -- the way along the links
  have hlinks : ∀ allow' : Option (Nat → Bool), (∀ id, (∀ p, allow' = some p → p id = true) ↔ Allowed allow id) →
      ∃ hits, (s.graph P).knnSearch false sched (P.norm q) k (searchTimeEF cfg k) allow' = .ok hits ∧ Nearest P vs q k allow hits := by
    intro allow' haa
    obtain ⟨d, hd⟩ := hist_entry_dist hP hdist hi hn hq
    obtain ⟨start, all, ⟨sv, hsv⟩, h1, h2, h3, h4, h5⟩ := knnSearch_ok (g := firstGraph P s vs.length) (allow := allow') (sched := sched) (k := k)
      (ef := searchTimeEF cfg k) (firstGraph_ok hP hi) hsym hd hk (C46.at_least_k cfg k) (by
        rcases hsm with h1 | h1
        · right
          intro a b ha hb hab
          obtain ⟨va, hva⟩ := Option.isSome_iff_exists.mp ha
          obtain ⟨vb, hvb⟩ := Option.isSome_iff_exists.mp hb
          obtain ⟨v, links, e1, e2, e3⟩ := (hist_complete hP hef hdist h).1 h1 a b (firstGraph_get hva).1 (firstGraph_get hvb).1 hab
          refine ⟨v, links, ?_, Nat.zero_le _, e2, e3⟩
          show (if a < vs.length then s.get a else none) = _
          rw [if_pos (firstGraph_get hva).1]; exact e1
        · left
          show ((List.range vs.length).length : Int) ≤ _
          simpa using h1.2)
    rw [firstGraph_knn hP hi hn]
    refine ⟨_, h1, nearest_take ?_ h2 h3 ?_⟩
    · intro x hx
      obtain ⟨⟨v, hv, hvd⟩, _, hel⟩ := h4 x hx
      obtain ⟨hid, hv⟩ := firstGraph_get (P := P) hv
      obtain ⟨u, hu, hvu⟩ := hget' _ _ hid hv
      exact ⟨(haa x.id).mp (hel rfl), u, hu, by rw [← hvu]; exact hvd⟩
    · intro id u e hu hal' he
      obtain ⟨v, hv, hvu⟩ := hget id u hu
      have hid := (List.getElem?_eq_some_iff.mp hu).1
      have hstart := (firstGraph_get hsv).1
      refine h5 id e (reach_allow allow' (reach_of_walk hP hdist hi hq hstart (htied start id hstart hid)))
        ⟨htomb id, fun _ => (haa id).mpr hal'⟩ ⟨v, ?_, by rw [hvu]; exact he⟩
      show (if id < vs.length then s.get id else none) = _
      rw [if_pos hid]; exact hv
  rw [hfl]
  cases allow with
  | none => exact hlinks none (fun id => ⟨(fun _ ids h => by cases h), (fun _ p h => by cases h)⟩)
  | some ids =>
    obtain ⟨hnd, hin⟩ := hal ids rfl
    by_cases hc : (!cfg.forbidFlat && decide ((ids.length : Int) < cfg.flatCutoff)) = true
    · -- the way through the filter
      have hff : cfg.forbidFlat = false ∧ (ids.length : Int) < cfg.flatCutoff := by
        rw [Bool.and_eq_true, decide_eq_true_eq] at hc; exact ⟨by simpa using hc.1, hc.2⟩
      have hdn : ∀ c u, vs[c]? = some u → ∃ d, (s.graph P).distNodeVec c (P.norm q) = some d := by
        intro c u hu
        obtain ⟨v, hv, hvu⟩ := hget c u hu
        obtain ⟨d0, hd0, hd1⟩ := hi.dim
        have hmem := List.mem_of_getElem? hu
        have hlu := hq u hmem
        have hle := hd1 u hmem
        have hl1 : P.metric.len v.vec = P.metric.len u := by rw [hvu, hP.norm]
        have hl2 : P.metric.len (P.norm q) = P.metric.len q := hP.norm q
        obtain ⟨d, hd⟩ := hdist v.vec (P.norm q) (by omega)
        refine ⟨d, ?_⟩
        unfold distNodeVec
        have hgv : (s.graph P).get c = some v := hv
        rw [hgv]
        show (if P.metric.len v.vec = 0 then none else if P.metric.len (P.norm q) = 0 then none else P.metric.dist v.vec (P.norm q)) = _
        rw [if_neg (show ¬ P.metric.len v.vec = 0 by omega), if_neg (show ¬ P.metric.len (P.norm q) = 0 by omega)]
        exact hd
      cases hr : (s.graph P).flatSearch (P.norm q) k ids with
      | error e =>
        obtain ⟨c, hcm, v, hv, _, hdn'⟩ := (C38.brute_force_fails_iff (s.graph P) (P.norm q) k hk ids).mp ⟨e, hr⟩
        have hcl := hin c hcm (by rw [show s.get c = some v from hv]; simp)
        obtain ⟨u, hu, _⟩ := hget' c v hcl hv
        obtain ⟨d, hd⟩ := hdn c u hu
        rw [hd] at hdn'; cases hdn'
      | ok hits =>
        have hsv : (s.graph P).searchByVector cfg false sched q k (some ids) = .ok hits := by
          unfold searchByVector
          simp only
          rw [if_pos hc]; exact hr
        have hex := C38.brute_force_exact (s.graph P) cfg false sched q k hk ids hnd hff.1 hff.2 hits hsv
        refine ⟨hits, hsv, ?_, hex.once, hex.sorted, by rw [hex.many]; omega, ?_⟩
        · intro x hx
          obtain ⟨hm1, v, hv, _, hvd⟩ := hex.genuine x hx
          have hcl := hin x.id hm1 (by rw [show s.get x.id = some v from hv]; simp)
          obtain ⟨u, hu, hvu⟩ := hget' _ v hcl hv
          refine ⟨fun ids' e => by cases e; exact hm1, u, hu, ?_⟩
          rw [← hvu, hsym]; exact hvd
        · intro id u d hu hal' hd
          obtain ⟨v, hv, hvu⟩ := hget id u hu
          refine hex.best ⟨id, d⟩ (hal' ids rfl) ⟨v, hv, htomb id, ?_⟩
          show P.metric.dist v.vec (P.norm q) = some d
          rw [hvu, hsym]; exact hd
    · obtain ⟨hits, h1, h2⟩ := hlinks (some (fun id => ids.contains id)) (fun id => by
        constructor
        · intro h ids' e; cases e; simpa using h _ rfl
        · intro h p e; cases e; simpa using h ids rfl)
      refine ⟨hits, ?_, h2⟩
      unfold searchByVector
      simp only
      rw [if_neg hc]; exact h1

/-- how many numbers there are to return -/
theorem nearest_length [LawfulDist D] {P : Params V D} {vs : List V} {q : V} {k : Nat} {hits : List (Item D)}
    (hdist : ∀ u ∈ vs, ∃ d, P.metric.dist (P.norm q) (P.norm u) = some d) (h : Nearest P vs q k none hits) : hits.length = min k vs.length := by
  have hsub : hits.map Item.id ⊆ List.range vs.length := by
    intro id hid
    obtain ⟨x, hx, rfl⟩ := List.mem_map.mp hid
    obtain ⟨_, u, hu, _⟩ := h.genuine x hx
    exact List.mem_range.mpr (List.getElem?_eq_some_iff.mp hu).1
  have h1 := List.Nodup.length_le_of_subset h.once hsub
  simp at h1
  have h2 := h.few
  by_cases hk : hits.length = k
  · omega
  · have hsup : List.range vs.length ⊆ hits.map Item.id := by
      intro id hid
      have hid := List.mem_range.mp hid
      obtain ⟨d, hd⟩ := hdist _ (List.getElem_mem hid)
      rcases h.best id _ d (List.getElem?_eq_getElem hid) (fun _ e => by cases e) hd with h3 | ⟨h3, _⟩
      · exact List.mem_map.mpr ⟨_, h3, rfl⟩
      · exact absurd h3 hk
    have := List.Nodup.length_le_of_subset List.nodup_range hsup
    simp at this
    omega

/-- **The answer is determined** up to the order of equally distant vectors: two answers for the same vectors, query, `k` and filter have the same
length and, place by place, equivalent distances.  So the two ways agree, and so do all schedules. -/
theorem nearest_unique [LawfulDist D] {P : Params V D} {vs : List V} {q : V} {k : Nat} {allow : Option (List Nat)} {hits hits' : List (Item D)}
    (h : Nearest P vs q k allow hits) (h' : Nearest P vs q k allow hits') :
    hits.length = hits'.length ∧ ∀ i (hi : i < hits.length) (hi' : i < hits'.length),
      Dist.lt hits[i].dist hits'[i].dist = false ∧ Dist.lt hits'[i].dist hits[i].dist = false := by
  have half : ∀ {a b : List (Item D)}, Nearest P vs q k allow a → Nearest P vs q k allow b → a.length ≤ b.length ∧
      ∀ i (hi : i < a.length) (hi' : i < b.length), Dist.lt a[i].dist b[i].dist = false := by
    intro a b ha hb
    have hin : ∀ x ∈ a, x ∈ b ∨ (b.length = k ∧ ∀ y ∈ b, Dist.lt x.dist y.dist = false) := by
      intro x hx
      obtain ⟨h1, u, h2, h3⟩ := ha.genuine x hx
      exact hb.best x.id u x.dist h2 h1 h3
    have hnd : a.Nodup := List.Pairwise.of_map Item.id (fun a b h e => h (congrArg _ e)) ha.once
    constructor
    · by_cases hbk : b.length = k
      · rw [hbk]; exact ha.few
      · exact List.Nodup.length_le_of_subset hnd (fun x hx => by
          rcases hin x hx with h1 | ⟨h1, _⟩
          · exact h1
          · exact absurd h1 hbk)
    · intro i hi hi'
      cases hlt : Dist.lt a[i].dist b[i].dist with
      | false => rfl
      | true =>
        exfalso
        have hex : ∃ z ∈ a.take (i + 1), z ∉ b.take i := by
          refine Classical.byContradiction (fun hc => ?_)
          have := List.Nodup.length_le_of_subset (hnd.sublist (List.take_sublist (i + 1) a))
            (fun z hz => Classical.byContradiction (fun hz' => hc ⟨z, hz, hz'⟩) : a.take (i + 1) ⊆ b.take i)
          simp at this
          omega
        obtain ⟨z, hz, hz'⟩ := hex
        obtain ⟨j, hj, rfl⟩ := List.mem_take_iff_getElem.mp hz
        have hj' : j < a.length := by omega
        have hle : Dist.lt a[i].dist a[j].dist = false := by
          by_cases e : j = i
          · subst e; exact LawfulDist.irrefl _
          · exact List.pairwise_iff_getElem.mp ha.sorted j i hj' hi (by omega)
        have hzlt : Dist.lt a[j].dist b[i].dist = true := by
          rcases LawfulDist.cotrans _ a[j].dist _ hlt with h1 | h1
          · rw [hle] at h1; cases h1
          · exact h1
        rcases hin a[j] (List.getElem_mem _) with h1 | ⟨_, h1⟩
        · obtain ⟨m, hm, hme⟩ := List.getElem_of_mem h1
          have : i ≤ m := by
            refine Classical.byContradiction (fun hc => hz' ?_)
            rw [← hme]
            exact List.mem_take_iff_getElem.mpr ⟨m, by omega, rfl⟩
          by_cases e : i = m
          · subst e; rw [← hme, LawfulDist.irrefl] at hzlt; cases hzlt
          · have := List.pairwise_iff_getElem.mp hb.sorted i m hi' hm (by omega)
            rw [hme, hzlt] at this; cases this
        · rw [h1 _ (List.getElem_mem _)] at hzlt; cases hzlt
  have a := half h h'
  have b := half h' h
  exact ⟨by omega, fun i hi hi' => ⟨a.2 i hi hi', b.2 i hi' hi⟩⟩

/-- the settings `SetDefaults` would give (user_config.go:33-45, 75-97): width 8 times `k`, at least 100, at most 500; cut-off 40000 -/
def defaultCfg : EfConfig := ⟨-1, 100, 500, 8, 40000, false⟩

/-- the settings of FaVe's collections: document.go:196-199 gives the two numbers for building only and nobody calls `SetDefaults`, so all search
settings are 0 -/
def faveCfg : EfConfig := ⟨0, 0, 0, 0, 0, false⟩

theorem default_width (k : Nat) : 100 ≤ searchTimeEF defaultCfg k := by
  have h : min defaultCfg.efMin defaultCfg.efMax ≤ autoEfFromK defaultCfg k := by
    unfold autoEfFromK
    generalize defaultCfg = c
    generalize wrap64 (k * c.efFactor) = w
    by_cases h1 : w > c.efMax
    · simp only [h1, if_true]; split <;> omega
    · by_cases h2 : w < c.efMin
      · simp only [h1, h2, if_true, if_false]; split <;> omega
      · simp only [h1, h2, if_false]; split <;> omega
  unfold searchTimeEF
  rw [if_pos (by decide)]
  have e : min defaultCfg.efMin defaultCfg.efMax = 100 := by decide
  omega

/-- in FaVe's collections the search width is `k`, and no filter is short enough for the search through the filter -/
theorem fave_width (k : Nat) : searchTimeEF faveCfg k = k ∧ ∀ n : Nat, ¬ ((n : Int) < faveCfg.flatCutoff) := by
  refine ⟨?_, fun n h => by simp only [faveCfg] at h; omega⟩
  have e : wrap64 ((k : Int) * faveCfg.efFactor) = 0 := by
    show wrap64 ((k : Int) * 0) = 0
    rw [Int.mul_zero]; decide
  unfold searchTimeEF autoEfFromK
  rw [e]
  simp only [faveCfg]
  by_cases h : (0 : Int) < k
  · simp [h]; omega
  · simp [h]; omega

/-- FaVe's parameters and settings: exact for every `k` up to 30 vectors, and up to 61 vectors if at least as many are asked for as there are. -/
theorem fave_exact_partial [LawfulDist D] (metric : Metric V D) (norm : V → V) (jsonOk : V → Bool)
    (hlen : ∀ a b, metric.len a ≠ metric.len b → metric.dist a b = none)
    (hdist : ∀ a b, metric.len a = metric.len b → ∃ d, metric.dist a b = some d)
    (hnorm : ∀ v, metric.len (norm v) = metric.len v) (hsym : ∀ a b, metric.dist a b = metric.dist b a)
    (s : Index V) (vs : List V) (h : Hist (faveParams metric norm jsonOk) s vs) (hn : vs ≠ []) (hfl : s.isEmpty = false)
    (sched : Scheds D) (q : V) (hq : ∀ u ∈ vs, metric.len u = metric.len q) (k : Nat) (hk : 0 < k)
    (hsm : vs.length ≤ 30 ∨ vs.length ≤ 61 ∧ vs.length ≤ k) (allow : Option (List Nat))
    (hal : ∀ ids, allow = some ids → ids.Nodup ∧ ∀ id ∈ ids, s.get id ≠ none → id < vs.length) :
    ∃ hits, (s.graph (faveParams metric norm jsonOk)).searchByVector faveCfg s.isEmpty sched q k allow = .ok hits ∧
      Nearest (faveParams metric norm jsonOk) vs q k allow hits :=
  search_by_vector_exact_partial (faveParams metric norm jsonOk) ⟨by simp [faveParams], by simp [faveParams], hlen, hnorm⟩ (by simp [faveParams])
    (by simp [faveParams]) (by simp [faveParams]) hdist hsym s vs h hn hfl faveCfg sched q hq k hk
    (by rw [(fave_width k).1]; simp only [faveParams]; omega) allow hal

/-- with the default search settings: up to 61 vectors, every `k` -/
theorem default_exact_partial [LawfulDist D] (metric : Metric V D) (norm : V → V) (jsonOk : V → Bool)
    (hlen : ∀ a b, metric.len a ≠ metric.len b → metric.dist a b = none)
    (hdist : ∀ a b, metric.len a = metric.len b → ∃ d, metric.dist a b = some d)
    (hnorm : ∀ v, metric.len (norm v) = metric.len v) (hsym : ∀ a b, metric.dist a b = metric.dist b a)
    (s : Index V) (vs : List V) (h : Hist (faveParams metric norm jsonOk) s vs) (hn : vs ≠ []) (hfl : s.isEmpty = false)
    (sched : Scheds D) (q : V) (hq : ∀ u ∈ vs, metric.len u = metric.len q) (k : Nat) (hk : 0 < k) (hsm : vs.length ≤ 61) (allow : Option (List Nat))
    (hal : ∀ ids, allow = some ids → ids.Nodup ∧ ∀ id ∈ ids, s.get id ≠ none → id < vs.length) :
    ∃ hits, (s.graph (faveParams metric norm jsonOk)).searchByVector defaultCfg s.isEmpty sched q k allow = .ok hits ∧
      Nearest (faveParams metric norm jsonOk) vs q k allow hits :=
  search_by_vector_exact_partial (faveParams metric norm jsonOk) ⟨by simp [faveParams], by simp [faveParams], hlen, hnorm⟩ (by simp [faveParams])
    (by simp [faveParams]) (by simp [faveParams]) hdist hsym s vs h hn hfl defaultCfg sched q hq k hk
    (by have := default_width k; simp only [faveParams]; omega) allow hal

/-- **Before the first flush** (`isEmpty` asks the store only — index.go:579-592) a search without a filter answers that there is nothing, whatever
has been added, whatever is asked. -/
theorem unflushed_finds_nothing (P : Params V D) (hP : P.Ok) (s : Index V) (vs : List V) (h : Hist P s vs) (hf : s.kvCount = none)
    (cfg : EfConfig) (sched : Scheds D) (q : V) (k : Int) : (s.graph P).searchByVector cfg s.isEmpty sched q k none = .ok [] := by
  have := (hist_inv hP h).isEmpty.mpr hf
  rw [this]
  rfl

/-- A vector nothing is linked to is never found along the links of a flat index: any query, `k`, settings and schedule. -/
theorem unlinked_never_found [LawfulDist D] (P : Params V D) (hP : P.Ok)
    (hdist : ∀ a b, P.metric.len a = P.metric.len b → ∃ d, P.metric.dist a b = some d)
    (hsym : ∀ a b, P.metric.dist a b = P.metric.dist b a)
    (s : Index V) (vs : List V) (h : Hist P s vs) (hn : vs ≠ []) (hfl : s.isEmpty = false) (h0 : s.maxLayer = 0) (x : Nat) (hx : s.entry ≠ x)
    (hun : ∀ id v, s.get id = some v → ∀ links ∈ v.conns, x ∉ links)
    (cfg : EfConfig) (sched : Scheds D) (q : V) (hq : ∀ u ∈ vs, P.metric.len u = P.metric.len q) (k : Nat) :
    ∃ hits, (s.graph P).searchByVector cfg s.isEmpty sched q k none = .ok hits ∧ x ∉ hits.map Item.id := by
  have hi := hist_inv hP h
  have hg := firstGraph_ok hP hi
  obtain ⟨d, hd⟩ := hist_entry_dist hP hdist hi hn hq
  have hgood : Good ((firstGraph P s vs.length).senv (P.norm q) none) ⟨s.entry, d⟩ :=
    good_entry (g := firstGraph P s vs.length) hsym none hd
  obtain ⟨v, hv⟩ := distToNode_get hgood
  obtain ⟨r, hr⟩ := searchLayer_total (sched := sched 0) (ef := searchTimeEF cfg k) (level := 0) (hg.graphOk (P.norm q) none) (hg.keysOk (P.norm q) none)
    (epsOk_one hg.small (P.norm q) none hv) (by intro e he; simp at he; subst he; exact ⟨_, hgood⟩)
  have hne : ∀ y ∈ r.toList, y.id ≠ x := by
    refine searchLayer_closed (C := fun i => i ≠ x) ?_ ?_ (hg.keysOk _ none) (epsOk_one hg.small _ none hv) hr
    · intro id w links b _ hgw hl hb e
      obtain ⟨_, hgw⟩ := firstGraph_get (P := P) hgw
      subst e
      exact hun id w hgw links (List.mem_of_getElem? hl) hb
    · intro e he; simp at he; subst he; exact hx
  refine ⟨(drain lessMax r).reverse.take k, ?_, ?_⟩
  · rw [hfl]
    show (s.graph P).knnSearch false sched (P.norm q) k (searchTimeEF cfg k) none = _
    rw [firstGraph_knn hP hi hn]
    unfold knnSearch
    have hd' : (firstGraph P s vs.length).distNodeVec (firstGraph P s vs.length).entry (P.norm q) = some d := hd
    have hm : (firstGraph P s vs.length).maxLayer = 0 := h0
    rw [if_neg (by simp), hd', hm]
    simp only [descendK]
    have hr' : searchLayer ((firstGraph P s vs.length).senv (P.norm q) none) (sched 0) [⟨(firstGraph P s vs.length).entry, d⟩] (searchTimeEF cfg k) 0 = .ok r := hr
    rw [hr']
    simp only
    rw [if_neg (by omega), Int.toNat_natCast]
  · intro hmem
    obtain ⟨y, hy, rfl⟩ := List.mem_map.mp hmem
    exact hne y ((drain_perm lessMax r).mem_iff.mp (List.mem_reverse.mp (List.mem_of_mem_take hy))) rfl

/-- **From 62 vectors on it is false.**  FaVe's parameters, 62 numbers on a line added one after the other and flushed: no search for the nearest
vectors, whatever the query and `k`, returns number 31 — not even the search for the stored number 10000 itself. -/
theorem beyond_61_nearest_missed :
    ∃ s : Index Nat, Hist C10.P s C10.pts ∧ C10.pts.length = 62 ∧ s.isEmpty = false ∧ C10.pts[31]? = some 10000 ∧
      C10.P.metric.dist (C10.P.norm 10000) (C10.P.norm 10000) = some 0 ∧
      ∀ (cfg : EfConfig) (sched : Scheds Nat) (q k : Nat), ∃ hits,
        (s.graph C10.P).searchByVector cfg s.isEmpty sched q k none = .ok hits ∧ 31 ∉ hits.map Item.id ∧
        (0 < k → q = 10000 → ¬ Nearest C10.P C10.pts q k none hits) := by
  have hl := C10.last_lost
  cases hs : C10.last with
  | none => rw [hs] at hl; cases hl
  | some s =>
    rw [hs] at hl
    have hl : C10.lost s = true := hl
    unfold C10.lost at hl
    simp only [Bool.and_eq_true, decide_eq_true_eq] at hl
    obtain ⟨⟨⟨he, hm⟩, hkv⟩, hall⟩ := hl
    have hsym : ∀ a b, C10.P.metric.dist a b = C10.P.metric.dist b a := by
      intro a b
      show some (a - b + (b - a)) = some (b - a + (a - b))
      rw [Nat.add_comm]
    have hdi : ∀ a b, C10.P.metric.len a = C10.P.metric.len b → ∃ d, C10.P.metric.dist a b = some d := fun a b _ => ⟨_, rfl⟩
    have hh : Hist C10.P s C10.pts :=
      fastRun_hist (vs := [200]) C10.P_ok hdi hsym (L := 1) (by decide) (fun _ => Sched.id) C10.first_hist (by decide) (fun _ _ => rfl) hs
    have hi := hist_inv C10.P_ok hh
    have hf : flush C10.P s s.cache.keys C10.pts.length = ((flush C10.P s s.cache.keys C10.pts.length).1, none) := by
      have : ∀ ws : List (Write Nat), (flushUpToBad C10.P ws).2 = none := by
        intro ws
        induction ws with
        | nil => rfl
        | cons w ws ih =>
          cases w with
          | node v => unfold flushUpToBad; exact ih
          | entry e => unfold flushUpToBad; exact ih
          | count c => unfold flushUpToBad; exact ih
      unfold flush; simp only [this]
    obtain ⟨s1, hw, hs'⟩ := flush_ok hi.ids hf
    have hn : C10.pts ≠ [] := by decide
    have hh' := Hist.flush s.cache.keys hh hn (fun _ h => h) hf
    generalize (flush C10.P s s.cache.keys C10.pts.length).1 = s' at hs' hh'
    have hfl : s'.isEmpty = false := by rw [hs']; simp [Index.isEmpty]
    have hun : ∀ id v, s'.get id = some v → ∀ links ∈ v.conns, 31 ∉ links := by
      intro id v hv links hlk
      have hv1 : s1.get id = some v := by rw [hs'] at hv; exact hv
      have hag := hw.get (dirty_cached hi.ids _) id
      rcases agree_cases hag with ⟨a, _⟩ | ⟨v', w, a, b, _, _, hc, _, _⟩
      · rw [hv1] at a; cases a
      · rw [hv1] at a; cases a
        have hk0 : s.kv.get id = none := by
          cases hkv' : s.kv with
          | nil => rfl
          | cons a l => rw [hkv'] at hkv; cases hkv
        unfold Index.get at b
        split at b
        · rename_i w' hcw
          cases b
          have := List.all_eq_true.mp hall (id, w) (C10.get_mem hcw)
          have := List.all_eq_true.mp this links (by rw [← hc]; exact hlk)
          simpa using this
        · rw [hk0] at b; cases b
    refine ⟨s', hh', by decide, hfl, by decide, by decide, ?_⟩
    intro cfg sched q k
    obtain ⟨hits, h1, h2⟩ := unlinked_never_found C10.P C10.P_ok hdi hsym s' C10.pts hh' hn hfl (by rw [hs']; exact hw.maxLayer.trans hm) 31
      (by rw [hs']; show s1.entry ≠ 31; rw [hw.entry, he]; decide) hun cfg sched q (fun _ _ => rfl) k
    refine ⟨hits, h1, h2, ?_⟩
    rintro hk rfl hN
    rcases hN.best 31 10000 0 (by decide) (fun _ e => by cases e) (by decide) with h3 | ⟨h3, h4⟩
    · exact h2 (List.mem_map.mpr ⟨_, h3, rfl⟩)
    · -- all hits would be at distance 0, so they would be number 31
      cases hits with
      | nil => simp at h3; omega
      | cons y ys =>
        obtain ⟨_, u, hu, hd⟩ := hN.genuine y (by simp)
        have hle := h4 y (by simp)
        have hd : some (10000 - u + (u - 10000)) = some y.dist := hd
        have hd := Option.some.inj hd
        have hle : decide (0 < y.dist) = false := hle
        have hle := of_decide_eq_false hle
        have hu' : u = 10000 := by omega
        have hone : ∀ i < C10.pts.length, C10.pts[i]? = some 10000 → i = 31 := by decide
        have := hone y.id (List.getElem?_eq_some_iff.mp hu).1 (by rw [hu, hu'])
        exact h2 (by simp [this])

/-- FaVe's parameters for pairs of whole numbers; distance = sum of the differences -/
def P31 : Params (List Nat) Nat := faveParams Ex.vmetric id (fun _ => true)
theorem P31_ok : P31.Ok := ⟨by decide, by decide, Ex.P_ok.lens, fun _ => rfl⟩
/-- 28 points far to the right; then three points: the last is linked to number 28 only, since all others are closer to number 28 than to it -/
def pts31 : List (List Nat) := (List.range 28).map (fun (i : Nat) => [3000 + 3 * i * i, 1000]) ++ [[1100, 1000], [1055, 1065], [1000, 1000]]
def first31 : Index (List Nat) := { init.put { newNode 0 [3000, 1000] 0 with maint := false } with once := true }
def last31 : Option (Index (List Nat)) := fastRun P31 (fun id => pts31[id]?) first31 1 pts31.tail

theorem first31_hist : Hist P31 first31 [[3000, 1000]] := by
  have : add P31 (fun _ _ _ id => pts31[id]?) (fun _ => Sched.id) init 0 [3000, 1000] 0 = (first31, none) := by decide +kernel
  exact .add _ _ _ 0 .init this

/-- what FaVe's settings find for the query [1022, 1026] after a flush -/
def missed31 (s : Index (List Nat)) : Bool :=
  let s' := (flush P31 s s.cache.keys 31).1
  decide ((s'.graph P31).searchByVector faveCfg s'.isEmpty (fun _ => Sched.id) [1022, 1026] (1 : Nat) none = .ok [⟨29, 72⟩]) &&
  decide ((flush P31 s s.cache.keys 31).2 = none) && !s'.isEmpty

set_option maxRecDepth 100000 in
theorem last31_missed : last31.any missed31 = true := by decide +kernel

/-- **With FaVe's own settings it is false from 31 vectors on**, for `k = 1`: the search for the nearest vector returns number 29 at distance 72,
although number 30 is at distance 48.  (The default settings of the index would be wide enough.) -/
theorem fave_31_nearest_missed :
    ∃ s : Index (List Nat), Hist P31 s pts31 ∧ pts31.length = 31 ∧ s.isEmpty = false ∧
      (s.graph P31).searchByVector faveCfg s.isEmpty (fun _ => Sched.id) [1022, 1026] (1 : Nat) none = .ok [⟨29, 72⟩] ∧
      pts31[30]? = some [1000, 1000] ∧ P31.metric.dist (P31.norm [1022, 1026]) (P31.norm [1000, 1000]) = some 48 ∧
      ¬ Nearest P31 pts31 [1022, 1026] 1 none [⟨29, 72⟩] := by
  have hl := last31_missed
  cases hs : last31 with
  | none => rw [hs] at hl; cases hl
  | some s =>
    rw [hs] at hl
    have hl : missed31 s = true := hl
    unfold missed31 at hl
    simp only [Bool.and_eq_true, decide_eq_true_eq] at hl
    obtain ⟨⟨h1, h2⟩, h3⟩ := hl
    have hdi : ∀ a b, P31.metric.len a = P31.metric.len b → ∃ d, P31.metric.dist a b = some d := by
      intro a b h
      refine ⟨_, if_pos h⟩
    have hsym : ∀ a b, P31.metric.dist a b = P31.metric.dist b a := by
      intro a b
      show (if a.length = b.length then _ else _) = (if b.length = a.length then _ else _)
      by_cases h : a.length = b.length
      · rw [if_pos h, if_pos h.symm, List.zipWith_comm]
        congr 3
        funext x y; omega
      · rw [if_neg h, if_neg (fun e => h e.symm)]
    have hh : Hist P31 s pts31 :=
      fastRun_hist (vs := [[3000, 1000]]) P31_ok hdi hsym (L := 2) (by decide) (fun _ => Sched.id) first31_hist (by decide) (by decide) hs
    have hh' : Hist P31 (flush P31 s s.cache.keys 31).1 pts31 :=
      .flush s.cache.keys hh (by decide) (fun _ h => h) (show flush P31 s s.cache.keys 31 = _ from by rw [← h2])
    refine ⟨_, hh', by decide, by simpa using h3, h1, by decide, by decide, ?_⟩
    intro hN
    rcases hN.best 30 [1000, 1000] 48 (by decide) (fun _ e => by cases e) (by decide) with h4 | ⟨_, h4⟩
    · simp at h4
    · exact absurd (h4 ⟨29, 72⟩ (by simp)) (by decide)

/-! ## Non-vacuity -/

/-- six vectors on three levels, two of them added after a flush and a restart; along the links, through a filter, and along the links within a
filter (`flatCutoff` 0) -/
example : Hist Ex.PW Ex.w6 Ex.vecs ∧ Ex.PW.Ok ∧ 0 < Ex.PW.maxConn ∧ 0 < Ex.PW.efC ∧ Ex.vecs.length ≤ Ex.PW.maxConn0 + 1 ∧ Ex.w6.isEmpty = false ∧
    (∀ u ∈ Ex.vecs, Ex.PW.metric.len u = Ex.PW.metric.len [12, 1]) ∧ ((Ex.vecs.length : Int) ≤ searchTimeEF defaultCfg (3 : Nat)) :=
  ⟨Ex.histW6, Ex.PW_ok, by decide, by decide, by decide, by decide +kernel, by decide, by decide⟩
example : (Ex.w6.graph Ex.PW).searchByVector defaultCfg Ex.w6.isEmpty Ex.sched [12, 1] (3 : Nat) none = .ok [⟨1, 1⟩, ⟨5, 2⟩, ⟨0, 3⟩] := by decide +kernel
example : (Ex.w6.graph Ex.PW).searchByVector defaultCfg Ex.w6.isEmpty Ex.sched [12, 1] (3 : Nat) (some [4, 2, 5, 0]) = .ok [⟨5, 2⟩, ⟨0, 3⟩, ⟨2, 18⟩] := by
  decide +kernel
example : (Ex.w6.graph Ex.PW).searchByVector { defaultCfg with flatCutoff := 0 } Ex.w6.isEmpty Ex.sched [12, 1] (3 : Nat) (some [4, 2, 5, 0]) =
    .ok [⟨5, 2⟩, ⟨0, 3⟩, ⟨2, 18⟩] := by decide +kernel
example : ([4, 2, 5, 0] : List Nat).Nodup ∧ ∀ id ∈ [4, 2, 5, 0], Ex.w6.get id ≠ none → id < Ex.vecs.length := by decide

/-- four vectors added, nothing flushed: nothing is found, although the search within a distance finds all of them, and the search with a filter
the nearest two -/
example : Hist Ex.P Ex.s4 (Ex.vecs.take 4) ∧ Ex.s4.kvCount = none := ⟨Ex.hist4, by decide +kernel⟩
theorem unflushed_differs :
    (Ex.s4.graph Ex.P).searchByVector defaultCfg Ex.s4.isEmpty Ex.sched [12, 1] 2 none = .ok [] ∧
    (Ex.s4.graph Ex.P).searchByVector defaultCfg Ex.s4.isEmpty Ex.sched [12, 1] 2 (some [0, 1, 2, 3]) = .ok [⟨1, 1⟩, ⟨0, 3⟩] ∧
    (Ex.s4.graph Ex.P).knnMaxDist Ex.sched [12, 1] 30 800 none = .ok ([1, 0, 3, 2], [1, 3, 5, 18]) := by
  refine ⟨?_, ?_, ?_⟩ <;> decide +kernel

/-- the leftover of a refused vector (number 4, three numbers long) -/
def left : Index (List Nat) := (add Ex.P Ex.vo Ex.sched Ex.s4f 4 [1, 2, 3] 0).1
theorem hist_left : Hist Ex.P left (Ex.vecs.take 4) :=
  .refused (e := .error) Ex.vo Ex.sched [1, 2, 3] 0 Ex.hist4f (by decide) (by decide) (by decide +kernel)

/-- **A filter that names a leftover** makes the search through the filter fail, while the search along the links with the same filter succeeds. -/
theorem leftover_in_filter_fails :
    Hist Ex.P left (Ex.vecs.take 4) ∧ left.isEmpty = false ∧
    (left.graph Ex.P).searchByVector defaultCfg left.isEmpty Ex.sched [12, 1] 2 (some [0, 1, 4]) = .error .error ∧
    (left.graph Ex.P).searchByVector { defaultCfg with forbidFlat := true } left.isEmpty Ex.sched [12, 1] 2 (some [0, 1, 4]) = .ok [⟨1, 1⟩, ⟨0, 3⟩] := by
  refine ⟨hist_left, ?_, ?_, ?_⟩ <;> decide +kernel

end Fave.C93
