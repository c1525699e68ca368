import Verif.Lemmas.Change
import Verif.Model.Insert
/-!
# Changing the type of distances: adding vectors
-/
namespace Fave
variable {V D D' : Type} [Dist D] [Dist D'] {f : D → D'} {G : V → Prop}

/-- the same parameters with the other distances, as far as vectors with `G` are concerned -/
structure Params.Same (f : D → D') (G : V → Prop) (P : Params V D) (P' : Params V D') : Prop where
  len : P'.metric.len = P.metric.len
  norm : P'.norm = P.norm
  maxConn : P'.maxConn = P.maxConn
  maxConn0 : P'.maxConn0 = P.maxConn0
  efC : P'.efC = P.efC
  cacheSize : P'.cacheSize = P.cacheSize
  visitedSize : P'.visitedSize = P.visitedSize
  dist : ∀ a b, G a → G b → P'.metric.dist a b = (P.metric.dist a b).map f
  jsonOk : ∀ a, G a → P'.jsonOk a = P.jsonOk a

namespace Index
open Queue
variable {P : Params V D} {P' : Params V D'}

/-- all vectors kept have the property -/
structure Good (G : V → Prop) (s : Index V) : Prop where
  cache : ∀ id v, s.cache.get id = some v → G v.vec
  kv : ∀ id v, s.kv.get id = some v → G v.vec

theorem Good.get {s : Index V} (h : Good G s) {id : Nat} {v : Vertex V} (hv : s.get id = some v) : G v.vec := by
  unfold Index.get at hv
  cases hc : s.cache.get id with
  | some u => rw [hc] at hv; cases hv; exact h.cache id _ hc
  | none =>
    rw [hc] at hv
    cases hk : s.kv.get id with
    | none => rw [hk] at hv; cases hv
    | some u => rw [hk] at hv; cases hv; exact h.kv id u hk

theorem Good.put {s : Index V} (h : Good G s) {v : Vertex V} (hv : G v.vec) : Good G (s.put v) where
  cache id u hu := by
    unfold Index.put at hu
    simp only [Tab.get_put] at hu
    split at hu
    · cases hu; exact hv
    · exact h.cache id u hu
  kv := h.kv

theorem Good.meta {s t : Index V} (h : Good G s) (hc : t.cache = s.cache) (hk : t.kv = s.kv) : Good G t := ⟨hc ▸ h.cache, hk ▸ h.kv⟩

theorem good_init : Good G (init : Index V) := ⟨(fun _ _ h => by cases h), (fun _ _ h => by cases h)⟩

theorem Good.reopen {s : Index V} (h : Good G s) : Good G s.reopen := ⟨(fun _ _ h => by cases h), h.kv⟩

theorem graph_same (hP : Params.Same f G P P') {s : Index V} (h : Good G s) : Graph.Same f G (s.graph P) (s.graph P') where
  get := rfl
  keys := rfl
  tomb := rfl
  norm := hP.norm
  len := hP.len
  cacheSize := hP.cacheSize
  visitedSize := hP.visitedSize
  entry := rfl
  maxLayer := rfl
  good _ _ hv := h.get hv
  dist := hP.dist

theorem vecGet_to (hP : Params.Same f G P P') (vo : Nat → Option V) (id : Nat) : vecGet P' vo id = vecGet P vo id := by
  unfold vecGet
  rw [hP.cacheSize]

theorem vecGet_good {vo : Nat → Option V} (hvo : ∀ id v, vo id = some v → G v) {id : Nat} {v : V} (h : vecGet P vo id = .ok v) : G v := by
  unfold vecGet at h
  split at h
  · cases h
  · cases hv : vo id with
    | none => rw [hv] at h; cases h
    | some u => rw [hv] at h; cases h; exact hvo id _ hv

theorem distNodes_to (hP : Params.Same f G P P') {vo : Nat → Option V} (hvo : ∀ id v, vo id = some v → G v) (a b : Nat) :
    distNodes P' vo a b = (distNodes P vo a b).map f := by
  unfold distNodes
  rw [vecGet_to hP, vecGet_to hP]
  cases ha : vecGet P vo a with
  | error _ => rfl
  | ok va =>
    simp only [hP.len]
    split
    · rfl
    · cases hb : vecGet P vo b with
      | error _ => rfl
      | ok vb =>
        simp only
        split
        · rfl
        · rw [hP.dist va vb (vecGet_good hvo ha) (vecGet_good hvo hb)]
          cases P.metric.dist va vb <;> rfl

/-- is the candidate closer to the new vector than to every kept one? -/
def diverse (P : Params V D) (vo : Nat → Option V) (ids : List Nat) (kept : List (ItemIx D)) (c : ItemIx D) (cv : V) : Bool :=
  kept.all fun item =>
    match (ids[item.index]?).bind vo with
    | none => true
    | some w => !Dist.lt ((P.metric.dist cv w).getD Dist.zero) c.dist

theorem heurLoop_succ (P : Params V D) (vo : Nat → Option V) (deny : Nat → Bool) (max : Nat) (ids : List Nat) (n : Nat) (q : Array (ItemIx D))
    (kept : List (ItemIx D)) : heurLoop P vo deny max ids (n + 1) q kept =
      if max ≤ kept.length then .ok kept
      else
        match pop lessMinIx q with
        | none => .ok kept
        | some r =>
          if deny r.1.id then heurLoop P vo deny max ids n r.2 kept
          else
            match (ids[r.1.index]?).bind vo with
            | none => .error .error
            | some cv => heurLoop P vo deny max ids n r.2 (if diverse P vo ids kept r.1 cv then kept ++ [r.1] else kept) := by
  rw [heurLoop]
  split
  · rfl
  · cases pop lessMinIx q with
    | none => rfl
    | some r => rfl

theorem diverse_to (hf : Change f) (hP : Params.Same f G P P') {vo : Nat → Option V} (hvo : ∀ id v, vo id = some v → G v) (ids : List Nat)
    (kept : List (ItemIx D)) (c : ItemIx D) {cv : V} (hc : G cv) :
    diverse P' vo ids (kept.map (ItemIx.to f)) (c.to f) cv = diverse P vo ids kept c cv := by
  unfold diverse
  rw [List.all_map]
  congr 1
  funext x
  simp only [Function.comp]
  rw [show (x.to f).index = x.index from rfl]
  cases hx : (ids[x.index]?).bind vo with
  | none => rfl
  | some w =>
    have hgw : G w := by
      obtain ⟨i, -, hi⟩ := Option.bind_eq_some_iff.1 hx
      exact hvo i w hi
    simp only
    rw [hP.dist cv w hc hgw, show (c.to f).dist = f c.dist from rfl]
    have : ((P.metric.dist cv w).map f).getD Dist.zero = f ((P.metric.dist cv w).getD Dist.zero) := by
      cases P.metric.dist cv w
      · exact hf.zero.symm
      · rfl
    rw [this, hf.lt]

theorem heurLoop_to (hf : Change f) (hP : Params.Same f G P P') {vo : Nat → Option V} (hvo : ∀ id v, vo id = some v → G v) (deny : Nat → Bool) (max : Nat)
    (ids : List Nat) : ∀ (n : Nat) (q : Array (ItemIx D)) (kept : List (ItemIx D)),
    heurLoop P' vo deny max ids n (q.map (ItemIx.to f)) (kept.map (ItemIx.to f)) = (heurLoop P vo deny max ids n q kept).map fun l => l.map (ItemIx.to f)
  | 0, _, _ => rfl
  | n + 1, q, kept => by
    rw [heurLoop_succ, heurLoop_succ, List.length_map, pop_map (lessMinIx_to hf)]
    split
    · rfl
    · cases pop lessMinIx q with
      | none => rfl
      | some r =>
        obtain ⟨c, q⟩ := r
        simp only [Option.map_some]
        rw [show (c.to f).id = c.id from rfl, show (c.to f).index = c.index from rfl]
        split
        · exact heurLoop_to hf hP hvo deny max ids n q kept
        · cases hc : (ids[c.index]?).bind vo with
          | none => rfl
          | some cv =>
            simp only
            have hgc : G cv := by
              obtain ⟨i, -, hi⟩ := Option.bind_eq_some_iff.1 hc
              exact hvo i cv hi
            rw [diverse_to hf hP hvo ids kept c hgc, ← heurLoop_to hf hP hvo deny max ids n]
            split
            · rw [List.map_append]; rfl
            · rfl

theorem foldIx_to (hf : Change f) : ∀ (l : List (Item D × Nat)) (q : Array (ItemIx D)),
    (l.map fun x => (x.1.to f, x.2)).foldl (fun q x => insert lessMinIx q ⟨x.1.id, x.2, x.1.dist⟩) (q.map (ItemIx.to f)) =
      (l.foldl (fun q x => insert lessMinIx q ⟨x.1.id, x.2, x.1.dist⟩) q).map (ItemIx.to f)
  | [], _ => rfl
  | x :: l, q => by
    simp only [List.map_cons, List.foldl_cons]
    rw [← foldIx_to hf l, ← insert_map (lessMinIx_to hf)]
    rfl

theorem foldKept_to (hf : Change f) : ∀ (l : List (ItemIx D)) (q : Array (Item D)),
    (l.map (ItemIx.to f)).foldl (fun q x => insert lessMax q ⟨x.id, x.dist⟩) (q.map (Item.to f)) =
      (l.foldl (fun q x => insert lessMax q ⟨x.id, x.dist⟩) q).map (Item.to f)
  | [], _ => rfl
  | x :: l, q => by
    simp only [List.map_cons, List.foldl_cons]
    rw [← foldKept_to hf l, ← insert_map (lessMax_to hf)]
    rfl

theorem selectNeighbors_to (hf : Change f) (hP : Params.Same f G P P') {vo : Nat → Option V} (hvo : ∀ id v, vo id = some v → G v) (deny : Nat → Bool)
    (max : Nat) (input : Array (Item D)) :
    selectNeighbors P' vo deny max (input.map (Item.to f)) = (selectNeighbors P vo deny max input).map fun q => q.map (Item.to f) := by
  unfold selectNeighbors
  rw [Array.size_map, drain_map (lessMax_to hf)]
  split
  · rfl
  · simp only
    rw [List.any_map, hP.cacheSize]
    have hz : ((drain lessMax input).map (Item.to f)).zipIdx = (drain lessMax input).zipIdx.map fun x => (x.1.to f, x.2) := by
      rw [List.zipIdx_map]
      rfl
    have h1 := foldIx_to hf (drain lessMax input).zipIdx #[]
    rw [Array.map_empty] at h1
    have h2 := heurLoop_to hf hP hvo deny max ((drain lessMax input).map Item.id) (drain lessMax input).length
      ((drain lessMax input).zipIdx.foldl (fun q x => insert lessMinIx q ⟨x.1.id, x.2, x.1.dist⟩) #[]) []
    rw [List.map_nil] at h2
    rw [hz, h1, List.map_map, show (Item.id ∘ Item.to f : Item D → Nat) = Item.id from rfl, List.length_map, h2,
      show ((fun x : Item D' => decide (P.cacheSize ≤ x.id)) ∘ Item.to f) = fun x : Item D => decide (P.cacheSize ≤ x.id) from rfl]
    split
    · rfl
    · cases heurLoop P vo deny max ((drain lessMax input).map Item.id) (drain lessMax input).length
        ((drain lessMax input).zipIdx.foldl (fun q x => insert lessMinIx q ⟨x.1.id, x.2, x.1.dist⟩) #[]) [] with
      | error _ => rfl
      | ok kept =>
        have h3 := foldKept_to hf kept #[]
        rw [Array.map_empty] at h3
        simp only [Except.map, h3]

theorem findBest_to (hf : Change f) (hP : Params.Same f G P P') {s : Index V} (h : Good G s) {sc : Graph.Scheds D} {sc' : Graph.Scheds D'}
    (hs : ∀ l, Sched.Same f (sc l) (sc' l)) {q : V} (hq : G q) (target : Nat) :
    ∀ (level ep : Nat), findBest P' s sc' q target level ep = findBest P s sc q target level ep
  | 0, _ => rfl
  | level + 1, ep => by
    unfold findBest
    rw [Graph.distNodeVec_to (graph_same hP h) hq]
    split
    · rfl
    · cases (s.graph P).distNodeVec ep q with
      | none => rfl
      | some d =>
        simp only [Option.map_some]
        rw [show [(⟨ep, f d⟩ : Item D')] = [(⟨ep, d⟩ : Item D)].map (Item.to f) from rfl,
          Search.searchLayer_to hf ((graph_same hP h).senv hq none) (hs _)]
        cases Search.searchLayer ((s.graph P).senv q none) (sc (level + 1)) [⟨ep, d⟩] 1 (level + 1) with
        | error _ => rfl
        | ok r =>
          simp only [Except.map]
          rw [pop_map (lessMax_to hf)]
          cases pop lessMax r with
          | none => exact findBest_to hf hP h hs hq target level ep
          | some x =>
            obtain ⟨x, r⟩ := x
            simp only [Option.map_some]
            rw [show (x.to f).id = x.id from rfl]
            cases s.get x.id with
            | none => exact findBest_to hf hP h hs hq target level ep
            | some v => exact findBest_to hf hP h hs hq target level _

theorem pickEntry_to (hP : Params.Same f G P P') {s : Index V} (h : Good G s) {q : V} (hq : G q) :
    ∀ (n : Nat) (deny : List Nat) (c : Nat), pickEntry P' s q n deny c = (pickEntry P s q n deny c).map (Item.to f)
  | 0, _, _ => rfl
  | n + 1, deny, c => by
    unfold pickEntry
    cases s.get c with
    | none => exact pickEntry_to hP h hq n _ _
    | some v =>
      simp only
      rw [Graph.distNodeVec_to (graph_same hP h) hq]
      cases (s.graph P).distNodeVec c q <;> rfl

theorem maxConns_to (hP : Params.Same f G P P') (level : Nat) : maxConns P' level = maxConns P level := by
  unfold maxConns
  rw [hP.maxConn, hP.maxConn0]

theorem overfull_to (hf : Change f) (hP : Params.Same f G P P') {vo : Nat → Nat → Option V} (hvo : ∀ n id v, vo n id = some v → G v) (nb : Nat) :
    ∀ (n : Nat) (cs : List Nat) (q : Array (Item D)),
    overfull P' vo nb n cs (q.map (Item.to f)) = (overfull P vo nb n cs q).map fun q => q.map (Item.to f)
  | _, [], _ => rfl
  | n, c :: cs, q => by
    unfold overfull
    rw [distNodes_to hP (hvo n)]
    cases distNodes P (vo n) c nb with
    | error _ => rfl
    | ok d =>
      simp only [Except.map]
      rw [show (⟨c, f d⟩ : Item D') = (⟨c, d⟩ : Item D).to f from rfl, insert_map (lessMax_to hf)]
      exact overfull_to hf hP hvo nb (n + 1) cs _

variable {vo : VecOracle V} (hvo : ∀ l o n id v, vo l o n id = some v → G v)
include hvo

theorem connectNeighbor_to (hf : Change f) (hP : Params.Same f G P P') (x level : Nat) {s : Index V} (h : Good G s) (nb : Nat) :
    connectNeighbor P' vo x level s nb = connectNeighbor P vo x level s nb ∧ Good G (connectNeighbor P vo x level s nb).1 := by
  unfold connectNeighbor
  cases hg : s.get nb with
  | none => exact ⟨rfl, h⟩
  | some v =>
    have hv := h.get hg
    simp only
    split
    · exact ⟨rfl, h⟩
    · split
      · exact ⟨rfl, h⟩
      · generalize hw : (if level > ({ v with committed := false } : Vertex V).level then upgrade { v with committed := false } level
          else { v with committed := false }) = w
        have hwv : G w.vec := by
          rw [← hw]
          split <;> exact hv
        have hsw : Good G (s.put w) := h.put hwv
        cases w.conns[level]? with
        | none => exact ⟨rfl, hsw⟩
        | some cur =>
          simp only [maxConns_to hP]
          split
          · exact ⟨rfl, hsw.put hwv⟩
          · rw [distNodes_to hP (hvo _ _ _)]
            cases distNodes P (vo level (some nb) 0) x nb with
            | error _ => exact ⟨rfl, hsw⟩
            | ok d =>
              simp only [Except.map]
              have h1 : insert lessMax #[] (⟨x, f d⟩ : Item D') = (insert lessMax #[] (⟨x, d⟩ : Item D)).map (Item.to f) := by
                rw [← insert_map (lessMax_to hf)]; simp [Item.to]
              rw [h1, overfull_to hf hP (hvo _ _)]
              cases overfull P (vo level (some nb)) nb 1 cur (insert lessMax #[] ⟨x, d⟩) with
              | error _ => exact ⟨rfl, hsw⟩
              | ok c =>
                simp only [Except.map]
                rw [selectNeighbors_to hf hP (hvo _ _ _)]
                cases selectNeighbors P (vo level (some nb) (cur.length + 1)) (fun _ => false) (maxConns P level) c with
                | error _ => exact ⟨rfl, hsw⟩
                | ok k =>
                  simp only [Except.map]
                  rw [drain_map (lessMax_to hf), List.map_map]
                  exact ⟨rfl, hsw.put hwv⟩

theorem connectAll_to (hf : Change f) (hP : Params.Same f G P P') (x level : Nat) : ∀ (nbs : List Nat) {s : Index V}, Good G s →
    connectAll P' vo x level s nbs = connectAll P vo x level s nbs ∧ Good G (connectAll P vo x level s nbs).1
  | [], _, h => ⟨rfl, h⟩
  | nb :: nbs, s, h => by
    unfold connectAll
    obtain ⟨h1, h2⟩ := connectNeighbor_to hvo hf hP x level h nb
    rw [h1]
    cases hc : connectNeighbor P vo x level s nb with
    | mk s1 o =>
      rw [hc] at h2
      cases o with
      | some e => exact ⟨rfl, h2⟩
      | none => exact connectAll_to hf hP x level nbs h2

theorem doAtLevel_to (hf : Change f) (hP : Params.Same f G P P') {sc : Graph.Scheds D} {sc' : Graph.Scheds D'}
    (hs : ∀ l, Sched.Same f (sc l) (sc' l)) {q : V} (hq : G q) (x : Nat) {s : Index V} (h : Good G s) (ep level : Nat) :
    doAtLevel P' vo sc' q x s ep level = doAtLevel P vo sc q x s ep level ∧ Good G (doAtLevel P vo sc q x s ep level).1 := by
  unfold doAtLevel
  rw [pickEntry_to hP h hq]
  cases pickEntry P s q 4 [] ep with
  | error _ => exact ⟨rfl, h⟩
  | ok e =>
    simp only [Except.map]
    rw [show [e.to f] = [e].map (Item.to f) from rfl, Search.searchLayer_to hf ((graph_same hP h).senv hq none) (hs _), hP.efC, hP.maxConn]
    cases Search.searchLayer ((s.graph P).senv q none) (sc level) [e] P.efC level with
    | error _ => exact ⟨rfl, h⟩
    | ok r =>
      simp only [Except.map]
      rw [selectNeighbors_to hf hP (hvo _ _ _)]
      cases selectNeighbors P (vo level none 0) (fun _ => false) P.maxConn r with
      | error _ => exact ⟨rfl, h⟩
      | ok k =>
        simp only [Except.map]
        rw [drain_map (lessMax_to hf), List.map_map, show (Item.id ∘ Item.to f : Item D → Nat) = Item.id from rfl, show (e.to f).id = e.id from rfl]
        cases hg : s.get x with
        | none => exact ⟨rfl, h⟩
        | some v =>
          simp only
          split
          · exact ⟨rfl, h⟩
          · have hg' : Good G (s.put (setConns v level ((drain lessMax k).map Item.id))) := h.put (v := setConns v level _) (show G v.vec from h.get hg)
            obtain ⟨h1, h2⟩ := connectAll_to hvo hf hP x level ((drain lessMax k).map Item.id) hg'
            rw [h1]
            refine ⟨rfl, ?_⟩
            cases hc : connectAll P vo x level (s.put (setConns v level ((drain lessMax k).map Item.id))) ((drain lessMax k).map Item.id) with
            | mk s1 o =>
              rw [hc] at h2
              cases o with
              | some e => exact h2
              | none => simp only; split <;> exact h2

theorem doLevels_to (hf : Change f) (hP : Params.Same f G P P') {sc : Graph.Scheds D} {sc' : Graph.Scheds D'}
    (hs : ∀ l, Sched.Same f (sc l) (sc' l)) {q : V} (hq : G q) (x : Nat) : ∀ (n : Nat) {s : Index V}, Good G s → ∀ ep,
    doLevels P' vo sc' q x n s ep = doLevels P vo sc q x n s ep ∧ Good G (doLevels P vo sc q x n s ep).1
  | 0, _, h, _ => ⟨rfl, h⟩
  | n + 1, s, h, ep => by
    unfold doLevels
    obtain ⟨h1, h2⟩ := doAtLevel_to hvo hf hP hs hq x h ep n
    rw [h1]
    cases hc : doAtLevel P vo sc q x s ep n with
    | mk s1 o =>
      rw [hc] at h2
      cases o with
      | error e => exact ⟨rfl, h2⟩
      | ok e => exact doLevels_to hf hP hs hq x n h2 e

theorem connectNew_to (hf : Change f) (hP : Params.Same f G P P') {sc : Graph.Scheds D} {sc' : Graph.Scheds D'}
    (hs : ∀ l, Sched.Same f (sc l) (sc' l)) {s : Index V} (h : Good G s) (x : Nat) {q : V} (hq : G q) (level : Nat) :
    connectNew P' vo sc' s x q level = connectNew P vo sc s x q level ∧ Good G (connectNew P vo sc s x q level).1 := by
  unfold connectNew
  rw [findBest_to hf hP h hs hq]
  cases findBest P s sc q level s.maxLayer s.entry with
  | error _ => exact ⟨rfl, h⟩
  | ok ep =>
    simp only
    obtain ⟨h1, h2⟩ := doLevels_to hvo hf hP hs hq x (Nat.min level s.maxLayer + 1) h ep
    rw [h1]
    refine ⟨rfl, ?_⟩
    cases hc : doLevels P vo sc q x (Nat.min level s.maxLayer + 1) s ep with
    | mk s1 o =>
      rw [hc] at h2
      cases o with
      | some e => exact h2
      | none =>
        simp only
        cases hg : s1.get x with
        | none => exact h2
        | some v =>
          have h3 : Good G (s1.put { v with maint := false }) := h2.put (v := { v with maint := false }) (show G v.vec from h2.get hg)
          simp only
          split
          · exact h3.meta rfl rfl
          · exact h3

theorem add_to (hf : Change f) (hP : Params.Same f G P P') {sc : Graph.Scheds D} {sc' : Graph.Scheds D'}
    (hs : ∀ l, Sched.Same f (sc l) (sc' l)) {s : Index V} (h : Good G s) (x : Nat) {vec : V} (hq : P.metric.len vec ≠ 0 → G (P.norm vec)) (level : Nat) :
    add P' vo sc' s x vec level = add P vo sc s x vec level ∧ Good G (add P vo sc s x vec level).1 := by
  unfold add
  rw [hP.len, hP.norm]
  split
  · exact ⟨rfl, h⟩
  · rename_i hl
    have hq := hq hl
    unfold insertNode
    split
    · unfold insertInitial
      rw [hP.cacheSize]
      refine ⟨rfl, ?_⟩
      have h0 : Good G ({ s with entry := x, maxLayer := 0, once := true } : Index V) := h.meta rfl rfl
      exact h0.put (v := ⟨x, 0, [[]], false, P.norm vec, false⟩) hq
    · simp only [hP.cacheSize]
      split
      · exact ⟨rfl, h.meta rfl rfl⟩
      · have h0 : Good G ({ s with once := true } : Index V) := h.meta rfl rfl
        exact connectNew_to hvo hf hP hs (h0.put (v := newNode x (P.norm vec) level) hq) x hq level

omit hvo

/-! ## flushing -/

theorem flushUpToBad_to (hP : Params.Same f G P P') : ∀ {ws : List (Write V)}, (∀ v, .node v ∈ ws → G v.vec) → flushUpToBad P' ws = flushUpToBad P ws
  | [], _ => rfl
  | .node v :: ws, h => by
    unfold flushUpToBad
    rw [hP.jsonOk v.vec (h v (by simp)), flushUpToBad_to hP fun u hu => h u (by simp [hu])]
  | .entry _ :: ws, h => by
    unfold flushUpToBad
    rw [flushUpToBad_to hP fun u hu => h u (by simp [hu])]
  | .count _ :: ws, h => by
    unfold flushUpToBad
    rw [flushUpToBad_to hP fun u hu => h u (by simp [hu])]

theorem flushUpToBad_sub (P : Params V D) : ∀ {ws : List (Write V)} {w : Write V}, w ∈ (flushUpToBad P ws).1 → w ∈ ws
  | [], _, h => h
  | .node v :: ws, w, h => by
    unfold flushUpToBad at h
    split at h
    · rcases List.mem_cons.1 h with rfl | h
      · simp
      · exact List.mem_cons_of_mem _ (flushUpToBad_sub P h)
    · cases h
  | .entry _ :: ws, w, h => by
    unfold flushUpToBad at h
    rcases List.mem_cons.1 h with rfl | h
    · simp
    · exact List.mem_cons_of_mem _ (flushUpToBad_sub P h)
  | .count _ :: ws, w, h => by
    unfold flushUpToBad at h
    rcases List.mem_cons.1 h with rfl | h
    · simp
    · exact List.mem_cons_of_mem _ (flushUpToBad_sub P h)

theorem Good.writes {s : Index V} (h : Good G s) (order : List Nat) (n : Nat) : ∀ v, .node v ∈ s.flushWrites order n → G v.vec := by
  intro v hv
  unfold flushWrites at hv
  rcases List.mem_append.1 hv with hv | hv
  · obtain ⟨u, hu, he⟩ := List.mem_map.1 hv
    cases he
    unfold dirty at hu
    obtain ⟨id, _, hb⟩ := List.mem_filterMap.1 hu
    obtain ⟨u', h1, h2⟩ := Option.bind_eq_some_iff.1 hb
    split at h2
    · cases h2
    · cases h2; exact h.cache id _ h1
  · simp at hv

theorem Good.apply : ∀ {ws : List (Write V)} {s : Index V}, Good G s → (∀ v, .node v ∈ ws → G v.vec) → Good G (ws.foldl applyWrite s)
  | [], _, h, _ => h
  | w :: ws, s, h, hw => by
    simp only [List.foldl_cons]
    refine Good.apply (ws := ws) ?_ fun v hv => hw v (by simp [hv])
    cases w with
    | node v =>
      have hv := hw v (by simp)
      refine ⟨fun id u hu => ?_, fun id u hu => ?_⟩
      · simp only [applyWrite, Tab.get_put] at hu
        split at hu
        · cases hu; exact hv
        · exact h.cache id u hu
      · simp only [applyWrite, Tab.get_put] at hu
        split at hu
        · cases hu; exact hv
        · exact h.kv id u hu
    | entry _ => exact h.meta rfl rfl
    | count _ => exact h.meta rfl rfl

theorem flush_to (hP : Params.Same f G P P') {s : Index V} (h : Good G s) (order : List Nat) (n : Nat) :
    flush P' s order n = flush P s order n ∧ Good G (flush P s order n).1 := by
  unfold flush
  rw [flushUpToBad_to hP (h.writes order n)]
  exact ⟨rfl, h.apply fun v hv => h.writes order n v (flushUpToBad_sub P hv)⟩

end Index
end Fave
