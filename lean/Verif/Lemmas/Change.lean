import Verif.Model.Knn
/-!
# Changing the type of distances: queues and searches

If the distances of one index are those of another under a map that keeps comparisons, both do the same.
-/
namespace Fave

/-- a map of distances that keeps comparisons -/
structure Change {D D' : Type} [Dist D] [Dist D'] (f : D → D') : Prop where
  lt : ∀ a b, Dist.lt (f a) (f b) = Dist.lt a b
  zero : f Dist.zero = Dist.zero
  maxVal : f Dist.maxVal = Dist.maxVal

variable {D D' : Type} [Dist D] [Dist D'] {f : D → D'}

/-- the same item with the other distance -/
def Item.to (f : D → D') (x : Item D) : Item D' := ⟨x.id, f x.dist⟩

/-- the same item with the other distance -/
def ItemIx.to (f : D → D') (x : ItemIx D) : ItemIx D' := ⟨x.id, x.index, f x.dist⟩

namespace Queue
section
variable {α β : Type} {less : α → α → Bool} {less' : β → β → Bool} {g : α → β} (hg : ∀ x y, less' (g x) (g y) = less x y)
include hg

theorem lessAt_map (a : Array α) (i j : Nat) : lessAt less' (a.map g) i j = lessAt less a i j := by
  unfold lessAt
  rw [Array.getElem?_map, Array.getElem?_map]
  cases a[i]? <;> cases a[j]? <;> simp [hg]

theorem smallest_map (a : Array α) (i : Nat) : smallest less' (a.map g) i = smallest less a i := by
  unfold smallest
  simp only [Array.size_map, lessAt_map hg]

omit hg in
theorem swap_map (a : Array α) (i j : Nat) : (a.map g).swapIfInBounds i j = (a.swapIfInBounds i j).map g := by
  apply Array.ext_getElem?
  intro k
  simp only [Array.getElem?_map, Array.swapIfInBounds, Array.size_map]
  by_cases hi : i < a.size
  · by_cases hj : j < a.size
    · simp only [hi, hj, dif_pos]
      rw [Array.getElem?_swap, Array.getElem?_swap]
      by_cases h1 : j = k
      · simp [h1]
      · by_cases h2 : i = k
        · simp [h1, h2]
        · simp [h1, h2]
    · simp [hi, hj]
  · simp [hi]

theorem heapify_map : ∀ (n : Nat) (a : Array α) (i : Nat), heapify less' n (a.map g) i = (heapify less n a i).map g
  | 0, _, _ => rfl
  | n + 1, a, i => by
    unfold heapify
    simp only [smallest_map hg, swap_map]
    split
    · rw [heapify_map n]
    · rfl

theorem siftUp_map : ∀ (n : Nat) (a : Array α) (i : Nat), siftUp less' n (a.map g) i = (siftUp less n a i).map g
  | 0, _, _ => rfl
  | n + 1, a, i => by
    unfold siftUp
    simp only [lessAt_map hg, swap_map]
    split
    · rw [siftUp_map n]
    · rfl

theorem insert_map (q : Array α) (x : α) : insert less' (q.map g) (g x) = (insert less q x).map g := by
  unfold insert
  rw [Array.size_map, ← siftUp_map hg, Array.map_push]

theorem pop_map (q : Array α) : pop less' (q.map g) = (pop less q).map fun r => (g r.1, r.2.map g) := by
  unfold pop
  rw [Array.getElem?_map, Array.back?_map]
  cases h0 : q[0]? with
  | none => simp
  | some x =>
    cases hb : q.back? with
    | none => simp
    | some y =>
      simp only [Option.map_some]
      have : ((q.map g).setIfInBounds 0 (g y)).pop = ((q.setIfInBounds 0 y).pop).map g := by
        rw [Array.map_pop, Array.map_setIfInBounds]
      rw [this, heapify_map hg, Array.size_map]

theorem drainAux_map : ∀ (n : Nat) (q : Array α), drainAux less' n (q.map g) = (drainAux less n q).map g
  | 0, _ => rfl
  | n + 1, q => by
    unfold drainAux
    rw [pop_map hg]
    cases pop less q with
    | none => rfl
    | some r => simp only [Option.map_some, List.map_cons, drainAux_map n]

theorem drain_map (q : Array α) : drain less' (q.map g) = (drain less q).map g := by
  unfold drain
  rw [Array.size_map, drainAux_map hg]

end

theorem top_map {α β : Type} {g : α → β} (q : Array α) : top (q.map g) = (top q).map g := by unfold top; rw [Array.getElem?_map]

theorem lessMin_to (hf : Change f) (x y : Item D) : lessMin (x.to f) (y.to f) = lessMin x y := hf.lt _ _
theorem lessMax_to (hf : Change f) (x y : Item D) : lessMax (x.to f) (y.to f) = lessMax x y := hf.lt _ _
theorem lessMinIx_to (hf : Change f) (x y : ItemIx D) : lessMinIx (x.to f) (y.to f) = lessMinIx x y := hf.lt _ _

end Queue

/-- the same schedule -/
def Sched.Same (f : D → D') (s : Sched D) (s' : Sched D') : Prop := ∀ n l, s'.order n (l.map (Item.to f)) = (s.order n l).map (Item.to f)

/-- searches read the same -/
structure SEnv.Same {V : Type} (f : D → D') (e : SEnv V D) (e' : SEnv V D') : Prop where
  get : e'.get = e.get
  keys : e'.keys = e.keys
  tomb : e'.tomb = e.tomb
  allow : e'.allow = e.allow
  cacheSize : e'.cacheSize = e.cacheSize
  visitedSize : e'.visitedSize = e.visitedSize
  qdist : ∀ id v, e.get id = some v → e'.qdist v.vec = (e.qdist v.vec).map f

namespace Search
open Queue
variable {V : Type} {e : SEnv V D} {e' : SEnv V D'}

/-- the same state -/
def St.to (f : D → D') (st : St D) : St D' := ⟨st.cands.map (Item.to f), st.results.map (Item.to f), st.visited, f st.worst, st.n⟩

theorem distToNode_to (h : SEnv.Same f e e') (id : Nat) : distToNode e' id = (distToNode e id).map f := by
  unfold distToNode
  rw [h.get]
  cases hg : e.get id with
  | none => rfl
  | some v => exact h.qdist id v hg

theorem viable_to (h : SEnv.Same f e e') : viable e' = viable e := by
  funext level id
  unfold viable
  rw [h.allow, h.tomb]

theorem enter_to (hf : Change f) (h : SEnv.Same f e e') (level : Nat) (c r : Array (Item D)) (x : Item D) :
    enter e' level (c.map (Item.to f), r.map (Item.to f)) (x.to f) =
      ((enter e level (c, r) x).1.map (Item.to f), (enter e level (c, r) x).2.map (Item.to f)) := by
  unfold enter
  simp only [viable_to h, insert_map (lessMin_to hf), insert_map (lessMax_to hf)]
  show (if viable e level x.id = true then _ else _) = _
  cases viable e level x.id <;> rfl

theorem enterAll_to (hf : Change f) (h : SEnv.Same f e e') (level : Nat) : ∀ (eps : List (Item D)) (c r : Array (Item D)),
    (eps.map (Item.to f)).foldl (enter e' level) (c.map (Item.to f), r.map (Item.to f)) =
      ((eps.foldl (enter e level) (c, r)).1.map (Item.to f), (eps.foldl (enter e level) (c, r)).2.map (Item.to f))
  | [], _, _ => rfl
  | x :: eps, c, r => by
    simp only [List.map_cons, List.foldl_cons]
    rw [enter_to hf h, enterAll_to hf h level eps]

theorem worst0_to (hf : Change f) (h : SEnv.Same f e e') (r : Array (Item D)) : worst0 e' (r.map (Item.to f)) = (worst0 e r).map f := by
  unfold worst0
  rw [top_map]
  cases top r with
  | none => simp only [Option.map_none, Except.map, hf.maxVal]
  | some t =>
    simp only [Option.map_some]
    rw [show (t.to f).id = t.id from rfl, distToNode_to h]
    cases distToNode e t.id <;> rfl

theorem distances_to (h : SEnv.Same f e e') (ids : List Nat) : distances e' ids = (distances e ids).map (Item.to f) := by
  unfold distances
  rw [List.map_filterMap]
  congr 1
  funext id
  rw [distToNode_to h]
  cases distToNode e id <;> rfl

/-- the results cut to the width -/
def trim (ef : Int) (r : Array (Item D)) : Array (Item D) :=
  if (r.size : Int) > ef then
    match pop lessMax r with
    | some (_, r') => r'
    | none => r
  else r

/-- the distance of the farthest result -/
def worstOf (w : D) (r : Array (Item D)) : D :=
  match top r with
  | some x => x.dist
  | none => w

/-- one neighbour, with names for the parts -/
def considered (env : SEnv V D) (ef : Int) (level : Nat) (st : St D) (x : Item D) (cands results : Array (Item D)) : Except Err (St D) :=
  if !viable env level x.id then .ok { st with cands := cands }
  else
    match top cands with
    | none => .error .panic
    | some t => if env.cacheSize ≤ t.id then .error .panic
      else .ok { st with cands := cands, results := trim ef results, worst := worstOf st.worst (trim ef results) }

theorem consider_eq (env : SEnv V D) (ef : Int) (level : Nat) (st : St D) (x : Item D) : consider env ef level st x =
    if Dist.lt x.dist st.worst || decide ((st.results.size : Int) < ef) then
      considered env ef level st x (insert lessMin st.cands x) (insert lessMax st.results x)
    else .ok st := rfl

theorem trim_to (hf : Change f) (ef : Int) (r : Array (Item D)) : trim ef (r.map (Item.to f)) = (trim ef r).map (Item.to f) := by
  unfold trim
  simp only [Array.size_map, pop_map (lessMax_to hf)]
  split
  · cases pop lessMax r <;> rfl
  · rfl

theorem worstOf_to (w : D) (r : Array (Item D)) : worstOf (f w) (r.map (Item.to f)) = f (worstOf w r) := by
  unfold worstOf
  rw [top_map]
  cases top r <;> rfl

theorem considered_to (hf : Change f) (h : SEnv.Same f e e') (ef : Int) (level : Nat) (st : St D) (x : Item D) (c r : Array (Item D)) :
    considered e' ef level (st.to f) (x.to f) (c.map (Item.to f)) (r.map (Item.to f)) = (considered e ef level st x c r).map (St.to f) := by
  unfold considered
  rw [viable_to h, show (x.to f).id = x.id from rfl, top_map, h.cacheSize, trim_to hf, show (st.to f).worst = f st.worst from rfl, worstOf_to]
  split
  · rfl
  · cases top c with
    | none => rfl
    | some t =>
      simp only [Option.map_some]
      rw [show (t.to f).id = t.id from rfl]
      split <;> rfl

theorem consider_to (hf : Change f) (h : SEnv.Same f e e') (ef : Int) (level : Nat) (st : St D) (x : Item D) :
    consider e' ef level (st.to f) (x.to f) = (consider e ef level st x).map (St.to f) := by
  rw [consider_eq, consider_eq, show (x.to f).dist = f x.dist from rfl, show (st.to f).worst = f st.worst from rfl, hf.lt,
    show (st.to f).results = st.results.map (Item.to f) from rfl, show (st.to f).cands = st.cands.map (Item.to f) from rfl,
    insert_map (lessMin_to hf), insert_map (lessMax_to hf), considered_to hf h, Array.size_map]
  split <;> rfl

theorem considerAll_to (hf : Change f) (h : SEnv.Same f e e') (ef : Int) (level : Nat) : ∀ (l : List (Item D)) (st : St D),
    considerAll e' ef level (st.to f) (l.map (Item.to f)) = (considerAll e ef level st l).map (St.to f)
  | [], _ => rfl
  | x :: l, st => by
    unfold considerAll
    simp only [List.map_cons]
    rw [consider_to hf h]
    cases consider e ef level st x with
    | error _ => rfl
    | ok st => exact considerAll_to hf h ef level l st

theorem expand_to (hf : Change f) (h : SEnv.Same f e e') {s : Sched D} {s' : Sched D'} (hs : Sched.Same f s s') (ef : Int) (level : Nat) (st : St D)
    (links : List Nat) : expand e' s' ef level (st.to f) links = (expand e s ef level st links).map (St.to f) := by
  unfold expand
  simp only
  rw [show (st.to f).visited = st.visited from rfl, show (st.to f).n = st.n from rfl, distances_to h, hs, ← considerAll_to hf h]
  rfl

theorem loop_to (hf : Change f) (h : SEnv.Same f e e') {s : Sched D} {s' : Sched D'} (hs : Sched.Same f s s') (ef : Int) (level : Nat) :
    ∀ (n : Nat) (st : St D), loop e' s' ef level n (st.to f) = (loop e s ef level n st).map (St.to f)
  | 0, _ => rfl
  | n + 1, st => by
    unfold loop
    rw [show (st.to f).cands = st.cands.map (Item.to f) from rfl, pop_map (lessMin_to hf)]
    cases pop lessMin st.cands with
    | none => rfl
    | some r =>
      obtain ⟨c, cands⟩ := r
      simp only [Option.map_some]
      rw [show (st.to f).worst = f st.worst from rfl, show (c.to f).dist = f c.dist from rfl, hf.lt,
        show (st.to f).results.size = st.results.size from Array.size_map, show (c.to f).id = c.id from rfl, h.get]
      split
      · rfl
      · have hst : (⟨cands.map (Item.to f), (st.to f).results, (st.to f).visited, f st.worst, (st.to f).n⟩ : St D') =
          (⟨cands, st.results, st.visited, st.worst, st.n⟩ : St D).to f := rfl
        rw [hst]
        cases e.get c.id with
        | none => exact loop_to hf h hs ef level n _
        | some v =>
          simp only
          split
          · exact loop_to hf h hs ef level n _
          · cases v.conns[level]? with
            | none => rfl
            | some links =>
              simp only
              rw [expand_to hf h hs]
              cases expand e s ef level ⟨cands, st.results, st.visited, st.worst, st.n⟩ links with
              | error _ => rfl
              | ok st' => exact loop_to hf h hs ef level n _

theorem start_to (hf : Change f) (h : SEnv.Same f e e') (eps : List (Item D)) (level : Nat) :
    start e' (eps.map (Item.to f)) level = (start e eps level).map (St.to f) := by
  unfold start
  simp only
  have := enterAll_to hf h level eps #[] #[]
  simp only [Array.map_empty] at this
  rw [this]
  simp only
  rw [worst0_to hf h]
  cases worst0 e (eps.foldl (enter e level) (#[], #[])).2 with
  | error _ => rfl
  | ok w => simp only [Except.map, h.visitedSize, St.to, List.map_map]; rfl

theorem searchLayer_to (hf : Change f) (h : SEnv.Same f e e') {s : Sched D} {s' : Sched D'} (hs : Sched.Same f s s') (eps : List (Item D)) (ef : Int)
    (level : Nat) : searchLayer e' s' (eps.map (Item.to f)) ef level = (searchLayer e s eps ef level).map fun q => q.map (Item.to f) := by
  unfold searchLayer
  rw [start_to hf h]
  cases start e eps level with
  | error _ => rfl
  | ok st =>
    simp only [Except.map, List.length_map, h.keys]
    rw [loop_to hf h hs]
    cases loop e s ef level (eps.length + e.keys.length + 1) st <;> rfl

end Search

/-- the graph with the other distances; `G` holds of the stored vectors and of the query -/
structure Graph.Same {V : Type} (f : D → D') (G : V → Prop) (g : Graph V D) (g' : Graph V D') : Prop where
  get : g'.get = g.get
  keys : g'.keys = g.keys
  tomb : g'.tomb = g.tomb
  norm : g'.norm = g.norm
  len : g'.metric.len = g.metric.len
  cacheSize : g'.cacheSize = g.cacheSize
  visitedSize : g'.visitedSize = g.visitedSize
  entry : g'.entry = g.entry
  maxLayer : g'.maxLayer = g.maxLayer
  good : ∀ id v, g.get id = some v → G v.vec
  dist : ∀ a b, G a → G b → g'.metric.dist a b = (g.metric.dist a b).map f

namespace Graph
open Queue
variable {V : Type} {G : V → Prop} {g : Graph V D} {g' : Graph V D'}

theorem Same.senv (h : Graph.Same f G g g') {q : V} (hq : G q) (allow : Option (Nat → Bool)) : SEnv.Same f (g.senv q allow) (g'.senv q allow) where
  get := h.get
  keys := h.keys
  tomb := h.tomb
  allow := rfl
  cacheSize := h.cacheSize
  visitedSize := h.visitedSize
  qdist id v hv := h.dist q v.vec hq (h.good id v hv)

theorem distNodeVec_to (h : Graph.Same f G g g') {q : V} (hq : G q) (id : Nat) : g'.distNodeVec id q = (g.distNodeVec id q).map f := by
  unfold distNodeVec
  rw [h.get]
  cases hg : g.get id with
  | none => rfl
  | some v =>
    simp only [h.len]
    split
    · rfl
    · split
      · rfl
      · exact h.dist _ _ (h.good id v hg) hq

theorem descend_to (hf : Change f) (h : Graph.Same f G g g') {s : Scheds D} {s' : Scheds D'} (hs : ∀ l, Sched.Same f (s l) (s' l)) {q : V} (hq : G q) :
    ∀ (level : Nat) (ep : Item D), descend g' s' q level (ep.to f) = (descend g s q level ep).map (Item.to f)
  | 0, _ => rfl
  | level + 1, ep => by
    unfold descend
    rw [show [ep.to f] = [ep].map (Item.to f) from rfl, Search.searchLayer_to hf (h.senv hq none) (hs _)]
    cases Search.searchLayer (g.senv q none) (s (level + 1)) [ep] 1 (level + 1) with
    | error _ => rfl
    | ok r =>
      simp only [Except.map]
      rw [pop_map (lessMax_to hf)]
      cases pop lessMax r with
      | none => exact descend_to hf h hs hq level ep
      | some r => exact descend_to hf h hs hq level r.1

theorem retained_to (hf : Change f) (h : Graph.Same f G g g') {s : Scheds D} {s' : Scheds D'} (hs : ∀ l, Sched.Same f (s l) (s' l)) {q : V} (hq : G q)
    (ef : Int) (allow : Option (Nat → Bool)) : retained g' s' q ef allow = (retained g s q ef allow).map fun q => q.map (Item.to f) := by
  unfold retained
  rw [h.entry, distNodeVec_to h hq]
  cases g.distNodeVec g.entry q with
  | none => rfl
  | some d =>
    simp only [Option.map_some]
    rw [h.maxLayer, show (⟨g.entry, f d⟩ : Item D') = (⟨g.entry, d⟩ : Item D).to f from rfl, descend_to hf h hs hq]
    cases descend g s q g.maxLayer ⟨g.entry, d⟩ with
    | error _ => rfl
    | ok ep => exact Search.searchLayer_to hf (h.senv hq allow) (hs 0) [ep] ef 0

theorem keepInRange_to (hf : Change f) (max : D) : ∀ l : List (Item D), keepInRange (f max) (l.map (Item.to f)) = (keepInRange max l).map (Item.to f)
  | [] => rfl
  | x :: l => by
    unfold keepInRange
    simp only [List.map_cons]
    rw [show (x.to f).dist = f x.dist from rfl, ← hf.zero, hf.lt, hf.lt]
    split
    · exact keepInRange_to hf max l
    · split
      · rfl
      · rw [keepInRange_to hf max l]; rfl

theorem knnMaxDist_to (hf : Change f) (h : Graph.Same f G g g') {s : Scheds D} {s' : Scheds D'} (hs : ∀ l, Sched.Same f (s l) (s' l)) {q : V}
    (hq : G (g.norm q)) (max : D) (ef : Int) (allow : Option (Nat → Bool)) :
    knnMaxDist g' s' q (f max) ef allow = (knnMaxDist g s q max ef allow).map fun r => (r.1, r.2.map f) := by
  unfold knnMaxDist
  rw [h.norm, retained_to hf h hs hq]
  cases g.retained s (g.norm q) ef allow with
  | error _ => rfl
  | ok r =>
    simp only [Except.map]
    rw [drain_map (lessMax_to hf), ← List.map_reverse, keepInRange_to hf]
    simp only [List.length_map, List.map_map, List.map_append, List.map_replicate, hf.zero]
    rfl

end Graph
end Fave
