import Verif.Model.Knn
import Verif.Lemmas.SearchOpt
/-! Lemmas about the whole-index searches. -/
set_option linter.unusedSectionVars false
namespace Fave.Graph
open Queue Spec Search
variable {V D : Type} [Dist D]

/-- ids are small enough for the initial visited list -/
def Small (g : Graph V D) : Prop := ∀ id v, g.get id = some v → id < g.visitedSize

theorem epsOk_one {g : Graph V D} (hs : g.Small) (q : V) (allow) {ep : Item D} {v : Vertex V} (h : g.get ep.id = some v) :
    EpsOk (g.senv q allow) [ep] :=
  ⟨by simp, by intro e he; simp at he; subst he; exact hs _ v h⟩

theorem distToNode_get {env : SEnv V D} {id : Nat} {d : D} (h : distToNode env id = some d) : ∃ v, env.get id = some v := by
  unfold distToNode at h
  split at h
  · cases h
  · rename_i v hv; exact ⟨v, hv⟩

/-- a property of items that follows from having a true distance is kept by the descent -/
theorem descend_inv {P : Item D → Prop} {g : Graph V D} {sched : Scheds D} {q : V} (hs : g.Small)
    (hP : ∀ x, distToNode (g.senv q none) x.id = some x.dist → P x) (hPg : ∀ x, P x → ∃ v, g.get x.id = some v)
    (level : Nat) {ep ep' : Item D} (hep : P ep) (h : descend g sched q level ep = .ok ep') : P ep' := by
  induction level generalizing ep with
  | zero => cases h; exact hep
  | succ level ih =>
    unfold descend at h
    split at h
    · cases h
    · rename_i res hres
      obtain ⟨v, hv⟩ := hPg ep hep
      have hinv := (searchLayer_inv hP (epsOk_one hs q none hv) (by simpa using hep) hres).1
      split at h
      · rename_i best _ hpop
        have hb : best ∈ res.toList := (pop_perm lessMax hpop).mem_iff.mpr (by simp)
        exact ih (hinv best hb).1 h
      · exact ih hep h

theorem distNodeVec_some {g : Graph V D} {id : Nat} {q : V} {d : D} (h : g.distNodeVec id q = some d) :
    ∃ v, g.get id = some v ∧ g.metric.dist v.vec q = some d := by
  unfold distNodeVec at h
  split at h
  · cases h
  · rename_i v hv
    split at h
    · cases h
    · split at h
      · cases h
      · exact ⟨v, hv, h⟩

def Sym (m : Metric V D) : Prop := ∀ a b, m.dist a b = m.dist b a

theorem good_entry {g : Graph V D} (hsym : Sym g.metric) {id : Nat} {q : V} {d : D} (allow) (h : g.distNodeVec id q = some d) :
    Good (g.senv q allow) ⟨id, d⟩ := by
  obtain ⟨v, hv, hd⟩ := distNodeVec_some h
  unfold Good distToNode senv
  simp only [hv]
  rw [hsym]; exact hd

/-- structure of a successful base-layer search -/
theorem retained_ok {g : Graph V D} {sched : Scheds D} {q : V} {ef : Int} {allow} {r : Array (Item D)}
    (h : g.retained sched q ef allow = .ok r) :
    ∃ d ep, g.distNodeVec g.entry q = some d ∧ descend g sched q g.maxLayer ⟨g.entry, d⟩ = .ok ep ∧
      searchLayer (g.senv q allow) (sched 0) [ep] ef 0 = .ok r := by
  unfold retained at h
  split at h
  · cases h
  · rename_i d hd
    split at h
    · cases h
    · rename_i ep hep
      exact ⟨d, ep, hd, hep, h⟩

/-- the start of the base-layer search is stored and has its true distance -/
theorem retained_start {g : Graph V D} {sched : Scheds D} {q : V} (hs : g.Small) (hsym : Sym g.metric) {d : D} {ep : Item D}
    (hd : g.distNodeVec g.entry q = some d) (h : descend g sched q g.maxLayer ⟨g.entry, d⟩ = .ok ep) (allow) :
    Good (g.senv q allow) ep ∧ ∃ v, g.get ep.id = some v := by
  have : Good (g.senv q none) ep :=
    descend_inv (P := Good (g.senv q none)) hs (fun _ hx => hx) (fun x hx => distToNode_get hx) g.maxLayer
      (good_entry hsym none hd) h
  exact ⟨this, distToNode_get this⟩

theorem retained_sound {g : Graph V D} {sched : Scheds D} {q : V} {ef : Int} {allow} {r : Array (Item D)}
    (hs : g.Small) (hsym : Sym g.metric) (h : g.retained sched q ef allow = .ok r) :
    (∀ x ∈ r.toList, Good (g.senv q allow) x ∧ Eligible (g.senv q allow) 0 x.id) ∧ (r.toList.map Item.id).Nodup := by
  obtain ⟨d, ep, hd, hep, hr⟩ := retained_ok h
  obtain ⟨hg, v, hv⟩ := retained_start hs hsym hd hep allow
  have := searchLayer_inv (P := Good (g.senv q allow)) (fun _ hx => hx) (epsOk_one hs q allow hv) (by simpa using hg) hr
  refine ⟨fun x hx => ?_, this.2⟩
  exact ⟨(this.1 x hx).1, (viable_iff _ _ _).mp (this.1 x hx).2⟩

theorem retained_heap [LawfulDist D] {g : Graph V D} {sched : Scheds D} {q : V} {ef : Int} {allow} {r : Array (Item D)}
    (hs : g.Small) (hsym : Sym g.metric) (h : g.retained sched q ef allow = .ok r) : Heap lessMax r := by
  obtain ⟨d, ep, hd, hep, hr⟩ := retained_ok h
  obtain ⟨hg, v, hv⟩ := retained_start hs hsym hd hep allow
  exact (searchLayer_opt (epsOk_one hs q allow hv) (by simpa using hg) hr).1

/-! ### totality -/

structure Ok (g : Graph V D) : Prop where
  keys : ∀ id v, g.get id = some v → id ∈ g.keys
  small : g.Small
  cache : ∀ id v, g.get id = some v → id < g.cacheSize
  conns : ∀ id v, g.get id = some v → ∀ l, l ≤ v.level → ∃ links, v.conns[l]? = some links

theorem Ok.graphOk {g : Graph V D} (h : g.Ok) (q : V) (allow) : GraphOk (g.senv q allow) := ⟨h.conns, h.cache⟩
theorem Ok.keysOk {g : Graph V D} (h : g.Ok) (q : V) (allow) : KeysOk (g.senv q allow) := h.keys

theorem descend_total {g : Graph V D} {sched : Scheds D} {q : V} (hg : g.Ok)
    (level : Nat) {ep : Item D} {d : D} (hep : distToNode (g.senv q none) ep.id = some d) :
    ∃ ep', descend g sched q level ep = .ok ep' := by
  induction level generalizing ep d with
  | zero => exact ⟨ep, rfl⟩
  | succ level ih =>
    obtain ⟨v, hv⟩ := distToNode_get hep
    obtain ⟨res, hres⟩ := searchLayer_total (sched := sched (level + 1)) (ef := 1) (level := level + 1) (hg.graphOk q none) (hg.keysOk q none)
      (epsOk_one hg.small q none hv) (by intro e he; simp at he; subst he; exact ⟨d, hep⟩)
    unfold descend
    rw [hres]
    simp only
    have hinv := (searchLayer_inv (P := fun x => ∃ d, distToNode (g.senv q none) x.id = some d) (fun x hx => ⟨_, hx⟩)
      (epsOk_one hg.small q none hv) (by intro e he; simp at he; subst he; exact ⟨d, hep⟩) hres).1
    cases hp : pop lessMax res with
    | none => exact ih hep
    | some b =>
      obtain ⟨best, q'⟩ := b
      simp only
      obtain ⟨d', hd'⟩ := (hinv best ((pop_perm lessMax hp).mem_iff.mpr (by simp))).1
      exact ih hd'

theorem retained_total {g : Graph V D} {sched : Scheds D} {q : V} {ef : Int} {allow} (hg : g.Ok) (hsym : Sym g.metric) {d : D}
    (hd : g.distNodeVec g.entry q = some d) : ∃ r, g.retained sched q ef allow = .ok r := by
  have hgood := good_entry hsym none hd
  obtain ⟨ep, hep⟩ := descend_total (sched := sched) hg g.maxLayer hgood
  unfold retained
  rw [hd]
  simp only
  rw [hep]
  simp only
  obtain ⟨hgo, v, hv⟩ := retained_start hg.small hsym hd hep allow
  exact searchLayer_total (hg.graphOk q allow) (hg.keysOk q allow)
    (epsOk_one hg.small q allow hv) (by intro e he; simp at he; subst he; exact ⟨_, hgo⟩)

theorem descend_no_fuel {g : Graph V D} {sched : Scheds D} {q : V} (hk : ∀ id v, g.get id = some v → id ∈ g.keys)
    (level : Nat) (ep : Item D) : descend g sched q level ep ≠ .error .fuel := by
  induction level generalizing ep with
  | zero => simp [descend]
  | succ level ih =>
    unfold descend
    split
    · rename_i e he
      intro hc; cases hc
      exact searchLayer_no_fuel (env := g.senv q none) hk he
    · split
      · exact ih _
      · exact ih _

/-! ### presentation of hits -/

theorem keepInRange_sorted [LawfulDist D] (max : D) (l : List (Item D))
    (hs : l.Pairwise (fun a b => Dist.lt b.dist a.dist = false)) :
    keepInRange max l = l.filter (fun x => !Dist.lt x.dist Dist.zero && !Dist.lt max x.dist) := by
  induction l with
  | nil => rfl
  | cons x l ih =>
    rw [List.pairwise_cons] at hs
    unfold keepInRange
    by_cases h1 : Dist.lt x.dist Dist.zero = true
    · simp [h1, ih hs.2]
    · by_cases h2 : Dist.lt max x.dist = true
      · simp only [h1, h2, if_true, if_false, Bool.false_eq_true]
        symm
        rw [List.filter_eq_nil_iff]
        intro y hy
        rcases List.mem_cons.mp hy with rfl | hy
        · simp [h2]
        · have := hs.1 y hy
          have : Dist.lt max y.dist = true := by
            rcases LawfulDist.cotrans max y.dist x.dist h2 with h | h
            · exact h
            · rw [this] at h; cases h
          simp [this]
      · simp [h1, h2, ih hs.2]

theorem keepInRange_sublist (max : D) (l : List (Item D)) : (keepInRange max l).Sublist l := by
  induction l with
  | nil => exact List.Sublist.refl _
  | cons x l ih =>
    unfold keepInRange
    split
    · exact ih.cons x
    · split
      · exact List.nil_sublist _
      · exact ih.cons_cons x

theorem keepInRange_mem (max : D) (l : List (Item D)) {x : Item D} (h : x ∈ keepInRange max l) :
    Dist.lt x.dist Dist.zero = false ∧ Dist.lt max x.dist = false := by
  induction l with
  | nil => simp [keepInRange] at h
  | cons y l ih =>
    unfold keepInRange at h
    split at h
    · exact ih h
    · rename_i h1
      split at h
      · simp at h
      · rename_i h2
        rcases List.mem_cons.mp h with rfl | h
        · exact ⟨by simpa using h1, by simpa using h2⟩
        · exact ih h

end Fave.Graph
