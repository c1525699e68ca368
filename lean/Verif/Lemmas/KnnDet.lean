import Verif.Lemmas.SearchDet
import Verif.Lemmas.Insert
/-!
# Without ties whole searches and additions do not depend on the order in which goroutines finish
-/
set_option linter.unusedSectionVars false
namespace Fave.Queue
variable {α : Type}

theorem pop_head (less : α → α → Bool) (q : Array α) : (pop less q).map Prod.fst = (drain less q).head? := by
  unfold drain
  cases hs : q.size with
  | zero =>
    unfold drainAux
    cases hp : pop less q with
    | none => rfl
    | some p => have := pop_size less (x := p.1) (q' := p.2) hp; omega
  | succ n =>
    unfold drainAux
    cases hp : pop less q with
    | none => rfl
    | some p => rfl

theorem drain_length (less : α → α → Bool) (q : Array α) : (drain less q).length = q.size := by
  simpa using (drain_perm less q).length_eq

end Fave.Queue

namespace Fave.Graph
open Queue Spec Search
variable {V D : Type} [Dist D] [LawfulDist D]

/-- what the searches of a graph need -/
structure Calm (g : Graph V D) (q : V) : Prop where
  ties : TieFree (g.senv q none)
  cache : ∀ id v, g.get id = some v → id < g.cacheSize
  small : g.Small
  sym : Sym g.metric

theorem Calm.layer {g : Graph V D} {q : V} (h : g.Calm q) (allow : Option (Nat → Bool)) {ef : Int} (hef : 1 ≤ ef) (level : Nat) (σ τ : Sched D) {ep : Item D}
    (hg : Good (g.senv q none) ep) :
    (searchLayer (g.senv q allow) σ [ep] ef level).map (drain lessMax) = (searchLayer (g.senv q allow) τ [ep] ef level).map (drain lessMax) := by
  obtain ⟨v, hv⟩ := distToNode_get hg
  exact searchLayer_det (env := g.senv q allow) h.ties h.cache hef σ τ (epsOk_one h.small q allow hv)
    (by intro e he; rw [List.mem_singleton.mp he]; exact hg) (by simpa using hef)

theorem map_drain_cases {a c : Except Err (Array (Item D))} (h : a.map (drain lessMax) = c.map (drain lessMax)) :
    (∃ e, a = .error e ∧ c = .error e) ∨ ∃ r r', a = .ok r ∧ c = .ok r' ∧ drain lessMax r = drain lessMax r' := by
  cases a <;> cases c <;> simp [Except.map] at h
  · subst h; exact .inl ⟨_, rfl, rfl⟩
  · exact .inr ⟨_, _, rfl, rfl, h⟩

theorem layer_good {g : Graph V D} {q : V} (h : g.Calm q) {allow : Option (Nat → Bool)} {ef : Int} {level : Nat} {σ : Sched D} {ep : Item D}
    (hg : Good (g.senv q none) ep) {r : Array (Item D)} (hr : searchLayer (g.senv q allow) σ [ep] ef level = .ok r) :
    ∀ x ∈ drain lessMax r, Good (g.senv q none) x := by
  obtain ⟨v, hv⟩ := distToNode_get hg
  have := (searchLayer_inv (env := g.senv q allow) (P := Good (g.senv q none)) (fun _ hx => hx) (epsOk_one h.small q allow hv)
    (by intro e he; rw [List.mem_singleton.mp he]; exact hg) hr).1
  exact fun x hx => (this x ((drain_perm _ _).mem_iff.mp hx)).1

theorem descend_det {g : Graph V D} {q : V} (h : g.Calm q) (σ τ : Scheds D) (level : Nat) {ep : Item D} (hg : Good (g.senv q none) ep) :
    descend g σ q level ep = descend g τ q level ep := by
  induction level generalizing ep with
  | zero => rfl
  | succ level ih =>
    unfold descend
    rcases map_drain_cases (h.layer none (ef := 1) (by omega) (level + 1) (σ (level + 1)) (τ (level + 1)) hg) with ⟨e, h1, h2⟩ | ⟨r, r', h1, h2, hd⟩
    · simp only [h1, h2]
    · simp only [h1, h2]
      have hp := pop_head lessMax r
      have hp' := pop_head lessMax r'
      rw [← hd, ← hp] at hp'
      have hgr := layer_good h hg h1
      cases e1 : pop lessMax r with
      | none =>
        cases e2 : pop lessMax r' with
        | none => exact ih hg
        | some p => rw [e1, e2] at hp'; cases hp'
      | some p =>
        cases e2 : pop lessMax r' with
        | none => rw [e1, e2] at hp'; cases hp'
        | some p' =>
          rw [e1, e2] at hp'
          have e : p'.1 = p.1 := by simpa using hp'
          obtain ⟨x, y⟩ := p
          obtain ⟨x', y'⟩ := p'
          simp only at e ⊢
          subst e
          refine ih (hgr _ ((drain_perm _ _).mem_iff.mpr ((pop_perm lessMax e1).mem_iff.mpr (List.mem_cons_self))))

theorem retained_det {g : Graph V D} {q : V} (h : g.Calm q) (σ τ : Scheds D) {ef : Int} (hef : 1 ≤ ef) (allow : Option (Nat → Bool)) :
    (g.retained σ q ef allow).map (drain lessMax) = (g.retained τ q ef allow).map (drain lessMax) := by
  unfold retained
  cases hd : g.distNodeVec g.entry q with
  | none => rfl
  | some d =>
    have hg := good_entry h.sym none hd
    simp only [descend_det h σ τ g.maxLayer hg]
    cases hdd : descend g τ q g.maxLayer ⟨g.entry, d⟩ with
    | error e => rfl
    | ok ep =>
      refine h.layer allow hef 0 _ _ ?_
      exact descend_inv (P := Good (g.senv q none)) h.small (fun _ hx => hx) (fun x hx => distToNode_get hx) g.maxLayer hg hdd

theorem knnMaxDist_det {g : Graph V D} {q : V} (h : g.Calm (g.norm q)) (σ τ : Scheds D) (max : D) {ef : Int} (hef : 1 ≤ ef) (allow : Option (Nat → Bool)) :
    g.knnMaxDist σ q max ef allow = g.knnMaxDist τ q max ef allow := by
  unfold knnMaxDist
  rcases map_drain_cases (retained_det h σ τ hef allow) with ⟨e, h1, h2⟩ | ⟨r, r', h1, h2, hd⟩
  · simp only [h1, h2]
  · simp only [h1, h2, hd]

theorem firstUsable_mem {g : Graph V D} {l : List (Item D)} {x : Item D} (h : firstUsable g l = some x) : x ∈ l := by
  induction l with
  | nil => cases h
  | cons c cs ih =>
    unfold firstUsable at h
    split at h
    · exact List.mem_cons_of_mem _ (ih h)
    · split at h
      · exact List.mem_cons_of_mem _ (ih h)
      · cases h; exact List.mem_cons_self

theorem descendK_det {g : Graph V D} {q : V} (h : g.Calm q) (σ τ : Scheds D) (level : Nat) {ep : Item D} (hg : Good (g.senv q none) ep) :
    descendK g σ q level ep = descendK g τ q level ep ∧ ∀ ep', descendK g σ q level ep = .ok ep' → Good (g.senv q none) ep' := by
  induction level generalizing ep with
  | zero => exact ⟨rfl, fun ep' he => by cases he; exact hg⟩
  | succ level ih =>
    unfold descendK
    rcases map_drain_cases (h.layer none (ef := 1) (by omega) (level + 1) (σ (level + 1)) (τ (level + 1)) hg) with ⟨e, h1, h2⟩ | ⟨r, r', h1, h2, hd⟩
    · simp only [h1, h2]
      exact ⟨trivial, fun ep' he => by cases he⟩
    · simp only [h1, h2, hd]
      have hgr := layer_good h hg h2
      cases e1 : firstUsable g (drain lessMax r') with
      | none => exact ih hg
      | some x => exact ih (hgr x (firstUsable_mem e1))

theorem knnSearch_det {g : Graph V D} {q : V} (h : g.Calm q) (isEmpty : Bool) (σ τ : Scheds D) (k : Int) {ef : Int} (hef : 1 ≤ ef) (allow : Option (Nat → Bool)) :
    g.knnSearch isEmpty σ q k ef allow = g.knnSearch isEmpty τ q k ef allow := by
  unfold knnSearch
  cases isEmpty with
  | true => rfl
  | false =>
    cases hd : g.distNodeVec g.entry q with
    | none => rfl
    | some d =>
      have hg := good_entry h.sym none hd
      obtain ⟨h1, h2⟩ := descendK_det h σ τ g.maxLayer hg
      simp only [← h1]
      cases hdd : descendK g σ q g.maxLayer ⟨g.entry, d⟩ with
      | error e => rfl
      | ok ep =>
        rcases map_drain_cases (h.layer allow hef 0 (σ 0) (τ 0) (h2 ep hdd)) with ⟨e, h1, h2⟩ | ⟨r, r', h1, h2, hd⟩
        · simp only [h1, h2]
        · simp only [h1, h2, hd]

end Fave.Graph

namespace Fave.Index
open Queue Spec Search Graph
variable {V D : Type} [Dist D] [LawfulDist D]

theorem selectNeighbors_det (P : Params V D) (vo : Nat → Option V) (deny : Nat → Bool) (max : Nat) {a c : Array (Item D)}
    (h : drain lessMax a = drain lessMax c) :
    (selectNeighbors P vo deny max a).map (drain lessMax) = (selectNeighbors P vo deny max c).map (drain lessMax) := by
  have hl : a.size = c.size := by rw [← drain_length lessMax, ← drain_length lessMax, h]
  unfold selectNeighbors
  rw [hl, h]
  split
  · simp only [Except.map, h]
  · rfl

theorem findBest_det {P : Params V D} {s : Index V} {q : V} (h : (s.graph P).Calm q) (σ τ : Scheds D) (target level ep : Nat) :
    findBest P s σ q target level ep = findBest P s τ q target level ep := by
  induction level generalizing ep with
  | zero => rfl
  | succ level ih =>
    unfold findBest
    split
    · rfl
    · split
      · rfl
      · rename_i d hd
        have hg := good_entry h.sym none hd
        rcases map_drain_cases (h.layer none (ef := 1) (by omega) (level + 1) (σ (level + 1)) (τ (level + 1)) hg) with ⟨e, h1, h2⟩ | ⟨r, r', h1, h2, hd⟩
        · simp only [h1, h2]
        · simp only [h1, h2]
          have hp := pop_head lessMax r
          have hp' := pop_head lessMax r'
          rw [← hd, ← hp] at hp'
          cases e1 : pop lessMax r with
          | none =>
            cases e2 : pop lessMax r' with
            | none => exact ih ep
            | some p => rw [e1, e2] at hp'; cases hp'
          | some p =>
            cases e2 : pop lessMax r' with
            | none => rw [e1, e2] at hp'; cases hp'
            | some p' =>
              rw [e1, e2] at hp'
              have e : p'.1 = p.1 := by simpa using hp'
              obtain ⟨x, y⟩ := p
              obtain ⟨x', y'⟩ := p'
              simp only at e ⊢
              subst e
              split
              · exact ih _
              · exact ih _

theorem pickEntry_dist {P : Params V D} {s : Index V} {q : V} (n : Nat) {deny : List Nat} {cand : Nat} {x : Item D} (h : pickEntry P s q n deny cand = .ok x) :
    (s.graph P).distNodeVec x.id q = some x.dist := by
  induction n generalizing deny cand with
  | zero => cases h
  | succ n ih =>
    unfold pickEntry at h
    split at h
    · exact ih h
    · split at h
      · cases h
      · rename_i hd; cases h; exact hd

theorem doAtLevel_det {P : Params V D} (hef : 1 ≤ P.efC) {s : Index V} {q : V} (h : (s.graph P).Calm q) (vo : VecOracle V) (σ τ : Scheds D)
    (x ep level : Nat) : doAtLevel P vo σ q x s ep level = doAtLevel P vo τ q x s ep level := by
  unfold doAtLevel
  cases hp : pickEntry P s q 4 [] ep with
  | error e => rfl
  | ok it =>
    have hg := good_entry h.sym none (pickEntry_dist 4 hp)
    rcases map_drain_cases (h.layer none (ef := (P.efC : Int)) (by omega) level (σ level) (τ level) hg) with ⟨e, h1, h2⟩ | ⟨r, r', h1, h2, hd⟩
    · simp only [h1, h2]
    · simp only [h1, h2]
      rcases map_drain_cases (selectNeighbors_det P (vo level none 0) (fun _ => false) P.maxConn hd) with ⟨e, k1, k2⟩ | ⟨k, k', k1, k2, kd⟩
      · simp only [k1, k2]
      · simp only [k1, k2, kd]

/-- vectors stored under numbers -/
def vecAt (s : Index V) (id : Nat) : Option V := (s.get id).map Vertex.vec

theorem calm_of_vecs {P : Params V D} {s s' : Index V} {q : V} (h : (s.graph P).Calm q) (hv : ∀ id, vecAt s' id = vecAt s id) : (s'.graph P).Calm q := by
  have hb : ∀ id v, s'.get id = some v → ∃ w, s.get id = some w ∧ w.vec = v.vec := by
    intro id v hg
    have := hv id
    unfold vecAt at this
    rw [hg] at this
    cases hw : s.get id with
    | none => rw [hw] at this; cases this
    | some w => rw [hw] at this; exact ⟨w, rfl, by simpa using this.symm⟩
  have hd : ∀ id d, HasDist ((s'.graph P).senv q none) id d → HasDist ((s.graph P).senv q none) id d := by
    rintro id d ⟨v, hg, hd⟩
    obtain ⟨w, hw, he⟩ := hb id v hg
    exact ⟨w, hw, he.symm ▸ hd⟩
  refine ⟨fun i j di dj hi hj => h.ties i j di dj (hd _ _ hi) (hd _ _ hj), ?_, ?_, h.sym⟩
  · intro id v hg; obtain ⟨w, hw, _⟩ := hb id v hg; exact h.cache id w hw
  · intro id v hg; obtain ⟨w, hw, _⟩ := hb id v hg; exact h.small id w hw

theorem ext_vecs {x : Nat} {s s' : Index V} (h : Ext x s s') (hi : IdsOk s) (hx : ∃ v, s.get x = some v) : ∀ id, vecAt s' id = vecAt s id := by
  intro id
  unfold vecAt
  by_cases he : id = x
  · subst he
    obtain ⟨v, hv⟩ := hx
    obtain ⟨v', hv', e⟩ := h.self hi v hv
    rw [hv, hv']; simp [e]
  · cases hg : s.get id with
    | none => rw [h.none hi id he hg]
    | some v =>
      obtain ⟨v', hv', _, e, _⟩ := h.old hi id v he hg
      rw [hv']; simp [e]

theorem doLevels_det {P : Params V D} (hef : 1 ≤ P.efC) (vo : VecOracle V) (σ τ : Scheds D) (q : V) (x n : Nat) {s : Index V}
    (h : (s.graph P).Calm q) (hi : IdsOk s) (hx : ∃ v, s.get x = some v) (ep : Nat) :
    doLevels P vo σ q x n s ep = doLevels P vo τ q x n s ep := by
  induction n generalizing s ep with
  | zero => rfl
  | succ level ih =>
    unfold doLevels
    rw [doAtLevel_det hef h vo σ τ x ep level]
    have he := doAtLevel_ext P vo τ q x s ep level hi
    split
    · rfl
    · rename_i s1 ep1 h1
      rw [h1] at he
      obtain ⟨v, hv⟩ := hx
      obtain ⟨v', hv', _⟩ := he.self hi v hv
      exact ih (calm_of_vecs h (ext_vecs he hi ⟨v, hv⟩)) (he.ids hi) ⟨v', hv'⟩ _

theorem connectNew_det {P : Params V D} (hef : 1 ≤ P.efC) (vo : VecOracle V) (σ τ : Scheds D) (q : V) (x level : Nat) {s : Index V}
    (h : (s.graph P).Calm q) (hi : IdsOk s) (hx : ∃ v, s.get x = some v) :
    connectNew P vo σ s x q level = connectNew P vo τ s x q level := by
  unfold connectNew
  rw [findBest_det h σ τ]
  split
  · rfl
  · rw [doLevels_det hef vo σ τ q x _ h hi hx]

theorem insertNode_det {P : Params V D} (hef : 1 ≤ P.efC) (vo : VecOracle V) (σ τ : Scheds D) (q : V) (x level : Nat) {s : Index V}
    (h : x < P.cacheSize → (((({ s with once := true } : Index V).put (newNode x q level))).graph P).Calm q) (hi : IdsOk s) :
    insertNode P vo σ s x q level = insertNode P vo τ s x q level := by
  unfold insertNode
  split
  · rfl
  · simp only
    split
    · rfl
    · refine connectNew_det hef vo σ τ q x level (h (by omega)) (idsOk_put (s := ({ s with once := true } : Index V)) ⟨hi.cache, hi.kv⟩ _) ?_
      exact ⟨newNode x q level, by rw [get_put, if_pos]; rfl⟩

end Fave.Index
