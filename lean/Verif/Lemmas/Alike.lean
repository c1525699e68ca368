import Verif.Lemmas.Lost
/-!
# Two states that look alike behave alike

The dirty flags, the storage behind the cache and the stored counters differ; vertices, entry point and top layer are the same.
-/
namespace Fave.Index
open Queue Search Spec
variable {V D : Type} [Dist D]

structure Alike (s t : Index V) : Prop where
  get : ∀ id, (t.get id).map core = (s.get id).map core
  entry : t.entry = s.entry
  maxLayer : t.maxLayer = s.maxLayer
  tombs : t.tombs = s.tombs

omit [Dist D] in
theorem Alike.absent {s t : Index V} (h : Alike s t) {id : Nat} (hg : s.get id = none) : t.get id = none := by
  have := h.get id
  rw [hg] at this
  cases ht : t.get id with
  | none => rfl
  | some w => rw [ht] at this; cases this

omit [Dist D] in
theorem Alike.present {s t : Index V} (h : Alike s t) {id : Nat} {v : Vertex V} (hg : s.get id = some v) : ∃ w, t.get id = some w ∧ core w = core v := by
  have := h.get id
  rw [hg] at this
  cases ht : t.get id with
  | none => rw [ht] at this; cases this
  | some w => rw [ht] at this; exact ⟨w, rfl, by simpa using this⟩

omit [Dist D] in
theorem Alike.put {s t : Index V} (h : Alike s t) {v w : Vertex V} (hc : core w = core v) : Alike (s.put v) (t.put w) := by
  refine ⟨fun id => ?_, h.entry, h.maxLayer, h.tombs⟩
  rw [get_put, get_put, (core_eq hc).1]
  split
  · simp [hc]
  · exact h.get id

theorem Alike.layer {P : Params V D} {s t : Index V} (h : Alike s t) (q : V) (allow) (sched : Sched D) (eps : List (Item D)) (ef : Int) (level : Nat) :
    searchLayer ((t.graph P).senv q allow) sched eps ef level = searchLayer ((s.graph P).senv q allow) sched eps ef level := by
  have e : (t.graph P).senv q allow = SEnvWith ((s.graph P).senv q allow) t.get (t.cache.keys ++ t.kv.keys) := by
    unfold SEnvWith graph Graph.senv
    simp only [h.tombs]
  have hk := keysOk P t q allow
  rw [e] at hk ⊢
  exact searchLayer_frame (C := fun _ => True) ⟨fun id _ => h.get id, fun _ _ _ _ _ _ _ _ => trivial⟩ sched ef eps (fun _ _ => trivial) (keysOk P s q allow) hk

theorem Alike.dist {P : Params V D} {s t : Index V} (h : Alike s t) (id : Nat) (q : V) : (t.graph P).distNodeVec id q = (s.graph P).distNodeVec id q := by
  unfold Graph.distNodeVec graph
  simp only
  cases hs : s.get id with
  | none => rw [h.absent hs]
  | some v =>
    obtain ⟨w, hw, hc⟩ := h.present hs
    rw [hw]
    simp only [(core_eq hc).2.2.2.2]

theorem Alike.descend {P : Params V D} {s t : Index V} (h : Alike s t) (σ : Graph.Scheds D) (q : V) (m : Nat) (ep : Item D) :
    Graph.descend (t.graph P) σ q m ep = Graph.descend (s.graph P) σ q m ep := by
  induction m generalizing ep with
  | zero => rfl
  | succ m ih =>
    unfold Graph.descend
    rw [h.layer]
    simp only [ih]

theorem Alike.knn {P : Params V D} {s t : Index V} (h : Alike s t) (σ : Graph.Scheds D) (q : V) (max : D) (ef : Int) (allow) :
    (t.graph P).knnMaxDist σ q max ef allow = (s.graph P).knnMaxDist σ q max ef allow := by
  have e : (t.graph P).retained σ (P.norm q) ef allow = (s.graph P).retained σ (P.norm q) ef allow := by
    unfold Graph.retained
    have h1 : (t.graph P).entry = (s.graph P).entry := h.entry
    have h2 : (t.graph P).maxLayer = (s.graph P).maxLayer := h.maxLayer
    rw [h1, h2, h.dist]
    simp only [h.descend, h.layer]
  unfold Graph.knnMaxDist
  have e' : (t.graph P).retained σ ((t.graph P).norm q) ef allow = (s.graph P).retained σ ((s.graph P).norm q) ef allow := e
  rw [e']

theorem Alike.findBest {P : Params V D} {s t : Index V} (h : Alike s t) (σ : Graph.Scheds D) (q : V) (target m ep : Nat) :
    findBest P t σ q target m ep = findBest P s σ q target m ep := by
  induction m generalizing ep with
  | zero => rfl
  | succ m ih =>
    unfold Index.findBest
    split
    · rfl
    · rw [h.dist]
      cases (s.graph P).distNodeVec ep q with
      | none => rfl
      | some d =>
        simp only
        rw [h.layer]
        cases searchLayer ((s.graph P).senv q none) (σ (m + 1)) [⟨ep, d⟩] 1 (m + 1) with
        | error e => rfl
        | ok res =>
          simp only
          cases pop lessMax res with
          | none => exact ih ep
          | some p =>
            obtain ⟨y, rest⟩ := p
            simp only
            cases hs : s.get y.id with
            | none => rw [h.absent hs]; exact ih ep
            | some v =>
              obtain ⟨w, hw, hc⟩ := h.present hs
              rw [hw]
              simp only [(core_eq hc).2.2.2.1, ih]

theorem Alike.pick {P : Params V D} {s t : Index V} (h : Alike s t) (q : V) (m : Nat) {ep : Nat} {v : Vertex V} (hg : s.get ep = some v) :
    pickEntry P t q (m + 1) [] ep = pickEntry P s q (m + 1) [] ep := by
  obtain ⟨w, hw, _⟩ := h.present hg
  unfold pickEntry
  rw [hg, hw]
  simp only
  rw [h.dist]

omit [Dist D] in
theorem core_set {v w : Vertex V} (hc : core w = core v) (l : Nat) (links : List Nat) : core (setConns w l links) = core (setConns v l links) := by
  obtain ⟨h1, h2, h3, h4, h5⟩ := core_eq hc
  simp [core, setConns, h1, h2, h3, h4, h5]

theorem Alike.connectNeighbor {P : Params V D} {vo : VecOracle V} {x l nb : Nat} {s t : Index V} (h : Alike s t) :
    (connectNeighbor P vo x l t nb).2 = (connectNeighbor P vo x l s nb).2 ∧ Alike (connectNeighbor P vo x l s nb).1 (connectNeighbor P vo x l t nb).1 := by
  cases hs : s.get nb with
  | none =>
    unfold Index.connectNeighbor
    rw [h.absent hs, hs]
    exact ⟨rfl, h⟩
  | some v =>
    obtain ⟨w, hw, hc⟩ := h.present hs
    obtain ⟨c1, c2, c3, c4, c5⟩ := core_eq hc
    cases v; cases w
    simp only at c1 c2 c3 c4 c5
    subst c1 c2 c3 c4 c5
    unfold Index.connectNeighbor
    rw [hw, hs]
    simp only
    rw [h.tombs]
    split
    · exact ⟨rfl, h⟩
    · split
      · exact ⟨rfl, h⟩
      · rename_i id level conns maint vec _ _ _
        generalize (if l > level then upgrade (⟨id, level, conns, maint, vec, false⟩ : Vertex V) l else ⟨id, level, conns, maint, vec, false⟩) = u
        cases u.conns[l]? with
        | none => exact ⟨rfl, h.put rfl⟩
        | some cur =>
          simp only
          split
          · exact ⟨rfl, (h.put rfl).put rfl⟩
          · cases distNodes P (vo l (some nb) 0) x nb with
            | error e => exact ⟨rfl, h.put rfl⟩
            | ok d =>
              simp only
              cases overfull P (vo l (some nb)) nb 1 cur (insert lessMax #[] ⟨x, d⟩) with
              | error e => exact ⟨rfl, h.put rfl⟩
              | ok cands =>
                simp only
                cases selectNeighbors P (vo l (some nb) (cur.length + 1)) (fun _ => false) (maxConns P l) cands with
                | error e => exact ⟨rfl, h.put rfl⟩
                | ok kept => exact ⟨rfl, (h.put rfl).put rfl⟩

theorem Alike.connectAll {P : Params V D} {vo : VecOracle V} {x l : Nat} {nbs : List Nat} {s t : Index V} (h : Alike s t) :
    (connectAll P vo x l t nbs).2 = (connectAll P vo x l s nbs).2 ∧ Alike (connectAll P vo x l s nbs).1 (connectAll P vo x l t nbs).1 := by
  induction nbs generalizing s t with
  | nil => exact ⟨rfl, h⟩
  | cons nb nbs ih =>
    unfold Index.connectAll
    obtain ⟨h1, h2⟩ := h.connectNeighbor (P := P) (vo := vo) (x := x) (l := l) (nb := nb)
    cases hs : Index.connectNeighbor P vo x l s nb with
    | mk s1 e =>
      cases ht : Index.connectNeighbor P vo x l t nb with
      | mk t1 e' =>
        rw [hs, ht] at h1 h2
        simp only at h1 h2
        subst h1
        cases e' with
        | none => exact ih h2
        | some e => exact ⟨rfl, h2⟩

theorem Alike.doAtLevel {P : Params V D} {vo : VecOracle V} {σ : Graph.Scheds D} {q : V} {x l ep : Nat} {v : Vertex V} {s t : Index V} (h : Alike s t)
    (hg : s.get ep = some v) :
    (doAtLevel P vo σ q x t ep l).2 = (doAtLevel P vo σ q x s ep l).2 ∧ Alike (doAtLevel P vo σ q x s ep l).1 (doAtLevel P vo σ q x t ep l).1 := by
  unfold Index.doAtLevel
  rw [h.pick q 3 hg]
  cases pickEntry P s q 4 [] ep with
  | error e => exact ⟨rfl, h⟩
  | ok e =>
    simp only
    rw [h.layer]
    cases searchLayer ((s.graph P).senv q none) (σ l) [e] P.efC l with
    | error e => exact ⟨rfl, h⟩
    | ok results =>
      simp only
      cases selectNeighbors P (vo l none 0) (fun _ => false) P.maxConn results with
      | error e => exact ⟨rfl, h⟩
      | ok kept =>
        simp only
        generalize (drain lessMax kept).map Item.id = nbs
        cases hs : s.get x with
        | none => rw [h.absent hs]; exact ⟨rfl, h⟩
        | some u =>
          obtain ⟨w, hw, hc⟩ := h.present hs
          rw [hw]
          simp only [(core_eq hc).2.2.1]
          split
          · exact ⟨rfl, h⟩
          · obtain ⟨h1, h2⟩ := (h.put (core_set hc l nbs)).connectAll (P := P) (vo := vo) (x := x) (l := l) (nbs := nbs)
            cases hs1 : Index.connectAll P vo x l (s.put (setConns u l nbs)) nbs with
            | mk s1 e1 =>
              cases ht1 : Index.connectAll P vo x l (t.put (setConns w l nbs)) nbs with
              | mk t1 e2 =>
                rw [hs1, ht1] at h1 h2
                simp only at h1 h2
                subst h1
                cases e2 with
                | some e => exact ⟨rfl, h2⟩
                | none =>
                  simp only
                  cases nbs.getLast? with
                  | none => exact ⟨rfl, h2⟩
                  | some y => exact ⟨rfl, h2⟩

theorem Alike.doLevels {P : Params V D} (hP : P.maxConn ≤ P.maxConn0) (hv : ∀ id, id < P.cacheSize → id < P.visitedSize)
    {vo : VecOracle V} {σ : Graph.Scheds D} {q : V} {n M : Nat} (l : Nat) {ep : Nat} {s t : Index V} (h : Alike s t)
    (hm : Mid P n M l [] s) (hl : l ≤ M + 1) (hep : ep < n) (hn : n ≤ P.cacheSize) (ht : s.tombs = []) (hi : IdsOk s) :
    (doLevels P vo σ q n l t ep).2 = (doLevels P vo σ q n l s ep).2 ∧ Alike (doLevels P vo σ q n l s ep).1 (doLevels P vo σ q n l t ep).1 := by
  induction l generalizing s t ep with
  | zero => exact ⟨rfl, h⟩
  | succ l ih =>
    obtain ⟨w, hw, _⟩ := hm.old ep hep
    obtain ⟨h1, h2⟩ := h.doAtLevel (P := P) (vo := vo) (σ := σ) (q := q) (x := n) (l := l) hw
    have hxt := doAtLevel_ext P vo σ q n s ep l hi
    unfold Index.doLevels
    cases hs1 : Index.doAtLevel P vo σ q n s ep l with
    | mk s1 e1 =>
      cases ht1 : Index.doAtLevel P vo σ q n t ep l with
      | mk t1 e2 =>
        rw [hs1, ht1] at h1 h2
        rw [hs1] at hxt
        simp only at h1 h2
        subst h1
        cases e2 with
        | error e => exact ⟨rfl, h2⟩
        | ok ep1 =>
          obtain ⟨m1, m2⟩ := doAtLevel_mid hP hv hm (by omega) hep hn ht hs1
          exact ih h2 m1 (by omega) m2 (hxt.same.tombs.trans ht) (hxt.ids hi)

theorem Alike.connectNew {P : Params V D} (hP : P.Ok) {vo : VecOracle V} {σ : Graph.Scheds D} {q : V} {level : Nat} {s t : Index V} {vs : List V} (h : Alike s t)
    (hi : Inv P s vs) (hn : vs ≠ []) (hsz : vs.length < P.cacheSize) :
    (connectNew P vo σ (t.put (newNode vs.length q level)) vs.length q level).2 = (connectNew P vo σ (s.put (newNode vs.length q level)) vs.length q level).2 ∧
    Alike (connectNew P vo σ (s.put (newNode vs.length q level)) vs.length q level).1 (connectNew P vo σ (t.put (newNode vs.length q level)) vs.length q level).1 := by
  have h' : Alike (s.put (newNode vs.length q level)) (t.put (newNode vs.length q level)) := h.put rfl
  have hv : ∀ id, id < P.cacheSize → id < P.visitedSize := fun id hid => Nat.lt_of_lt_of_le hid hP.sizes
  have hget : ∀ b, b < vs.length → (s.put (newNode vs.length q level)).get b = s.get b := by
    intro b hb; rw [get_put, if_neg (show b ≠ (newNode vs.length q level).id from Nat.ne_of_lt hb)]
  have hmo : ∀ (l id : Nat) v links b, id < vs.length ∧ ¬ False → (s.put (newNode vs.length q level)).get id = some v →
      v.conns[l]? = some links → b ∈ links → b < vs.length ∧ ¬ False := by
    intro l id v links b hid hg hl hb
    rw [hget id hid.1] at hg
    refine ⟨?_, not_false⟩
    obtain ⟨w, a1, _, _, a4⟩ := hi.wf id hid.1
    rw [a1] at hg; cases hg
    exact ((a4 l links hl).2.2.2 b hb).1
  have hm := mid_start (P := P) (L := level) (l := Nat.min level s.maxLayer + 1) (q := q) (s := s) hi.wf
  unfold Index.connectNew
  have e1 : (t.put (newNode vs.length q level)).maxLayer = s.maxLayer := h.maxLayer
  have e2 : (t.put (newNode vs.length q level)).entry = s.entry := h.entry
  have e3 : (s.put (newNode vs.length q level)).maxLayer = s.maxLayer := rfl
  have e4 : (s.put (newNode vs.length q level)).entry = s.entry := rfl
  rw [e1, e2, e3, e4, h'.findBest]
  cases hf : Index.findBest P (s.put (newNode vs.length q level)) σ q level s.maxLayer s.entry with
  | error e => exact ⟨rfl, h'⟩
  | ok ep =>
    simp only
    obtain ⟨hep, _⟩ := findBest_avoids (L := fun _ => False) hv hmo (by omega) _ ⟨hi.entry hn, not_false⟩ hf
    obtain ⟨h1, h2⟩ := h'.doLevels (vo := vo) (σ := σ) (q := q) hP.conn hv _ hm (Nat.succ_le_succ (Nat.min_le_left _ _)) hep (by omega) hi.tombs (idsOk_put hi.ids _)
    cases hs1 : Index.doLevels P vo σ q vs.length (Nat.min level s.maxLayer + 1) (s.put (newNode vs.length q level)) ep with
    | mk s1 e1 =>
      cases ht1 : Index.doLevels P vo σ q vs.length (Nat.min level s.maxLayer + 1) (t.put (newNode vs.length q level)) ep with
      | mk t1 e2 =>
        rw [hs1, ht1] at h1 h2
        simp only at h1 h2
        subst h1
        cases e2 with
        | some e => exact ⟨rfl, h2⟩
        | none =>
          simp only
          cases hs : s1.get vs.length with
          | none => rw [h2.absent hs]; exact ⟨rfl, h2⟩
          | some u =>
            obtain ⟨w, hw, hc⟩ := h2.present hs
            rw [hw]
            have hcm : core ({ w with maint := false } : Vertex V) = core { u with maint := false } := by
              obtain ⟨c1, c2, c3, c4, c5⟩ := core_eq hc
              simp [core, c1, c2, c3, c5]
            have h3 := h2.put hcm
            have e5 : (t1.put { w with maint := false }).maxLayer = (s1.put { u with maint := false }).maxLayer := h3.maxLayer
            simp only
            rw [e5]
            split
            · exact ⟨rfl, h3.get, rfl, rfl, h3.tombs⟩
            · exact ⟨rfl, h3⟩

/-- `add` beyond the first vector -/
theorem add_beyond {P : Params V D} {s : Index V} {vs : List V} (hi : Inv P s vs) (hn : vs ≠ []) (vo : VecOracle V) (σ : Graph.Scheds D) (vec : V) (level : Nat) :
    add P vo σ s vs.length vec level = if P.metric.len vec = 0 then (s, some .error) else if P.cacheSize ≤ vs.length then ({ s with once := true }, some .panic)
      else connectNew P vo σ (({ s with once := true } : Index V).put (newNode vs.length (P.norm vec) level)) vs.length (P.norm vec) level := by
  unfold add insertNode
  have : (!s.once && s.isEmpty) = false := by
    cases ho : s.once with
    | true => rfl
    | false =>
      have h1 := hi.started ho
      have h2 : 0 < vs.length := List.length_pos_iff.mpr hn
      unfold isEmpty
      cases hk : s.kvCount with
      | none => rw [hk] at h1; simp only [Option.getD_none] at h1; omega
      | some c => simp
  rw [this]
  rfl

theorem Alike.add {P : Params V D} (hP : P.Ok) {vo : VecOracle V} {σ : Graph.Scheds D} {vec : V} {level : Nat} {s t : Index V} {vs ws : List V} (h : Alike s t)
    (hi : Inv P s vs) (hj : Inv P t ws) (hlen : ws.length = vs.length) (hn : vs ≠ []) (hw : ws ≠ []) :
    (add P vo σ t vs.length vec level).2 = (add P vo σ s vs.length vec level).2 ∧ Alike (add P vo σ s vs.length vec level).1 (add P vo σ t vs.length vec level).1 := by
  have hadd := add_beyond hj hw vo σ vec level
  rw [hlen] at hadd
  rw [add_beyond hi hn, hadd]
  split
  · exact ⟨rfl, h⟩
  · split
    · exact ⟨rfl, h.get, h.entry, h.maxLayer, h.tombs⟩
    · have hids : IdsOk ({ s with once := true } : Index V) := ⟨hi.ids.cache, hi.ids.kv⟩
      have h1 : Alike ({ s with once := true } : Index V) { t with once := true } := ⟨h.get, h.entry, h.maxLayer, h.tombs⟩
      refine h1.connectNew hP ?_ hn (by omega)
      exact ⟨hids, hi.synced, hi.tombs, hi.wf, hi.entry, hi.small, hi.le, hi.kvwf, hi.kvEntry, hi.unflushed, hi.pos, fun ho => Bool.noConfusion ho,
        fun hv => absurd hv hn, hi.holds, hi.kvHolds, hi.dim⟩

theorem Alike.of_flush {P : Params V D} {s s' : Index V} {order : List Nat} {n : Nat} (hi : IdsOk s) (hf : flush P s order n = (s', none)) : Alike s s' := by
  obtain ⟨s1, hw, rfl⟩ := flush_ok hi hf
  exact ⟨hw.get (dirty_cached hi order), hw.entry, hw.maxLayer, hw.tombs⟩

omit [Dist D] in
theorem Alike.symm {s t : Index V} (h : Alike s t) : Alike t s := ⟨fun id => (h.get id).symm, h.entry.symm, h.maxLayer.symm, h.tombs.symm⟩
omit [Dist D] in
theorem Alike.trans {s t u : Index V} (h : Alike s t) (h' : Alike t u) : Alike s u :=
  ⟨fun id => (h'.get id).trans (h.get id), h'.entry.trans h.entry, h'.maxLayer.trans h.maxLayer, h'.tombs.trans h.tombs⟩
omit [Dist D] in
theorem Alike.refl (s : Index V) : Alike s s := ⟨fun _ => rfl, rfl, rfl, rfl⟩

end Fave.Index
