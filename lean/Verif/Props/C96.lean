import Verif.Lemmas.AddWork
import Verif.Spec.ExampleIndex
/-!
# C96 — the work of an addition is bounded

The property: adding a vector to a collection of n vectors computes on each layer at most n + 1 distances to find the neighbours; choosing
and linking them takes on each layer a number of distances and of reads of the vector cache (each may be a fetch from the storage) that depends
only on the settings, not on n.  This holds for every history, whatever the vector cache delivers, in whatever order the goroutines finish, and
also for additions that fail.  An addition that reads no vector does not depend on the vector cache; additions to collections with fewer vectors
than a vertex may have links are of this kind.
-/
namespace Fave.C96
open Index Graph Queue Spec
variable {V D : Type} [Dist D] {P : Params V D} {s : Index V} {vs : List V}

/-- **Bounded work**, layer by layer: the layers above that of the new vertex (`find`) and those on which it is linked (`layers`). -/
theorem add_work (hP : P.Ok) (h : Hist P s vs) (vo : VecOracle V) (sched : Scheds D) (vec : V) (level : Nat) :
    (addCost P vo sched s vs.length vec level).find.length ≤ s.maxLayer - level ∧
    (addCost P vo sched s vs.length vec level).layers.length ≤ Nat.min level s.maxLayer + 1 ∧
    (∀ c ∈ (addCost P vo sched s vs.length vec level).find, c ≤ vs.length + 1) ∧
    ∀ c ∈ (addCost P vo sched s vs.length vec level).layers, c.search ≤ vs.length + 1 ∧
      c.link.dists ≤ Nat.max P.efC 1 * P.maxConn + P.maxConn * ((P.maxConn0 + 1) * (P.maxConn0 + 1)) ∧
      c.link.reads ≤ Nat.max P.efC 1 + P.maxConn * (3 * (P.maxConn0 + 1)) ∧
      (vs.length < P.maxConn → c.link = ⟨0, 0⟩) := by
  have hi := hist_inv hP h
  have hv : ∀ id, id < P.cacheSize → id < P.visitedSize := fun id hid => Nat.lt_of_lt_of_le hid hP.sizes
  have nothing : (AddCost.mk [] []).find.length ≤ s.maxLayer - level ∧ (AddCost.mk [] []).layers.length ≤ Nat.min level s.maxLayer + 1 ∧
      (∀ c ∈ (AddCost.mk [] []).find, c ≤ vs.length + 1) ∧ ∀ c ∈ (AddCost.mk [] []).layers, c.search ≤ vs.length + 1 ∧
      c.link.dists ≤ Nat.max P.efC 1 * P.maxConn + P.maxConn * ((P.maxConn0 + 1) * (P.maxConn0 + 1)) ∧
      c.link.reads ≤ Nat.max P.efC 1 + P.maxConn * (3 * (P.maxConn0 + 1)) ∧ (vs.length < P.maxConn → c.link = ⟨0, 0⟩) := by simp
  unfold addCost
  split
  · exact nothing
  · split
    · exact nothing
    · rename_i hne
      split
      · exact nothing
      · have hvs : vs ≠ [] := by
          intro he
          have h0 := hi.zero he
          have hk : s.kvCount = none := by
            cases hc : s.kvCount with
            | none => rfl
            | some c =>
              have h1 := hi.pos c hc
              have h2 := hi.le
              rw [hc, he] at h2
              simp at h2; omega
          obtain ⟨k1, k2⟩ := hi.unflushed hk
          apply hne
          simp [h0, Index.isEmpty, k1, k2, hk]
        have hent := hi.entry hvs
        generalize hs1 : ({ s with once := true } : Index V) = s1
        have hget1 : s1.get = s.get := by subst hs1; rfl
        have hw : WellFormed P.maxConn0 P.maxConn s1.get vs.length := by rw [hget1]; exact hi.wf
        have hids : IdsOk s1 := by subst hs1; exact ⟨hi.ids.1, hi.ids.2⟩
        have ht : s1.tombs = [] := by subst hs1; exact hi.tombs
        have he1 : s1.entry = s.entry := by subst hs1; rfl
        have hm1 : s1.maxLayer = s.maxLayer := by subst hs1; rfl
        unfold connectNewCost
        have hmo : ∀ (l id : Nat) v links b, id < vs.length → (s1.put (newNode vs.length (P.norm vec) level)).get id = some v →
            v.conns[l]? = some links → b ∈ links → b < vs.length := by
          intro l id v links b hid hg hl hb
          rw [get_put, if_neg (show id ≠ (newNode vs.length (P.norm vec) level).id from Nat.ne_of_lt hid)] at hg
          obtain ⟨w, a1, _, _, a4⟩ := hw id hid
          have : w = v := by rw [a1] at hg; cases hg; rfl
          subst this
          exact ((a4 l links hl).2.2.2 b hb).1
        have hep1 : (s1.put (newNode vs.length (P.norm vec) level)).entry < vs.length := by show s1.entry < _; omega
        have hml : (s1.put (newNode vs.length (P.norm vec) level)).maxLayer = s.maxLayer := hm1
        obtain ⟨f1, f2⟩ := findBestCost_le (sched := sched) (q := P.norm vec) (target := level) hv hmo hi.small s.maxLayer hep1
        rw [hml]
        refine ⟨f1, ?_, f2, ?_⟩
        all_goals
          simp only
          split
        · simp
        · rename_i ep hf
          have hep := findBest_lt hv hmo hi.small _ hep1 hf
          exact (doLevelsCost_le hP.conn hv _ (mid_start (L := level) (q := P.norm vec) hw)
            (by have := Nat.min_le_left level s.maxLayer; simp only [Nat.min_def] at *; omega) hep hi.small ht (idsOk_put hids _)).1
        · simp
        · rename_i ep hf
          have hep := findBest_lt hv hmo hi.small _ hep1 hf
          exact (doLevelsCost_le hP.conn hv _ (mid_start (L := level) (q := P.norm vec) hw)
            (by have := Nat.min_le_left level s.maxLayer; simp only [Nat.min_def] at *; omega) hep hi.small ht (idsOk_put hids _)).2

/-- The distances of an addition in all: at most (layers)·(n + 1) for the searches, plus a constant for each layer on which it is linked. -/
theorem add_total (hP : P.Ok) (h : Hist P s vs) (vo : VecOracle V) (sched : Scheds D) (vec : V) (level : Nat) :
    (addCost P vo sched s vs.length vec level).find.sum + ((addCost P vo sched s vs.length vec level).layers.map LayerCost.search).sum ≤
      (s.maxLayer + 1) * (vs.length + 1) ∧
    ((addCost P vo sched s vs.length vec level).layers.map (fun c => c.link.dists)).sum ≤
      (Nat.min level s.maxLayer + 1) * (Nat.max P.efC 1 * P.maxConn + P.maxConn * ((P.maxConn0 + 1) * (P.maxConn0 + 1))) ∧
    ((addCost P vo sched s vs.length vec level).layers.map (fun c => c.link.reads)).sum ≤
      (Nat.min level s.maxLayer + 1) * (Nat.max P.efC 1 + P.maxConn * (3 * (P.maxConn0 + 1))) := by
  obtain ⟨h1, h2, h3, h4⟩ := add_work hP h vo sched vec level
  have hsum : ∀ (l : List Nat) (b : Nat), (∀ c ∈ l, c ≤ b) → l.sum ≤ l.length * b := by
    intro l b hb
    induction l with
    | nil => simp
    | cons c l ih =>
      have := ih (fun c hc => hb c (List.mem_cons_of_mem _ hc))
      have := hb c List.mem_cons_self
      rw [List.sum_cons, List.length_cons, Nat.succ_mul]; omega
  generalize addCost P vo sched s vs.length vec level = c at *
  have g1 := hsum c.find _ h3
  have g2 := hsum (c.layers.map LayerCost.search) (vs.length + 1) (by
    intro x hx; obtain ⟨y, hy, rfl⟩ := List.mem_map.mp hx; exact (h4 y hy).1)
  have g3 := hsum (c.layers.map (fun c => c.link.dists)) _ (by
    intro x hx; obtain ⟨y, hy, rfl⟩ := List.mem_map.mp hx; exact (h4 y hy).2.1)
  have g4 := hsum (c.layers.map (fun c => c.link.reads)) _ (by
    intro x hx; obtain ⟨y, hy, rfl⟩ := List.mem_map.mp hx; exact (h4 y hy).2.2.1)
  rw [List.length_map] at g2 g3 g4
  refine ⟨?_, Nat.le_trans g3 (Nat.mul_le_mul_right _ h2), Nat.le_trans g4 (Nat.mul_le_mul_right _ h2)⟩
  have hle : c.find.length + c.layers.length ≤ s.maxLayer + 1 := by
    simp only [Nat.min_def] at h2
    split at h2 <;> omega
  have := Nat.mul_le_mul_right (vs.length + 1) hle
  rw [Nat.add_mul] at this
  omega

/-- With FaVe's settings (30 links, 60 on the base layer, width 60 — document.go:196-199): linking takes on each layer at most 113430 distances
and 5550 reads. -/
theorem fave_work (metric : Metric V D) (norm : V → V) (jsonOk : V → Bool)
    (hlen : ∀ a b, metric.len a ≠ metric.len b → metric.dist a b = none) (hnorm : ∀ v, metric.len (norm v) = metric.len v)
    (h : Hist (faveParams metric norm jsonOk) s vs) (vo : VecOracle V) (sched : Scheds D) (vec : V) (level : Nat) :
    ∀ c ∈ (addCost (faveParams metric norm jsonOk) vo sched s vs.length vec level).layers,
      c.search ≤ vs.length + 1 ∧ c.link.dists ≤ 113430 ∧ c.link.reads ≤ 5550 ∧ (vs.length < 30 → c.link = ⟨0, 0⟩) :=
  by
  have e1 : (faveParams metric norm jsonOk).efC = 60 := rfl
  have e2 : (faveParams metric norm jsonOk).maxConn = 30 := rfl
  have e3 : (faveParams metric norm jsonOk).maxConn0 = 60 := rfl
  have hw := (add_work ⟨by simp [faveParams], by simp [faveParams], hlen, hnorm⟩ h vo sched vec level).2.2.2
  rw [e1, e2, e3] at hw
  intro c hc
  obtain ⟨a1, a2, a3, a4⟩ := hw c hc
  refine ⟨a1, Nat.le_trans a2 (by decide), Nat.le_trans a3 (by decide), a4⟩

/-! ## What is not read does not matter -/

theorem select_unread {vo : Nat → Option V} {deny : Nat → Bool} {max : Nat} {input : Array (Item D)} (h : (selectCost P vo deny max input).reads = 0)
    (vo' : Nat → Option V) : selectNeighbors P vo deny max input = selectNeighbors P vo' deny max input := by
  unfold selectNeighbors
  unfold selectCost at h
  split
  · rfl
  · rename_i hlt
    rw [if_neg hlt] at h
    simp only at h ⊢
    split
    · rfl
    · rename_i hany
      rw [if_neg hany] at h
      have he : drain lessMax input = [] := List.length_eq_zero_iff.mp h
      simp [he, heurLoop]

theorem connectNeighbor_unread {vo : VecOracle V} {x level nb : Nat} {s : Index V} (h : (connectNeighborCost P vo x level s nb).reads = 0)
    (vo' : VecOracle V) : connectNeighbor P vo x level s nb = connectNeighbor P vo' x level s nb := by
  unfold connectNeighbor
  unfold connectNeighborCost at h
  split
  · rfl
  · rename_i v hg
    rw [hg] at h
    simp only at h
    split
    · rfl
    · rename_i hx
      rw [if_neg hx] at h
      split
      · rfl
      · rename_i ht
        rw [if_neg ht] at h
        simp only at h ⊢
        split
        · rfl
        · rename_i cur hcur
          rw [hcur] at h
          simp only at h
          split
          · rfl
          · rename_i hf
            rw [if_neg hf] at h
            have := (distNodesCost_le P (vo level (some nb) 0) x nb).2.2
            rw [add_reads] at h
            omega

theorem connectAll_unread {vo : VecOracle V} {x level : Nat} {s : Index V} {nbs : List Nat} (h : (connectAllCost P vo x level s nbs).reads = 0)
    (vo' : VecOracle V) : connectAll P vo x level s nbs = connectAll P vo' x level s nbs := by
  induction nbs generalizing s with
  | nil => rfl
  | cons nb nbs ih =>
    unfold connectAll
    unfold connectAllCost at h
    rw [add_reads] at h
    rw [← connectNeighbor_unread (vo := vo) (nb := nb) (by omega) vo']
    split
    · rfl
    · rename_i s1 he
      rw [he] at h
      simp only at h
      exact ih (s := s1) (by omega)

theorem doAtLevel_unread {vo : VecOracle V} {sched : Scheds D} {q : V} {x ep level : Nat} {s : Index V}
    (h : (doLinkCost P vo sched q x s ep level).reads = 0) (vo' : VecOracle V) :
    doAtLevel P vo sched q x s ep level = doAtLevel P vo' sched q x s ep level := by
  unfold doAtLevel
  unfold doLinkCost at h
  split
  · rfl
  · rename_i e he
    rw [he] at h
    simp only at h
    split
    · rfl
    · rename_i results hr
      rw [hr] at h
      simp only [add_reads] at h
      rw [← select_unread (vo := vo level none 0) (by omega) (vo' level none 0)]
      split
      · rfl
      · rename_i kept hk
        rw [hk] at h
        simp only at h ⊢
        split
        · rfl
        · rename_i v hv
          rw [hv] at h
          simp only at h
          split
          · rfl
          · rename_i hlen
            rw [if_neg hlen] at h
            rw [← connectAll_unread (vo := vo) (s := s.put (setConns v level ((drain lessMax kept).map Item.id))) (by omega) vo']

theorem doLevels_unread {vo : VecOracle V} {sched : Scheds D} {q : V} {x : Nat} (n : Nat) {ep : Nat} {s : Index V}
    (h : ∀ c ∈ doLevelsCost P vo sched q x n s ep, c.link.reads = 0) (vo' : VecOracle V) :
    doLevels P vo sched q x n s ep = doLevels P vo' sched q x n s ep := by
  induction n generalizing s ep with
  | zero => rfl
  | succ n ih =>
    unfold doLevels
    unfold doLevelsCost at h
    rw [← doAtLevel_unread (h _ List.mem_cons_self) vo']
    split
    · rfl
    · rename_i s1 ep1 he
      rw [he] at h
      exact ih (fun c hc => h c (List.mem_cons_of_mem _ hc))

/-- **An addition that reads no vector does not depend on the vector cache**: in any state, with any outcome. -/
theorem unread_irrelevant (s : Index V) (vo vo' : VecOracle V) (sched : Scheds D) (x : Nat) (vec : V) (level : Nat)
    (h : ∀ c ∈ (addCost P vo sched s x vec level).layers, c.link.reads = 0) : add P vo sched s x vec level = add P vo' sched s x vec level := by
  unfold add
  unfold addCost at h
  split
  · rfl
  · rename_i h0
    rw [if_neg h0] at h
    unfold insertNode
    split
    · rfl
    · rename_i h1
      rw [if_neg h1] at h
      simp only
      split
      · rfl
      · rename_i h2
        rw [if_neg h2] at h
        unfold connectNew
        unfold connectNewCost at h
        simp only at h
        split
        · rfl
        · rename_i ep hf
          rw [hf] at h
          rw [← doLevels_unread _ h vo']

/-- **Additions to small collections need no vector cache**: with fewer vectors than a vertex may have links (FaVe: 30), an addition has the same
outcome whatever the vector cache delivers, errors included. -/
theorem small_needs_no_vectors (hP : P.Ok) (h : Hist P s vs) (hs : vs.length < P.maxConn) (vo vo' : VecOracle V) (sched : Scheds D) (vec : V)
    (level : Nat) : add P vo sched s vs.length vec level = add P vo' sched s vs.length vec level :=
  unread_irrelevant s vo vo' sched vs.length vec level (fun c hc => by rw [((add_work hP h vo sched vec level).2.2.2 c hc).2.2.2 hs])

/-! ## Concrete cases -/

/-- the vectors of the example and a seventh -/
def vo7 : VecOracle (List Nat) := fun _ _ _ id => (Ex.vecs ++ [[14, 1]])[id]?

-- a history of six vectors, opened again in the middle: the search on the base layer computes n + 1 = 7 distances, the bound is attained
example : (addCost Ex.P vo7 Ex.sched Ex.s6 Ex.vecs.length [14, 1] 1).layers.map LayerCost.search = [2, 7] := by decide +kernel
example := add_work Ex.P_ok Ex.hist6 vo7 Ex.sched [14, 1] 1
example := add_total Ex.P_ok Ex.hist6 vo7 Ex.sched [14, 1] 1
-- more vectors than links: the linking reads vectors, and then the outcome does depend on the vector cache
example : ((addCost Ex.P vo7 Ex.sched Ex.s6 Ex.vecs.length [14, 1] 1).layers.map (fun c => c.link)) = [⟨0, 0⟩, ⟨10, 16⟩] := by decide +kernel
example : (add Ex.P vo7 Ex.sched Ex.s6 Ex.vecs.length [14, 1] 1).2 = none := by decide +kernel
example : (add Ex.P (fun _ _ _ _ => none) Ex.sched Ex.s6 Ex.vecs.length [14, 1] 1).2 = some .error := by decide +kernel
-- fewer vectors than links: it does not
example (vo' : VecOracle (List Nat)) : add Ex.PW vo7 Ex.sched Ex.w6 Ex.vecs.length [14, 1] 1 = add Ex.PW vo' Ex.sched Ex.w6 Ex.vecs.length [14, 1] 1 :=
  small_needs_no_vectors Ex.PW_ok Ex.histW6 (by decide) vo7 vo' Ex.sched [14, 1] 1
example : (add Ex.PW vo7 Ex.sched Ex.w6 Ex.vecs.length [14, 1] 1).2 = none := by decide +kernel

end Fave.C96
