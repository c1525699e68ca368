import Verif.Model.AddWork
import Verif.Lemmas.Work
import Verif.Lemmas.SearchSize
import Verif.Lemmas.KnnDet
import Verif.Lemmas.History
/-!
# Helper lemmas about the work of an addition
-/
namespace Fave.Index
variable {V D : Type} [Dist D]
open Queue

@[simp] theorem add_dists (a b : Cost) : (a + b).dists = a.dists + b.dists := rfl
@[simp] theorem add_reads (a b : Cost) : (a + b).reads = a.reads + b.reads := rfl

theorem distNodesCost_le (P : Params V D) (vo : Nat → Option V) (a b : Nat) :
    (distNodesCost P vo a b).dists ≤ 1 ∧ (distNodesCost P vo a b).reads ≤ 2 ∧ 1 ≤ (distNodesCost P vo a b).reads := by
  unfold distNodesCost; repeat' split
  all_goals simp

theorem heurCost_le (P : Params V D) (vo : Nat → Option V) (deny : Nat → Bool) (max : Nat) (ids : List Nat) (fuel : Nat) (q : Array (ItemIx D))
    (kept : List (ItemIx D)) : heurCost P vo deny max ids fuel q kept ≤ fuel * max := by
  induction fuel generalizing q kept with
  | zero => simp [heurCost]
  | succ fuel ih =>
    unfold heurCost
    split
    · omega
    · rename_i hm
      split
      · omega
      · split
        · have := ih ‹_› kept; rw [Nat.succ_mul]; omega
        · split
          · omega
          · simp only
            generalize hf : (fun item : ItemIx D => (match (ids[item.index]?).bind vo with | none => true | some w => _ : Bool)) = f
            have h1 : (kept.takeWhile f).length + (if kept.all f = true then 0 else 1) ≤ kept.length := by
              have hp : kept.takeWhile f <+: kept := List.takeWhile_prefix f
              have := hp.length_le
              split
              · omega
              · rename_i hall
                have : (kept.takeWhile f).length ≠ kept.length := by
                  intro he
                  have := hp.eq_of_length he
                  apply hall
                  rw [List.all_eq_true]
                  intro x hx
                  rw [← this] at hx
                  exact (List.all_eq_true.mp (List.all_takeWhile (l := kept) (p := f))) x hx
                omega
            have := ih ‹_› (if kept.all f = true then kept ++ [‹_›] else kept)
            rw [Nat.succ_mul]
            omega

theorem selectCost_le (P : Params V D) (vo : Nat → Option V) (deny : Nat → Bool) (max : Nat) (input : Array (Item D)) :
    (selectCost P vo deny max input).dists ≤ input.size * max ∧ (selectCost P vo deny max input).reads ≤ input.size := by
  have hl := drain_length (lessMax (D := D)) input
  unfold selectCost
  split
  · simp
  · simp only
    split
    · refine ⟨by simp, ?_⟩
      have := (List.takeWhile_prefix (fun x : Item D => decide (x.id < P.cacheSize)) (l := drain lessMax input)).length_le
      simp only; omega
    · refine ⟨?_, by simp only; omega⟩
      rw [← hl]
      exact heurCost_le _ _ _ _ _ _ _ _

theorem overfullCost_le (P : Params V D) (vo : Nat → Nat → Option V) (nb n : Nat) (cs : List Nat) :
    (overfullCost P vo nb n cs).dists ≤ cs.length ∧ (overfullCost P vo nb n cs).reads ≤ 2 * cs.length := by
  induction cs generalizing n with
  | nil => simp [overfullCost]
  | cons c cs ih =>
    unfold overfullCost
    have := distNodesCost_le P (vo n) c nb
    have := ih (n + 1)
    simp only [add_dists, add_reads, List.length_cons]
    split <;> (try simp only) <;> omega

theorem overfull_size {P : Params V D} {vo : Nat → Nat → Option V} {nb n : Nat} {cs : List Nat} {q r : Array (Item D)}
    (h : overfull P vo nb n cs q = .ok r) : r.size = q.size + cs.length := by
  induction cs generalizing n q with
  | nil => cases h; simp
  | cons c cs ih =>
    unfold overfull at h
    split at h
    · cases h
    · have := ih h
      rw [this, insert_size, List.length_cons]; omega

theorem connectNeighborCost_le (P : Params V D) (vo : VecOracle V) (x level : Nat) (s : Index V) (nb : Nat)
    (hl : ∀ v links, s.get nb = some v → v.conns[level]? = some links → links.length ≤ maxConns P level) :
    (connectNeighborCost P vo x level s nb).dists ≤ (maxConns P level + 1) * (maxConns P level + 1) ∧
      (connectNeighborCost P vo x level s nb).reads ≤ 3 * (maxConns P level + 1) := by
  unfold connectNeighborCost
  split
  · simp
  · rename_i v hg
    split
    · simp
    · split
      · simp
      · simp only
        split
        · simp
        · rename_i cur hcur
          have hlen : cur.length ≤ maxConns P level := by
            by_cases hgt : level > v.level
            · rw [if_pos hgt] at hcur
              simp only [upgrade] at hcur
              rw [List.getElem?_append] at hcur
              split at hcur
              · exact hl v cur hg hcur
              · rw [List.getElem?_replicate] at hcur
                split at hcur
                · cases hcur; simp
                · cases hcur
            · rw [if_neg hgt] at hcur
              exact hl v cur hg hcur
          split
          · simp
          · generalize hM : maxConns P level = M at *
            have h1 := distNodesCost_le P (vo level (some nb) 0) x nb
            have hMM : (M + 1) * (M + 1) = (M + 1) * M + (M + 1) := by rw [Nat.mul_succ]
            simp only [add_dists, add_reads]
            split
            · simp only; omega
            · rename_i d _
              have h2 := overfullCost_le P (vo level (some nb)) nb 1 cur
              simp only [add_dists, add_reads]
              split
              · simp only; omega
              · rename_i cands ho
                have h3 := overfull_size ho
                rw [insert_size] at h3
                have h4 := selectCost_le P (vo level (some nb) (cur.length + 1)) (fun _ => false) M cands
                have h5 : cands.size ≤ M + 1 := by simp at h3; omega
                have h6 := Nat.mul_le_mul_right M h5
                omega

theorem connectAllCost_le {P : Params V D} {vo : VecOracle V} {n L l : Nat} {nbs : List Nat} {s : Index V}
    (h : Mid P n L l nbs s) (hl : l ≤ L) (hnb : ∀ b ∈ nbs, b < n) (hnd : nbs.Nodup) (ht : s.tombs = []) :
    (connectAllCost P vo n l s nbs).dists ≤ nbs.length * ((maxConns P l + 1) * (maxConns P l + 1)) ∧
      (connectAllCost P vo n l s nbs).reads ≤ nbs.length * (3 * (maxConns P l + 1)) := by
  induction nbs generalizing s with
  | nil => simp [connectAllCost]
  | cons nb nbs ih =>
    unfold connectAllCost
    obtain ⟨hn1, hn2⟩ := List.nodup_cons.mp hnd
    have h1 := connectNeighborCost_le P vo n l s nb (by
      intro v links hg hlk
      obtain ⟨v0, hg0, _, _, h4⟩ := h.old nb (hnb nb (by simp))
      rw [hg] at hg0; cases hg0
      exact (h4 l links hlk).2.2.1)
    have ih := fun s1 => ih (s := s1)
    generalize (maxConns P l + 1) * (maxConns P l + 1) = A at *
    generalize 3 * (maxConns P l + 1) = B at *
    simp only [add_dists, add_reads, List.length_cons, Nat.succ_mul]
    split
    · simp only; omega
    · rename_i s1 he
      have hm := connectNeighbor_mid h hl (hnb nb (by simp)) hn1 ht he
      have hs := (connectNeighbor_ext P vo n l s nb).same.tombs
      rw [he] at hs
      have := ih s1 hm (fun b hb => hnb b (by simp [hb])) hn2 (hs.trans ht)
      omega

theorem connectNeighborCost_zero (P : Params V D) (vo : VecOracle V) (x level : Nat) (s : Index V) (nb : Nat) (hM : 0 < maxConns P level)
    (hl : ∀ v links, s.get nb = some v → v.conns[level]? = some links → links.length < maxConns P level) :
    connectNeighborCost P vo x level s nb = ⟨0, 0⟩ := by
  unfold connectNeighborCost
  split
  · rfl
  · rename_i v hg
    split
    · rfl
    · split
      · rfl
      · simp only
        split
        · rfl
        · rename_i cur hcur
          have hlen : cur.length < maxConns P level := by
            by_cases hgt : level > v.level
            · rw [if_pos hgt] at hcur
              simp only [upgrade] at hcur
              rw [List.getElem?_append] at hcur
              split at hcur
              · exact hl v cur hg hcur
              · rw [List.getElem?_replicate] at hcur
                split at hcur
                · cases hcur; simpa using hM
                · cases hcur
            · rw [if_neg hgt] at hcur
              exact hl v cur hg hcur
          rw [if_pos hlen]

theorem connectAllCost_zero {P : Params V D} (hP : P.maxConn ≤ P.maxConn0) {vo : VecOracle V} {n L l : Nat} {nbs : List Nat} {s : Index V}
    (h : Mid P n L l nbs s) (hl : l ≤ L) (hnb : ∀ b ∈ nbs, b < n) (hnd : nbs.Nodup) (ht : s.tombs = []) (hf : n ≤ maxConns P l) :
    connectAllCost P vo n l s nbs = ⟨0, 0⟩ := by
  induction nbs generalizing s with
  | nil => rfl
  | cons nb nbs ih =>
    unfold connectAllCost
    obtain ⟨hn1, hn2⟩ := List.nodup_cons.mp hnd
    have hnbn := hnb nb (by simp)
    rw [connectNeighborCost_zero P vo n l s nb (by omega) (by
      intro v links hg hlk
      obtain ⟨v0, hg0, _, _, h4⟩ := h.old nb hnbn
      rw [hg] at hg0; cases hg0
      obtain ⟨c1, c2, _, c4⟩ := h4 l links hlk
      have : (nb :: links).length ≤ n := by
        have := List.Nodup.length_le_of_subset (List.nodup_cons.mpr ⟨c2, c1⟩) (show nb :: links ⊆ List.range n from fun i hi => by
          rcases List.mem_cons.mp hi with rfl | hi
          · exact List.mem_range.mpr hnbn
          · rcases c4 i hi with ⟨h1, _⟩ | ⟨_, _, h1 | ⟨_, h1⟩⟩
            · exact List.mem_range.mpr h1
            · omega
            · exact absurd List.mem_cons_self h1)
        rwa [List.length_range] at this
      simp only [List.length_cons] at this
      omega)]
    split
    · rfl
    · rename_i s1 he
      have hm := connectNeighbor_mid h hl hnbn hn1 ht he
      have hs := (connectNeighbor_ext P vo n l s nb).same.tombs
      rw [he] at hs
      rw [ih hm (fun b hb => hnb b (by simp [hb])) hn2 (hs.trans ht)]
      rfl

/-- what holds of one layer -/
theorem doCost_le {P : Params V D} (hP : P.maxConn ≤ P.maxConn0) (hv : ∀ id, id < P.cacheSize → id < P.visitedSize)
    {vo : VecOracle V} {sched : Graph.Scheds D} {q : V} {n L l : Nat} {s : Index V}
    {ep : Nat} (h : Mid P n L (l + 1) [] s) (hl : l ≤ L) (hep : ep < n) (hn : n ≤ P.cacheSize) (ht : s.tombs = []) :
    doSearchCost P sched q s ep l ≤ n + 1 ∧
    (doLinkCost P vo sched q n s ep l).dists ≤ Nat.max P.efC 1 * P.maxConn + P.maxConn * ((maxConns P l + 1) * (maxConns P l + 1)) ∧
    (doLinkCost P vo sched q n s ep l).reads ≤ Nat.max P.efC 1 + P.maxConn * (3 * (maxConns P l + 1)) ∧
    (n < P.maxConn → doLinkCost P vo sched q n s ep l = ⟨0, 0⟩) := by
  have hcl : ∀ id v links b, id < n → ((s.graph P).senv q none).get id = some v → v.conns[l]? = some links → b ∈ links → b < n := by
    intro id v0 links b hid hg0 hlk hb
    obtain ⟨v1, a1, _, _, a4⟩ := h.old id hid
    have : v1 = v0 := by
      have hg0' : s.get id = some v0 := hg0
      rw [a1] at hg0'; cases hg0'; rfl
    subst this
    rcases (a4 l links hlk).2.2.2 b hb with ⟨h1, _⟩ | ⟨_, _, h1 | ⟨h1, _⟩⟩ <;> omega
  obtain ⟨w, hw, _⟩ := h.old ep hep
  unfold doSearchCost doLinkCost
  cases he : pickEntry P s q 4 [] ep with
  | error e => simp
  | ok e =>
    obtain ⟨he1, _⟩ := pickEntry_ok hw he
    have hen : e.id < n := by omega
    have heps : Search.EpsOk ((s.graph P).senv q none) [e] :=
      ⟨by simp, fun y hy => by simp at hy; subst hy; exact hv _ (by omega)⟩
    refine ⟨?_, ?_⟩
    · have h1 := Search.layerAsked_nodup (sched := sched l) (ef := P.efC) (level := l) (env := (s.graph P).senv q none) (ep := e) (hv _ (by omega))
      have h2 := Search.layerAsked_closed (sched := sched l) (ef := P.efC) (level := l) (env := (s.graph P).senv q none) (ep := e) (C := fun i => i < n) hcl hen
      have := List.Nodup.length_le_of_subset h1 (show _ ⊆ List.range n from fun i hi => List.mem_range.mpr (h2 i hi))
      rw [List.length_range] at this
      simp only; omega
    · simp only
      cases hr : Search.searchLayer ((s.graph P).senv q none) (sched l) [e] P.efC l with
      | error e => simp
      | ok results =>
        have hsz : results.size ≤ Nat.max P.efC 1 := by
          have := Search.searchLayer_size (m := (Nat.max P.efC 1 : Nat)) (by exact Int.ofNat_le.mpr (Nat.le_max_left _ _))
            (by exact Int.ofNat_le.mpr (Nat.le_max_right _ _)) hr
          omega
        have hres : ∀ y ∈ results.toList, y.id < n :=
          Search.searchLayer_closed (C := fun i => i < n) hcl (fun y hy => by simp at hy; subst hy; exact hen) (keysOk P s q none) heps hr
        have hnod : (results.toList.map Item.id).Nodup :=
          (Search.searchLayer_inv (P := fun _ => True) (fun _ _ => trivial) heps (fun _ _ => trivial) hr).2
        have hszn : results.size ≤ n := by
          have := List.Nodup.length_le_of_subset hnod (show _ ⊆ List.range n from fun i hi => by
            obtain ⟨y, hy, rfl⟩ := List.mem_map.mp hi; exact List.mem_range.mpr (hres y hy))
          simpa using this
        have hsel := selectCost_le P (vo l none 0) (fun _ => false) P.maxConn results
        have hmul := Nat.mul_le_mul_right P.maxConn hsz
        simp only
        cases hk : selectNeighbors P (vo l none 0) (fun _ => false) P.maxConn results with
        | error e =>
          refine ⟨by simp only [add_dists]; omega, by simp only [add_reads]; omega, fun hlt => ?_⟩
          unfold selectCost
          rw [if_pos (by omega)]
          rfl
        | ok kept =>
          obtain ⟨b1, b2, b3⟩ := selected_ids hk
          have hnb : ∀ b ∈ (drain lessMax kept).map Item.id, b < n := by
            intro b hb
            obtain ⟨y, hy, rfl⟩ := List.mem_map.mp (b3 b hb)
            exact hres y hy
          simp only
          cases hg : s.get n with
          | none =>
            refine ⟨by simp only [add_dists]; omega, by simp only [add_reads]; omega, fun hlt => ?_⟩
            unfold selectCost
            rw [if_pos (by omega)]
            rfl
          | some v =>
            simp only
            split
            · refine ⟨by simp only [add_dists]; omega, by simp only [add_reads]; omega, fun hlt => ?_⟩
              unfold selectCost
              rw [if_pos (by omega)]
              rfl
            · have hm := mid_enter h hl hg hnb (b2 hnod) (by unfold maxConns; split <;> omega)
              have h7 := connectAllCost_le (vo := vo) hm hl hnb (b2 hnod) ht
              have h8 := Nat.mul_le_mul_right ((maxConns P l + 1) * (maxConns P l + 1)) b1
              have h9 := Nat.mul_le_mul_right (3 * (maxConns P l + 1)) b1
              refine ⟨by simp only [add_dists]; omega, by simp only [add_reads]; omega, fun hlt => ?_⟩
              rw [connectAllCost_zero hP hm hl hnb (b2 hnod) ht (by unfold maxConns; split <;> omega)]
              unfold selectCost
              rw [if_pos (by omega)]
              rfl

theorem doLevelsCost_le {P : Params V D} (hP : P.maxConn ≤ P.maxConn0) (hv : ∀ id, id < P.cacheSize → id < P.visitedSize)
    {vo : VecOracle V} {sched : Graph.Scheds D} {q : V} {n L : Nat} (l : Nat) {s : Index V}
    {ep : Nat} (h : Mid P n L l [] s) (hl : l ≤ L + 1) (hep : ep < n) (hn : n ≤ P.cacheSize) (ht : s.tombs = []) (hi : IdsOk s) :
    (doLevelsCost P vo sched q n l s ep).length ≤ l ∧
    ∀ c ∈ doLevelsCost P vo sched q n l s ep, c.search ≤ n + 1 ∧
      c.link.dists ≤ Nat.max P.efC 1 * P.maxConn + P.maxConn * ((P.maxConn0 + 1) * (P.maxConn0 + 1)) ∧
      c.link.reads ≤ Nat.max P.efC 1 + P.maxConn * (3 * (P.maxConn0 + 1)) ∧ (n < P.maxConn → c.link = ⟨0, 0⟩) := by
  induction l generalizing s ep with
  | zero => exact ⟨Nat.le_refl _, fun c hc => (by cases hc)⟩
  | succ l ih =>
    obtain ⟨c1, c2, c3, c4⟩ := doCost_le (vo := vo) (sched := sched) (q := q) hP hv h (by omega) hep hn ht
    have hM : maxConns P l ≤ P.maxConn0 := by unfold maxConns; split <;> omega
    have hM2 := Nat.mul_le_mul (Nat.succ_le_succ hM) (Nat.succ_le_succ hM)
    have hM3 := Nat.mul_le_mul_left P.maxConn hM2
    have hM4 := Nat.mul_le_mul_left P.maxConn (Nat.mul_le_mul_left 3 (Nat.succ_le_succ hM))
    simp only [Nat.succ_eq_add_one] at hM3 hM4
    unfold doLevelsCost
    have key : ∀ rest : List LayerCost, (rest.length ≤ l ∧ ∀ c ∈ rest, c.search ≤ n + 1 ∧
      c.link.dists ≤ Nat.max P.efC 1 * P.maxConn + P.maxConn * ((P.maxConn0 + 1) * (P.maxConn0 + 1)) ∧
      c.link.reads ≤ Nat.max P.efC 1 + P.maxConn * (3 * (P.maxConn0 + 1)) ∧ (n < P.maxConn → c.link = ⟨0, 0⟩)) →
      ((⟨doSearchCost P sched q s ep l, doLinkCost P vo sched q n s ep l⟩ : LayerCost) :: rest).length ≤ l + 1 ∧
      ∀ c ∈ (⟨doSearchCost P sched q s ep l, doLinkCost P vo sched q n s ep l⟩ : LayerCost) :: rest, c.search ≤ n + 1 ∧
      c.link.dists ≤ Nat.max P.efC 1 * P.maxConn + P.maxConn * ((P.maxConn0 + 1) * (P.maxConn0 + 1)) ∧
      c.link.reads ≤ Nat.max P.efC 1 + P.maxConn * (3 * (P.maxConn0 + 1)) ∧ (n < P.maxConn → c.link = ⟨0, 0⟩) := by
      intro rest hr
      refine ⟨by simp only [List.length_cons]; omega, fun c hc => ?_⟩
      rcases List.mem_cons.mp hc with rfl | hc
      · exact ⟨c1, Nat.le_trans c2 (Nat.add_le_add_left hM3 _), Nat.le_trans c3 (Nat.add_le_add_left hM4 _), c4⟩
      · exact hr.2 c hc
    apply key
    split
    · exact ⟨by simp, fun c hc => (by cases hc)⟩
    · rename_i s1 ep1 he
      obtain ⟨h1, h2⟩ := doAtLevel_mid hP hv h (by omega) hep hn ht he
      have hx := doAtLevel_ext P vo sched q n s ep l hi
      rw [he] at hx
      exact ih h1 (by omega) h2 (hx.same.tombs.trans ht) (hx.ids hi)

theorem findBestCost_le {P : Params V D} (hv : ∀ id, id < P.cacheSize → id < P.visitedSize)
    {sched : Graph.Scheds D} {q : V} {n target : Nat} {s : Index V}
    (hcl : ∀ (l id : Nat) v links b, id < n → s.get id = some v → v.conns[l]? = some links → b ∈ links → b < n) (hn : n ≤ P.cacheSize)
    (m : Nat) {ep : Nat} (hep : ep < n) :
    (findBestCost P s sched q target m ep).length ≤ m - target ∧ ∀ c ∈ findBestCost P s sched q target m ep, c ≤ n + 1 := by
  induction m generalizing ep with
  | zero => exact ⟨by simp [findBestCost], fun c hc => (by cases hc)⟩
  | succ m ih =>
    unfold findBestCost
    split
    · exact ⟨by simp, fun c hc => (by cases hc)⟩
    · split
      · exact ⟨by simp; omega, fun c hc => by simp at hc; omega⟩
      · rename_i d _
        have h1 := Search.layerAsked_nodup (sched := sched (m + 1)) (ef := 1) (level := m + 1) (env := (s.graph P).senv q none) (ep := ⟨ep, d⟩)
          (hv _ (show ep < _ by omega))
        have h2 := Search.layerAsked_closed (sched := sched (m + 1)) (ef := 1) (level := m + 1) (env := (s.graph P).senv q none) (ep := ⟨ep, d⟩)
          (C := fun i => i < n) (hcl (m + 1)) hep
        have h3 := List.Nodup.length_le_of_subset h1 (show _ ⊆ List.range n from fun i hi => List.mem_range.mpr (h2 i hi))
        rw [List.length_range] at h3
        have key : ∀ rest : List Nat, (rest.length ≤ m - target ∧ ∀ c ∈ rest, c ≤ n + 1) →
            ((1 + (Search.layerAsked ((s.graph P).senv q none) (sched (m + 1)) [⟨ep, d⟩] 1 (m + 1)).length) :: rest).length ≤ m + 1 - target ∧
            ∀ c ∈ (1 + (Search.layerAsked ((s.graph P).senv q none) (sched (m + 1)) [⟨ep, d⟩] 1 (m + 1)).length) :: rest, c ≤ n + 1 := by
          intro rest hr
          refine ⟨by simp only [List.length_cons]; omega, fun c hc => ?_⟩
          rcases List.mem_cons.mp hc with rfl | hc
          · omega
          · exact hr.2 c hc
        apply key
        split
        · exact ⟨by simp, fun c hc => (by cases hc)⟩
        · rename_i res hr
          have hres : ∀ y ∈ res.toList, y.id < n := by
            refine Search.searchLayer_closed (C := fun i => i < n) (hcl (m + 1)) (fun y hy => by simp at hy; subst hy; exact hep)
              (keysOk P s q none) ⟨by simp, fun y hy => by simp at hy; subst hy; exact hv _ (show ep < _ by omega)⟩ hr
          split
          · exact ih hep
          · rename_i x _ hp
            have hx : x.id < n := hres x ((pop_perm lessMax hp).mem_iff.mpr (by simp))
            split
            · exact ih hep
            · refine ih ?_
              split <;> assumption

end Fave.Index
