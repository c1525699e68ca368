import Verif.Lemmas.SearchComplete
/-! Order properties of the layer search (distances without NaN). -/
set_option linter.unusedSectionVars false
namespace Fave.Search
open Queue Spec
variable {V D : Type} [Dist D]

/-- present with true distance -/
def Good (env : SEnv V D) (x : Item D) : Prop := distToNode env x.id = some x.dist

/-- `d` is no better than anything kept, and the results are full -/
def Beaten (ef : Int) (results : Array (Item D)) (d : D) : Prop :=
  ef ≤ results.size ∧ ∀ r ∈ results.toList, Dist.lt d r.dist = false

structure Opt (ef : Int) (env : SEnv V D) (level : Nat) (st : St D) (pend : List (Item D)) : Prop where
  heapC : Heap lessMin st.cands
  heapR : Heap lessMax st.results
  worst : ∀ x, top st.results = some x → st.worst = x.dist
  dropped : ∀ x d, HasDist env x d → st.visited.visited x = true → Eligible env level x →
    x ∈ st.results.toList.map Item.id ∨ x ∈ pend.map Item.id ∨ Beaten ef st.results d
  expanded : ∀ r ∈ st.results.toList, r.id ∈ st.cands.toList.map Item.id ∨ Closed env level st.visited r.id

theorem hasDist_unique {env : SEnv V D} {x : Nat} {d d' : D} (h : HasDist env x d) (h' : HasDist env x d') : d = d' := by
  have h1 := (hasDist_iff env x d).mpr h
  have h2 := (hasDist_iff env x d').mpr h'
  rw [h1] at h2; exact Option.some.inj h2

theorem worst_max [LawfulDist D] {ef : Int} {env : SEnv V D} {level : Nat} {st : St D} {pend : List (Item D)}
    (ho : Opt ef env level st pend) : ∀ r ∈ st.results.toList, Dist.lt st.worst r.dist = false := by
  intro r hr
  cases ht : top st.results with
  | none =>
    have : st.results = #[] := by unfold top at ht; simpa using ht
    rw [this] at hr; simp at hr
  | some x =>
    rw [ho.worst x ht]
    exact top_min swo_max ho.heapR ht r hr

theorem consider_opt [LawfulDist D] {ef : Int} {env : SEnv V D} {level : Nat} {st st' : St D} {nd : Item D}
    {pend : List (Item D)} (hi : Inv (Good env) env level st (nd :: pend)) (ho : Opt ef env level st (nd :: pend))
    (h : consider env ef level st nd = .ok st') : Opt ef env level st' pend := by
  have hcp := insert_perm lessMin st.cands nd
  have hheapC := insert_heap (less := lessMin) swo_min ho.heapC nd
  have hndG : HasDist env nd.id nd.dist := (hasDist_iff _ _ _).mp (hi.pendP nd (by simp)).1
  have hexp : ∀ r ∈ st.results.toList, r.id ∈ (insert lessMin st.cands nd).toList.map Item.id ∨ Closed env level st.visited r.id := by
    intro r hr
    rcases ho.expanded r hr with h | h
    · left; rw [(hcp.map Item.id).mem_iff]; simp only [List.map_cons, List.mem_cons]; exact .inr h
    · exact .inr h
  cases consider_ok h with
  | skip hw hs h =>
    subst h
    refine ⟨ho.heapC, ho.heapR, ho.worst, ?_, ho.expanded⟩
    intro x d hd hv hel
    rcases ho.dropped x d hd hv hel with h | h | h
    · exact .inl h
    · rw [List.map_cons, List.mem_cons] at h
      rcases h with h | h
      · subst h
        have := hasDist_unique hd hndG
        subst this
        refine .inr (.inr ⟨hs, ?_⟩)
        intro r hr
        have h1 := worst_max ho r hr
        cases hc : Dist.lt nd.dist r.dist with
        | false => rfl
        | true =>
          rcases LawfulDist.cotrans nd.dist st'.worst r.dist hc with h | h
          · rw [hw] at h; cases h
          · rw [h1] at h; cases h
      · exact .inr (.inl h)
    · exact .inr (.inr h)
  | cand hv h =>
    subst h
    refine ⟨hheapC, ho.heapR, ho.worst, ?_, hexp⟩
    intro x d hd hvis hel
    rcases ho.dropped x d hd hvis hel with h | h | h
    · exact .inl h
    · rw [List.map_cons, List.mem_cons] at h
      rcases h with h | h
      · subst h
        rw [← viable_iff, hv] at hel
        cases hel
      · exact .inr (.inl h)
    · exact .inr (.inr h)
  | both hv t ht htc r w hr hw h =>
    -- the condition under which the neighbour was taken
    have hcond : Dist.lt nd.dist st.worst = true ∨ (st.results.size : Int) < ef := by
      unfold consider at h
      rename_i h0
      unfold consider at h0
      split at h0
      · rename_i hc; simpa using hc
      · rename_i hc
        have hst := Except.ok.inj h0
        rw [h] at hst
        have hsz := congrArg (fun s => s.cands.size) hst
        simp only [insert_size] at hsz
        omega
    subst h
    have hrp := insert_perm lessMax st.results nd
    have hheapI := insert_heap (less := lessMax) swo_max ho.heapR nd
    have hworst : ∀ x, top r = some x → w = x.dist := by
      intro x hx
      rcases hw with ⟨h0, _⟩ | ⟨y, hy, rfl⟩
      · have : r = #[] := by simpa using h0
        rw [this] at hx; simp [top] at hx
      · rw [hy] at hx; cases hx; rfl
    -- the new neighbour is not beaten by something already dropped
    have hbeat : ∀ d, Beaten ef st.results d → ∀ y ∈ (insert lessMax st.results nd).toList, st.results.size ≠ 0 → Dist.lt d y.dist = false := by
      intro d hb y hy hne
      rcases List.mem_cons.mp (hrp.mem_iff.mp hy) with rfl | hy
      · rcases hcond with hc | hc
        · obtain ⟨x, hx⟩ : ∃ x, top st.results = some x := by
            unfold top
            exact ⟨st.results[0], by simp⟩
          have hxm : x ∈ st.results.toList := (Array.mem_of_getElem? hx).val
          have hdx := hb.2 x hxm
          rw [ho.worst x hx] at hc
          cases hdy : Dist.lt d y.dist with
          | false => rfl
          | true => rw [LawfulDist.trans _ _ _ hdy hc] at hdx; cases hdx
        · have := hb.1; omega
      · exact hb.2 y hy
    rcases hr with ⟨rfl, hsz⟩ | ⟨⟨x, hpop⟩, hsz⟩
    · refine ⟨hheapC, hheapI, hworst, ?_, ?_⟩
      · intro k d hd hvis hel
        rcases ho.dropped k d hd hvis hel with h | h | h
        · left; rw [(hrp.map Item.id).mem_iff]; simp only [List.map_cons, List.mem_cons]; exact .inr h
        · rw [List.map_cons, List.mem_cons] at h
          rcases h with h | h
          · left; rw [(hrp.map Item.id).mem_iff]; simp only [List.map_cons, List.mem_cons]; exact .inl h
          · exact .inr (.inl h)
        · have := h.1; omega
      · intro y hy
        simp only at hy ⊢
        rcases List.mem_cons.mp (hrp.mem_iff.mp hy) with rfl | hy
        · left; rw [(hcp.map Item.id).mem_iff]; simp
        · exact hexp y hy
    · have hpp := pop_perm lessMax hpop
      have hpf := top_min (less := lessMax) swo_max hheapI (pop_fst lessMax hpop)
      have hps := pop_size lessMax hpop
      have hsub : ∀ y ∈ r.toList, y ∈ (insert lessMax st.results nd).toList :=
        fun y hy => hpp.mem_iff.mpr (List.mem_cons_of_mem _ hy)
      have hrs : r.size = st.results.size := by rw [insert_size] at hps; omega
      have hxb : Beaten ef r x.dist := by
        refine ⟨by omega, fun y hy => ?_⟩
        exact hpf y (hsub y hy)
      refine ⟨hheapC, pop_heap swo_max hheapI hpop, hworst, ?_, ?_⟩
      · intro k d hd hvis hel
        have hin : ∀ z ∈ (insert lessMax st.results nd).toList, Good env z → z.id = k →
            k ∈ r.toList.map Item.id ∨ k ∈ pend.map Item.id ∨ Beaten ef r d := by
          intro z hz hzg hzk
          rcases List.mem_cons.mp (hpp.mem_iff.mp hz) with rfl | hz
          · right; right
            have : d = z.dist := hasDist_unique hd (hzk ▸ (hasDist_iff _ _ _).mp hzg)
            rw [this]; exact hxb
          · left; exact List.mem_map.mpr ⟨z, hz, hzk⟩
        rcases ho.dropped k d hd hvis hel with h | h | h
        · obtain ⟨z, hz, hzk⟩ := List.mem_map.mp h
          exact hin z (hrp.mem_iff.mpr (List.mem_cons_of_mem _ hz)) (hi.res z hz).1 hzk
        · rw [List.map_cons, List.mem_cons] at h
          rcases h with h | h
          · exact hin nd (hrp.mem_iff.mpr (by simp)) (hi.pendP nd (by simp)).1 h.symm
          · exact .inr (.inl h)
        · right; right
          refine ⟨by simp only; omega, ?_⟩
          intro y hy
          simp only at hy
          by_cases h0 : st.results.size = 0
          · have : r = #[] := by
              have : r.size = 0 := by omega
              simpa using this
            rw [this] at hy; simp at hy
          · exact hbeat d h y (hsub y hy) h0
      · intro y hy
        simp only at hy ⊢
        rcases List.mem_cons.mp (hrp.mem_iff.mp (hsub y hy)) with rfl | hy
        · left; rw [(hcp.map Item.id).mem_iff]; simp
        · exact hexp y hy

theorem considerAll_opt [LawfulDist D] {ef : Int} {env : SEnv V D} {level : Nat} {nds : List (Item D)} {st st' : St D}
    (hi : Inv (Good env) env level st nds) (ho : Opt ef env level st nds) (h : considerAll env ef level st nds = .ok st') :
    Opt ef env level st' [] := by
  induction nds generalizing st with
  | nil => cases h; exact ho
  | cons nd nds ih =>
    unfold considerAll at h
    split at h
    · cases h
    · rename_i st1 h1
      exact ih (consider_inv hi h1).1 (consider_opt hi ho h1) h

/-- the state in which the neighbours of an expanded candidate are considered -/
theorem expand_pend_opt [LawfulDist D] {ef : Int} {env : SEnv V D} (sched : Sched D) {level : Nat}
    {st : St D} {c : Item D} {q : Array (Item D)} {links : List Nat} {v : Vertex V}
    (hi : Inv (Good env) env level st []) (ho : Opt ef env level st [])
    (hp : pop lessMin st.cands = some (c, q)) (hv : env.get c.id = some v)
    (hlinks : v.conns[level]? = some links) :
    Opt ef env level { st with cands := q, visited := (markNew st.visited links).1, n := st.n + 1 }
      (sched.order st.n (distances env (markNew st.visited links).2)) := by
  obtain ⟨m1, m2, m3, m4⟩ := markNew_spec st.visited links hi.vwf
  have hpm := sched.perm st.n (distances env (markNew st.visited links).2)
  have hpop := pop_perm lessMin hp
  refine ⟨pop_heap swo_min ho.heapC hp, ho.heapR, ho.worst, ?_, ?_⟩
  · intro x d hd hvis hel
    cases hv0 : st.visited.visited x with
    | true =>
      rcases ho.dropped x d hd hv0 hel with h | h | h
      · exact .inl h
      · simp at h
      · exact .inr (.inr h)
    | false =>
      right; left
      have hx : x ∈ links := by
        have hvis' : (markNew st.visited links).1.visited x = true := hvis
        rw [m2, hv0] at hvis'; simpa using hvis'
      refine List.mem_map.mpr ⟨⟨x, d⟩, hpm.mem_iff.mpr ?_, rfl⟩
      exact distances_mem ((m4 x).mpr ⟨hx, hv0⟩) ((hasDist_iff env x d).mpr hd)
  · intro r hr
    rcases ho.expanded r hr with h | h
    · rw [(hpop.map Item.id).mem_iff, List.map_cons, List.mem_cons] at h
      rcases h with h | h
      · right
        intro y hy
        obtain ⟨v', links', hv', _, hlinks', hyl⟩ := hy
        rw [h, hv] at hv'
        cases hv'
        rw [hlinks] at hlinks'
        cases hlinks'
        show (markNew st.visited links).1.visited y = true
        rw [m2]
        simp [hyl]
      · exact .inl h
    · right
      intro y hy
      show (markNew st.visited links).1.visited y = true
      rw [m2]; simp [h y hy]

theorem expand_opt [LawfulDist D] {ef : Int} {env : SEnv V D} {sched : Sched D} {level : Nat}
    {st st' : St D} {c : Item D} {q : Array (Item D)} {links : List Nat} {v : Vertex V}
    (hi : Inv (Good env) env level st []) (ho : Opt ef env level st [])
    (hp : pop lessMin st.cands = some (c, q)) (hv : env.get c.id = some v)
    (hlinks : v.conns[level]? = some links)
    (h : expand env sched ef level { st with cands := q } links = .ok st') : Opt ef env level st' [] :=
  considerAll_opt (expand_pend sched (fun _ hx => hx) (pop_cands_inv hi hp)) (expand_pend_opt (st := st) sched hi ho hp hv hlinks) h

theorem drop_opt [LawfulDist D] {ef : Int} {env : SEnv V D} {level : Nat} {st : St D} {c : Item D} {q : Array (Item D)}
    (ho : Opt ef env level st []) (hp : pop lessMin st.cands = some (c, q))
    (hno : ∀ y, ¬ Linked env level c.id y) : Opt ef env level { st with cands := q } [] := by
  have hpop := pop_perm lessMin hp
  refine ⟨pop_heap swo_min ho.heapC hp, ho.heapR, ho.worst, ho.dropped, ?_⟩
  intro r hr
  rcases ho.expanded r hr with h | h
  · rw [(hpop.map Item.id).mem_iff, List.map_cons, List.mem_cons] at h
    rcases h with h | h
    · right; intro y hy; rw [h] at hy; exact absurd hy (hno y)
    · exact .inl h
  · exact .inr h

/-- at the end every result was expanded -/
theorem loop_opt [LawfulDist D] {ef : Int} {env : SEnv V D} {sched : Sched D} {level : Nat} (fuel : Nat) {st st' : St D}
    (hi : Inv (Good env) env level st []) (ho : Opt ef env level st [])
    (h : loop env sched ef level fuel st = .ok st') :
    Opt ef env level st' [] ∧ ∀ r ∈ st'.results.toList, Closed env level st'.visited r.id := by
  induction fuel generalizing st with
  | zero => cases h
  | succ fuel ih =>
    unfold loop at h
    split at h
    · rename_i hp
      cases h
      refine ⟨ho, fun r hr => ?_⟩
      have : st'.cands = #[] := by simpa using pop_none lessMin hp
      rcases ho.expanded r hr with h | h
      · simp [this] at h
      · exact h
    · rename_i c q hp
      split at h
      · rename_i hc
        cases h
        simp only [Bool.and_eq_true, decide_eq_true_eq] at hc
        refine ⟨ho, fun r hr => ?_⟩
        rcases ho.expanded r hr with h | h
        · exfalso
          obtain ⟨c', hc', hid⟩ := List.mem_map.mp h
          have hg1 : Good env c' := (hi.cand c' hc').1
          have hg2 : Good env r := (hi.res r hr).1
          have hdd : c'.dist = r.dist := by
            unfold Good at hg1 hg2
            rw [hid, hg2] at hg1
            exact (Option.some.inj hg1).symm
          have hmin := top_min swo_min ho.heapC (pop_fst lessMin hp) c' hc'
          unfold lessMin at hmin
          rw [hdd] at hmin
          have hw := worst_max ho r hr
          rcases LawfulDist.cotrans _ r.dist _ hc.1 with h | h
          · rw [hw] at h; cases h
          · rw [hmin] at h; cases h
        · exact h
      · have hi' := pop_cands_inv hi hp
        simp only at h
        split at h
        · rename_i hg
          exact ih (st := { st with cands := q }) hi' (drop_opt ho hp (fun y hy => by obtain ⟨v, l, hv, _⟩ := hy; rw [hg] at hv; cases hv)) h
        · rename_i v hv
          split at h
          · exact ih (st := { st with cands := q }) hi' (drop_opt ho hp (fun y hy => by
              obtain ⟨v', l, hv', hle, _⟩ := hy; rw [hv] at hv'; cases hv'; omega)) h
          · split at h
            · cases h
            · rename_i links hlinks
              split at h
              · cases h
              · rename_i st1 h1
                exact ih (expand_inv (fun _ hx => hx) hi' h1) (expand_opt hi ho hp hv hlinks h1) h

theorem enter_heaps [LawfulDist D] (env : SEnv V D) (level : Nat) (eps : List (Item D)) (cr : Array (Item D) × Array (Item D))
    (h1 : Heap lessMin cr.1) (h2 : Heap lessMax cr.2) :
    Heap lessMin (eps.foldl (enter env level) cr).1 ∧ Heap lessMax (eps.foldl (enter env level) cr).2 := by
  induction eps generalizing cr with
  | nil => exact ⟨h1, h2⟩
  | cons e eps ih =>
    rw [List.foldl_cons]
    apply ih
    · unfold enter; simp only; split <;> exact insert_heap swo_min h1 e
    · unfold enter; simp only; split
      · exact insert_heap swo_max h2 e
      · exact h2

theorem start_opt [LawfulDist D] {ef : Int} {env : SEnv V D} {eps : List (Item D)} {level : Nat} {st : St D}
    (hg : ∀ e ∈ eps, Good env e) (h : start env eps level = .ok st) :
    Opt ef env level st [] := by
  obtain ⟨h1, h2, h3⟩ := start_ok h
  have hc := enter_heaps env level eps (#[], #[]) (heap_empty _) (heap_empty _)
  have hst := h
  unfold start at hst
  simp only at hst
  split at hst
  · cases hst
  · rename_i w hw
    have hst := Except.ok.inj hst
    subst hst
    obtain ⟨_, m2, _⟩ := markEntries_spec env.visitedSize (eps.map Item.id)
    refine ⟨hc.1, hc.2, ?_, ?_, ?_⟩
    · intro x hx
      unfold worst0 at hw
      simp only at hx ⊢
      rw [hx] at hw
      simp only at hw
      have hxm := h2.mem_iff.mp ((Array.mem_of_getElem? hx).val)
      have hgx := hg x (List.mem_filter.mp hxm).1
      unfold Good at hgx
      rw [hgx] at hw
      exact (Except.ok.inj hw).symm
    · intro x d _ hv hel
      left
      obtain ⟨e, hem, rfl⟩ := List.mem_map.mp (m2 x hv)
      exact List.mem_map_of_mem (h2.mem_iff.mpr (List.mem_filter.mpr ⟨hem, (viable_iff env level e.id).mpr hel⟩))
    · intro r hr
      left
      exact List.mem_map_of_mem (h1.mem_iff.mpr (List.mem_filter.mp (h2.mem_iff.mp hr)).1)

theorem loop_visited_mono {env : SEnv V D} {sched : Sched D} {ef : Int} {level : Nat} (fuel : Nat) {st st' : St D}
    (hw : st.visited.WF) (h : loop env sched ef level fuel st = .ok st') (k : Nat) (hk : st.visited.visited k = true) :
    st'.visited.visited k = true := by
  induction fuel generalizing st with
  | zero => cases h
  | succ fuel ih =>
    unfold loop at h
    split at h
    · cases h; exact hk
    · rename_i c q hp
      split at h
      · cases h; exact hk
      · simp only at h
        split at h
        · exact ih (st := { st with cands := q }) hw h hk
        · split at h
          · exact ih (st := { st with cands := q }) hw h hk
          · split at h
            · cases h
            · rename_i links hlinks
              split at h
              · cases h
              · rename_i st1 h1
                unfold expand at h1
                have hv := (considerAll_cands_le h1).2
                simp only at hv
                obtain ⟨m1, m2, _⟩ := markNew_spec st.visited links hw
                exact ih (by rw [hv]; exact m1) h (by rw [hv, m2]; simp [hk])

theorem searchLayer_opt [LawfulDist D] {env : SEnv V D} {sched : Sched D} {eps : List (Item D)} {ef : Int} {level : Nat}
    {r : Array (Item D)} (he : EpsOk env eps) (hg : ∀ e ∈ eps, Good env e)
    (h : searchLayer env sched eps ef level = .ok r) :
    Heap lessMax r ∧
    (∀ e ∈ eps, Eligible env level e.id → e.id ∈ r.toList.map Item.id ∨ Beaten ef r e.dist) ∧
    (∀ x ∈ r.toList, ∀ y d, Linked env level x.id y → HasDist env y d → Eligible env level y →
      y ∈ r.toList.map Item.id ∨ Beaten ef r d) := by
  unfold searchLayer at h
  split at h
  · cases h
  · rename_i st hs
    split at h
    · cases h
    · rename_i st' hl
      cases h
      obtain ⟨ho, hcl⟩ := loop_opt _ (start_inv he hg hs) (start_opt hg hs) hl
      have hinv := start_inv he hg hs
      refine ⟨ho.heapR, ?_, ?_⟩
      · intro e hem hel
        have hv0 : st.visited.visited e.id = true := by
          have := (start_ok hs).1.mem_iff.mpr hem
          exact (hinv.cand e this).2
        rcases ho.dropped e.id e.dist ((hasDist_iff _ _ _).mp (hg e hem)) (loop_visited_mono _ hinv.vwf hl _ hv0) hel with h | h | h
        · exact .inl h
        · simp at h
        · exact .inr h
      · intro x hx y d hlk hd hel
        rcases ho.dropped y d hd (hcl x hx y hlk) hel with h | h | h
        · exact .inl h
        · simp at h
        · exact .inr h

end Fave.Search
