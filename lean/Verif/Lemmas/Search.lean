import Verif.Model.Search
import Verif.Lemmas.Queue
import Verif.Lemmas.Visited
/-! Lemmas about the layer search. -/
set_option linter.unusedSectionVars false
namespace Fave.Search
open Queue
variable {V D : Type} [Dist D]

/-! ### marking -/

theorem markNew_spec (vis : ListSet) (ids : List Nat) (hw : vis.WF) :
    (markNew vis ids).1.WF ∧ (∀ k, (markNew vis ids).1.visited k = (vis.visited k || decide (k ∈ ids))) ∧
    (markNew vis ids).2.Nodup ∧ (∀ k, k ∈ (markNew vis ids).2 ↔ k ∈ ids ∧ vis.visited k = false) := by
  induction ids generalizing vis with
  | nil => exact ⟨hw, by simp [markNew], by simp [markNew], by simp [markNew]⟩
  | cons id ids ih =>
    unfold markNew
    split
    · rename_i hv
      obtain ⟨h1, h2, h3, h4⟩ := ih vis hw
      refine ⟨h1, ?_, h3, ?_⟩
      · intro k
        rw [h2]
        by_cases hk : k = id
        · subst hk; simp [hv]
        · simp [hk]
      · intro k
        rw [h4]
        by_cases hk : k = id
        · subst hk; simp [hv]
        · simp [hk]
    · rename_i hv
      simp only [Bool.not_eq_true] at hv
      obtain ⟨h1, h2, h3, h4⟩ := ih (vis.visit id) (ListSet.wf_visit vis hw id)
      refine ⟨h1, ?_, ?_, ?_⟩
      · intro k
        simp only
        rw [h2, ListSet.visited_visit vis hw]
        by_cases hk : k = id
        · subst hk; simp
        · simp [hk]
      · refine List.nodup_cons.mpr ⟨?_, h3⟩
        rw [h4, ListSet.visited_visit vis hw]
        simp
      · intro k
        simp only [List.mem_cons]
        rw [h4, ListSet.visited_visit vis hw]
        by_cases hk : k = id
        · subst hk; simp [hv]
        · simp [hk]

theorem takeWhile_all {α : Type} (p : α → Bool) (l : List α) (h : ∀ x ∈ l, p x = true) : l.takeWhile p = l := by
  induction l with
  | nil => rfl
  | cons x l ih =>
    rw [List.takeWhile_cons, h x (by simp)]
    simp only [if_true]
    rw [ih (fun y hy => h y (by simp [hy]))]

theorem foldl_visit (ids : List Nat) (vis : ListSet) (hw : vis.WF) :
    (ids.foldl ListSet.visit vis).WF ∧
    ∀ k, (ids.foldl ListSet.visit vis).visited k = (vis.visited k || decide (k ∈ ids)) := by
  induction ids generalizing vis with
  | nil => exact ⟨hw, by simp⟩
  | cons id ids ih =>
    obtain ⟨h1, h2⟩ := ih (vis.visit id) (ListSet.wf_visit vis hw id)
    refine ⟨h1, ?_⟩
    intro k
    rw [List.foldl_cons, h2, ListSet.visited_visit vis hw]
    by_cases hk : k = id
    · subst hk; simp
    · simp [hk]

theorem markEntries_spec (n : Nat) (ids : List Nat) :
    (markEntries (ListSet.new n) ids).WF ∧
    (∀ k, (markEntries (ListSet.new n) ids).visited k = true → k ∈ ids) ∧
    ((∀ k ∈ ids, k < n) → ∀ k, (markEntries (ListSet.new n) ids).visited k = decide (k ∈ ids)) := by
  unfold markEntries
  have hw := ListSet.wf_new n
  obtain ⟨h1, h2⟩ := foldl_visit (ids.takeWhile (fun id => decide (id < (ListSet.new n).len))) _ hw
  refine ⟨h1, ?_, ?_⟩
  · intro k hk
    rw [h2, ListSet.visited_new] at hk
    simp only [Bool.false_or, decide_eq_true_eq] at hk
    exact List.takeWhile_subset _ hk
  · intro hlt k
    have hlen : (ListSet.new n).len = n := by simp [ListSet.len, ListSet.new]
    have htw : ids.takeWhile (fun id => decide (id < (ListSet.new n).len)) = ids := by
      apply takeWhile_all
      intro x hx
      simp [hlen, hlt x hx]
    rw [h2, ListSet.visited_new, htw]
    simp

/-! ### distances -/

theorem mem_distances {env : SEnv V D} {ids : List Nat} {x : Item D} (h : x ∈ distances env ids) :
    x.id ∈ ids ∧ distToNode env x.id = some x.dist := by
  unfold distances at h
  obtain ⟨a, ha, hb⟩ := List.mem_filterMap.mp h
  cases hd : distToNode env a with
  | none => simp [hd] at hb
  | some d =>
    simp only [hd, Option.map_some, Option.some.injEq] at hb
    subst hb
    exact ⟨ha, hd⟩

theorem distances_mem {env : SEnv V D} {ids : List Nat} {id : Nat} {d : D} (hi : id ∈ ids)
    (hd : distToNode env id = some d) : (⟨id, d⟩ : Item D) ∈ distances env ids := by
  unfold distances
  exact List.mem_filterMap.mpr ⟨id, hi, by simp [hd]⟩

theorem distances_ids_sublist (env : SEnv V D) (ids : List Nat) :
    ((distances env ids).map Item.id).Sublist ids := by
  unfold distances
  induction ids with
  | nil => simp
  | cons a ids ih =>
    cases hd : distToNode env a with
    | none => simp only [List.filterMap_cons, hd, Option.map_none]; exact ih.cons a
    | some d =>
      simp only [List.filterMap_cons, hd, Option.map_some, List.map_cons]
      exact ih.cons_cons a

theorem distances_length_le (env : SEnv V D) (ids : List Nat) : (distances env ids).length ≤ ids.length := by
  have := (distances_ids_sublist env ids).length_le
  simpa using this

/-! ### one neighbour -/

/-- what `consider` can do -/
inductive Step (env : SEnv V D) (ef : Int) (level : Nat) (st : St D) (nd : Item D) (st' : St D) : Prop where
  | skip (hw : Dist.lt nd.dist st.worst = false) (hs : ef ≤ st.results.size) (h : st' = st)
  | cand (hv : viable env level nd.id = false)
      (h : st' = { st with cands := insert lessMin st.cands nd })
  | both (hv : viable env level nd.id = true) (t : Item D) (ht : t ∈ (insert lessMin st.cands nd).toList) (htc : t.id < env.cacheSize)
      (r : Array (Item D)) (w : D)
      (hr : ((r = insert lessMax st.results nd ∧ (st.results.size : Int) + 1 ≤ ef) ∨
        (∃ x, pop lessMax (insert lessMax st.results nd) = some (x, r)) ∧ ef < (st.results.size : Int) + 1))
      (hw : (r.size = 0 ∧ w = st.worst) ∨ (∃ x, top r = some x ∧ w = x.dist))
      (h : st' = { st with cands := insert lessMin st.cands nd, results := r, worst := w })

theorem consider_ok {env : SEnv V D} {ef : Int} {level : Nat} {st st' : St D} {nd : Item D}
    (h : consider env ef level st nd = .ok st') : Step env ef level st nd st' := by
  unfold consider at h
  split at h
  · rename_i hc
    simp only at h
    split at h
    · rename_i hv
      refine .cand (by simpa using hv) ?_
      cases h; rfl
    · rename_i hv
      have hv' : viable env level nd.id = true := by simpa using hv
      split at h
      · cases h
      · rename_i t ht
        split at h
        · cases h
        · rename_i hcs
          have htm : t ∈ (insert lessMin st.cands nd).toList := by
            have := Array.mem_of_getElem? ht
            exact this.val
          have hsz := insert_size lessMax st.results nd
          by_cases hgt : ((insert lessMax st.results nd).size : Int) > ef
          · simp only [hgt, if_true] at h
            obtain ⟨x, r, hp⟩ := pop_isSome lessMax (q := insert lessMax st.results nd) (by omega)
            rw [hp] at h
            simp only at h
            refine .both hv' t htm (by omega) r _ (.inr ⟨⟨x, hp⟩, by omega⟩) ?_ (Except.ok.inj h).symm
            cases htop : top r with
            | none => left; refine ⟨?_, rfl⟩; unfold top at htop; simpa using htop
            | some y => right; exact ⟨y, rfl, rfl⟩
          · simp only [hgt, if_false] at h
            refine .both hv' t htm (by omega) _ _ (.inl ⟨rfl, by omega⟩) ?_ (Except.ok.inj h).symm
            cases htop : top (insert lessMax st.results nd) with
            | none => left; refine ⟨?_, rfl⟩; unfold top at htop; simpa using htop
            | some y => right; exact ⟨y, rfl, rfl⟩
  · rename_i hc
    simp only [Bool.or_eq_true, decide_eq_true_eq, not_or, Bool.not_eq_true] at hc
    refine .skip hc.1 (by omega) ?_
    cases h; rfl

theorem consider_total {env : SEnv V D} {ef : Int} {level : Nat} {st : St D} {nd : Item D}
    (h : ∀ t ∈ st.cands.toList, t.id < env.cacheSize) (hn : nd.id < env.cacheSize) :
    ∃ st', consider env ef level st nd = .ok st' := by
  unfold consider
  split
  · simp only
    split
    · exact ⟨_, rfl⟩
    · have hsz := insert_size lessMin st.cands nd
      cases htop : top (insert lessMin st.cands nd) with
      | none => unfold top at htop; simp at htop; simp [htop] at hsz
      | some t =>
        have htm : t ∈ (insert lessMin st.cands nd).toList := (Array.mem_of_getElem? htop).val
        have := (insert_perm lessMin st.cands nd).mem_iff.mp htm
        have ht : t.id < env.cacheSize := by
          rcases List.mem_cons.mp this with rfl | h'
          · exact hn
          · exact h t h'
        simp only [Nat.not_le.mpr ht, if_false]
        exact ⟨_, rfl⟩
  · exact ⟨_, rfl⟩

/-! ### soundness invariant -/

/-- `P` is what is known of every item (for instance: present with true distance). -/
structure Inv (P : Item D → Prop) (env : SEnv V D) (level : Nat) (st : St D) (pend : List (Item D)) : Prop where
  vwf : st.visited.WF
  cand : ∀ c ∈ st.cands.toList, P c ∧ st.visited.visited c.id = true
  res : ∀ r ∈ st.results.toList, P r ∧ st.visited.visited r.id = true ∧ viable env level r.id = true
  pendP : ∀ p ∈ pend, P p ∧ st.visited.visited p.id = true
  candNd : ((st.cands.toList ++ pend).map Item.id).Nodup
  resNd : ((st.results.toList ++ pend).map Item.id).Nodup

theorem nodup_of_perm_append {l l' rest : List (Item D)} {x : List (Item D)} (hp : (x ++ l').Perm l)
    (h : ((l ++ rest).map Item.id).Nodup) : ((l' ++ rest).map Item.id).Nodup := by
  have h1 : ((x ++ l' ++ rest).map Item.id).Perm ((l ++ rest).map Item.id) := ((hp.append_right rest).map _)
  have h2 := h1.nodup_iff.mpr h
  rw [List.append_assoc, List.map_append] at h2
  exact (List.nodup_append.mp h2).2.1

theorem consider_inv {P : Item D → Prop} {env : SEnv V D} {ef : Int} {level : Nat} {st st' : St D} {nd : Item D}
    {pend : List (Item D)} (hi : Inv P env level st (nd :: pend))
    (h : consider env ef level st nd = .ok st') : Inv P env level st' pend ∧ st'.visited = st.visited ∧ st'.n = st.n := by
  obtain ⟨vwf, hc, hr, hp, hcn, hrn⟩ := hi
  have hnd := hp nd (by simp)
  have hp' : ∀ p ∈ pend, P p ∧ st.visited.visited p.id = true := fun p hm => hp p (by simp [hm])
  have hcn1 : ((st.cands.toList ++ pend).map Item.id).Nodup := by
    refine nodup_of_perm_append (x := [nd]) (l' := st.cands.toList ++ pend) (rest := []) ?_ (by rw [List.append_nil]; exact hcn) |> fun h => by simpa using h
    simpa using List.perm_middle.symm
  have hrn1 : ((st.results.toList ++ pend).map Item.id).Nodup := by
    refine nodup_of_perm_append (x := [nd]) (l' := st.results.toList ++ pend) (rest := []) ?_ (by rw [List.append_nil]; exact hrn) |> fun h => by simpa using h
    simpa using List.perm_middle.symm
  have hcn2 : (((insert lessMin st.cands nd).toList ++ pend).map Item.id).Nodup := by
    have hpm : ((insert lessMin st.cands nd).toList ++ pend).Perm (st.cands.toList ++ nd :: pend) :=
      ((insert_perm lessMin st.cands nd).append_right pend).trans List.perm_middle.symm
    exact (hpm.map _).nodup_iff.mpr hcn
  have hc2 : ∀ c ∈ (insert lessMin st.cands nd).toList, P c ∧ st.visited.visited c.id = true := by
    intro c hm
    rcases List.mem_cons.mp ((insert_perm lessMin st.cands nd).mem_iff.mp hm) with rfl | hm
    · exact hnd
    · exact hc c hm
  cases consider_ok h with
  | skip _ _ h => subst h; exact ⟨⟨vwf, hc, hr, hp', hcn1, hrn1⟩, rfl, rfl⟩
  | cand _ h => subst h; exact ⟨⟨vwf, hc2, hr, hp', hcn2, hrn1⟩, rfl, rfl⟩
  | both hv t _ _ r w hrr _ h =>
    subst h
    have hrp : ∃ x : List (Item D), (x ++ r.toList).Perm (nd :: st.results.toList) := by
      rcases hrr with ⟨rfl, _⟩ | ⟨⟨x, hx⟩, _⟩
      · exact ⟨[], insert_perm lessMax st.results nd⟩
      · exact ⟨[x], (pop_perm lessMax hx).symm.trans (insert_perm lessMax st.results nd)⟩
    obtain ⟨x, hx⟩ := hrp
    refine ⟨⟨vwf, hc2, ?_, hp', hcn2, ?_⟩, rfl, rfl⟩
    · intro y hy
      have : y ∈ nd :: st.results.toList := hx.mem_iff.mp (by simp only at hy; simp [hy])
      rcases List.mem_cons.mp this with rfl | hy'
      · exact ⟨hnd.1, hnd.2, hv⟩
      · exact hr y hy'
    · refine nodup_of_perm_append (l := nd :: st.results.toList) (x := x) hx ?_
      have hpm : (nd :: st.results.toList ++ pend).Perm (st.results.toList ++ nd :: pend) := List.perm_middle.symm
      exact (hpm.map _).nodup_iff.mpr hrn

theorem considerAll_inv {P : Item D → Prop} {env : SEnv V D} {ef : Int} {level : Nat} {nds : List (Item D)} {st st' : St D}
    (hi : Inv P env level st nds) (h : considerAll env ef level st nds = .ok st') :
    Inv P env level st' [] ∧ st'.visited = st.visited ∧ st'.n = st.n := by
  induction nds generalizing st with
  | nil => cases h; exact ⟨hi, rfl, rfl⟩
  | cons nd nds ih =>
    unfold considerAll at h
    split at h
    · cases h
    · rename_i st1 h1
      obtain ⟨hi1, hv, hn⟩ := consider_inv hi h1
      obtain ⟨a, b, c⟩ := ih hi1 h
      exact ⟨a, b.trans hv, c.trans hn⟩

/-- the state in which the neighbours of an expanded candidate are considered -/
theorem expand_pend {P : Item D → Prop} {env : SEnv V D} (sched : Sched D) {level : Nat} {st : St D} {links : List Nat}
    (hP : ∀ x, distToNode env x.id = some x.dist → P x)
    (hi : Inv P env level st []) :
    let r := markNew st.visited links
    Inv P env level { st with visited := r.1, n := st.n + 1 } (sched.order st.n (distances env r.2)) := by
  intro r
  obtain ⟨vwf, hc, hr, _, hcn, hrn⟩ := hi
  obtain ⟨m1, m2, m3, m4⟩ := markNew_spec st.visited links vwf
  have hmono : ∀ k, st.visited.visited k = true → r.1.visited k = true := by
    intro k hk
    show (markNew st.visited links).1.visited k = true
    rw [m2]; simp [hk]
  have hpm := sched.perm st.n (distances env r.2)
  have hndn : ((sched.order st.n (distances env r.2)).map Item.id).Nodup :=
    (hpm.map _).nodup_iff.mpr ((distances_ids_sublist env r.2).nodup m3)
  have hfresh : ∀ p ∈ sched.order st.n (distances env r.2), distToNode env p.id = some p.dist ∧ st.visited.visited p.id = false ∧ r.1.visited p.id = true := by
    intro p hp
    obtain ⟨h1, h2⟩ := mem_distances (hpm.mem_iff.mp hp)
    have := (m4 p.id).mp h1
    refine ⟨h2, this.2, ?_⟩
    show (markNew st.visited links).1.visited p.id = true
    rw [m2]; simp [this.1]
  have hdisj : ∀ (q : List (Item D)), (∀ c ∈ q, st.visited.visited c.id = true) → (q.map Item.id).Nodup →
      ((q ++ sched.order st.n (distances env r.2)).map Item.id).Nodup := by
    intro q hq hqn
    rw [List.map_append]
    refine List.nodup_append.mpr ⟨hqn, hndn, ?_⟩
    intro a ha b hb
    obtain ⟨c, hcm, rfl⟩ := List.mem_map.mp ha
    obtain ⟨p, hpm', rfl⟩ := List.mem_map.mp hb
    intro he
    have h1 := hq c hcm
    have h2 := (hfresh p hpm').2.1
    rw [he, h2] at h1
    cases h1
  refine ⟨m1, ?_, ?_, ?_, ?_, ?_⟩
  · intro c hcm; exact ⟨(hc c hcm).1, hmono _ (hc c hcm).2⟩
  · intro x hx; exact ⟨(hr x hx).1, hmono _ (hr x hx).2.1, (hr x hx).2.2⟩
  · intro p hp; exact ⟨hP p (hfresh p hp).1, (hfresh p hp).2.2⟩
  · exact hdisj _ (fun c hcm => (hc c hcm).2) (by simpa using hcn)
  · exact hdisj _ (fun c hcm => (hr c hcm).2.1) (by simpa using hrn)

theorem expand_inv {P : Item D → Prop} {env : SEnv V D} {sched : Sched D} {ef : Int} {level : Nat} {st st' : St D} {links : List Nat}
    (hP : ∀ x, distToNode env x.id = some x.dist → P x)
    (hi : Inv P env level st []) (h : expand env sched ef level st links = .ok st') : Inv P env level st' [] := by
  unfold expand at h
  exact (considerAll_inv (expand_pend sched hP hi) h).1

theorem pop_cands_inv {P : Item D → Prop} {env : SEnv V D} {level : Nat} {st : St D} {c : Item D} {q : Array (Item D)}
    (hi : Inv P env level st []) (hp : pop lessMin st.cands = some (c, q)) :
    Inv P env level { st with cands := q } [] := by
  obtain ⟨vwf, hc, hr, hpe, hcn, hrn⟩ := hi
  have hpm := pop_perm lessMin hp
  refine ⟨vwf, ?_, hr, hpe, ?_, hrn⟩
  · intro x hx; exact hc x (hpm.mem_iff.mpr (List.mem_cons_of_mem _ hx))
  · exact nodup_of_perm_append (x := [c]) hpm.symm hcn

theorem loop_inv {P : Item D → Prop} {env : SEnv V D} {sched : Sched D} {ef : Int} {level : Nat}
    (hP : ∀ x, distToNode env x.id = some x.dist → P x) (fuel : Nat) {st st' : St D}
    (hi : Inv P env level st []) (h : loop env sched ef level fuel st = .ok st') : Inv P env level st' [] := by
  induction fuel generalizing st with
  | zero => cases h
  | succ fuel ih =>
    unfold loop at h
    split at h
    · cases h; exact hi
    · rename_i c q hp
      split at h
      · cases h; exact hi
      · have hi' := pop_cands_inv hi hp
        simp only at h
        split at h
        · exact ih hi' h
        · split at h
          · exact ih hi' h
          · split at h
            · cases h
            · split at h
              · cases h
              · rename_i st1 h1
                exact ih (expand_inv hP hi' h1) h

/-! ### start -/

theorem enter_spec (env : SEnv V D) (level : Nat) (eps : List (Item D)) (cr : Array (Item D) × Array (Item D)) :
    (eps.foldl (enter env level) cr).1.toList.Perm (eps ++ cr.1.toList) ∧
    (eps.foldl (enter env level) cr).2.toList.Perm (eps.filter (fun e => viable env level e.id) ++ cr.2.toList) := by
  induction eps generalizing cr with
  | nil => exact ⟨List.Perm.refl _, List.Perm.refl _⟩
  | cons e eps ih =>
    rw [List.foldl_cons]
    obtain ⟨h1, h2⟩ := ih (enter env level cr e)
    unfold enter at h1 h2 ⊢
    simp only at h1 h2 ⊢
    split at h1
    · rename_i hv
      simp only [hv, if_true] at h2 ⊢
      refine ⟨h1.trans ?_, h2.trans ?_⟩
      · exact ((insert_perm lessMin cr.1 e).append_left eps).trans List.perm_middle
      · simp only [List.filter_cons, hv, if_true]
        exact ((insert_perm lessMax cr.2 e).append_left _).trans List.perm_middle
    · rename_i hv
      simp only [hv] at h2 ⊢
      refine ⟨h1.trans ?_, ?_⟩
      · exact ((insert_perm lessMin cr.1 e).append_left eps).trans List.perm_middle
      · simp only [List.filter_cons, hv]
        exact h2

theorem start_ok {env : SEnv V D} {eps : List (Item D)} {level : Nat} {st : St D} (h : start env eps level = .ok st) :
    st.cands.toList.Perm eps ∧ st.results.toList.Perm (eps.filter (fun e => viable env level e.id)) ∧
    st.visited = markEntries (ListSet.new env.visitedSize) (eps.map Item.id) := by
  unfold start at h
  simp only at h
  split at h
  · cases h
  · cases h
    obtain ⟨h1, h2⟩ := enter_spec env level eps (#[], #[])
    exact ⟨by simpa using h1, by simpa using h2, rfl⟩

/-- entry points of a search: distinct and inside the initial visited list -/
structure EpsOk (env : SEnv V D) (eps : List (Item D)) : Prop where
  nodup : (eps.map Item.id).Nodup
  small : ∀ e ∈ eps, e.id < env.visitedSize

theorem start_inv {P : Item D → Prop} {env : SEnv V D} {eps : List (Item D)} {level : Nat} {st : St D}
    (he : EpsOk env eps) (hP : ∀ e ∈ eps, P e) (h : start env eps level = .ok st) : Inv P env level st [] := by
  obtain ⟨h1, h2, h3⟩ := start_ok h
  obtain ⟨m1, _, m3⟩ := markEntries_spec env.visitedSize (eps.map Item.id)
  have m3 := m3 (by
    intro k hk
    obtain ⟨e, hem, rfl⟩ := List.mem_map.mp hk
    exact he.small e hem)
  have hv : ∀ e ∈ eps, st.visited.visited e.id = true := by
    intro e hem
    rw [h3, m3]
    simp only [decide_eq_true_eq]
    exact List.mem_map_of_mem hem
  refine ⟨by rw [h3]; exact m1, ?_, ?_, by simp, ?_, ?_⟩
  · intro c hc
    have := h1.mem_iff.mp hc
    exact ⟨hP c this, hv c this⟩
  · intro r hr
    have := List.mem_filter.mp (h2.mem_iff.mp hr)
    exact ⟨hP r this.1, hv r this.1, this.2⟩
  · rw [List.append_nil]
    exact (h1.map _).nodup_iff.mpr he.nodup
  · rw [List.append_nil]
    refine (h2.map _).nodup_iff.mpr ?_
    exact (List.filter_sublist.map _).nodup he.nodup

theorem searchLayer_inv {P : Item D → Prop} {env : SEnv V D} {sched : Sched D} {eps : List (Item D)} {ef : Int} {level : Nat}
    {r : Array (Item D)} (hP : ∀ x, distToNode env x.id = some x.dist → P x)
    (he : EpsOk env eps) (hPe : ∀ e ∈ eps, P e) (h : searchLayer env sched eps ef level = .ok r) :
    (∀ x ∈ r.toList, P x ∧ viable env level x.id = true) ∧ (r.toList.map Item.id).Nodup := by
  unfold searchLayer at h
  split at h
  · cases h
  · rename_i st hs
    split at h
    · cases h
    · rename_i st' hl
      cases h
      have := loop_inv hP _ (start_inv he hPe hs) hl
      exact ⟨fun x hx => ⟨(this.res x hx).1, (this.res x hx).2.2⟩, by simpa using this.resNd⟩

/-! ### termination -/

theorem consider_cands_le {env : SEnv V D} {ef : Int} {level : Nat} {st st' : St D} {nd : Item D}
    (h : consider env ef level st nd = .ok st') :
    st'.cands.size ≤ st.cands.size + 1 ∧ st'.visited = st.visited := by
  have hs := insert_size lessMin st.cands nd
  cases consider_ok h with
  | skip _ _ h => subst h; exact ⟨by omega, rfl⟩
  | cand _ h => subst h; exact ⟨by simp only; omega, rfl⟩
  | both _ _ _ _ _ _ _ _ h => subst h; exact ⟨by simp only; omega, rfl⟩

theorem considerAll_cands_le {env : SEnv V D} {ef : Int} {level : Nat} {nds : List (Item D)} {st st' : St D}
    (h : considerAll env ef level st nds = .ok st') :
    st'.cands.size ≤ st.cands.size + nds.length ∧ st'.visited = st.visited := by
  induction nds generalizing st with
  | nil => cases h; exact ⟨by simp, rfl⟩
  | cons nd nds ih =>
    unfold considerAll at h
    split at h
    · cases h
    · rename_i st1 h1
      obtain ⟨a, b⟩ := consider_cands_le h1
      obtain ⟨c, d⟩ := ih h
      exact ⟨by simp only [List.length_cons]; omega, d.trans b⟩

theorem consider_err {env : SEnv V D} {ef : Int} {level : Nat} {st : St D} {nd : Item D} {e : Err}
    (h : consider env ef level st nd = .error e) : e = .panic := by
  unfold consider at h
  simp only at h
  split at h
  · split at h
    · cases h
    · split at h
      · cases h; rfl
      · split at h
        · cases h; rfl
        · cases h
  · cases h

theorem considerAll_err {env : SEnv V D} {ef : Int} {level : Nat} {nds : List (Item D)} {st : St D} {e : Err}
    (h : considerAll env ef level st nds = .error e) : e = .panic := by
  induction nds generalizing st with
  | nil => cases h
  | cons nd nds ih =>
    unfold considerAll at h
    split at h
    · rename_i e' h1
      have := consider_err h1
      cases h; exact this
    · exact ih h

/-- keys not yet visited -/
def unvisited (env : SEnv V D) (vis : ListSet) : List Nat := env.keys.filter (fun k => !vis.visited k)

/-- every present id is listed -/
def KeysOk (env : SEnv V D) : Prop := ∀ id v, env.get id = some v → id ∈ env.keys

theorem distToNode_key {env : SEnv V D} (hk : KeysOk env) {id : Nat} {d : D} (h : distToNode env id = some d) :
    id ∈ env.keys := by
  unfold distToNode at h
  split at h
  · cases h
  · rename_i v hv; exact hk id v hv

theorem filter_length_split {α : Type} (p q : α → Bool) (l : List α) (hpq : ∀ x, q x = true → p x = true) :
    (l.filter p).length = (l.filter q).length + (l.filter (fun x => p x && !q x)).length := by
  induction l with
  | nil => rfl
  | cons x l ih =>
    have := hpq x
    cases hp : p x <;> cases hq : q x <;> simp_all <;> omega

theorem expand_measure {env : SEnv V D} {sched : Sched D} {ef : Int} {level : Nat} {st st' : St D} {links : List Nat}
    (hk : KeysOk env) (vwf : st.visited.WF) (h : expand env sched ef level st links = .ok st') :
    st'.cands.size + (unvisited env st'.visited).length ≤ st.cands.size + (unvisited env st.visited).length
    ∧ st'.visited.WF := by
  unfold expand at h
  simp only at h
  obtain ⟨h1, h2⟩ := considerAll_cands_le h
  simp only at h1 h2
  obtain ⟨m1, m2, m3, m4⟩ := markNew_spec st.visited links vwf
  have hpm := sched.perm st.n (distances env (markNew st.visited links).2)
  rw [hpm.length_eq] at h1
  have hsplit := filter_length_split (fun k => !st.visited.visited k) (fun k => !(markNew st.visited links).1.visited k) env.keys
    (by intro x hx; rw [m2] at hx; simp at hx; simp [hx.1])
  have hsub : (distances env (markNew st.visited links).2).length ≤
      (env.keys.filter (fun k => !st.visited.visited k && !(!(markNew st.visited links).1.visited k))).length := by
    rw [← List.length_map (f := Item.id)]
    refine List.Nodup.length_le_of_subset ((distances_ids_sublist env _).nodup m3) ?_
    intro k hkm
    obtain ⟨x, hx, rfl⟩ := List.mem_map.mp hkm
    obtain ⟨hx1, hx2⟩ := mem_distances hx
    have hx3 := (m4 x.id).mp hx1
    refine List.mem_filter.mpr ⟨distToNode_key hk hx2, ?_⟩
    rw [m2]
    simp [hx3.1, hx3.2]
  rw [h2]
  refine ⟨?_, m1⟩
  unfold unvisited
  omega

theorem loop_no_fuel {env : SEnv V D} {sched : Sched D} {ef : Int} {level : Nat} (hk : KeysOk env) (fuel : Nat) (st : St D)
    (vwf : st.visited.WF) (hf : st.cands.size + (unvisited env st.visited).length < fuel) :
    loop env sched ef level fuel st ≠ .error .fuel := by
  induction fuel generalizing st with
  | zero => omega
  | succ fuel ih =>
    unfold loop
    split
    · simp
    · rename_i c q hp
      have hs := pop_size lessMin hp
      split
      · simp
      · simp only
        have hrec := ih { st with cands := q } vwf (by simp only; omega)
        split
        · exact hrec
        · split
          · exact hrec
          · split
            · simp
            · split
              · rename_i e he
                unfold expand at he
                have := considerAll_err he
                subst this
                simp
              · rename_i st1 h1
                obtain ⟨hm, hw⟩ := expand_measure hk (st := { st with cands := q }) vwf h1
                simp only at hm
                exact ih st1 hw (by omega)

theorem searchLayer_no_fuel {env : SEnv V D} {sched : Sched D} {eps : List (Item D)} {ef : Int} {level : Nat} (hk : KeysOk env) :
    searchLayer env sched eps ef level ≠ .error .fuel := by
  unfold searchLayer
  split
  · rename_i e he
    unfold start worst0 at he
    simp only at he
    split at he
    · rename_i e' he'
      split at he'
      · cases he'
      · split at he'
        · cases he'; cases he; simp
        · cases he'
    · cases he
  · rename_i st hs
    obtain ⟨h1, _, h3⟩ := start_ok hs
    have hlen : st.cands.size = eps.length := by simpa using h1.length_eq
    have hvis : st.visited.WF := by rw [h3]; exact (markEntries_spec _ _).1
    have hu : (unvisited env st.visited).length ≤ env.keys.length := List.length_filter_le _ _
    have := loop_no_fuel (sched := sched) (ef := ef) (level := level) hk (eps.length + env.keys.length + 1) st hvis (by omega)
    split
    · rename_i e he; intro hc; cases hc; exact this he
    · simp

/-! ### no panic, no error -/

/-- the graph as far as a search on `level` can run into trouble: link lists exist up to the level of the node, and ids
stay below the vector cache size -/
structure GraphOk (env : SEnv V D) : Prop where
  conns : ∀ id v, env.get id = some v → ∀ l, l ≤ v.level → ∃ links, v.conns[l]? = some links
  small : ∀ id v, env.get id = some v → id < env.cacheSize

theorem considerAll_total {P : Item D → Prop} {env : SEnv V D} {ef : Int} {level : Nat} (hP : ∀ x, P x → x.id < env.cacheSize)
    {nds : List (Item D)} {st : St D} (hi : Inv P env level st nds) :
    ∃ st', considerAll env ef level st nds = .ok st' := by
  induction nds generalizing st with
  | nil => exact ⟨st, rfl⟩
  | cons nd nds ih =>
    obtain ⟨st1, h1⟩ := consider_total (env := env) (ef := ef) (level := level) (st := st) (nd := nd)
      (fun t ht => hP t (hi.cand t ht).1) (hP nd (hi.pendP nd (by simp)).1)
    unfold considerAll
    rw [h1]
    exact ih (consider_inv hi h1).1

theorem loop_total {P : Item D → Prop} {env : SEnv V D} {sched : Sched D} {ef : Int} {level : Nat} (hg : GraphOk env) (hk : KeysOk env)
    (hP : ∀ x, distToNode env x.id = some x.dist → P x) (hPs : ∀ x, P x → x.id < env.cacheSize)
    (fuel : Nat) (st : St D) (hi : Inv P env level st [])
    (hf : st.cands.size + (unvisited env st.visited).length < fuel) :
    ∃ st', loop env sched ef level fuel st = .ok st' := by
  induction fuel generalizing st with
  | zero => omega
  | succ fuel ih =>
    unfold loop
    split
    · exact ⟨_, rfl⟩
    · rename_i c q hp
      have hs := pop_size lessMin hp
      split
      · exact ⟨_, rfl⟩
      · simp only
        have hi' := pop_cands_inv hi hp
        have hrec := ih { st with cands := q } hi' (by simp only; omega)
        split
        · exact hrec
        · rename_i v hv
          split
          · exact hrec
          · rename_i hl
            obtain ⟨links, hlinks⟩ := hg.conns c.id v hv level (by omega)
            rw [hlinks]
            simp only
            obtain ⟨st1, h1⟩ := considerAll_total (ef := ef) hPs (expand_pend (links := links) sched hP hi')
            have h1' : expand env sched ef level { st with cands := q } links = .ok st1 := h1
            rw [h1']
            simp only
            obtain ⟨hm, hw⟩ := expand_measure hk (st := { st with cands := q }) hi.vwf h1'
            simp only at hm
            exact ih st1 (expand_inv hP hi' h1') (by omega)

theorem searchLayer_total {env : SEnv V D} {sched : Sched D} {eps : List (Item D)} {ef : Int} {level : Nat}
    (hg : GraphOk env) (hk : KeysOk env) (he : EpsOk env eps)
    (hd : ∀ e ∈ eps, ∃ d, distToNode env e.id = some d) :
    ∃ r, searchLayer env sched eps ef level = .ok r := by
  let P : Item D → Prop := fun x => ∃ v, env.get x.id = some v
  have hP : ∀ x : Item D, distToNode env x.id = some x.dist → P x := by
    intro x hx
    unfold distToNode at hx
    split at hx
    · cases hx
    · rename_i v hv; exact ⟨v, hv⟩
  have hPe : ∀ e ∈ eps, P e := by
    intro e hem
    obtain ⟨d, hd⟩ := hd e hem
    unfold distToNode at hd
    split at hd
    · cases hd
    · rename_i v hv; exact ⟨v, hv⟩
  have hst : ∃ st, start env eps level = .ok st := by
    unfold start
    simp only
    have hw : ∃ w, worst0 env (eps.foldl (enter env level) (#[], #[])).2 = .ok w := by
      unfold worst0
      split
      · exact ⟨_, rfl⟩
      · rename_i t ht
        have htm : t ∈ (eps.foldl (enter env level) (#[], #[])).2.toList := (Array.mem_of_getElem? ht).val
        have := (enter_spec env level eps (#[], #[])).2.mem_iff.mp htm
        have hte : t ∈ eps := by simp at this; exact this.1
        obtain ⟨d, hd⟩ := hd t hte
        rw [hd]
        exact ⟨_, rfl⟩
    obtain ⟨w, hw⟩ := hw
    rw [hw]
    exact ⟨_, rfl⟩
  obtain ⟨st, hst⟩ := hst
  obtain ⟨h1, _, h3⟩ := start_ok hst
  have hlen : st.cands.size = eps.length := by simpa using h1.length_eq
  have hu : (unvisited env st.visited).length ≤ env.keys.length := List.length_filter_le _ _
  obtain ⟨st', hl⟩ := loop_total (P := P) (sched := sched) (ef := ef) (level := level) hg hk hP (fun x hx => by
    obtain ⟨v, hv⟩ := hx; exact hg.small x.id v hv) (eps.length + env.keys.length + 1) st (start_inv he hPe hst) (by omega)
  refine ⟨st'.results, ?_⟩
  unfold searchLayer
  rw [hst]
  simp only
  rw [hl]

end Fave.Search
