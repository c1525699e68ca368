import Verif.Lemmas.Search
import Verif.Spec.Graph
/-! Completeness of the layer search when the width is large enough. -/
set_option linter.unusedSectionVars false
namespace Fave.Search
open Queue Spec
variable {V D : Type} [Dist D]

theorem viable_iff (env : SEnv V D) (level id : Nat) : viable env level id = true ↔ Eligible env level id := by
  unfold viable Eligible
  cases h : env.allow with
  | none => simp
  | some p =>
    simp
    by_cases h0 : level = 0 <;> simp [h0, and_comm]

theorem hasDist_iff (env : SEnv V D) (id : Nat) (d : D) : distToNode env id = some d ↔ HasDist env id d := by
  unfold distToNode HasDist
  cases h : env.get id <;> simp

/-- links of `x` are all visited -/
def Closed (env : SEnv V D) (level : Nat) (vis : ListSet) (x : Nat) : Prop :=
  ∀ y, Linked env level x y → vis.visited y = true

/-- completeness invariant; `R` lists everything reachable, `pend` are marked neighbours not yet considered -/
structure Full (R : List Nat) (env : SEnv V D) (level : Nat) (st : St D) (pend : List (Item D)) : Prop where
  res : ∀ x ∈ st.results.toList, x.id ∈ R
  pendR : ∀ x ∈ pend, x.id ∈ R
  candR : ∀ x ∈ st.cands.toList, x.id ∈ R
  complete : ∀ x d, HasDist env x d → st.visited.visited x = true → Eligible env level x →
    x ∈ st.results.toList.map Item.id ∨ x ∈ pend.map Item.id
  closed : ∀ x d, HasDist env x d → st.visited.visited x = true →
    x ∈ st.cands.toList.map Item.id ∨ x ∈ pend.map Item.id ∨ Closed env level st.visited x

theorem consider_full {P : Item D → Prop} {R : List Nat} {env : SEnv V D} {ef : Int} {level : Nat} {st st' : St D} {nd : Item D}
    {pend : List (Item D)} (hef : (R.length : Int) ≤ ef)
    (hi : Inv P env level st (nd :: pend)) (hf : Full R env level st (nd :: pend))
    (h : consider env ef level st nd = .ok st') : Full R env level st' pend := by
  have hlt : (st.results.size : Int) + 1 ≤ ef := by
    have hsub : (st.results.toList ++ nd :: pend).map Item.id ⊆ R := by
      intro k hk
      obtain ⟨x, hx, rfl⟩ := List.mem_map.mp hk
      rcases List.mem_append.mp hx with hx | hx
      · exact hf.res x hx
      · exact hf.pendR x hx
    have := List.Nodup.length_le_of_subset hi.resNd hsub
    simp at this
    omega
  have hcp := insert_perm lessMin st.cands nd
  have hcm : ∀ x, x ∈ (insert lessMin st.cands nd).toList.map Item.id ↔ x = nd.id ∨ x ∈ st.cands.toList.map Item.id := by
    intro x
    rw [(hcp.map Item.id).mem_iff]; simp
  have hcR : ∀ x ∈ (insert lessMin st.cands nd).toList, x.id ∈ R := by
    intro x hx
    rcases List.mem_cons.mp (hcp.mem_iff.mp hx) with rfl | hx
    · exact hf.pendR _ (by simp)
    · exact hf.candR x hx
  have hclosed : ∀ x d, HasDist env x d → st.visited.visited x = true →
      x ∈ (insert lessMin st.cands nd).toList.map Item.id ∨ x ∈ pend.map Item.id ∨ Closed env level st.visited x := by
    intro x d hd hv
    rw [hcm]
    rcases hf.closed x d hd hv with h | h | h
    · exact .inl (.inr h)
    · rw [List.map_cons, List.mem_cons] at h
      rcases h with h | h
      · exact .inl (.inl h)
      · exact .inr (.inl h)
    · exact .inr (.inr h)
  have hp' : ∀ x ∈ pend, x.id ∈ R := fun x hx => hf.pendR x (by simp [hx])
  cases consider_ok h with
  | skip _ hs _ => omega
  | cand hv h =>
    subst h
    refine ⟨hf.res, hp', hcR, ?_, hclosed⟩
    intro x d hd hvis hel
    rcases hf.complete x d hd hvis hel with h | h
    · exact .inl h
    · rw [List.map_cons, List.mem_cons] at h
      rcases h with h | h
      · subst h
        rw [← viable_iff, hv] at hel
        cases hel
      · exact .inr h
  | both hv t _ _ r w hr _ h =>
    subst h
    rcases hr with ⟨rfl, _⟩ | ⟨_, hgt⟩
    · have hrp := insert_perm lessMax st.results nd
      have hrm : ∀ x, x ∈ (insert lessMax st.results nd).toList.map Item.id ↔ x = nd.id ∨ x ∈ st.results.toList.map Item.id := by
        intro x
        rw [(hrp.map Item.id).mem_iff]; simp
      refine ⟨?_, hp', hcR, ?_, hclosed⟩
      · intro x hx
        rcases List.mem_cons.mp (hrp.mem_iff.mp hx) with rfl | hx
        · exact hf.pendR _ (by simp)
        · exact hf.res x hx
      · intro x d hd hvis hel
        simp only
        rw [hrm]
        rcases hf.complete x d hd hvis hel with h | h
        · exact .inl (.inr h)
        · rw [List.map_cons, List.mem_cons] at h
          rcases h with h | h
          · exact .inl (.inl h)
          · exact .inr h
    · omega

theorem considerAll_full {P : Item D → Prop} {R : List Nat} {env : SEnv V D} {ef : Int} {level : Nat} (hef : (R.length : Int) ≤ ef)
    {nds : List (Item D)} {st st' : St D}
    (hi : Inv P env level st nds) (hf : Full R env level st nds) (h : considerAll env ef level st nds = .ok st') :
    Full R env level st' [] := by
  induction nds generalizing st with
  | nil => cases h; exact hf
  | cons nd nds ih =>
    unfold considerAll at h
    split at h
    · cases h
    · rename_i st1 h1
      exact ih (consider_inv hi h1).1 (consider_full hef hi hf h1) h

/-- expanding the popped candidate `c` -/
theorem expand_full {P : Item D → Prop} {R : List Nat} {env : SEnv V D} {sched : Sched D} {ef : Int} {level : Nat} (hef : (R.length : Int) ≤ ef)
    (hR : ∀ a b d, a ∈ R → Linked env level a b → HasDist env b d → b ∈ R)
    (hP : ∀ x, distToNode env x.id = some x.dist → P x)
    {st st' : St D} {c : Item D} {q : Array (Item D)} {links : List Nat} {v : Vertex V}
    (hi : Inv P env level st []) (hf : Full R env level st [])
    (hp : pop lessMin st.cands = some (c, q)) (hv : env.get c.id = some v) (hl : level ≤ v.level)
    (hlinks : v.conns[level]? = some links)
    (h : expand env sched ef level { st with cands := q } links = .ok st') : Full R env level st' [] := by
  have hi' := pop_cands_inv hi hp
  unfold expand at h
  simp only at h
  refine considerAll_full hef (expand_pend sched hP hi') ?_ h
  obtain ⟨m1, m2, m3, m4⟩ := markNew_spec st.visited links hi.vwf
  have hpm := sched.perm st.n (distances env (markNew st.visited links).2)
  have hpop := pop_perm lessMin hp
  have hcR : c.id ∈ R := hf.candR c (hpop.mem_iff.mpr (by simp))
  have hmono : ∀ k, st.visited.visited k = true → (markNew st.visited links).1.visited k = true := by
    intro k hk; rw [m2]; simp [hk]
  have hnew : ∀ x d, HasDist env x d → (markNew st.visited links).1.visited x = true → st.visited.visited x = false →
      x ∈ (sched.order st.n (distances env (markNew st.visited links).2)).map Item.id := by
    intro x d hd hv1 hv0
    have hx : x ∈ links := by
      rw [m2, hv0] at hv1; simpa using hv1
    refine List.mem_map.mpr ⟨⟨x, d⟩, hpm.mem_iff.mpr ?_, rfl⟩
    exact distances_mem ((m4 x).mpr ⟨hx, hv0⟩) ((hasDist_iff env x d).mpr hd)
  refine ⟨hf.res, ?_, ?_, ?_, ?_⟩
  · intro x hx
    obtain ⟨hx1, hx2⟩ := mem_distances (hpm.mem_iff.mp hx)
    refine hR c.id x.id x.dist hcR ⟨v, links, hv, hl, hlinks, ((m4 x.id).mp hx1).1⟩ ((hasDist_iff _ _ _).mp hx2)
  · intro x hx
    exact hf.candR x (hpop.mem_iff.mpr (List.mem_cons_of_mem _ hx))
  · intro x d hd hvis hel
    cases hv0 : st.visited.visited x with
    | true =>
      rcases hf.complete x d hd hv0 hel with h | h
      · exact .inl h
      · simp at h
    | false => exact .inr (hnew x d hd hvis hv0)
  · intro x d hd hvis
    cases hv0 : st.visited.visited x with
    | false => exact .inr (.inl (hnew x d hd hvis hv0))
    | true =>
      rcases hf.closed x d hd hv0 with h | h | h
      · rw [(hpop.map Item.id).mem_iff, List.map_cons, List.mem_cons] at h
        rcases h with h | h
        · refine .inr (.inr ?_)
          subst h
          intro y hy
          obtain ⟨v', links', hv', _, hlinks', hyl⟩ := hy
          rw [hv] at hv'
          cases hv'
          rw [hlinks] at hlinks'
          cases hlinks'
          rw [m2]
          simp [hyl]
        · exact .inl h
      · simp at h
      · exact .inr (.inr (fun y hy => hmono _ (h y hy)))

/-- a popped candidate without links on this level -/
theorem drop_full {R : List Nat} {env : SEnv V D} {level : Nat} {st : St D} {c : Item D} {q : Array (Item D)}
    (hf : Full R env level st []) (hp : pop lessMin st.cands = some (c, q))
    (hno : ∀ y, ¬ Linked env level c.id y) : Full R env level { st with cands := q } [] := by
  have hpop := pop_perm lessMin hp
  refine ⟨hf.res, by simp, ?_, hf.complete, ?_⟩
  · intro x hx
    exact hf.candR x (hpop.mem_iff.mpr (List.mem_cons_of_mem _ hx))
  · intro x d hd hvis
    rcases hf.closed x d hd hvis with h | h | h
    · rw [(hpop.map Item.id).mem_iff, List.map_cons, List.mem_cons] at h
      rcases h with h | h
      · subst h
        exact .inr (.inr (fun y hy => absurd hy (hno y)))
      · exact .inl h
    · simp at h
    · exact .inr (.inr h)

theorem nodup_cover {l R : List Nat} (h : l.Nodup) (hs : l ⊆ R) (hlen : R.length ≤ l.length) : R ⊆ l := by
  intro x hx
  refine Classical.byContradiction (fun hnx => ?_)
  have h1 : l ⊆ R.erase x := by
    intro y hy
    have hne : y ≠ x := fun he => hnx (he ▸ hy)
    exact (List.mem_erase_of_ne hne).mpr (hs hy)
  have h2 := List.Nodup.length_le_of_subset h h1
  rw [List.length_erase_of_mem hx] at h2
  have : 0 < R.length := List.length_pos_of_mem hx
  omega

/-- what holds at the end of the loop -/
theorem loop_full {P : Item D → Prop} {R : List Nat} {env : SEnv V D} {sched : Sched D} {ef : Int} {level : Nat} (hef : (R.length : Int) ≤ ef)
    (hR : ∀ a b d, a ∈ R → Linked env level a b → HasDist env b d → b ∈ R)
    (hP : ∀ x, distToNode env x.id = some x.dist → P x) (fuel : Nat) {st st' : St D}
    (hi : Inv P env level st []) (hf : Full R env level st [])
    (h : loop env sched ef level fuel st = .ok st') :
    R ⊆ st'.results.toList.map Item.id ∨
    (Full R env level st' [] ∧ st'.cands.size = 0 ∧ ∀ k, st.visited.visited k = true → st'.visited.visited k = true) := by
  induction fuel generalizing st with
  | zero => cases h
  | succ fuel ih =>
    unfold loop at h
    split at h
    · rename_i hp
      cases h
      exact .inr ⟨hf, pop_none lessMin hp, fun _ h => h⟩
    · rename_i c q hp
      split at h
      · rename_i hc
        cases h
        simp only [Bool.and_eq_true, decide_eq_true_eq] at hc
        left
        refine nodup_cover (by simpa using hi.resNd) ?_ ?_
        · intro k hk
          obtain ⟨x, hx, rfl⟩ := List.mem_map.mp hk
          exact hf.res x hx
        · simp; omega
      · have hi' := pop_cands_inv hi hp
        simp only at h
        split at h
        · rename_i hg
          exact ih (st := { st with cands := q }) hi' (drop_full hf hp (fun y hy => by obtain ⟨v, l, hv, _⟩ := hy; rw [hg] at hv; cases hv)) h
        · rename_i v hv
          split at h
          · rename_i hlv
            exact ih (st := { st with cands := q }) hi' (drop_full hf hp (fun y hy => by
              obtain ⟨v', l, hv', hle, _⟩ := hy; rw [hv] at hv'; cases hv'; omega)) h
          · rename_i hlv
            split at h
            · cases h
            · rename_i links hlinks
              split at h
              · cases h
              · rename_i st1 h1
                have hmono : ∀ k, st.visited.visited k = true → st1.visited.visited k = true := by
                  intro k hk
                  have h1' := h1
                  unfold expand at h1'
                  simp only at h1'
                  rw [(considerAll_cands_le h1').2]
                  simp only
                  rw [(markNew_spec st.visited links hi.vwf).2.1]
                  simp [hk]
                rcases ih (expand_inv hP hi' h1) (expand_full hef hR hP hi hf hp hv (by omega) hlinks h1) h with h | ⟨a, b, c⟩
                · exact .inl h
                · exact .inr ⟨a, b, fun k hk => c k (hmono k hk)⟩

theorem searchLayer_complete {env : SEnv V D} {sched : Sched D} {eps : List (Item D)} {ef : Int} {level : Nat}
    {r : Array (Item D)} (he : EpsOk env eps)
    (hd : ∀ e ∈ eps, ∃ d, HasDist env e.id d)
    (R : List Nat) (hRr : ∀ x, Reach env level (eps.map Item.id) x ↔ x ∈ R) (hef : (R.length : Int) ≤ ef)
    (h : searchLayer env sched eps ef level = .ok r) (x : Nat) (hx : Reach env level (eps.map Item.id) x)
    (hel : Eligible env level x) : x ∈ r.toList.map Item.id := by
  have hR : ∀ a b d, a ∈ R → Linked env level a b → HasDist env b d → b ∈ R := by
    intro a b d ha hl hdb
    exact (hRr b).mp (.link a b d ((hRr a).mpr ha) hl hdb)
  unfold searchLayer at h
  split at h
  · cases h
  · rename_i st hs
    split at h
    · cases h
    · rename_i st' hl
      cases h
      obtain ⟨h1, h2, h3⟩ := start_ok hs
      obtain ⟨m1, m2, m3⟩ := markEntries_spec env.visitedSize (eps.map Item.id)
      have m3 := m3 (by
        intro k hk
        obtain ⟨e, hem, rfl⟩ := List.mem_map.mp hk
        exact he.small e hem)
      have hvis : ∀ k, st.visited.visited k = true ↔ k ∈ eps.map Item.id := by
        intro k; rw [h3, m3]; simp
      have hepsR : ∀ e ∈ eps, e.id ∈ R := fun e hem => (hRr _).mp (.start _ (List.mem_map_of_mem hem))
      have hinv := start_inv (P := fun _ => True) he (fun _ _ => trivial) hs
      have hfull : Full R env level st [] := by
        refine ⟨?_, by simp, ?_, ?_, ?_⟩
        · intro x hx
          exact hepsR x (List.mem_filter.mp (h2.mem_iff.mp hx)).1
        · intro x hx
          exact hepsR x (h1.mem_iff.mp hx)
        · intro x d _ hv hel
          left
          obtain ⟨e, hem, rfl⟩ := List.mem_map.mp ((hvis x).mp hv)
          exact List.mem_map_of_mem (h2.mem_iff.mpr (List.mem_filter.mpr ⟨hem, (viable_iff env level e.id).mpr hel⟩))
        · intro x d _ hv
          left
          obtain ⟨e, hem, rfl⟩ := List.mem_map.mp ((hvis x).mp hv)
          exact List.mem_map_of_mem (h1.mem_iff.mpr hem)
      rcases loop_full hef hR (fun _ _ => trivial) _ hinv hfull hl with hall | ⟨hf, hc0, hmono⟩
      · exact hall ((hRr x).mp hx)
      · have hc : st'.cands.toList = [] := by
          have : st'.cands = #[] := by simpa using hc0
          simp [this]
        have hreach : ∀ y, Reach env level (eps.map Item.id) y → st'.visited.visited y = true ∧ ∃ d, HasDist env y d := by
          intro y hy
          induction hy with
          | start id hid =>
            refine ⟨hmono _ ((hvis id).mpr hid), ?_⟩
            obtain ⟨e, hem, rfl⟩ := List.mem_map.mp hid
            exact hd e hem
          | link a b d _ hlk hdb ih =>
            refine ⟨?_, d, hdb⟩
            obtain ⟨hva, da, hda⟩ := ih
            rcases hf.closed a da hda hva with h | h | h
            · simp [hc] at h
            · simp at h
            · exact h b hlk
        obtain ⟨hvx, d, hdx⟩ := hreach x hx
        rcases hf.complete x d hdx hvx hel with h | h
        · exact h
        · simp at h

end Fave.Search
