import Verif.Lemmas.SearchComplete
/-! A layer search delivers as many results as its width, or everything it can reach. -/
set_option linter.unusedSectionVars false
namespace Fave.Search
open Queue Spec
variable {V D : Type} [Dist D]

/-- the completeness invariant while the results are not full; `pend` are marked neighbours not yet considered -/
structure Whole (env : SEnv V D) (level : Nat) (st : St D) (pend : List (Item D)) : Prop where
  complete : ∀ x d, HasDist env x d → st.visited.visited x = true → Eligible env level x →
    x ∈ st.results.toList.map Item.id ∨ x ∈ pend.map Item.id
  closed : ∀ x d, HasDist env x d → st.visited.visited x = true →
    x ∈ st.cands.toList.map Item.id ∨ x ∈ pend.map Item.id ∨ Closed env level st.visited x

/-- the results are full, or nothing has been left out -/
def Many (ef : Int) (env : SEnv V D) (level : Nat) (st : St D) (pend : List (Item D)) : Prop :=
  ef ≤ (st.results.size : Int) ∨ Whole env level st pend

theorem consider_many {env : SEnv V D} {ef : Int} {level : Nat} {st st' : St D} {nd : Item D} {pend : List (Item D)}
    (hm : Many ef env level st (nd :: pend)) (h : consider env ef level st nd = .ok st') : Many ef env level st' pend := by
  have hcp := insert_perm lessMin st.cands nd
  have hcm : ∀ x, x ∈ (insert lessMin st.cands nd).toList.map Item.id ↔ x = nd.id ∨ x ∈ st.cands.toList.map Item.id := by
    intro x
    rw [(hcp.map Item.id).mem_iff]; simp
  have hclosed : Whole env level st (nd :: pend) → ∀ x d, HasDist env x d → st.visited.visited x = true →
      x ∈ (insert lessMin st.cands nd).toList.map Item.id ∨ x ∈ pend.map Item.id ∨ Closed env level st.visited x := by
    intro hf x d hd hv
    rw [hcm]
    rcases hf.closed x d hd hv with h | h | h
    · exact .inl (.inr h)
    · rw [List.map_cons, List.mem_cons] at h
      rcases h with h | h
      · exact .inl (.inl h)
      · exact .inr (.inl h)
    · exact .inr (.inr h)
  cases consider_ok h with
  | skip _ hs h => left; rw [h]; exact hs
  | cand hv h =>
    subst h
    rcases hm with hm | hf
    · exact .inl hm
    · refine .inr ⟨?_, hclosed hf⟩
      intro x d hd hvis hel
      rcases hf.complete x d hd hvis hel with h | h
      · exact .inl h
      · rw [List.map_cons, List.mem_cons] at h
        rcases h with h | h
        · subst h
          rw [← viable_iff, hv] at hel
          cases hel
        · exact .inr h
  | both hv t _ _ r w hr _ h =>
    subst h
    have hs := insert_size lessMax st.results nd
    rcases hr with ⟨rfl, h1⟩ | ⟨⟨x, hx⟩, h2⟩
    · rcases hm with hm | hf
      · left; show ef ≤ ((insert lessMax st.results nd).size : Int); omega
      · have hrp := insert_perm lessMax st.results nd
        have hrm : ∀ x, x ∈ (insert lessMax st.results nd).toList.map Item.id ↔ x = nd.id ∨ x ∈ st.results.toList.map Item.id := by
          intro x
          rw [(hrp.map Item.id).mem_iff]; simp
        refine .inr ⟨?_, hclosed hf⟩
        intro x d hd hvis hel
        simp only
        rw [hrm]
        rcases hf.complete x d hd hvis hel with h | h
        · exact .inl (.inr h)
        · rw [List.map_cons, List.mem_cons] at h
          rcases h with h | h
          · exact .inl (.inl h)
          · exact .inr h
    · left
      show ef ≤ (r.size : Int)
      have := (pop_perm lessMax hx).length_eq
      simp at this
      omega

theorem considerAll_many {env : SEnv V D} {ef : Int} {level : Nat} {nds : List (Item D)} {st st' : St D}
    (hm : Many ef env level st nds) (h : considerAll env ef level st nds = .ok st') : Many ef env level st' [] := by
  induction nds generalizing st with
  | nil => cases h; exact hm
  | cons nd nds ih =>
    unfold considerAll at h
    split at h
    · cases h
    · rename_i st1 h1
      exact ih (consider_many hm h1) h

theorem expand_many {env : SEnv V D} {sched : Sched D} {ef : Int} {level : Nat}
    {st st' : St D} {c : Item D} {q : Array (Item D)} {links : List Nat} {v : Vertex V} (hw : st.visited.WF)
    (hf : Many ef env level st [])
    (hp : pop lessMin st.cands = some (c, q)) (hv : env.get c.id = some v)
    (hlinks : v.conns[level]? = some links)
    (h : expand env sched ef level { st with cands := q } links = .ok st') : Many ef env level st' [] := by
  unfold expand at h
  simp only at h
  refine considerAll_many ?_ h
  rcases hf with hf | hf
  · exact .inl hf
  right
  obtain ⟨m1, m2, m3, m4⟩ := markNew_spec st.visited links hw
  have hpm := sched.perm st.n (distances env (markNew st.visited links).2)
  have hpop := pop_perm lessMin hp
  have hmono : ∀ k, st.visited.visited k = true → (markNew st.visited links).1.visited k = true := by
    intro k hk; rw [m2]; simp [hk]
  have hnew : ∀ x d, HasDist env x d → (markNew st.visited links).1.visited x = true → st.visited.visited x = false →
      x ∈ (sched.order st.n (distances env (markNew st.visited links).2)).map Item.id := by
    intro x d hd hv1 hv0
    have hx : x ∈ links := by
      rw [m2, hv0] at hv1; simpa using hv1
    refine List.mem_map.mpr ⟨⟨x, d⟩, hpm.mem_iff.mpr ?_, rfl⟩
    exact distances_mem ((m4 x).mpr ⟨hx, hv0⟩) ((hasDist_iff env x d).mpr hd)
  refine ⟨?_, ?_⟩
  · intro x d hd hvis hel
    cases hv0 : st.visited.visited x with
    | true =>
      rcases hf.complete x d hd hv0 hel with h | h
      · exact .inl h
      · simp at h
    | false => exact .inr (hnew x d hd hvis hv0)
  · intro x d hd hvis
    cases hv0 : st.visited.visited x with
    | false => exact .inr (.inl (hnew x d hd hvis hv0))
    | true =>
      rcases hf.closed x d hd hv0 with h | h | h
      · rw [(hpop.map Item.id).mem_iff, List.map_cons, List.mem_cons] at h
        rcases h with h | h
        · refine .inr (.inr ?_)
          subst h
          intro y hy
          obtain ⟨v', links', hv', _, hlinks', hyl⟩ := hy
          rw [hv] at hv'
          cases hv'
          rw [hlinks] at hlinks'
          cases hlinks'
          rw [m2]
          simp [hyl]
        · exact .inl h
      · simp at h
      · exact .inr (.inr (fun y hy => hmono _ (h y hy)))

theorem drop_many {ef : Int} {env : SEnv V D} {level : Nat} {st : St D} {c : Item D} {q : Array (Item D)}
    (hf : Many ef env level st []) (hp : pop lessMin st.cands = some (c, q))
    (hno : ∀ y, ¬ Linked env level c.id y) : Many ef env level { st with cands := q } [] := by
  rcases hf with hf | hf
  · exact .inl hf
  have hpop := pop_perm lessMin hp
  refine .inr ⟨hf.complete, ?_⟩
  intro x d hd hvis
  rcases hf.closed x d hd hvis with h | h | h
  · rw [(hpop.map Item.id).mem_iff, List.map_cons, List.mem_cons] at h
    rcases h with h | h
    · subst h
      exact .inr (.inr (fun y hy => absurd hy (hno y)))
    · exact .inl h
  · simp at h
  · exact .inr (.inr h)

theorem loop_many {P : Item D → Prop} {env : SEnv V D} {sched : Sched D} {ef : Int} {level : Nat}
    (hP : ∀ x, distToNode env x.id = some x.dist → P x) (fuel : Nat) {st st' : St D}
    (hi : Inv P env level st []) (hf : Many ef env level st []) (h : loop env sched ef level fuel st = .ok st') :
    ef ≤ (st'.results.size : Int) ∨
    (Whole env level st' [] ∧ st'.cands.size = 0 ∧ ∀ k, st.visited.visited k = true → st'.visited.visited k = true) := by
  induction fuel generalizing st with
  | zero => cases h
  | succ fuel ih =>
    unfold loop at h
    split at h
    · rename_i hp
      cases h
      rcases hf with hf | hf
      · exact .inl hf
      · exact .inr ⟨hf, pop_none lessMin hp, fun _ h => h⟩
    · rename_i c q hp
      split at h
      · rename_i hc
        cases h
        simp only [Bool.and_eq_true, decide_eq_true_eq] at hc
        exact .inl hc.2
      · have hi' := pop_cands_inv hi hp
        simp only at h
        split at h
        · rename_i hg
          exact ih (st := { st with cands := q }) hi' (drop_many hf hp (fun y hy => by obtain ⟨v, l, hv, _⟩ := hy; rw [hg] at hv; cases hv)) h
        · rename_i v hv
          split at h
          · rename_i hlv
            exact ih (st := { st with cands := q }) hi' (drop_many hf hp (fun y hy => by
              obtain ⟨v', l, hv', hle, _⟩ := hy; rw [hv] at hv'; cases hv'; omega)) h
          · rename_i hlv
            split at h
            · cases h
            · rename_i links hlinks
              split at h
              · cases h
              · rename_i st1 h1
                have hmono : ∀ k, st.visited.visited k = true → st1.visited.visited k = true := by
                  intro k hk
                  have h1' := h1
                  unfold expand at h1'
                  simp only at h1'
                  rw [(considerAll_cands_le h1').2]
                  simp only
                  rw [(markNew_spec st.visited links hi.vwf).2.1]
                  simp [hk]
                rcases ih (expand_inv hP hi' h1) (expand_many hi.vwf hf hp hv hlinks h1) h with h | ⟨a, b, c⟩
                · exact .inl h
                · exact .inr ⟨a, b, fun k hk => c k (hmono k hk)⟩

/-- The results are as many as the width asks for, or they are all eligible nodes that can be reached. -/
theorem searchLayer_many {env : SEnv V D} {sched : Sched D} {eps : List (Item D)} {ef : Int} {level : Nat}
    {r : Array (Item D)} (he : EpsOk env eps) (hd : ∀ e ∈ eps, ∃ d, HasDist env e.id d)
    (h : searchLayer env sched eps ef level = .ok r) :
    ef ≤ (r.size : Int) ∨ ∀ x, Reach env level (eps.map Item.id) x → Eligible env level x → x ∈ r.toList.map Item.id := by
  unfold searchLayer at h
  split at h
  · cases h
  · rename_i st hs
    split at h
    · cases h
    · rename_i st' hl
      cases h
      obtain ⟨h1, h2, h3⟩ := start_ok hs
      obtain ⟨m1, m2, m3⟩ := markEntries_spec env.visitedSize (eps.map Item.id)
      have m3 := m3 (by
        intro k hk
        obtain ⟨e, hem, rfl⟩ := List.mem_map.mp hk
        exact he.small e hem)
      have hvis : ∀ k, st.visited.visited k = true ↔ k ∈ eps.map Item.id := by
        intro k; rw [h3, m3]; simp
      have hinv := start_inv (P := fun _ => True) he (fun _ _ => trivial) hs
      have hfull : Whole env level st [] := by
        refine ⟨?_, ?_⟩
        · intro x d _ hv hel
          left
          obtain ⟨e, hem, rfl⟩ := List.mem_map.mp ((hvis x).mp hv)
          exact List.mem_map_of_mem (h2.mem_iff.mpr (List.mem_filter.mpr ⟨hem, (viable_iff env level e.id).mpr hel⟩))
        · intro x d _ hv
          left
          obtain ⟨e, hem, rfl⟩ := List.mem_map.mp ((hvis x).mp hv)
          exact List.mem_map_of_mem (h1.mem_iff.mpr hem)
      rcases loop_many (fun _ _ => trivial) _ hinv (.inr hfull) hl with hall | ⟨hf, hc0, hmono⟩
      · exact .inl hall
      · right
        intro x hx hel
        have hc : st'.cands.toList = [] := by
          have : st'.cands = #[] := by simpa using hc0
          simp [this]
        have hreach : ∀ y, Reach env level (eps.map Item.id) y → st'.visited.visited y = true ∧ ∃ d, HasDist env y d := by
          intro y hy
          induction hy with
          | start id hid =>
            refine ⟨hmono _ ((hvis id).mpr hid), ?_⟩
            obtain ⟨e, hem, rfl⟩ := List.mem_map.mp hid
            exact hd e hem
          | link a b d _ hlk hdb ih =>
            refine ⟨?_, d, hdb⟩
            obtain ⟨hva, da, hda⟩ := ih
            rcases hf.closed a da hda hva with h | h | h
            · simp [hc] at h
            · simp at h
            · exact h b hlk
        obtain ⟨hvx, d, hdx⟩ := hreach x hx
        rcases hf.complete x d hdx hvx hel with h | h
        · exact h
        · simp at h

/-! ## Only what can be reached is delivered -/

/-- everything in the queues can be reached -/
structure Sub (S : Nat → Prop) (st : St D) (pend : List (Item D)) : Prop where
  res : ∀ x ∈ st.results.toList, S x.id
  pendS : ∀ x ∈ pend, S x.id
  cand : ∀ x ∈ st.cands.toList, S x.id

theorem consider_sub {S : Nat → Prop} {env : SEnv V D} {ef : Int} {level : Nat} {st st' : St D} {nd : Item D} {pend : List (Item D)}
    (hm : Sub S st (nd :: pend)) (h : consider env ef level st nd = .ok st') : Sub S st' pend := by
  have hcp := insert_perm lessMin st.cands nd
  have hrp := insert_perm lessMax st.results nd
  have hc : ∀ x ∈ (insert lessMin st.cands nd).toList, S x.id := by
    intro x hx
    rcases List.mem_cons.mp (hcp.mem_iff.mp hx) with rfl | hx
    · exact hm.pendS _ (by simp)
    · exact hm.cand x hx
  have hr : ∀ x ∈ (insert lessMax st.results nd).toList, S x.id := by
    intro x hx
    rcases List.mem_cons.mp (hrp.mem_iff.mp hx) with rfl | hx
    · exact hm.pendS _ (by simp)
    · exact hm.res x hx
  have hp : ∀ x ∈ pend, S x.id := fun x hx => hm.pendS x (by simp [hx])
  cases consider_ok h with
  | skip _ _ h => subst h; exact ⟨hm.res, hp, hm.cand⟩
  | cand _ h => subst h; exact ⟨hm.res, hp, hc⟩
  | both _ t _ _ r w hrr _ h =>
    subst h
    refine ⟨?_, hp, hc⟩
    rcases hrr with ⟨rfl, _⟩ | ⟨⟨x, hx⟩, _⟩
    · exact hr
    · intro y hy
      exact hr y ((pop_perm lessMax hx).mem_iff.mpr (List.mem_cons_of_mem _ hy))

theorem considerAll_sub {S : Nat → Prop} {env : SEnv V D} {ef : Int} {level : Nat} {nds : List (Item D)} {st st' : St D}
    (hm : Sub S st nds) (h : considerAll env ef level st nds = .ok st') : Sub S st' [] := by
  induction nds generalizing st with
  | nil => cases h; exact hm
  | cons nd nds ih =>
    unfold considerAll at h
    split at h
    · cases h
    · rename_i st1 h1
      exact ih (consider_sub hm h1) h

theorem loop_sub {S : Nat → Prop} {env : SEnv V D} {sched : Sched D} {ef : Int} {level : Nat}
    (hS : ∀ a b d, S a → Linked env level a b → HasDist env b d → S b) (fuel : Nat) {st st' : St D} (hw : st.visited.WF)
    (hm : Sub S st []) (h : loop env sched ef level fuel st = .ok st') : Sub S st' [] := by
  induction fuel generalizing st with
  | zero => cases h
  | succ fuel ih =>
    unfold loop at h
    split at h
    · cases h; exact hm
    · rename_i c q hp
      have hpop := pop_perm lessMin hp
      have hq : Sub S ({ st with cands := q } : St D) [] :=
        ⟨hm.res, by simp, fun x hx => hm.cand x (hpop.mem_iff.mpr (List.mem_cons_of_mem _ hx))⟩
      have hc : S c.id := hm.cand c (hpop.mem_iff.mpr (by simp))
      split at h
      · cases h; exact hm
      · simp only at h
        split at h
        · exact ih (st := { st with cands := q }) hw hq h
        · rename_i v hv
          split at h
          · exact ih (st := { st with cands := q }) hw hq h
          · rename_i hlv
            split at h
            · cases h
            · rename_i links hlinks
              split at h
              · cases h
              · rename_i st1 h1
                unfold expand at h1
                simp only at h1
                obtain ⟨m1, m2, m3, m4⟩ := markNew_spec st.visited links hw
                refine ih ?_ (considerAll_sub (st := { st with cands := q, visited := (markNew st.visited links).1, n := st.n + 1 })
                  ⟨fun x hx => hq.res x hx, ?_, fun x hx => hq.cand x hx⟩ h1) h
                · rw [(considerAll_cands_le h1).2]; exact m1
                · intro x hx
                  obtain ⟨hx1, hx2⟩ := mem_distances ((sched.perm st.n (distances env (markNew st.visited links).2)).mem_iff.mp hx)
                  exact hS c.id x.id x.dist hc ⟨v, links, hv, by omega, hlinks, ((m4 x.id).mp hx1).1⟩ ((hasDist_iff _ _ _).mp hx2)

/-- Every result can be reached from the entry points. -/
theorem searchLayer_reach {env : SEnv V D} {sched : Sched D} {eps : List (Item D)} {ef : Int} {level : Nat}
    {r : Array (Item D)} (h : searchLayer env sched eps ef level = .ok r) : ∀ x ∈ r.toList, Reach env level (eps.map Item.id) x.id := by
  unfold searchLayer at h
  split at h
  · cases h
  · rename_i st hs
    split at h
    · cases h
    · rename_i st' hl
      cases h
      obtain ⟨h1, h2, h3⟩ := start_ok hs
      obtain ⟨m1, m2, m3⟩ := markEntries_spec env.visitedSize (eps.map Item.id)
      refine (loop_sub (S := Reach env level (eps.map Item.id)) (fun a b d ha hl hb => .link a b d ha hl hb) _ (by rw [h3]; exact m1) ⟨?_, by simp, ?_⟩ hl).res
      · intro x hx
        exact .start _ (List.mem_map_of_mem (List.mem_filter.mp (h2.mem_iff.mp hx)).1)
      · intro x hx
        exact .start _ (List.mem_map_of_mem (h1.mem_iff.mp hx))

end Fave.Search
