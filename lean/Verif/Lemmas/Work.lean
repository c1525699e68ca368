import Verif.Model.Work
import Verif.Lemmas.SearchFrame
/-! Lemmas about the work of a search. -/
namespace Fave.Search
open Queue
variable {V D : Type} [Dist D]

theorem mem_of_top {α : Type} {q : Array α} {x : α} (h : top q = some x) : x ∈ q.toList := by
  unfold top at h
  exact List.mem_of_getElem? (i := 0) (by rw [Array.getElem?_toList]; exact h)

theorem markNew_length (vis : ListSet) (ids : List Nat) : (markNew vis ids).2.length ≤ ids.length := by
  induction ids generalizing vis with
  | nil => exact Nat.le_refl _
  | cons id ids ih =>
    unfold markNew
    split
    · have := ih vis; simp only [List.length_cons]; omega
    · have := ih (vis.visit id); simp only [List.length_cons]; omega

/-- what is asked is new, each number once; what is expanded is expanded once and was a candidate or asked before -/
theorem loopWork_spec {env : SEnv V D} {sched : Sched D} {ef : Int} {level : Nat} (fuel : Nat) {st : St D}
    (hi : Inv (fun _ => True) env level st []) :
    ((loopWork env sched ef level fuel st).flatMap Burst.asked).Nodup ∧
    (∀ x ∈ (loopWork env sched ef level fuel st).flatMap Burst.asked, st.visited.visited x = false) ∧
    ((loopWork env sched ef level fuel st).map Burst.node).Nodup ∧
    (∀ x ∈ (loopWork env sched ef level fuel st).map Burst.node,
      x ∈ st.cands.toList.map Item.id ∨ x ∈ (loopWork env sched ef level fuel st).flatMap Burst.asked) := by
  induction fuel generalizing st with
  | zero => simp [loopWork]
  | succ fuel ih =>
    unfold loopWork
    split
    · simp
    · rename_i c q hp
      split
      · simp
      · have hi' := pop_cands_inv hi hp
        have hpm := pop_perm lessMin hp
        have hsub : ∀ x ∈ q.toList.map Item.id, x ∈ st.cands.toList.map Item.id := by
          intro x hx
          obtain ⟨y, hy, rfl⟩ := List.mem_map.mp hx
          exact List.mem_map_of_mem (hpm.mem_iff.mpr (List.mem_cons_of_mem _ hy))
        have hcm : c.id ∈ st.cands.toList.map Item.id := List.mem_map_of_mem (hpm.mem_iff.mpr (by simp))
        have lift : ((loopWork env sched ef level fuel { st with cands := q }).flatMap Burst.asked).Nodup ∧
            (∀ x ∈ (loopWork env sched ef level fuel { st with cands := q }).flatMap Burst.asked, st.visited.visited x = false) ∧
            ((loopWork env sched ef level fuel { st with cands := q }).map Burst.node).Nodup ∧
            (∀ x ∈ (loopWork env sched ef level fuel { st with cands := q }).map Burst.node,
              x ∈ st.cands.toList.map Item.id ∨ x ∈ (loopWork env sched ef level fuel { st with cands := q }).flatMap Burst.asked) := by
          obtain ⟨a, b, c', d⟩ := ih hi'
          exact ⟨a, b, c', fun x hx => (d x hx).imp (hsub x) id⟩
        simp only
        split
        · exact lift
        · split
          · exact lift
          · split
            · simp
            · rename_i v hv hlev links hl
              obtain ⟨m1, m2, m3, m4⟩ := markNew_spec st.visited links hi.vwf
              cases he : expand env sched ef level { st with cands := q } links with
              | error e =>
                simp only [List.flatMap_cons, List.flatMap_nil, List.append_nil, List.map_cons, List.map_nil]
                exact ⟨m3, fun x hx => ((m4 x).mp hx).2, by simp, fun x hx => .inl (by simp at hx; rw [hx]; exact hcm)⟩
              | ok st' =>
                simp only [List.flatMap_cons, List.map_cons]
                have hi1 := expand_pend sched (links := links) (fun _ _ => trivial) hi'
                have hex := he
                unfold expand at hex
                obtain ⟨hi2, hvis, _⟩ := considerAll_inv hi1 hex
                simp only at hvis
                obtain ⟨a, b, c', d⟩ := ih hi2
                have hb : ∀ x ∈ (loopWork env sched ef level fuel st').flatMap Burst.asked, st.visited.visited x = false ∧ x ∉ links := by
                  intro x hx
                  have := b x hx
                  rw [hvis, m2] at this
                  simpa using this
                have hcand : ∀ x ∈ st'.cands.toList.map Item.id, x ∈ q.toList.map Item.id ∨ x ∈ (markNew st.visited links).2 := by
                  intro x hx
                  obtain ⟨y, hy, rfl⟩ := List.mem_map.mp hx
                  exact considerAll_candsC (C := fun i => i ∈ q.toList.map Item.id ∨ i ∈ (markNew st.visited links).2)
                    (fun nd h => .inr (mem_distances ((sched.perm _ _).mem_iff.mp h)).1) (fun c h => .inl (List.mem_map_of_mem h)) hex y hy
                have hcq : c.id ∉ q.toList.map Item.id := by
                  have h1 : (st.cands.toList.map Item.id).Nodup := by have := hi.candNd; rwa [List.append_nil] at this
                  have h2 := (hpm.map Item.id).nodup_iff.mp h1
                  exact (List.nodup_cons.mp h2).1
                have hcv : st.visited.visited c.id = true := (hi.cand c (hpm.mem_iff.mpr (by simp))).2
                refine ⟨?_, ?_, ?_, ?_⟩
                · refine List.nodup_append.mpr ⟨m3, a, ?_⟩
                  intro x hx y hy e
                  subst e
                  exact (hb x hy).2 ((m4 x).mp hx).1
                · intro x hx
                  rcases List.mem_append.mp hx with h | h
                  · exact ((m4 x).mp h).2
                  · exact (hb x h).1
                · refine List.nodup_cons.mpr ⟨?_, c'⟩
                  intro hm
                  rcases d _ hm with h | h
                  · rcases hcand _ h with h | h
                    · exact hcq h
                    · rw [((m4 _).mp h).2] at hcv; cases hcv
                  · rw [(hb _ h).1] at hcv; cases hcv
                · intro x hx
                  rcases List.mem_cons.mp hx with rfl | hx
                  · exact .inl hcm
                  · rcases d x hx with h | h
                    · rcases hcand x h with h | h
                      · exact .inl (hsub x h)
                      · exact .inr (List.mem_append_left _ h)
                    · exact .inr (List.mem_append_right _ h)

/-- what is asked is linked from what is expanded -/
theorem loopWork_links {env : SEnv V D} {sched : Sched D} {ef : Int} {level : Nat} (fuel : Nat) (st : St D) :
    ∀ b ∈ loopWork env sched ef level fuel st, ∃ v links, env.get b.node = some v ∧ level ≤ v.level ∧ v.conns[level]? = some links ∧
      b.asked.length ≤ links.length ∧ ∀ x ∈ b.asked, x ∈ links := by
  induction fuel generalizing st with
  | zero => intro b hb; cases hb
  | succ fuel ih =>
    intro b hb
    unfold loopWork at hb
    split at hb
    · cases hb
    · rename_i c q hp
      split at hb
      · cases hb
      · simp only at hb
        split at hb
        · exact ih _ b hb
        · rename_i v hv
          split at hb
          · exact ih _ b hb
          · rename_i hlev
            split at hb
            · cases hb
            · rename_i links hl
              rcases List.mem_cons.mp hb with rfl | hb
              · exact ⟨v, links, hv, by omega, hl, markNew_length _ _, markNew_sub _ _⟩
              · split at hb
                · cases hb
                · exact ih _ b hb

/-- what is expanded is among the candidates or was asked -/
theorem loopWork_closed {env : SEnv V D} {C : Nat → Prop} {sched : Sched D} {ef : Int} {level : Nat}
    (hcl : ∀ id v links b, C id → env.get id = some v → v.conns[level]? = some links → b ∈ links → C b) (fuel : Nat) (st : St D)
    (hc : ∀ c ∈ st.cands.toList, C c.id) :
    ∀ b ∈ loopWork env sched ef level fuel st, C b.node ∧ ∀ x ∈ b.asked, C x := by
  induction fuel generalizing st with
  | zero => intro b hb; cases hb
  | succ fuel ih =>
    intro b hb
    unfold loopWork at hb
    split at hb
    · cases hb
    · rename_i c q hp
      have hpm := pop_perm lessMin hp
      have hq : ∀ c ∈ q.toList, C c.id := fun x hx => hc x (hpm.mem_iff.mpr (List.mem_cons_of_mem _ hx))
      split at hb
      · cases hb
      · simp only at hb
        split at hb
        · exact ih _ hq b hb
        · rename_i v hv
          split at hb
          · exact ih _ hq b hb
          · split at hb
            · cases hb
            · rename_i links hl
              have hcc : C c.id := hc c (hpm.mem_iff.mpr (by simp))
              have hls : ∀ x ∈ links, C x := fun x hx => hcl c.id v links x hcc hv hl hx
              rcases List.mem_cons.mp hb with rfl | hb
              · exact ⟨hcc, fun x hx => hls x (markNew_sub _ _ x hx)⟩
              · split at hb
                · cases hb
                · rename_i st' he
                  exact ih _ (expand_candsC (st := { st with cands := q }) hls hq he) b hb

theorem consider_resC {env : SEnv V D} {C : Nat → Prop} {ef : Int} {level : Nat} {st st' : St D} {nd : Item D}
    (hn : C nd.id) (hc : ∀ c ∈ st.results.toList, C c.id) (h : consider env ef level st nd = .ok st') :
    ∀ c ∈ st'.results.toList, C c.id := by
  have key : ∀ c ∈ (insert lessMax st.results nd).toList, C c.id := by
    intro c hcm
    rcases List.mem_cons.mp ((insert_perm lessMax st.results nd).mem_iff.mp hcm) with rfl | h'
    · exact hn
    · exact hc c h'
  cases consider_ok h with
  | skip _ _ h => rw [h]; exact hc
  | cand _ h => rw [h]; exact hc
  | both hv t ht htc r w hr hw h =>
    rw [h]
    rcases hr with ⟨h1, _⟩ | ⟨⟨x, hx⟩, _⟩
    · show ∀ c ∈ r.toList, _
      rw [h1]; exact key
    · intro c hcm
      exact key c ((pop_perm lessMax hx).mem_iff.mpr (List.mem_cons_of_mem _ hcm))

theorem considerAll_resC {env : SEnv V D} {C : Nat → Prop} {ef : Int} {level : Nat} {nds : List (Item D)} {st st' : St D}
    (hn : ∀ nd ∈ nds, C nd.id) (hc : ∀ c ∈ st.results.toList, C c.id) (h : considerAll env ef level st nds = .ok st') :
    ∀ c ∈ st'.results.toList, C c.id := by
  induction nds generalizing st with
  | nil => cases h; exact hc
  | cons nd nds ih =>
    unfold considerAll at h
    split at h
    · cases h
    · rename_i st1 h1
      exact ih (fun x hx => hn x (by simp [hx])) (consider_resC (hn nd (by simp)) hc h1) h

/-- every result was there before or was asked for -/
theorem loop_asked {env : SEnv V D} {sched : Sched D} {ef : Int} {level : Nat} (fuel : Nat) {st st' : St D}
    (h : loop env sched ef level fuel st = .ok st') :
    ∀ x ∈ st'.results.toList, x.id ∈ st.results.toList.map Item.id ∨ x.id ∈ (loopWork env sched ef level fuel st).flatMap Burst.asked := by
  induction fuel generalizing st with
  | zero => cases h
  | succ fuel ih =>
    unfold loop at h
    unfold loopWork
    split at h
    · cases h; exact fun x hx => .inl (List.mem_map_of_mem hx)
    · rename_i c q hp
      rw [hp]
      simp only
      split at h
      · rename_i hs; cases h; exact fun x hx => .inl (List.mem_map_of_mem hx)
      · rename_i hs
        rw [if_neg hs]
        simp only at h
        split at h
        · rename_i hg; rw [hg]; exact ih h
        · rename_i v hg
          rw [hg]
          simp only
          split at h
          · rename_i hl; rw [if_pos hl]; exact ih h
          · rename_i hl
            rw [if_neg hl]
            split at h
            · cases h
            · rename_i links hlk
              rw [hlk]
              simp only
              split at h
              · cases h
              · rename_i st1 he
                rw [he]
                simp only [List.flatMap_cons]
                intro x hx
                rcases ih h x hx with hr | hr
                · obtain ⟨y, hy, hyx⟩ := List.mem_map.mp hr
                  unfold expand at he
                  have : y.id ∈ st.results.toList.map Item.id ∨ y.id ∈ (markNew st.visited links).2 := by
                    refine considerAll_resC (C := fun i => i ∈ st.results.toList.map Item.id ∨ i ∈ (markNew st.visited links).2) ?_ ?_ he y hy
                    · exact fun nd h => .inr (mem_distances ((sched.perm _ _).mem_iff.mp h)).1
                    · exact fun c h => .inl (List.mem_map_of_mem h)
                  rw [hyx] at this
                  exact this.imp id (List.mem_append_left _)
                · exact .inr (List.mem_append_right _ hr)

/-- the whole of a layer search -/
theorem layerWork_spec {env : SEnv V D} {sched : Sched D} {eps : List (Item D)} {ef : Int} {level : Nat} (he : EpsOk env eps) :
    ((layerWork env sched eps ef level).flatMap Burst.asked).Nodup ∧
    (∀ x ∈ (layerWork env sched eps ef level).flatMap Burst.asked, x ∉ eps.map Item.id) ∧
    ((layerWork env sched eps ef level).map Burst.node).Nodup ∧
    (∀ x ∈ (layerWork env sched eps ef level).map Burst.node,
      x ∈ eps.map Item.id ∨ x ∈ (layerWork env sched eps ef level).flatMap Burst.asked) := by
  unfold layerWork
  split
  · simp
  · rename_i st hs
    have hi := start_inv (P := fun _ => True) he (fun _ _ => trivial) hs
    obtain ⟨a, b, c, d⟩ := loopWork_spec (sched := sched) (ef := ef) (eps.length + env.keys.length + 1) hi
    obtain ⟨h1, _, _⟩ := start_ok hs
    refine ⟨a, ?_, c, ?_⟩
    · intro x hx hm
      obtain ⟨e, hem, rfl⟩ := List.mem_map.mp hm
      have := (hi.cand e (h1.mem_iff.mpr hem)).2
      rw [b _ hx] at this; cases this
    · intro x hx
      exact (d x hx).imp (fun h => (h1.map Item.id).mem_iff.mp h) id

/-- what a search from one start asks for, the start's own distance included: no number twice -/
theorem layerAsked_nodup {env : SEnv V D} {sched : Sched D} {ep : Item D} {ef : Int} {level : Nat} (he : ep.id < env.visitedSize) :
    (layerAsked env sched [ep] ef level).Nodup := by
  have hok : EpsOk env [ep] := ⟨by simp, by simpa using he⟩
  obtain ⟨a, b, _, _⟩ := layerWork_spec (sched := sched) (ef := ef) (level := level) hok
  unfold layerAsked
  refine List.nodup_append.mpr ⟨?_, a, ?_⟩
  · cases top (List.foldl (enter env level) (#[], #[]) [ep]).2 <;> simp
  · intro x hx y hy e
    subst e
    have : x = ep.id := by
      cases ht : top (List.foldl (enter env level) (#[], #[]) [ep]).2 with
      | none => rw [ht] at hx; cases hx
      | some t =>
        rw [ht] at hx
        simp only [Option.map_some, Option.toList_some, List.mem_singleton] at hx
        have hm : t ∈ (List.foldl (enter env level) (#[], #[]) [ep]).2.toList := mem_of_top ht
        have := (enter_spec env level [ep] (#[], #[])).2.mem_iff.mp hm
        simp only [List.append_nil] at this
        have := (List.mem_filter.mp this).1
        simp only [List.mem_singleton] at this
        rw [hx, this]
    exact b x hy (by simp [this])

theorem layerAsked_closed {env : SEnv V D} {C : Nat → Prop} {sched : Sched D} {ep : Item D} {ef : Int} {level : Nat}
    (hcl : ∀ id v links b, C id → env.get id = some v → v.conns[level]? = some links → b ∈ links → C b) (he : C ep.id) :
    ∀ x ∈ layerAsked env sched [ep] ef level, C x := by
  intro x hx
  unfold layerAsked at hx
  rcases List.mem_append.mp hx with hx | hx
  · cases ht : top (List.foldl (enter env level) (#[], #[]) [ep]).2 with
    | none => rw [ht] at hx; cases hx
    | some t =>
      rw [ht] at hx
      simp only [Option.map_some, Option.toList_some, List.mem_singleton] at hx
      have hm : t ∈ (List.foldl (enter env level) (#[], #[]) [ep]).2.toList := mem_of_top ht
      have := (enter_spec env level [ep] (#[], #[])).2.mem_iff.mp hm
      simp only [List.append_nil] at this
      have := (List.mem_filter.mp this).1
      simp only [List.mem_singleton] at this
      rw [hx, this]; exact he
  · obtain ⟨b, hb, hx⟩ := List.mem_flatMap.mp hx
    unfold layerWork at hb
    split at hb
    · cases hb
    · rename_i st hs
      obtain ⟨h1, _, _⟩ := start_ok hs
      refine (loopWork_closed hcl _ st ?_ b hb).2 x hx
      intro c hc
      have := h1.mem_iff.mp hc
      simp only [List.mem_singleton] at this
      rw [this]; exact he

end Fave.Search
