import Verif.Model.Fetch
import Verif.Lemmas.Work
import Verif.Lemmas.Lru
/-!
# Helper lemmas about the reads of a search
-/
namespace Fave.Search
variable {V D : Type} [Dist D]
open Queue

theorem loopReads_closed {env : SEnv V D} {C : Nat → Prop} {sched : Sched D} {ef : Int} {level : Nat}
    (hcl : ∀ id v links b, C id → env.get id = some v → v.conns[level]? = some links → b ∈ links → C b) (fuel : Nat) (st : St D)
    (hc : ∀ c ∈ st.cands.toList, C c.id) :
    ∀ x ∈ loopReads env sched ef level fuel st, C x := by
  induction fuel generalizing st with
  | zero => intro b hb; cases hb
  | succ fuel ih =>
    intro b hb
    unfold loopReads at hb
    split at hb
    · cases hb
    · rename_i c q hp
      have hpm := pop_perm lessMin hp
      have hq : ∀ c ∈ q.toList, C c.id := fun x hx => hc x (hpm.mem_iff.mpr (List.mem_cons_of_mem _ hx))
      have hcc : C c.id := hc c (hpm.mem_iff.mpr (by simp))
      split at hb
      · cases hb
      · simp only at hb
        rcases List.mem_cons.mp hb with rfl | hb
        · exact hcc
        split at hb
        · exact ih _ hq b hb
        · rename_i v hv
          split at hb
          · exact ih _ hq b hb
          · split at hb
            · cases hb
            · rename_i links hl
              have hls : ∀ x ∈ links, C x := fun x hx => hcl c.id v links x hcc hv hl hx
              rcases List.mem_append.mp hb with hb | hb
              · exact hls b (markNew_sub _ _ b hb)
              · split at hb
                · cases hb
                · rename_i st' he
                  exact ih _ (expand_candsC (st := { st with cands := q }) hls hq he) b hb

theorem layerReads_closed {env : SEnv V D} {C : Nat → Prop} {sched : Sched D} {ep : Item D} {ef : Int} {level : Nat}
    (hcl : ∀ id v links b, C id → env.get id = some v → v.conns[level]? = some links → b ∈ links → C b) (he : C ep.id) :
    ∀ x ∈ layerReads env sched [ep] ef level, C x := by
  intro x hx
  unfold layerReads at hx
  rcases List.mem_append.mp hx with hx | hx
  · exact layerAsked_closed (sched := sched) (ef := ef) hcl he x (by unfold layerAsked; exact List.mem_append_left _ hx)
  · split at hx
    · cases hx
    · rename_i st hs
      obtain ⟨h1, _, _⟩ := start_ok hs
      refine loopReads_closed hcl _ st ?_ x hx
      intro c hc
      have := h1.mem_iff.mp hc
      simp only [List.mem_singleton] at this
      rw [this]; exact he

/-! ## a search depends on what it reads only -/

theorem distances_congr {env : SEnv V D} {g : Nat → Option (Vertex V)} {ids : List Nat} (h : ∀ x ∈ ids, env.get x = g x) :
    distances env ids = distances { env with get := g } ids := by
  induction ids with
  | nil => rfl
  | cons x ids ih =>
    have h1 : distToNode env x = distToNode { env with get := g } x := by unfold distToNode; rw [h x (by simp)]
    have h2 := ih (fun y hy => h y (List.mem_cons_of_mem _ hy))
    unfold distances at h2 ⊢
    rw [List.filterMap_cons, List.filterMap_cons, h1, h2]

theorem considerAll_get {env : SEnv V D} {g : Nat → Option (Vertex V)} {ef : Int} {level : Nat} (nds : List (Item D)) (st : St D) :
    considerAll { env with get := g } ef level st nds = considerAll env ef level st nds := by
  induction nds generalizing st with
  | nil => rfl
  | cons nd nds ih =>
    unfold considerAll
    have : consider { env with get := g } ef level st nd = consider env ef level st nd := rfl
    rw [this]
    split
    · rfl
    · exact ih _

theorem expand_congr {env : SEnv V D} {g : Nat → Option (Vertex V)} {sched : Sched D} {ef : Int} {level : Nat} {st : St D} {links : List Nat}
    (h : ∀ x ∈ (markNew st.visited links).2, env.get x = g x) :
    expand { env with get := g } sched ef level st links = expand env sched ef level st links := by
  unfold expand
  simp only
  rw [← distances_congr h, considerAll_get]

theorem loop_congr {env : SEnv V D} {g : Nat → Option (Vertex V)} {sched : Sched D} {ef : Int} {level : Nat} (fuel : Nat) (st : St D)
    (h : ∀ x ∈ loopReads env sched ef level fuel st, env.get x = g x) :
    loop { env with get := g } sched ef level fuel st = loop env sched ef level fuel st ∧
    loopReads { env with get := g } sched ef level fuel st = loopReads env sched ef level fuel st := by
  induction fuel generalizing st with
  | zero => exact ⟨rfl, rfl⟩
  | succ fuel ih =>
    unfold loop
    unfold loopReads at h ⊢
    cases hp : pop lessMin st.cands with
    | none => exact ⟨rfl, rfl⟩
    | some cq =>
      obtain ⟨c, q⟩ := cq
      simp only [hp] at h ⊢
      by_cases hb : (Dist.lt st.worst c.dist && decide ((st.results.size : Int) ≥ ef)) = true
      · simp only [if_pos hb]; exact ⟨trivial, trivial⟩
      · simp only [if_neg hb] at h ⊢
        have hc := h c.id (by simp)
        rw [← hc]
        cases hg : env.get c.id with
        | none =>
          simp only [hg] at h ⊢
          obtain ⟨a, b⟩ := ih _ (fun x hx => h x (List.mem_cons_of_mem _ hx))
          exact ⟨a, by rw [b]⟩
        | some v =>
          simp only [hg] at h ⊢
          by_cases hl : v.level < level
          · simp only [if_pos hl] at h ⊢
            obtain ⟨a, b⟩ := ih _ (fun x hx => h x (List.mem_cons_of_mem _ hx))
            exact ⟨a, by rw [b]⟩
          · simp only [if_neg hl] at h ⊢
            cases hln : v.conns[level]? with
            | none => exact ⟨rfl, rfl⟩
            | some links =>
              simp only [hln] at h ⊢
              rw [expand_congr (st := { st with cands := q }) (fun x hx => h x (List.mem_cons_of_mem _ (List.mem_append_left _ hx)))]
              cases he : expand env sched ef level { st with cands := q } links with
              | error e => exact ⟨rfl, rfl⟩
              | ok st' =>
                simp only [he] at h ⊢
                obtain ⟨a, b⟩ := ih st' (fun x hx => h x (List.mem_cons_of_mem _ (List.mem_append_right _ hx)))
                exact ⟨a, by rw [b]⟩

theorem layer_congr {env : SEnv V D} {g : Nat → Option (Vertex V)} {sched : Sched D} {eps : List (Item D)} {ef : Int} {level : Nat}
    (h : ∀ x ∈ layerReads env sched eps ef level, env.get x = g x) :
    searchLayer { env with get := g } sched eps ef level = searchLayer env sched eps ef level ∧
    layerReads { env with get := g } sched eps ef level = layerReads env sched eps ef level := by
  have hent : (eps.foldl (enter { env with get := g } level) (#[], #[])) = eps.foldl (enter env level) (#[], #[]) := rfl
  have hst : start { env with get := g } eps level = start env eps level := by
    unfold start
    rw [hent]
    have hw : worst0 { env with get := g } (eps.foldl (enter env level) (#[], #[])).2 = worst0 env (eps.foldl (enter env level) (#[], #[])).2 := by
      unfold worst0
      cases ht : top (eps.foldl (enter env level) (#[], #[])).2 with
      | none => rfl
      | some t =>
        have := h t.id (by unfold layerReads; rw [ht]; simp)
        simp only [distToNode]
        rw [this]
    simp only
    rw [hw]
  unfold searchLayer
  unfold layerReads at h ⊢
  rw [hst, hent]
  cases hs : start env eps level with
  | error e => exact ⟨rfl, rfl⟩
  | ok st =>
    rw [hs] at h
    obtain ⟨a, b⟩ := loop_congr (g := g) _ st (fun x hx => h x (List.mem_append_right _ hx))
    simp only
    have a : loop { env with get := g } sched ef level (eps.length + ({ env with get := g } : SEnv V D).keys.length + 1) st = _ := a
    rw [a, b]
    exact ⟨rfl, rfl⟩

end Fave.Search

namespace Fave.Graph
variable {V D : Type} [Dist D]
open Queue

theorem descend_congr (g : Graph V D) (f : Nat → Option (Vertex V)) (sched : Scheds D) (q : V) (level : Nat) (ep : Item D)
    (h : ∀ x ∈ descendReads g sched q level ep, g.get x = f x) :
    descend { g with get := f } sched q level ep = descend g sched q level ep ∧
    descendReads { g with get := f } sched q level ep = descendReads g sched q level ep := by
  induction level generalizing ep with
  | zero => exact ⟨rfl, rfl⟩
  | succ level ih =>
    unfold descend
    unfold descendReads at h ⊢
    obtain ⟨a, b⟩ := Search.layer_congr (env := g.senv q none) (g := f) (fun x hx => h x (List.mem_append_left _ hx))
    have he : (({ g with get := f } : Graph V D).senv q none) = { g.senv q none with get := f } := rfl
    rw [he, a, b]
    cases hr : Search.searchLayer (g.senv q none) (sched (level + 1)) [ep] 1 (level + 1) with
    | error e => exact ⟨rfl, rfl⟩
    | ok res =>
      simp only [hr] at h ⊢
      cases hp : pop lessMax res with
      | none =>
        simp only [hp] at h ⊢
        obtain ⟨c, d⟩ := ih ep (fun x hx => h x (List.mem_append_right _ hx))
        exact ⟨c, by rw [d]⟩
      | some y =>
        obtain ⟨best, rest⟩ := y
        simp only [hp] at h ⊢
        obtain ⟨c, d⟩ := ih best (fun x hx => h x (List.mem_append_right _ hx))
        exact ⟨c, by rw [d]⟩

theorem search_congr (g : Graph V D) (f : Nat → Option (Vertex V)) (sched : Scheds D) (q : V) (ef : Int) (allow : Option (Nat → Bool))
    (h : ∀ x ∈ searchReads g sched q ef allow, g.get x = f x) :
    retained { g with get := f } sched q ef allow = retained g sched q ef allow ∧
    searchReads { g with get := f } sched q ef allow = searchReads g sched q ef allow := by
  unfold retained
  unfold searchReads at h ⊢
  have hd : ({ g with get := f } : Graph V D).distNodeVec g.entry q = g.distNodeVec g.entry q := by
    have := h g.entry (by simp)
    unfold distNodeVec
    rw [this]
  simp only
  rw [hd]
  cases hdd : g.distNodeVec g.entry q with
  | none => exact ⟨rfl, rfl⟩
  | some d =>
    simp only [hdd] at h ⊢
    obtain ⟨a, b⟩ := descend_congr g f sched q g.maxLayer ⟨g.entry, d⟩ (fun x hx => h x (List.mem_cons_of_mem _ (List.mem_append_left _ hx)))
    rw [a, b]
    cases he : descend g sched q g.maxLayer ⟨g.entry, d⟩ with
    | error e => exact ⟨rfl, rfl⟩
    | ok ep =>
      simp only [he] at h ⊢
      obtain ⟨c, e⟩ := Search.layer_congr (env := g.senv q allow) (g := f) (fun x hx => h x (List.mem_cons_of_mem _ (List.mem_append_right _ hx)))
      have hE : (({ g with get := f } : Graph V D).senv q allow) = { g.senv q allow with get := f } := rfl
      rw [hE, c, e]
      exact ⟨rfl, rfl⟩

end Fave.Graph

namespace Fave.Lru
variable {α : Type}

/-- what fits stays: one operation -/
theorem step_fits {cap : Nat} {s : Store α} {U : List Nat} (hU : U.length ≤ cap) (hok : Ok cap s) (hs : ∀ k ∈ ckeys s, k ∈ U) {o : Op α}
    (ho : ∀ j, o.key = some j → j ∈ U) :
    Ok cap (step cap s o) ∧ (∀ k ∈ ckeys (step cap s o), k ∈ U) ∧ (∀ k ∈ ckeys s, k ∈ ckeys (step cap s o)) ∧
    (∀ k, (s.kv.get k).isSome → ((step cap s o).kv.get k).isSome) ∧
    (∀ k, o = .read k → (s.kv.get k).isSome → k ∈ ckeys (step cap s o)) ∧ (∀ k a, o = .write k a → k ∈ ckeys (step cap s o)) := by
  have hpush : ∀ e : Ent α, e.key ∈ U → (∀ k ∈ ckeys (push cap s e), k ∈ U) ∧ (∀ k ∈ ckeys s, k ∈ ckeys (push cap s e)) ∧ e.key ∈ ckeys (push cap s e) := by
    intro e he
    obtain ⟨p1, p2⟩ := push_fits hU hok.nodup hs he
    refine ⟨p2, ?_, ?_⟩
    · intro k hk
      unfold ckeys
      rw [p1, List.map_cons, key_filter]
      by_cases h : k = e.key
      · simp [h]
      · exact List.mem_cons_of_mem _ (List.mem_filter.mpr ⟨hk, by simpa using h⟩)
    · unfold ckeys; rw [p1]; simp
  refine ⟨ok_step hok o, ?_⟩
  cases o with
  | read j =>
    have hj := ho j rfl
    show (∀ k ∈ ckeys (read cap s j).1, k ∈ U) ∧ (∀ k ∈ ckeys s, k ∈ ckeys (read cap s j).1) ∧ (∀ k, _ → ((read cap s j).1.kv.get k).isSome) ∧
      (∀ k, _ → _ → k ∈ ckeys (read cap s j).1) ∧ _
    unfold read
    split
    · rename_i e he
      obtain ⟨hm, hk⟩ := lookup_some he
      obtain ⟨a, b, c⟩ := hpush e (by rw [hk]; exact hj)
      refine ⟨a, b, fun k hk => hk, ?_, nofun⟩
      intro k hk' _
      cases hk'; rw [← hk]; exact c
    · split
      · rename_i hn
        refine ⟨hs, fun k hk => hk, fun k hk => hk, ?_, nofun⟩
        intro k hk' h
        cases hk'; rw [hn] at h; cases h
      · rename_i a _
        obtain ⟨p, b, c⟩ := hpush ⟨j, a, false⟩ hj
        refine ⟨p, b, fun k hk => hk, ?_, nofun⟩
        intro k hk' _
        cases hk'; exact c
  | write j a =>
    obtain ⟨p, b, c⟩ := hpush ⟨j, a, false⟩ (ho j rfl)
    refine ⟨p, b, fun k hk => hk, nofun, ?_⟩
    intro k a' h; cases h; exact c
  | flush =>
    have hf := flush_eq hok
    have hkeys : ckeys (flush cap s) = ckeys s := by rw [hf]; unfold ckeys; rw [List.map_map]; rfl
    show (∀ k ∈ ckeys (flush cap s), k ∈ U) ∧ (∀ k ∈ ckeys s, k ∈ ckeys (flush cap s)) ∧ (∀ k, _ → ((flush cap s).kv.get k).isSome) ∧ _
    rw [hkeys]
    refine ⟨hs, fun k hk => hk, ?_, nofun, nofun⟩
    intro k hk
    rw [hf]
    show ((written s.ents s.kv).get k).isSome
    by_cases h : k ∈ ckeys s
    · obtain ⟨x, hx, rfl⟩ := List.mem_map.mp h
      rw [(written_get s.ents s.kv hok.nodup x.key).2 x hx rfl]
      split
      · exact hk
      · rfl
    · rw [(written_get s.ents s.kv hok.nodup k).1 h]; exact hk

end Fave.Lru
