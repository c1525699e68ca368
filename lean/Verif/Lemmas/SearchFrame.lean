import Verif.Lemmas.Search
/-!
# A search only reads what it can reach
-/
namespace Fave.Search
open Queue
variable {V D : Type} [Dist D]

/-- `env` with another storage -/
def SEnvWith (env : SEnv V D) (get' : Nat → Option (Vertex V)) (keys' : List Nat) : SEnv V D := { env with get := get', keys := keys' }

/-- a vertex without the dirty flag -/
def core (v : Vertex V) : Vertex V := { v with committed := false }

theorem core_eq {v w : Vertex V} (h : core v = core w) : v.id = w.id ∧ v.level = w.level ∧ v.conns = w.conns ∧ v.maint = w.maint ∧ v.vec = w.vec := by
  cases v; cases w; simp only [core, Vertex.mk.injEq] at h; exact ⟨h.1, h.2.1, h.2.2.1, h.2.2.2.1, h.2.2.2.2.1⟩

/-- two look-ups agree up to the dirty flag -/
theorem agree_cases {a b : Option (Vertex V)} (h : a.map core = b.map core) :
    (a = none ∧ b = none) ∨ ∃ v w, a = some v ∧ b = some w ∧ v.id = w.id ∧ v.level = w.level ∧ v.conns = w.conns ∧ v.maint = w.maint ∧ v.vec = w.vec := by
  cases a with
  | none => cases b with
    | none => exact .inl ⟨rfl, rfl⟩
    | some w => cases h
  | some v => cases b with
    | none => cases h
    | some w => exact .inr ⟨v, w, rfl, rfl, core_eq (by simpa using h)⟩

/-- `C` is closed under links of `level` and the two storages agree on it (up to the dirty flag) -/
structure Frame (env : SEnv V D) (get' : Nat → Option (Vertex V)) (level : Nat) (C : Nat → Prop) : Prop where
  agree : ∀ id, C id → (get' id).map core = (env.get id).map core
  closed : ∀ id v links b, C id → env.get id = some v → v.conns[level]? = some links → b ∈ links → C b

theorem distToNode_frame {env : SEnv V D} {get' keys' level} {C : Nat → Prop} (hf : Frame env get' level C) {id : Nat} (hc : C id) :
    distToNode (SEnvWith env get' keys') id = distToNode env id := by
  unfold distToNode SEnvWith
  rcases agree_cases (hf.agree id hc) with ⟨h1, h2⟩ | ⟨v, w, h1, h2, _, _, _, _, h3⟩
  · simp only [h1, h2]
  · simp only [h1, h2, h3]

theorem distances_frame {env : SEnv V D} {get' keys' level} {C : Nat → Prop} (hf : Frame env get' level C) (ids : List Nat) (hc : ∀ i ∈ ids, C i) :
    distances (SEnvWith env get' keys') ids = distances env ids := by
  unfold distances
  induction ids with
  | nil => rfl
  | cons i is ih =>
    simp only [List.filterMap_cons, distToNode_frame hf (hc i (by simp))]
    rw [ih (fun j hj => hc j (by simp [hj]))]

theorem consider_with (env : SEnv V D) (get' keys') (ef : Int) (level : Nat) (st : St D) (nd : Item D) :
    consider (SEnvWith env get' keys') ef level st nd = consider env ef level st nd := rfl

theorem considerAll_with (env : SEnv V D) (get' keys') (ef : Int) (level : Nat) (st : St D) (nds : List (Item D)) :
    considerAll (SEnvWith env get' keys') ef level st nds = considerAll env ef level st nds := by
  induction nds generalizing st with
  | nil => rfl
  | cons nd nds ih =>
    simp only [considerAll, consider_with]
    split
    · rfl
    · exact ih _

theorem consider_candsC {env : SEnv V D} {C : Nat → Prop} {ef : Int} {level : Nat} {st st' : St D} {nd : Item D}
    (hn : C nd.id) (hc : ∀ c ∈ st.cands.toList, C c.id) (h : consider env ef level st nd = .ok st') :
    ∀ c ∈ st'.cands.toList, C c.id := by
  have key : ∀ c ∈ (insert lessMin st.cands nd).toList, C c.id := by
    intro c hcm
    rcases List.mem_cons.mp ((insert_perm lessMin st.cands nd).mem_iff.mp hcm) with rfl | h'
    · exact hn
    · exact hc c h'
  unfold consider at h
  split at h
  · simp only at h
    split at h
    · cases h; exact key
    · split at h
      · cases h
      · split at h
        · cases h
        · cases h; exact key
  · cases h; exact hc

theorem considerAll_candsC {env : SEnv V D} {C : Nat → Prop} {ef : Int} {level : Nat} {nds : List (Item D)} {st st' : St D}
    (hn : ∀ nd ∈ nds, C nd.id) (hc : ∀ c ∈ st.cands.toList, C c.id) (h : considerAll env ef level st nds = .ok st') :
    ∀ c ∈ st'.cands.toList, C c.id := by
  induction nds generalizing st with
  | nil => cases h; exact hc
  | cons nd nds ih =>
    simp only [considerAll] at h
    split at h
    · cases h
    · rename_i st1 h1
      exact ih (fun x hx => hn x (by simp [hx])) (consider_candsC (hn nd (by simp)) hc h1) h

theorem markNew_sub (vis : ListSet) (ids : List Nat) : ∀ i ∈ (markNew vis ids).2, i ∈ ids := by
  induction ids generalizing vis with
  | nil => simp [markNew]
  | cons i is ih =>
    intro j hj
    simp only [markNew] at hj
    split at hj
    · exact List.mem_cons_of_mem _ (ih _ j hj)
    · rcases List.mem_cons.mp hj with rfl | hj
      · simp
      · exact List.mem_cons_of_mem _ (ih _ j hj)

theorem expand_frame {env : SEnv V D} {get' keys' level} {C : Nat → Prop} (hf : Frame env get' level C) (sched : Sched D) (ef : Int)
    (st : St D) (links : List Nat) (hl : ∀ b ∈ links, C b) :
    expand (SEnvWith env get' keys') sched ef level st links = expand env sched ef level st links := by
  unfold expand
  simp only [considerAll_with]
  rw [distances_frame hf _ (fun i hi => hl i (markNew_sub _ _ i hi))]

theorem expand_candsC {env : SEnv V D} {C : Nat → Prop} {level : Nat} {sched : Sched D} {ef : Int} {st st' : St D} {links : List Nat}
    (hl : ∀ b ∈ links, C b) (hc : ∀ c ∈ st.cands.toList, C c.id) (h : expand env sched ef level st links = .ok st') :
    ∀ c ∈ st'.cands.toList, C c.id := by
  unfold expand at h
  refine considerAll_candsC ?_ (by exact hc) h
  intro nd hnd
  have := (sched.perm _ _).mem_iff.mp hnd
  exact hl _ (markNew_sub _ _ _ (mem_distances this).1)

theorem loop_frame {env : SEnv V D} {get' keys' level} {C : Nat → Prop} (hf : Frame env get' level C) (sched : Sched D) (ef : Int)
    (fuel : Nat) (st : St D) (hc : ∀ c ∈ st.cands.toList, C c.id) :
    loop (SEnvWith env get' keys') sched ef level fuel st = loop env sched ef level fuel st := by
  induction fuel generalizing st with
  | zero => rfl
  | succ fuel ih =>
    unfold loop
    cases hp : pop lessMin st.cands with
    | none => rfl
    | some r =>
      obtain ⟨c, q⟩ := r
      have hpm := pop_perm lessMin hp
      have hcc : C c.id := hc c (hpm.mem_iff.mpr (by simp))
      have hq : ∀ x ∈ q.toList, C x.id := fun x hx => hc x (hpm.mem_iff.mpr (List.mem_cons_of_mem _ hx))
      simp only
      split
      · rfl
      · have hag := hf.agree _ hcc
        have hget : (SEnvWith env get' keys').get c.id = get' c.id := rfl
        rw [hget]
        rcases agree_cases hag with ⟨h1, h2⟩ | ⟨v', v, h1, hv, _, hlev, hcon, _, _⟩
        · rw [h1, h2]; exact ih { st with cands := q } hq
        · rw [h1, hv]
          simp only [hlev, hcon]
          split
          · exact ih { st with cands := q } hq
          · cases hlk : v.conns[level]? with
            | none => rfl
            | some links =>
              have hls : ∀ b ∈ links, C b := fun b hb => hf.closed _ v links b hcc hv hlk hb
              simp only
              rw [expand_frame hf sched ef _ links hls]
              cases he : expand env sched ef level { st with cands := q } links with
              | error e => rfl
              | ok st1 => exact ih st1 (expand_candsC (st := { st with cands := q }) hls hq he)

theorem loop_fuel_mono {env : SEnv V D} {sched : Sched D} {ef : Int} {level : Nat} (fuel k : Nat) (st : St D)
    (h : loop env sched ef level fuel st ≠ .error .fuel) :
    loop env sched ef level (fuel + k) st = loop env sched ef level fuel st := by
  induction fuel generalizing st with
  | zero => exact absurd rfl h
  | succ fuel ih =>
    rw [Nat.add_right_comm]
    unfold loop
    unfold loop at h
    cases hp : pop lessMin st.cands with
    | none => rfl
    | some r =>
      obtain ⟨c, q⟩ := r
      rw [hp] at h
      simp only at h ⊢
      split
      · rfl
      · rename_i hc
        rw [if_neg hc] at h
        cases hv : env.get c.id with
        | none => rw [hv] at h; exact ih _ h
        | some v =>
          rw [hv] at h
          simp only at h ⊢
          split
          · rename_i hl; rw [if_pos hl] at h; exact ih _ h
          · rename_i hl; rw [if_neg hl] at h
            cases hlk : v.conns[level]? with
            | none => rfl
            | some links =>
              rw [hlk] at h
              simp only at h ⊢
              cases he : expand env sched ef level { st with cands := q } links with
              | error e => rfl
              | ok st1 => rw [he] at h; exact ih st1 h

/-- If two storages agree on a set closed under links that contains the entry points, both searches give the same answer. -/
theorem searchLayer_frame {env : SEnv V D} {get' keys' level} {C : Nat → Prop} (hf : Frame env get' level C) (sched : Sched D) (ef : Int)
    (eps : List (Item D)) (hc : ∀ e ∈ eps, C e.id) (hk : KeysOk env) (hk' : KeysOk (SEnvWith env get' keys')) :
    searchLayer (SEnvWith env get' keys') sched eps ef level = searchLayer env sched eps ef level := by
  have hcr : ∀ cr, eps.foldl (enter (SEnvWith env get' keys') level) cr = eps.foldl (enter env level) cr := fun _ => rfl
  have hw : worst0 (SEnvWith env get' keys') (eps.foldl (enter env level) (#[], #[])).2 =
      worst0 env (eps.foldl (enter env level) (#[], #[])).2 := by
    unfold worst0
    cases ht : top (eps.foldl (enter env level) (#[], #[])).2 with
    | none => rfl
    | some t =>
      have htm : t ∈ (eps.foldl (enter env level) (#[], #[])).2.toList := (Array.mem_of_getElem? ht).val
      have := (enter_spec env level eps (#[], #[])).2.mem_iff.mp htm
      have hte : t ∈ eps := by simp at this; exact this.1
      simp only [distToNode_frame hf (hc t hte)]
  have hst : start (SEnvWith env get' keys') eps level = start env eps level := by
    unfold start
    simp only [hcr, hw]
    rfl
  have n1 := searchLayer_no_fuel (sched := sched) (eps := eps) (ef := ef) (level := level) hk
  have n2 := searchLayer_no_fuel (sched := sched) (eps := eps) (ef := ef) (level := level) hk'
  unfold searchLayer at n1 n2 ⊢
  rw [hst] at n2 ⊢
  cases hs : start env eps level with
  | error e => rfl
  | ok st =>
    rw [hs] at n1 n2
    simp only at n1 n2 ⊢
    have hcs : ∀ c ∈ st.cands.toList, C c.id := by
      intro c hcm
      have := (start_ok hs).1.mem_iff.mp hcm
      exact hc c this
    have hkeys : (SEnvWith env get' keys').keys = keys' := rfl
    rw [hkeys] at n2 ⊢
    rw [loop_frame hf sched ef _ st hcs] at n2 ⊢
    have e1 : loop env sched ef level (eps.length + keys'.length + 1) st ≠ .error .fuel := by
      intro hh; rw [hh] at n2; exact n2 rfl
    have e2 : loop env sched ef level (eps.length + env.keys.length + 1) st ≠ .error .fuel := by
      intro hh; rw [hh] at n1; exact n1 rfl
    have a1 := loop_fuel_mono _ (env.keys.length) st e1
    have a2 := loop_fuel_mono _ (keys'.length) st e2
    have e3 : eps.length + keys'.length + 1 + env.keys.length = eps.length + env.keys.length + 1 + keys'.length := by omega
    rw [← a1, e3, a2]

/-- The hits of a layer search stay within every set that contains the entry points and is closed under links. -/
theorem searchLayer_closed {env : SEnv V D} {level : Nat} {C : Nat → Prop}
    (hcl : ∀ id v links b, C id → env.get id = some v → v.conns[level]? = some links → b ∈ links → C b)
    {sched : Sched D} {ef : Int} {eps : List (Item D)} {r : Array (Item D)} (hc : ∀ e ∈ eps, C e.id) (hk : KeysOk env)
    (he : EpsOk env eps) (h : searchLayer env sched eps ef level = .ok r) : ∀ x ∈ r.toList, C x.id := by
  classical
  let get' : Nat → Option (Vertex V) := fun id => if C id then env.get id else none
  have hf : Frame env get' level C := ⟨fun id h => by simp [get', h], hcl⟩
  have hk' : KeysOk (SEnvWith env get' env.keys) := by
    intro id v hv
    have : (if C id then env.get id else none) = some v := hv
    split at this
    · exact hk id v this
    · cases this
  rw [← searchLayer_frame hf sched ef eps hc hk hk'] at h
  have hes : EpsOk (SEnvWith env get' env.keys) eps := ⟨he.nodup, he.small⟩
  have := searchLayer_inv (P := fun x => C x.id) (env := SEnvWith env get' env.keys) ?_ hes hc h
  · intro x hx; exact (this.1 x hx).1
  · intro x hx
    unfold distToNode at hx
    split at hx
    · cases hx
    · rename_i v hv
      have : (if C x.id then env.get x.id else none) = some v := hv
      split at this
      · assumption
      · cases this

end Fave.Search
