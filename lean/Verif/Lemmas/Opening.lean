import Verif.Model.Opening
/-!
# Lemmas on requests that open a collection at the same time (for C92)
-/
namespace Fave.Opening
variable {V D : Type} [Dist D]

theorem Steps.trans {P : Params V D} {o a : Bool} {s u v : Sys V} (h : Steps P o a s u) (k : Steps P o a u v) : Steps P o a s v := by
  induction k with
  | refl => exact h
  | step _ b ih => exact ih.step b

/-- what holds in orderly executions -/
structure Inv (s : Sys V) : Prop where
  admin : ∀ t u, (s.pc t).admin = true → (s.pc u).active = true → u = t
  opener : ∀ t u, (s.pc t).opener = true → (s.pc u).opener = true → u = t
  closed : ∀ t, (s.pc t).opener = true → s.dbOpen = false
  users : ∀ t, (s.pc t).user = true → s.dbOpen = true
  has : s.dbOpen = true → (∀ t, (s.pc t).admin = false) → s.cur.isSome
  same : ∀ t i, s.pc t = .using i ∨ (∃ n, s.pc t = .adding i n) → s.cur = some i
  look : ∀ t, s.pc t ≠ .looking
  entered : ∀ t, s.pc t = .entered → s.cur.isSome
  gone : ∀ t, s.pc t = .removing → s.dbOpen = false

theorem inv_start (store : Index V) : Inv (start store) := by
  constructor <;> simp [start, Pc.admin, Pc.opener, Pc.user]

@[simp] theorem at_pc (s : Sys V) (t u : Nat) (p : Pc) : (s.at t p).pc u = if u = t then p else s.pc u := rfl
@[simp] theorem at_dbOpen (s : Sys V) (t : Nat) (p : Pc) : (s.at t p).dbOpen = s.dbOpen := rfl
@[simp] theorem at_cur (s : Sys V) (t : Nat) (p : Pc) : (s.at t p).cur = s.cur := rfl
@[simp] theorem absorb_pc (s : Sys V) (i : Nat) (x : Index V) : (s.absorb i x).pc = s.pc := rfl
@[simp] theorem absorb_dbOpen (s : Sys V) (i : Nat) (x : Index V) : (s.absorb i x).dbOpen = s.dbOpen := rfl
@[simp] theorem absorb_cur (s : Sys V) (i : Nat) (x : Index V) : (s.absorb i x).cur = s.cur := rfl

/-- a step that changes only one request, to a place among those it could have been in -/
theorem Inv.keep {s u : Sys V} (h : Inv s) (t : Nat) (p : Pc) (hp : u.pc = fun v => if v = t then p else s.pc v) (hd : u.dbOpen = s.dbOpen)
    (hc : u.cur = s.cur) (h1 : p.admin = true → (s.pc t).admin = true) (h2 : p.opener = true → (s.pc t).opener = true)
    (h3 : p.user = true → (s.pc t).user = true) (h4 : ∀ i, p = .using i ∨ (∃ n, p = .adding i n) → s.cur = some i) (h5 : p ≠ .looking)
    (h6 : (s.pc t).admin = true → p.admin = true) (h7 : p.active = true → (s.pc t).active = true)
    (h8 : p = .entered → s.cur.isSome) (h9 : p = .removing → s.dbOpen = false) : Inv u := by
  have hpc : ∀ v, u.pc v = if v = t then p else s.pc v := fun v => by rw [hp]
  constructor
  · intro a b ha hb
    have := h.admin a b
    rw [hpc] at ha hb
    grind
  · intro a b ha hb
    have := h.opener a b
    rw [hpc] at ha hb
    grind
  · intro a ha
    have := h.closed a
    rw [hpc] at ha
    grind
  · intro a ha
    have := h.users a
    rw [hpc] at ha
    grind
  · intro a b
    rw [hc]
    refine h.has (hd ▸ a) (fun v => ?_)
    have := b v
    rw [hpc] at this
    grind
  · intro a i ha
    rw [hc]
    rw [hpc] at ha
    by_cases e : a = t
    · rw [if_pos e] at ha; exact h4 i ha
    · rw [if_neg e] at ha; exact h.same a i ha
  · intro a
    rw [hpc]
    have := h.look a
    split
    · exact h5
    · exact this
  · intro a ha
    rw [hc]
    rw [hpc] at ha
    split at ha
    · exact h8 ha
    · exact h.entered a ha
  · intro a ha
    rw [hd]
    rw [hpc] at ha
    split at ha
    · exact h9 ha
    · exact h.gone a ha

theorem Pc.user_active {p : Pc} (h : p.user = true) : p.active = true := by cases p <;> first | rfl | cases h
theorem Pc.opener_active {p : Pc} (h : p.opener = true) : p.active = true := by cases p <;> first | rfl | cases h
theorem Pc.admin_active {p : Pc} (h : p.admin = true) : p.active = true := by cases p <;> first | rfl | cases h

/-- one request alone under way -/
theorem Inv.solo {u : Sys V} (t : Nat) (h : ∀ v, v ≠ t → (u.pc v).active = false) (h1 : (u.pc t).opener = false) (h2 : (u.pc t).user = false)
    (h3 : u.dbOpen = true → (u.pc t).admin = false → u.cur.isSome) (h4 : u.pc t ≠ .looking)
    (h5 : u.pc t = .removing → u.dbOpen = false) : Inv u := by
  have hx : ∀ v, (u.pc v).active = true → v = t := by
    intro v hv
    by_cases e : v = t
    · exact e
    · rw [h v e] at hv; cases hv
  constructor
  · intro a b ha hb; rw [hx a (Pc.admin_active ha), hx b hb]
  · intro a b ha hb; rw [hx a (Pc.opener_active ha), hx b (Pc.opener_active hb)]
  · intro a ha; have := hx a (Pc.opener_active ha); subst this; rw [h1] at ha; cases ha
  · intro a ha; have := hx a (Pc.user_active ha); subst this; rw [h2] at ha; cases ha
  · intro a b; exact h3 a (b t)
  · intro a i ha
    have hu : (u.pc a).user = true := by rcases ha with ha | ⟨_, ha⟩ <;> rw [ha] <;> rfl
    have := hx a (Pc.user_active hu); subst this; rw [h2] at hu; cases hu
  · intro a ha
    have := hx a (by rw [ha]; rfl)
    subst this
    exact h4 ha
  · intro a ha
    have := hx a (by rw [ha]; rfl)
    subst this
    rw [ha] at h1; cases h1
  · intro a ha
    have := hx a (by rw [ha]; rfl)
    subst this
    exact h5 ha

theorem inv_step {P : Params V D} {a : Bool} {s u : Sys V} (h : Inv s) (k : Step P true a s u) : Inv u := by
  have key : ∀ t i, s.pc t = .using i ∨ (∃ n, s.pc t = .adding i n) → s.cur = some i := h.same
  cases k with
  | findOpen t hp ho hg =>
    have hg := hg rfl
    constructor
    · intro x y hx hy; rw [at_pc] at hx; split at hx
      · cases hx
      · rw [hg x] at hx; cases hx
    · intro x y hx hy; rw [at_pc] at hx hy; split at hx <;> split at hy <;> first | cases hx | cases hy | exact h.opener _ _ hx hy
    · intro x hx; rw [at_pc] at hx; split at hx
      · cases hx
      · exact h.closed x hx
    · intro x _; exact ho
    · intro _ _; exact h.has ho hg
    · intro x i hx; rw [at_pc] at hx
      split at hx
      · rcases hx with hx | ⟨_, hx⟩ <;> cases hx
      · exact h.same x i hx
    · intro x; rw [at_pc]; split
      · intro e; cases e
      · exact h.look x
    · intro x hx; rw [at_pc] at hx; split at hx
      · cases hx
      · exact h.entered x hx
    · intro x hx; rw [at_pc] at hx; split at hx
      · cases hx
      · exact h.gone x hx
  | findClosed t hp ho hg =>
    have hg := hg rfl
    have hu : ∀ x, (s.pc x).user = false := by
      intro x
      cases hx : (s.pc x).user with
      | false => rfl
      | true => have := h.users x hx; rw [ho] at this; cases this
    constructor
    · intro x y hx hy; rw [at_pc] at hx; split at hx
      · cases hx
      · rw [(hg x).1] at hx; cases hx
    · intro x y hx hy
      rw [at_pc] at hx hy
      split at hx
      · split at hy
        · omega
        · rw [(hg y).2] at hy; cases hy
      · rw [(hg x).2] at hx; cases hx
    · intro x _; exact ho
    · intro x hx; rw [at_pc] at hx; split at hx
      · cases hx
      · rw [hu x] at hx; cases hx
    · intro hd _; rw [at_dbOpen, ho] at hd; cases hd
    · intro x i hx; rw [at_pc] at hx
      split at hx
      · rcases hx with hx | ⟨_, hx⟩ <;> cases hx
      · exact h.same x i hx
    · intro x; rw [at_pc]; split
      · intro e; cases e
      · exact h.look x
    · intro x hx; rw [at_pc] at hx; split at hx
      · cases hx
      · exact h.entered x hx
    · intro x hx; rw [at_pc] at hx; split at hx
      · cases hx
      · exact h.gone x hx
  | new t hp => refine h.keep t _ rfl rfl rfl ?_ ?_ ?_ ?_ ?_ ?_ ?_ ?_ ?_ <;> simp [hp, Pc.admin, Pc.opener, Pc.user, Pc.active]
  | newFails t hp => refine h.keep t _ rfl rfl rfl ?_ ?_ ?_ ?_ ?_ ?_ ?_ ?_ ?_ <;> simp [hp, Pc.admin, Pc.opener, Pc.user, Pc.active]
  | enter t i hp =>
    have hop : (s.pc t).opener = true := by rw [hp]; rfl
    have hcl := h.closed t hop
    have hu : ∀ x, (s.pc x).user = false := by
      intro x
      cases hx : (s.pc x).user with
      | false => rfl
      | true => have := h.users x hx; rw [hcl] at this; cases this
    have base : Inv (s.at t .closed) := by
      refine h.keep t _ rfl rfl rfl ?_ ?_ ?_ ?_ ?_ ?_ ?_ ?_ ?_ <;> simp [hp, Pc.admin, Pc.opener, Pc.user, Pc.active]
    have hcl' : ∀ x, (({ s with cur := some i } : Sys V).at t .entered).pc x = .entered ∨ (({ s with cur := some i } : Sys V).at t .entered).pc x = (s.at t .closed).pc x := by
      intro x; simp only [at_pc]; split <;> simp
    constructor
    · intro x y hx hy
      refine base.admin x y ?_ ?_ <;> simp only [at_pc] at hx hy ⊢ <;> split <;> simp_all [Pc.admin, Pc.active]
    · intro x y hx hy
      refine base.opener x y ?_ ?_ <;> simp only [at_pc] at hx hy ⊢ <;> split <;> simp_all [Pc.opener]
    · intro x _; exact hcl
    · intro x hx
      simp only [at_pc] at hx
      split at hx
      · cases hx
      · rw [hu x] at hx; cases hx
    · intro _ _; rfl
    rotate_left
    · intro x; simp only [at_pc]; split
      · intro e; cases e
      · exact h.look x
    · intro _ _; rfl
    · intro _ _; exact hcl
    intro x j hx
    rw [at_pc] at hx
    split at hx
    · rcases hx with hx | ⟨_, hx⟩ <;> cases hx
    · have := hu x
      rcases hx with hx | ⟨_, hx⟩ <;> (rw [show s.pc x = _ from hx] at this; cases this)
  | «open» t hp ho =>
    have hop : (s.pc t).opener = true := by rw [hp]; rfl
    have hna : ∀ x, (s.pc x).admin = false := by
      intro x
      cases hx : (s.pc x).admin with
      | false => rfl
      | true =>
        have e := h.admin x t hx (Pc.opener_active hop)
        subst e
        rw [hp] at hx; cases hx
    have hhas : s.cur.isSome → Inv ({ s with dbOpen := true }.at t .fetch) := by
      intro hc
      constructor
      · intro x y hx _; rw [at_pc] at hx; split at hx
        · cases hx
        · rw [show (s.pc x).admin = false from hna x] at hx; cases hx
      · intro x y hx hy; rw [at_pc] at hx hy; split at hx <;> split at hy <;> first | cases hx | cases hy | exact h.opener _ _ hx hy
      · intro x hx; rw [at_pc] at hx; split at hx
        · cases hx
        · rename_i e; exact absurd (h.opener t x hop hx) e
      · intro x _; rfl
      · intro _ _; exact hc
      · intro x i hx; rw [at_pc] at hx
        split at hx
        · rcases hx with hx | ⟨_, hx⟩ <;> cases hx
        · exact h.same x i hx
      · intro x; rw [at_pc]; split
        · intro e; cases e
        · exact h.look x
      · intro _ _; exact hc
      · intro x hx; rw [at_pc] at hx; split at hx
        · cases hx
        · have := hna x
          rw [show s.pc x = _ from hx] at this; cases this
    exact hhas (h.entered t hp)
  | openRefused t hp ho => refine h.keep t _ rfl rfl rfl ?_ ?_ ?_ ?_ ?_ ?_ ?_ ?_ ?_ <;> simp [hp, Pc.admin, Pc.opener, Pc.user, Pc.active]
  | openFails t hp ho => refine h.keep t _ rfl rfl rfl ?_ ?_ ?_ ?_ ?_ ?_ ?_ ?_ ?_ <;> simp [hp, Pc.admin, Pc.opener, Pc.user, Pc.active]
  | take t i hp hc => refine h.keep t _ rfl rfl rfl ?_ ?_ ?_ ?_ ?_ ?_ ?_ ?_ ?_ <;> simp_all [Pc.admin, Pc.opener, Pc.user, Pc.active]
  | takeNil t hp hc => refine h.keep t _ rfl rfl rfl ?_ ?_ ?_ ?_ ?_ ?_ ?_ ?_ ?_ <;> simp [hp, Pc.admin, Pc.opener, Pc.user, Pc.active]
  | search t i ids hp => refine h.keep t _ rfl rfl rfl ?_ ?_ ?_ ?_ ?_ ?_ ?_ ?_ ?_ <;> simp [hp, Pc.admin, Pc.opener, Pc.user, Pc.active]
  | count t i hp =>
    have := key t i (.inl hp)
    refine h.keep t _ rfl rfl rfl ?_ ?_ ?_ ?_ ?_ ?_ ?_ ?_ ?_ <;> simp [hp, this, Pc.admin, Pc.opener, Pc.user, Pc.active]
  | add t i n vo sched q level ids x hp ha =>
    have := key t i (.inr ⟨_, hp⟩)
    refine h.keep t _ rfl rfl rfl ?_ ?_ ?_ ?_ ?_ ?_ ?_ ?_ ?_ <;> simp [hp, this, Pc.admin, Pc.opener, Pc.user, Pc.active]
  | addFails t i n vo sched q level x e hp ha =>
    have := key t i (.inr ⟨_, hp⟩)
    refine h.keep t _ rfl rfl rfl ?_ ?_ ?_ ?_ ?_ ?_ ?_ ?_ ?_ <;> simp [hp, this, Pc.admin, Pc.opener, Pc.user, Pc.active]
  | flush t i n order x hp _ _ => refine h.keep t _ rfl rfl rfl ?_ ?_ ?_ ?_ ?_ ?_ ?_ ?_ ?_ <;> simp [hp, Pc.admin, Pc.opener, Pc.user, Pc.active]
  | breaksOff t i n hp => refine h.keep t _ rfl rfl rfl ?_ ?_ ?_ ?_ ?_ ?_ ?_ ?_ ?_ <;> simp [hp, Pc.admin, Pc.opener, Pc.user, Pc.active]
  | create t _ hp _ hq =>
    refine Inv.solo t (fun v hv => ?_) ?_ ?_ ?_ ?_ ?_
    · rw [at_pc, if_neg hv]
      exact hq rfl v
    all_goals simp_all [Pc.opener, Pc.user, Pc.admin]
  | createNew t hp =>
    refine Inv.solo t (fun v hv => ?_) ?_ ?_ ?_ ?_ ?_
    · rw [at_pc, if_neg hv]
      cases hx : (s.pc v).active with
      | false => rfl
      | true => exact absurd (h.admin t v (by rw [hp]; rfl) hx) hv
    all_goals simp_all [Pc.opener, Pc.user, Pc.admin]
  | createEnds t i hp =>
    refine Inv.solo t (fun v hv => ?_) ?_ ?_ ?_ ?_ ?_
    · rw [at_pc, if_neg hv]
      cases hx : (s.pc v).active with
      | false => rfl
      | true => exact absurd (h.admin t v (by rw [hp]; rfl) hx) hv
    all_goals simp_all [Pc.opener, Pc.user, Pc.admin]
  | delete t _ hp _ hq =>
    refine Inv.solo t (fun v hv => ?_) ?_ ?_ ?_ ?_ ?_
    · rw [at_pc, if_neg hv]
      exact hq rfl v
    all_goals simp_all [Pc.opener, Pc.user, Pc.admin]
  | deleteBoth t hp =>
    refine Inv.solo t (fun v hv => ?_) ?_ ?_ ?_ ?_ ?_
    · rw [at_pc, if_neg hv]
      cases hx : (s.pc v).active with
      | false => rfl
      | true => exact absurd (h.admin t v (by rw [hp]; rfl) hx) hv
    all_goals simp_all [Pc.opener, Pc.user, Pc.admin]
  | deleteEnds t hp =>
    have hgone := h.gone t hp
    refine Inv.solo t (fun v hv => ?_) ?_ ?_ ?_ ?_ ?_
    · rw [at_pc, if_neg hv]
      cases hx : (s.pc v).active with
      | false => rfl
      | true => exact absurd (h.admin t v (by rw [hp]; rfl) hx) hv
    all_goals simp_all [Pc.opener, Pc.user, Pc.admin]
  | look t hp ho => refine h.keep t _ rfl rfl rfl ?_ ?_ ?_ ?_ ?_ ?_ ?_ ?_ ?_ <;> simp [hp, Pc.admin, Pc.opener, Pc.user, Pc.active]
  | lookClosed t _ ho _ _ => cases ho
  | lookOpens t hp ho => exact absurd hp (h.look t)
  | lookRefused t hp ho => exact absurd hp (h.look t)

theorem inv_steps {P : Params V D} {a : Bool} {s u : Sys V} (h : Inv s) (k : Steps P true a s u) : Inv u := by
  induction k with
  | refl => exact h
  | step _ b ih => exact inv_step ih b

/-- nobody is about to change which index is used -/
def settled (s : Sys V) : Prop :=
  s.dbOpen = true ∧ ∀ t, (s.pc t).opener = false ∧ (s.pc t).admin = false ∧ s.pc t ≠ .looking

theorem settled_step {P : Params V D} {o : Bool} {s u : Sys V} (h : settled s) (k : Step P o false s u) : settled u ∧ u.cur = s.cur := by
  obtain ⟨hd, h⟩ := h
  have key : ∀ (t : Nat) (p : Pc) (w : Sys V), w.pc = (fun v => if v = t then p else s.pc v) → w.dbOpen = s.dbOpen → p.opener = false → p.admin = false →
      p ≠ .looking → settled w := by
    intro t p w h1 h2 h3 h4 h5
    refine ⟨h2 ▸ hd, fun v => ?_⟩
    rw [h1]
    simp only
    split
    · exact ⟨h3, h4, h5⟩
    · exact h v
  have no : ∀ t, (s.pc t).opener = true → False := fun t e => by rw [(h t).1] at e; cases e
  have na : ∀ t, (s.pc t).admin = true → False := fun t e => by rw [(h t).2.1] at e; cases e
  cases k with
  | findOpen t => exact ⟨key t _ _ rfl rfl rfl rfl (by simp), rfl⟩
  | findClosed t _ ho => rw [hd] at ho; cases ho
  | new t hp => exact (no t (by rw [hp]; rfl)).elim
  | newFails t hp => exact (no t (by rw [hp]; rfl)).elim
  | enter t i hp => exact (no t (by rw [hp]; rfl)).elim
  | «open» t hp => exact (no t (by rw [hp]; rfl)).elim
  | openRefused t hp => exact (no t (by rw [hp]; rfl)).elim
  | openFails t hp => exact (no t (by rw [hp]; rfl)).elim
  | take t => exact ⟨key t _ _ rfl rfl rfl rfl (by simp), rfl⟩
  | takeNil t => exact ⟨key t _ _ rfl rfl rfl rfl (by simp), rfl⟩
  | search t => exact ⟨key t _ _ rfl rfl rfl rfl (by simp), rfl⟩
  | count t => exact ⟨key t _ _ rfl rfl rfl rfl (by simp), rfl⟩
  | add t => exact ⟨key t _ _ rfl rfl rfl rfl (by simp), rfl⟩
  | addFails t => exact ⟨key t _ _ rfl rfl rfl rfl (by simp), rfl⟩
  | flush t => exact ⟨key t _ _ rfl rfl rfl rfl (by simp), rfl⟩
  | breaksOff t => exact ⟨key t _ _ rfl rfl rfl rfl (by simp), rfl⟩
  | create t ha => cases ha
  | createNew t hp => exact (na t (by rw [hp]; rfl)).elim
  | createEnds t i hp => exact (na t (by rw [hp]; rfl)).elim
  | delete t ha => cases ha
  | deleteBoth t hp => exact (na t (by rw [hp]; rfl)).elim
  | deleteEnds t hp => exact (na t (by rw [hp]; rfl)).elim
  | look t => exact ⟨key t _ _ rfl rfl rfl rfl (by simp), rfl⟩
  | lookClosed t ha => cases ha
  | lookOpens t hp => exact absurd hp (h t).2.2
  | lookRefused t hp => exact absurd hp (h t).2.2

theorem settled_steps {P : Params V D} {o : Bool} {s u : Sys V} (h : settled s) (k : Steps P o false s u) : settled u ∧ u.cur = s.cur := by
  induction k with
  | refl => exact ⟨h, rfl⟩
  | step _ b ih =>
    obtain ⟨a, c⟩ := settled_step ih.1 b
    exact ⟨a, c.trans ih.2⟩

/-! ## Concrete executions -/

/-- the moves used in the witnesses -/
inductive Move (V : Type) where
  | find (t : Nat) | new (t : Nat) | enter (t : Nat) | openDb (t : Nat) | take (t : Nat) | search (t : Nat) (ids : List Nat) | count (t : Nat)
  | add (t : Nat) (q : V) (level : Nat) (ids : List Nat) | flush (t : Nat) | create (t : Nat) | createNew (t : Nat) | createEnds (t : Nat)
  | delete (t : Nat) | deleteBoth (t : Nat) | deleteEnds (t : Nat)

/-- do a move, if it is possible -/
def move (P : Params V D) (vo : Index.VecOracle V) (sched : Graph.Scheds D) (s : Sys V) : Move V → Option (Sys V)
  | .find t => match s.pc t with
    | .idle => some (s.at t (if s.dbOpen then .fetch else .closed))
    | _ => none
  | .new t => match s.pc t with
    | .closed => some ({ s with made := s.made + 1, mem := fun j => if j = s.made then s.store.reopen else s.mem j }.at t (.holds s.made))
    | _ => none
  | .enter t => match s.pc t with
    | .holds i => some ({ s with cur := some i }.at t .entered)
    | _ => none
  | .openDb t => match s.pc t with
    | .entered => some (if s.dbOpen then s.at t (.ended false) else { s with dbOpen := true }.at t .fetch)
    | _ => none
  | .take t => match s.pc t, s.cur with
    | .fetch, some i => some (s.at t (.using i))
    | .fetch, none => some (s.at t (.ended false))
    | _, _ => none
  | .search t ids => match s.pc t with
    | .using i => some ((s.absorb i (warm (s.view i).loadEntry ids)).at t (.ended true))
    | _ => none
  | .count t => match s.pc t with
    | .using i => some (s.at t (.adding i ((s.view i).docCount.getD 0)))
    | _ => none
  | .add t q level ids => match s.pc t with
    | .adding i n => match Index.add P vo sched (warm (s.view i) ids) n q level with
      | (x, none) => some ((s.absorb i x).at t (.adding i (n + 1)))
      | _ => none
    | _ => none
  | .flush t => match s.pc t with
    | .adding i n => match Index.flush P (s.view i) (s.view i).cache.keys n with
      | (x, none) => some ((s.absorb i x).at t (.ended true))
      | _ => none
    | _ => none
  | .create t => match s.pc t, s.lock with
    | .idle, none => some ({ s with lock := some t }.at t .creating)
    | _, _ => none
  | .createNew t => match s.pc t with
    | .creating => some ({ s with dbOpen := true, made := s.made + 1, mem := fun j => if j = s.made then s.store.reopen else s.mem j }.at t (.created s.made))
    | _ => none
  | .createEnds t => match s.pc t with
    | .created i => some ({ s with cur := some i, lock := none }.at t (.ended true))
    | _ => none
  | .delete t => match s.pc t, s.lock with
    | .idle, none => some ({ s with lock := some t }.at t .deleting)
    | _, _ => none
  | .deleteBoth t => match s.pc t with
    | .deleting => some ({ s with dbOpen := false, store := Index.init }.at t .removing)
    | _ => none
  | .deleteEnds t => match s.pc t with
    | .removing => some ({ s with cur := none, lock := none }.at t (.ended true))
    | _ => none

def moves (P : Params V D) (vo : Index.VecOracle V) (sched : Graph.Scheds D) : Sys V → List (Move V) → Option (Sys V)
  | s, [] => some s
  | s, m :: ms => (move P vo sched s m).bind (fun s => moves P vo sched s ms)

/-- who moves -/
def Move.who : Move V → Nat
  | .find t | .new t | .enter t | .openDb t | .take t | .search t _ | .count t | .add t _ _ _ | .flush t | .create t | .createNew t | .createEnds t
  | .delete t | .deleteBoth t | .deleteEnds t => t

theorem move_other {P : Params V D} {vo : Index.VecOracle V} {sched : Graph.Scheds D} {s u : Sys V} {m : Move V} (h : move P vo sched s m = some u)
    {t : Nat} (ht : t ≠ m.who) : u.pc t = s.pc t := by
  cases m <;> simp only [move, Move.who] at h ht <;> (repeat' split at h) <;> cases h <;> (try split) <;> simp [ht]

theorem moves_other {P : Params V D} {vo : Index.VecOracle V} {sched : Graph.Scheds D} {ms : List (Move V)} {t : Nat} :
    ∀ {s u : Sys V}, moves P vo sched s ms = some u → (∀ m ∈ ms, t ≠ m.who) → u.pc t = s.pc t := by
  induction ms with
  | nil => intro s u h _; cases h; rfl
  | cons m ms ih =>
    intro s u h ha
    obtain ⟨v, hv, h⟩ := Option.bind_eq_some_iff.mp h
    rw [ih h (fun m hm => ha m (List.mem_cons_of_mem _ hm)), move_other hv (ha m (by simp))]

/-- no move of a creation or deletion -/
def Move.plain : Move V → Bool
  | .create _ | .delete _ => false
  | _ => true

theorem move_step {P : Params V D} {vo : Index.VecOracle V} {sched : Graph.Scheds D} {s u : Sys V} {m : Move V} (h : move P vo sched s m = some u)
    (a : Bool) (ha : m.plain = true ∨ a = true) : Step P false a s u := by
  cases m with
  | find t =>
    simp only [move] at h
    split at h
    · rename_i hp
      cases h
      cases hd : s.dbOpen with
      | true => exact .findOpen t hp hd (by simp)
      | false => exact .findClosed t hp hd (by simp)
    · cases h
  | new t => simp only [move] at h; split at h <;> cases h; exact .new t (by assumption)
  | enter t => simp only [move] at h; split at h <;> cases h; exact .enter t _ (by assumption)
  | openDb t =>
    simp only [move] at h
    split at h
    · rename_i hp
      cases h
      cases hd : s.dbOpen with
      | true => exact .openRefused t hp hd
      | false => exact .open t hp hd
    · cases h
  | take t =>
    simp only [move] at h
    split at h
    · cases h; exact .take t _ (by assumption) (by assumption)
    · cases h; exact .takeNil t (by assumption) (by assumption)
    · cases h
  | search t ids => simp only [move] at h; split at h <;> cases h; exact .search t _ ids (by assumption)
  | count t => simp only [move] at h; split at h <;> cases h; exact .count t _ (by assumption)
  | add t q level ids =>
    simp only [move] at h
    split at h
    · split at h
      · cases h; exact .add t _ _ vo sched q level ids _ (by assumption) (by assumption)
      · cases h
    · cases h
  | flush t =>
    simp only [move] at h
    split at h
    · split at h
      · cases h; exact .flush t _ _ _ _ (by assumption) (List.Perm.refl _) (by assumption)
      · cases h
    · cases h
  | create t =>
    have ha : a = true := by rcases ha with ha | ha; cases ha; exact ha
    simp only [move] at h; split at h <;> cases h; exact .create t ha (by assumption) (by assumption) (by simp)
  | createNew t => simp only [move] at h; split at h <;> cases h; exact .createNew t (by assumption)
  | createEnds t => simp only [move] at h; split at h <;> cases h; exact .createEnds t _ (by assumption)
  | delete t =>
    have ha : a = true := by rcases ha with ha | ha; cases ha; exact ha
    simp only [move] at h; split at h <;> cases h; exact .delete t ha (by assumption) (by assumption) (by simp)
  | deleteBoth t => simp only [move] at h; split at h <;> cases h; exact .deleteBoth t (by assumption)
  | deleteEnds t => simp only [move] at h; split at h <;> cases h; exact .deleteEnds t (by assumption)

theorem moves_steps {P : Params V D} {vo : Index.VecOracle V} {sched : Graph.Scheds D} {ms : List (Move V)} {a : Bool} :
    ∀ {s u : Sys V}, moves P vo sched s ms = some u → (a = true ∨ ms.all Move.plain = true) → Steps P false a s u := by
  induction ms with
  | nil => intro s u h _; cases h; exact .refl _
  | cons m ms ih =>
    intro s u h ha
    obtain ⟨v, hv, h⟩ := Option.bind_eq_some_iff.mp h
    have hm : m.plain = true ∨ a = true := by
      rcases ha with ha | ha
      · exact .inr ha
      · exact .inl (by simp only [List.all_cons, Bool.and_eq_true] at ha; exact ha.1)
    have hms : a = true ∨ ms.all Move.plain = true := by
      rcases ha with ha | ha
      · exact .inl ha
      · exact .inr (by simp only [List.all_cons, Bool.and_eq_true] at ha; exact ha.2)
    exact (Steps.step (.refl s) (move_step hv a hm)).trans (ih h hms)

end Fave.Opening
