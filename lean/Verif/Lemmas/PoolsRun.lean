import Verif.Lemmas.Pools
/-! # Pools: the invariant of all interleavings -/
namespace Fave.Pools
variable {A : Type}

/-- the object in a held variable -/
def Good (n : Nat) (past : List (Op A)) : Slot → Obj A → Prop
  | .vis, o => ∃ l, o = .vis l ∧ l.WF ∧ n ≤ l.len ∧ ∀ id, l.visited id = decide (id ∈ ownMarks past)
  | .q k, o => ∃ cap, o = .q k (ownItems k past) cap

theorem Good.asOwn {n : Nat} {past : List (Op A)} {sl : Slot} {o : Obj A} (h : Good n past sl o) : AsOwn past sl o := by
  cases sl with
  | vis => obtain ⟨l, h1, _, _, h2⟩ := h; exact ⟨l, h1, h2⟩
  | q k => exact h

/-- an object in a pool -/
def CleanV (n : Nat) (o : Obj A) : Prop := ∃ l, o = .vis l ∧ l.WF ∧ n ≤ l.len ∧ ∀ id, l.visited id = false
def CleanQ (k : QKind) (o : Obj A) : Prop := ∃ items cap, o = .q k items cap ∧ (k = .slice → items = [])

structure Inv (z : Sizes) (s : St A) (live : Nat → Live) : Prop where
  ok : s.crashed = false
  chk : ∀ t, (chk z.list (live t) (s.thread t).rest).isSome = true
  held : ∀ t sl, live t sl = true → ∃ a, (s.thread t).slot sl = some a ∧ a < s.next ∧ Good z.list (s.thread t).past sl (s.heap a) ∧ ¬ s.pooled a
  only : ∀ t sl t' sl' a, live t sl = true → live t' sl' = true → (s.thread t).slot sl = some a → (s.thread t').slot sl' = some a → t = t' ∧ sl = sl'
  vnd : s.vpool.Nodup
  v : ∀ a ∈ s.vpool, a < s.next ∧ CleanV z.list (s.heap a)
  qnd : ∀ k, (s.qpool k).Nodup
  q : ∀ k, ∀ a ∈ s.qpool k, a < s.next ∧ CleanQ k (s.heap a)

theorem rest_chk {n : Nat} {L L' : Live} {op : Op A} {rest : List (Op A)} (h : (chk n L (op :: rest)).isSome = true) (h1 : chk1 n L op = some L') : (chk n L' rest).isSome = true := by
  rw [chk_cons_of h1] at h; exact h

theorem chk1_of {n : Nat} {L : Live} {op : Op A} {rest : List (Op A)} (h : (chk n L (op :: rest)).isSome = true) : ∃ L', chk1 n L op = some L' := by
  unfold chk at h
  cases hc : chk1 n L op with
  | none => rw [hc] at h; cases h
  | some L' => exact ⟨L', rfl⟩

theorem inv_take {z : Sizes} {s s' : St A} {live : Nat → Live} (hI : Inv z s live) {t : Nat} {op : Op A} {rest : List (Op A)} {sl : Slot} {a : Nat}
    (hrest : (s.thread t).rest = op :: rest) (hc1 : chk1 z.list (live t) op = some ((live t).set sl true))
    (hth : ∀ u, u ≠ t → s'.thread u = s.thread u)
    (ht : s'.thread t = ⟨fun x => if x = sl then some a else (s.thread t).slot x, (s.thread t).past ++ [op], rest⟩)
    (hcr : s'.crashed = s.crashed) (hheap : ∀ b, b ≠ a → s'.heap b = s.heap b) (hnext : s.next ≤ s'.next) (ha : a < s'.next)
    (hfree : ∀ u x, live u x = true → (s.thread u).slot x ≠ some a)
    (hv : s'.vpool.Sublist s.vpool) (hq : ∀ k, (s'.qpool k).Sublist (s.qpool k)) (hnp : ¬ s'.pooled a)
    (hgood : Good z.list ((s.thread t).past ++ [op]) sl (s'.heap a))
    (hother : ∀ x, x ≠ sl → ∀ o, Good z.list (s.thread t).past x o → Good z.list ((s.thread t).past ++ [op]) x o) :
    Inv z s' (fun u => if u = t then (live t).set sl true else live u) := by
  have hpool : ∀ b, s'.pooled b → s.pooled b := by
    rintro b (h | ⟨k, h⟩)
    · exact .inl (hv.subset h)
    · exact .inr ⟨k, (hq k).subset h⟩
  -- the variables after the step
  have hslot : ∀ u x b, (if u = t then (live t).set sl true else live u) x = true → (s'.thread u).slot x = some b →
      (u = t ∧ x = sl ∧ b = a) ∨ (live u x = true ∧ (s.thread u).slot x = some b ∧ b ≠ a ∧ (u = t → x ≠ sl)) := by
    intro u x b hl hs
    by_cases hu : u = t
    · subst hu
      rw [if_pos rfl] at hl
      rw [ht] at hs
      simp only at hs
      by_cases hx : x = sl
      · rw [if_pos hx] at hs; cases hs; exact .inl ⟨rfl, hx, rfl⟩
      · rw [if_neg hx] at hs
        rw [set_ne _ _ hx] at hl
        exact .inr ⟨hl, hs, (fun e => hfree u x hl (by rw [hs, e])), fun _ => hx⟩
    · rw [if_neg hu] at hl
      rw [hth u hu] at hs
      exact .inr ⟨hl, hs, (fun e => hfree u x hl (by rw [hs, e])), fun e => absurd e hu⟩
  refine ⟨hcr.trans hI.ok, ?_, ?_, ?_, hv.nodup hI.vnd, ?_, fun k => (hq k).nodup (hI.qnd k), ?_⟩
  · intro u
    by_cases hu : u = t
    · subst hu
      simp only [if_true]
      rw [ht]
      have := hI.chk u
      rw [hrest] at this
      exact rest_chk this hc1
    · simp only [if_neg hu]; rw [hth u hu]; exact hI.chk u
  · intro u x hl
    by_cases hu : u = t
    · subst hu
      rw [if_pos rfl] at hl
      rw [ht]
      by_cases hx : x = sl
      · subst hx
        exact ⟨a, by simp, ha, hgood, hnp⟩
      · rw [set_ne _ _ hx] at hl
        obtain ⟨b, h1, h2, h3, h4⟩ := hI.held u x hl
        have hba : b ≠ a := fun e => hfree u x hl (by rw [h1, e])
        refine ⟨b, by simp only [if_neg hx]; exact h1, Nat.lt_of_lt_of_le h2 hnext, ?_, fun hp => h4 (hpool b hp)⟩
        rw [hheap b hba]; exact hother x hx _ h3
    · rw [if_neg hu] at hl
      obtain ⟨b, h1, h2, h3, h4⟩ := hI.held u x hl
      have hba : b ≠ a := fun e => hfree u x hl (by rw [h1, e])
      rw [hth u hu]
      exact ⟨b, h1, Nat.lt_of_lt_of_le h2 hnext, by rw [hheap b hba]; exact h3, fun hp => h4 (hpool b hp)⟩
  · intro u x u' x' b h1 h2 h3 h4
    rcases hslot u x b h1 h3 with ⟨a1, a2, a3⟩ | ⟨b1, b2, b3, b4⟩
    · rcases hslot u' x' b h2 h4 with ⟨c1, c2, c3⟩ | ⟨d1, d2, d3, d4⟩
      · exact ⟨a1.trans c1.symm, a2.trans c2.symm⟩
      · exact absurd a3 d3
    · rcases hslot u' x' b h2 h4 with ⟨c1, c2, c3⟩ | ⟨d1, d2, d3, d4⟩
      · exact absurd c3 b3
      · exact hI.only u x u' x' b b1 d1 b2 d2
  · intro b hb
    obtain ⟨h1, h2⟩ := hI.v b (hv.subset hb)
    refine ⟨Nat.lt_of_lt_of_le h1 hnext, ?_⟩
    rw [hheap b (fun e => hnp (.inl (e ▸ hb)))]; exact h2
  · intro k b hb
    obtain ⟨h1, h2⟩ := hI.q k b ((hq k).subset hb)
    refine ⟨Nat.lt_of_lt_of_le h1 hnext, ?_⟩
    rw [hheap b (fun e => hnp (.inr ⟨k, e ▸ hb⟩))]; exact h2

theorem inv_use {z : Sizes} {s s' : St A} {live : Nat → Live} (hI : Inv z s live) {t : Nat} {op : Op A} {rest : List (Op A)} {sl : Slot} {a : Nat}
    (hrest : (s.thread t).rest = op :: rest) (hc1 : chk1 z.list (live t) op = some (live t)) (hl : live t sl = true) (hslot : (s.thread t).slot sl = some a)
    (hth : ∀ u, u ≠ t → s'.thread u = s.thread u) (ht : s'.thread t = ⟨(s.thread t).slot, (s.thread t).past ++ [op], rest⟩)
    (hcr : s'.crashed = s.crashed) (hheap : ∀ b, b ≠ a → s'.heap b = s.heap b) (hnext : s'.next = s.next)
    (hv : s'.vpool = s.vpool) (hq : s'.qpool = s.qpool)
    (hgood : Good z.list ((s.thread t).past ++ [op]) sl (s'.heap a))
    (hother : ∀ x, x ≠ sl → ∀ o, Good z.list (s.thread t).past x o → Good z.list ((s.thread t).past ++ [op]) x o) :
    Inv z s' live := by
  have hs : ∀ u, (s'.thread u).slot = (s.thread u).slot := by
    intro u
    by_cases hu : u = t
    · subst hu; rw [ht]
    · rw [hth u hu]
  have hpool : ∀ b, s'.pooled b ↔ s.pooled b := by intro b; unfold St.pooled; rw [hv, hq]
  obtain ⟨a', g1, _, _, hna⟩ := hI.held t sl hl
  rw [hslot] at g1; cases g1
  refine ⟨hcr.trans hI.ok, ?_, ?_, ?_, by rw [hv]; exact hI.vnd, ?_, by rw [hq]; exact hI.qnd, ?_⟩
  · intro u
    by_cases hu : u = t
    · subst hu
      rw [ht]
      have := hI.chk u
      rw [hrest] at this
      exact rest_chk this hc1
    · rw [hth u hu]; exact hI.chk u
  · intro u x hux
    obtain ⟨b, h1, h2, h3, h4⟩ := hI.held u x hux
    rw [hs]
    refine ⟨b, h1, by rw [hnext]; exact h2, ?_, by rw [hpool]; exact h4⟩
    by_cases hu : u = t
    · subst hu
      rw [ht]
      by_cases hx : x = sl
      · subst hx
        rw [h1] at hslot; cases hslot
        exact hgood
      · have hba : b ≠ a := fun e => hx (hI.only u x u sl a hux hl (e ▸ h1) hslot).2
        rw [hheap b hba]; exact hother x hx _ h3
    · have hba : b ≠ a := fun e => hu (hI.only u x t sl a hux hl (e ▸ h1) hslot).1
      rw [hheap b hba, hth u hu]; exact h3
  · intro u x u' x' b h1 h2 h3 h4
    rw [hs] at h3 h4
    exact hI.only u x u' x' b h1 h2 h3 h4
  · intro b hb
    rw [hv] at hb
    rw [hnext, hheap b (fun e => hna (.inl (e ▸ hb)))]
    exact hI.v b hb
  · intro k b hb
    rw [hq] at hb
    rw [hnext, hheap b (fun e => hna (.inr ⟨k, e ▸ hb⟩))]
    exact hI.q k b hb

theorem inv_put {z : Sizes} {s s' : St A} {live : Nat → Live} (hI : Inv z s live) {t : Nat} {op : Op A} {rest : List (Op A)} {sl : Slot} {a : Nat}
    (hrest : (s.thread t).rest = op :: rest) (hc1 : chk1 z.list (live t) op = some ((live t).set sl false)) (hl : live t sl = true) (hslot : (s.thread t).slot sl = some a)
    (hth : ∀ u, u ≠ t → s'.thread u = s.thread u) (ht : s'.thread t = ⟨(s.thread t).slot, (s.thread t).past ++ [op], rest⟩)
    (hcr : s'.crashed = s.crashed) (hheap : ∀ b, b ≠ a → s'.heap b = s.heap b) (hnext : s'.next = s.next)
    (hv : s'.vpool = s.vpool ∨ (s'.vpool = s.vpool ++ [a] ∧ CleanV z.list (s'.heap a)))
    (hq : ∀ k, s'.qpool k = s.qpool k ∨ (s'.qpool k = a :: s.qpool k ∧ CleanQ k (s'.heap a)))
    (hother : ∀ x, x ≠ sl → ∀ o, Good z.list (s.thread t).past x o → Good z.list ((s.thread t).past ++ [op]) x o) :
    Inv z s' (fun u => if u = t then (live t).set sl false else live u) := by
  have hs : ∀ u, (s'.thread u).slot = (s.thread u).slot := by
    intro u
    by_cases hu : u = t
    · subst hu; rw [ht]
    · rw [hth u hu]
  have hlive : ∀ u x, (if u = t then (live t).set sl false else live u) x = true → live u x = true ∧ (u = t → x ≠ sl) := by
    intro u x h
    by_cases hu : u = t
    · subst hu
      rw [if_pos rfl] at h
      by_cases hx : x = sl
      · subst hx; rw [set_self] at h; cases h
      · rw [set_ne _ _ hx] at h; exact ⟨h, fun _ => hx⟩
    · rw [if_neg hu] at h; exact ⟨h, fun e => absurd e hu⟩
  have hpool : ∀ b, b ≠ a → s'.pooled b → s.pooled b := by
    rintro b hb (h | ⟨k, h⟩)
    · rcases hv with hv | ⟨hv, _⟩
      · rw [hv] at h; exact .inl h
      · rw [hv] at h
        simp only [List.mem_append, List.mem_singleton] at h
        rcases h with h | h
        · exact .inl h
        · exact absurd h hb
    · rcases hq k with hq | ⟨hq, _⟩
      · rw [hq] at h; exact .inr ⟨k, h⟩
      · rw [hq] at h
        rcases List.mem_cons.mp h with h | h
        · exact absurd h hb
        · exact .inr ⟨k, h⟩
  obtain ⟨a', g1, ga, _, hna⟩ := hI.held t sl hl
  rw [hslot] at g1; cases g1
  refine ⟨hcr.trans hI.ok, ?_, ?_, ?_, ?_, ?_, ?_, ?_⟩
  · intro u
    by_cases hu : u = t
    · subst hu
      simp only [if_true]
      rw [ht]
      have := hI.chk u
      rw [hrest] at this
      exact rest_chk this hc1
    · simp only [if_neg hu]; rw [hth u hu]; exact hI.chk u
  · intro u x hux
    obtain ⟨hux, hne⟩ := hlive u x hux
    obtain ⟨b, h1, h2, h3, h4⟩ := hI.held u x hux
    have hba : b ≠ a := by
      intro e
      have := hI.only u x t sl a hux hl (e ▸ h1) hslot
      exact hne this.1 this.2
    rw [hs]
    refine ⟨b, h1, by rw [hnext]; exact h2, ?_, fun hp => h4 (hpool b hba hp)⟩
    rw [hheap b hba]
    by_cases hu : u = t
    · subst hu; rw [ht]; exact hother x (hne rfl) _ h3
    · rw [hth u hu]; exact h3
  · intro u x u' x' b h1 h2 h3 h4
    rw [hs] at h3 h4
    exact hI.only u x u' x' b (hlive u x h1).1 (hlive u' x' h2).1 h3 h4
  · rcases hv with hv | ⟨hv, _⟩
    · rw [hv]; exact hI.vnd
    · rw [hv, List.nodup_append]
      refine ⟨hI.vnd, by simp, ?_⟩
      intro x hx y hy
      simp only [List.mem_singleton] at hy
      subst hy
      exact fun e => hna (.inl (e ▸ hx))
  · intro b hb
    rw [hnext]
    rcases hv with hv | ⟨hv, hc⟩
    · rw [hv] at hb
      rw [hheap b (fun e => hna (.inl (e ▸ hb)))]
      exact hI.v b hb
    · rw [hv] at hb
      simp only [List.mem_append, List.mem_singleton] at hb
      rcases hb with hb | rfl
      · rw [hheap b (fun e => hna (.inl (e ▸ hb)))]
        exact hI.v b hb
      · exact ⟨ga, hc⟩
  · intro k
    rcases hq k with hq | ⟨hq, _⟩
    · rw [hq]; exact hI.qnd k
    · rw [hq]
      exact List.nodup_cons.mpr ⟨fun h => hna (.inr ⟨k, h⟩), hI.qnd k⟩
  · intro k b hb
    rw [hnext]
    rcases hq k with hq | ⟨hq, hc⟩
    · rw [hq] at hb
      rw [hheap b (fun e => hna (.inr ⟨k, e ▸ hb⟩))]
      exact hI.q k b hb
    · rw [hq] at hb
      rcases List.mem_cons.mp hb with rfl | hb
      · exact ⟨ga, hc⟩
      · rw [hheap b (fun e => hna (.inr ⟨k, e ▸ hb⟩))]
        exact hI.q k b hb

theorem ownItems_snoc (k : QKind) (past : List (Op A)) (op : Op A) : ownItems k (past ++ [op]) = match op with
    | .get k' _ => if k' = k then [] else ownItems k past
    | .edit k' f _ => if k' = k then f (ownItems k past) else ownItems k past
    | _ => ownItems k past := by
  unfold ownItems; rw [List.foldl_append]; rfl

theorem ownMarks_snoc (past : List (Op A)) (op : Op A) : ownMarks (past ++ [op]) = match op with
    | .borrow => []
    | .visit id => id :: ownMarks past
    | .enter new => new ++ ownMarks past
    | _ => ownMarks past := by
  unfold ownMarks; rw [List.foldl_append]; rfl

/-- an operation on one variable does not change what the others should hold -/
theorem good_snoc {n : Nat} {past : List (Op A)} {op : Op A} {sl x : Slot} (hop : op.uses sl = true ∨ op.gets sl = true) (hx : x ≠ sl) (o : Obj A)
    (h : Good n past x o) : Good n (past ++ [op]) x o := by
  have hsl : op.uses x = false ∧ op.gets x = false := by
    cases op <;> simp only [Op.uses, Op.gets, decide_eq_true_eq, decide_eq_false_iff_not, Bool.false_eq_true, or_false, false_or] at hop ⊢ <;>
      subst hop <;> simp [hx]
  cases x with
  | vis =>
    obtain ⟨l, h1, h2, h3, h4⟩ := h
    refine ⟨l, h1, h2, h3, ?_⟩
    rw [ownMarks_snoc]
    cases op <;> simp [Op.uses, Op.gets] at hsl <;> exact h4
  | q k =>
    obtain ⟨cap, h1⟩ := h
    refine ⟨cap, ?_⟩
    rw [ownItems_snoc]
    cases op <;> simp only [Op.uses, Op.gets, decide_eq_false_iff_not, Slot.q.injEq] at hsl <;> simp only
    case get k' c => rw [if_neg (fun e => hsl.2 e.symm)]; exact h1
    case edit k' f g => rw [if_neg (fun e => hsl.1 e.symm)]; exact h1
    all_goals exact h1

theorem ready_clean {k : QKind} {o : Obj A} (h : CleanQ k o) (c : Int) : ∃ cap, ready c o = .q k [] cap := by
  obtain ⟨items, cap, rfl, hs⟩ := h
  cases k with
  | slice => rw [hs rfl]; exact ⟨cap, rfl⟩
  | cand => simp only [ready]; split <;> exact ⟨_, rfl⟩
  | res => simp only [ready]; split <;> exact ⟨_, rfl⟩
  | heur => simp only [ready]; split <;> exact ⟨_, rfl⟩

theorem len_visit {l : ListSet} (h : l.WF) (id : Nat) : l.len ≤ (l.visit id).len := by
  obtain ⟨s, h1, _, h3, _⟩ := ListSet.visit_set l h id
  unfold ListSet.len
  rw [h1, Array.size_setIfInBounds]; omega

theorem len_reset (l : ListSet) : l.reset.len = l.len := by
  unfold ListSet.reset ListSet.len
  simp only
  split <;> simp

theorem marks_fold (ids : List Nat) {l : ListSet} (hw : l.WF) : (ids.foldl ListSet.visit l).WF ∧ l.len ≤ (ids.foldl ListSet.visit l).len ∧
    ∀ id, (ids.foldl ListSet.visit l).visited id = (decide (id ∈ ids) || l.visited id) := by
  induction ids generalizing l with
  | nil => exact ⟨hw, Nat.le_refl _, fun id => by simp⟩
  | cons x ids ih =>
    obtain ⟨h1, h2, h3⟩ := ih (ListSet.wf_visit l hw x)
    refine ⟨h1, Nat.le_trans (len_visit hw x) h2, ?_⟩
    intro id
    show (ids.foldl ListSet.visit (l.visit x)).visited id = _
    rw [h3, ListSet.visited_visit l hw]
    by_cases h : id = x <;> simp [h]

theorem takeWhile_all {p : Nat → Bool} {l : List Nat} (h : ∀ x ∈ l, p x = true) : l.takeWhile p = l := by
  induction l with
  | nil => rfl
  | cons a l ih => rw [List.takeWhile_cons, if_pos (h a (by simp)), ih (fun x hx => h x (List.mem_cons_of_mem _ hx))]

theorem inv_step (z : Sizes) {s : St A} {live : Nat → Live} (hI : Inv z s live) (ev : Ev) : ∃ live', Inv z (step z s ev) live' := by
  cases ev with
  | drop k i =>
    have hsub : ∀ k', ((step z s (.drop k i)).qpool k').Sublist (s.qpool k') := by
      intro k'
      show List.Sublist (if k' = k then (s.qpool k).eraseIdx i else s.qpool k') _
      split
      · rename_i e; subst e; exact List.eraseIdx_sublist ..
      · exact List.Sublist.refl _
    refine ⟨live, hI.ok, hI.chk, ?_, hI.only, hI.vnd, hI.v, fun k' => (hsub k').nodup (hI.qnd k'), fun k' a ha => hI.q k' a ((hsub k').subset ha)⟩
    intro t sl h
    obtain ⟨a, h1, h2, h3, h4⟩ := hI.held t sl h
    refine ⟨a, h1, h2, h3, ?_⟩
    rintro (h | ⟨k', h⟩)
    · exact h4 (.inl h)
    · exact h4 (.inr ⟨k', (hsub k').subset h⟩)
  | run t pick =>
    simp only [step]
    cases hrest : (s.thread t).rest with
    | nil => exact ⟨live, hI⟩
    | cons op rest =>
      simp only
      have hck := hI.chk t
      rw [hrest] at hck
      obtain ⟨L', hc1⟩ := chk1_of hck
      have hfresh : ∀ u x, live u x = true → (s.thread u).slot x ≠ some s.next := by
        intro u x h e
        obtain ⟨b, h1, h2, _⟩ := hI.held u x h
        rw [h1] at e; cases e; omega
      have hnotpooled : ¬ s.pooled s.next := by
        rintro (h | ⟨k, h⟩)
        · have := (hI.v _ h).1; omega
        · have := (hI.q k _ h).1; omega
      cases op with
      | borrow =>
        simp only [chk1, Option.some.injEq] at hc1
        simp only [act]
        cases hg : s.vpool.getLast? with
        | none =>
          refine ⟨_, inv_take hI (sl := .vis) (a := s.next) hrest rfl ?_ ?_ rfl ?_ (Nat.le_succ _) (Nat.lt_succ_self _) hfresh (List.Sublist.refl _) (fun _ => List.Sublist.refl _) hnotpooled ?_
            (fun x hx o h => good_snoc (sl := .vis) (.inr (by simp [Op.gets])) hx o h)⟩
          · intro u hu; simp [St.alloc, St.assign, hu]
          · simp [St.alloc, St.assign]
          · intro b hb; simp [St.alloc, St.assign, hb]
          · refine ⟨ListSet.new z.list, by simp [St.alloc, St.assign], ListSet.wf_new _, by simp [ListSet.new, ListSet.len], ?_⟩
            intro id; rw [ownMarks_snoc]; simp [ListSet.visited_new]
        | some a =>
          have hmem := List.mem_of_getLast? hg
          have hnd : s.vpool = s.vpool.dropLast ++ [a] := by
            obtain ⟨ys, hy⟩ := List.getLast?_eq_some_iff.mp hg
            rw [hy, List.dropLast_concat]
          have hna : a ∉ s.vpool.dropLast := by
            have := hI.vnd; rw [hnd, List.nodup_append] at this
            intro h
            exact this.2.2 a h a (by simp) rfl
          obtain ⟨ha, l, hl, hw, hlen, hclean⟩ := hI.v a hmem
          refine ⟨_, inv_take hI (sl := .vis) (a := a) hrest rfl ?_ ?_ rfl ?_ (Nat.le_refl _) ha ?_ (List.dropLast_sublist _) (fun _ => List.Sublist.refl _) ?_ ?_
            (fun x hx o h => good_snoc (sl := .vis) (.inr (by simp [Op.gets])) hx o h)⟩
          · intro u hu; simp [St.assign, hu]
          · simp [St.assign]
          · intro b hb; rfl
          · intro u x h e
            obtain ⟨b, h1, _, _, h4⟩ := hI.held u x h
            rw [h1] at e; cases e
            exact h4 (.inl hmem)
          · rintro (h | ⟨k, h⟩)
            · exact hna h
            · obtain ⟨_, items, cap, hq, _⟩ := hI.q k a h
              rw [hl] at hq; cases hq
          · refine ⟨l, hl, hw, hlen, ?_⟩
            intro id; rw [ownMarks_snoc]; simp [hclean]
      | get k c =>
        simp only [chk1, Option.some.injEq] at hc1
        simp only [act]
        cases hg : (s.qpool k)[pick]? with
        | none =>
          refine ⟨_, inv_take hI (sl := .q k) (a := s.next) hrest rfl ?_ ?_ rfl ?_ (Nat.le_succ _) (Nat.lt_succ_self _) hfresh (List.Sublist.refl _) (fun _ => List.Sublist.refl _) hnotpooled ?_
            (fun x hx o h => good_snoc (sl := .q k) (.inr (by simp [Op.gets])) hx o h)⟩
          · intro u hu; simp [St.alloc, St.assign, hu]
          · simp [St.alloc, St.assign]
          · intro b hb; simp [St.alloc, St.assign, hb]
          · obtain ⟨cap, hr⟩ := ready_clean (A := A) (k := k) (o := .q k [] z.cap) ⟨[], z.cap, rfl, fun _ => rfl⟩ c
            refine ⟨cap, ?_⟩
            rw [ownItems_snoc]
            simp only [St.alloc, St.assign, if_true]
            exact hr
        | some a =>
          have hmem := List.mem_of_getElem? hg
          obtain ⟨ha, hcl⟩ := hI.q k a hmem
          have hna : a ∉ (s.qpool k).eraseIdx pick := by
            obtain ⟨hp, hpa⟩ := List.getElem?_eq_some_iff.mp hg
            intro h
            rw [← hpa] at h
            obtain ⟨j, hj⟩ := List.mem_eraseIdx_iff_getElem.mp h
            obtain ⟨hj1, hj2, hj3⟩ := hj
            exact hj2 ((List.getElem?_inj hj1 (hI.qnd k)).mp (by rw [List.getElem?_eq_getElem hj1, List.getElem?_eq_getElem hp, hj3]))
          obtain ⟨cap, hr⟩ := ready_clean hcl c
          refine ⟨_, inv_take hI (sl := .q k) (a := a) hrest rfl ?_ ?_ rfl ?_ (Nat.le_refl _) ha ?_ (List.Sublist.refl _) ?_ ?_ ?_
            (fun x hx o h => good_snoc (sl := .q k) (.inr (by simp [Op.gets])) hx o h)⟩
          · intro u hu; simp [St.assign, St.store, hu]
          · simp [St.assign, St.store]
          · intro b hb; simp [St.assign, St.store, hb]
          · intro u x h e
            obtain ⟨b, h1, _, _, h4⟩ := hI.held u x h
            rw [h1] at e; cases e
            exact h4 (.inr ⟨k, hmem⟩)
          · intro k'
            show List.Sublist (if k' = k then (s.qpool k).eraseIdx pick else s.qpool k') _
            split
            · rename_i e; subst e; exact List.eraseIdx_sublist ..
            · exact List.Sublist.refl _
          · rintro (h | ⟨k', h⟩)
            · obtain ⟨_, l, hl, _⟩ := hI.v a h
              obtain ⟨items, cap', hq, _⟩ := hcl
              rw [hl] at hq; cases hq
            · have h : a ∈ (if k' = k then (s.qpool k).eraseIdx pick else s.qpool k') := h
              split at h
              · exact hna h
              · rename_i hne
                obtain ⟨_, items, cap1, hq, _⟩ := hI.q k' a h
                obtain ⟨items', cap2, hq', _⟩ := hcl
                rw [hq] at hq'; cases hq'; exact hne rfl
          · refine ⟨cap, ?_⟩
            rw [ownItems_snoc]
            simp only [St.assign, St.store, if_true]
            exact hr
      | visit id =>
        simp only [chk1] at hc1
        split at hc1
        · rename_i hl
          obtain ⟨a, h1, h2, ⟨l, h3, h4, h5, h6⟩, h7⟩ := hI.held t .vis hl
          simp only [act, if_true, h1, h3]
          refine ⟨live, inv_use hI (sl := .vis) (a := a) hrest (by simp [chk1, hl]) hl h1 ?_ ?_ rfl ?_ rfl rfl rfl ?_
            (fun x hx o h => good_snoc (sl := .vis) (.inl (by simp [Op.uses])) hx o h)⟩
          · intro u hu; simp [St.store, hu]
          · simp [St.store]
          · intro b hb; simp [St.store, hb]
          · refine ⟨l.visit id, by simp [St.store], ListSet.wf_visit l h4 id, Nat.le_trans h5 (len_visit h4 id), ?_⟩
            intro i
            rw [ListSet.visited_visit l h4, h6, ownMarks_snoc]
            simp
        · cases hc1
      | enter ids =>
        simp only [chk1] at hc1
        split at hc1
        · rename_i hl
          have hl' := hl
          simp only [Bool.and_eq_true, List.all_eq_true, decide_eq_true_eq] at hl
          obtain ⟨a, h1, h2, ⟨l, h3, h4, h5, h6⟩, h7⟩ := hI.held t .vis hl.1
          simp only [act, if_true, h1, h3]
          obtain ⟨m1, m2, m3⟩ := marks_fold ids h4
          have hm : Search.markEntries l ids = ids.foldl ListSet.visit l := by
            unfold Search.markEntries
            rw [takeWhile_all (fun x hx => by simpa using Nat.lt_of_lt_of_le (hl.2 x hx) h5)]
          refine ⟨live, inv_use hI (sl := .vis) (a := a) hrest (by simp only [chk1]; rw [if_pos hl']) hl.1 h1 ?_ ?_ rfl ?_ rfl rfl rfl ?_
            (fun x hx o h => good_snoc (sl := .vis) (.inl (by simp [Op.uses])) hx o h)⟩
          · intro u hu; simp [St.store, hu]
          · simp [St.store]
          · intro b hb; simp [St.store, hb]
          · refine ⟨ids.foldl ListSet.visit l, by simp [St.store, hm], m1, Nat.le_trans h5 m2, ?_⟩
            intro i
            rw [m3, h6, ownMarks_snoc]
            simp
        · cases hc1
      | giveBack =>
        simp only [chk1] at hc1
        split at hc1
        · rename_i hl
          obtain ⟨a, h1, h2, ⟨l, h3, h4, h5, h6⟩, h7⟩ := hI.held t .vis hl
          simp only [act, if_true, h1, h3]
          split
          · refine ⟨_, inv_put hI (sl := .vis) (a := a) hrest (by simp [chk1, hl]) hl h1 ?_ ?_ rfl ?_ rfl (.inl rfl) (fun _ => .inl rfl)
              (fun x hx o h => good_snoc (sl := .vis) (.inl (by simp [Op.uses])) hx o h)⟩
            · intro u hu; simp [hu]
            · simp
            · intro b hb; rfl
          · refine ⟨_, inv_put hI (sl := .vis) (a := a) hrest (by simp [chk1, hl]) hl h1 ?_ ?_ rfl ?_ rfl (.inr ⟨rfl, ?_⟩) (fun _ => .inl rfl)
              (fun x hx o h => good_snoc (sl := .vis) (.inl (by simp [Op.uses])) hx o h)⟩
            · intro u hu; simp [St.store, hu]
            · simp [St.store]
            · intro b hb; simp [St.store, hb]
            · exact ⟨l.reset, by simp [St.store], ListSet.wf_reset l h4, by rw [len_reset]; exact h5, fun id => ListSet.visited_reset l h4 id⟩
        · cases hc1
      | edit k f g =>
        simp only [chk1] at hc1
        split at hc1
        · rename_i hl
          obtain ⟨a, h1, h2, ⟨cap, h3⟩, h7⟩ := hI.held t (.q k) hl
          simp only [act, if_true, h1, h3]
          refine ⟨live, inv_use hI (sl := .q k) (a := a) hrest (by simp [chk1, hl]) hl h1 ?_ ?_ rfl ?_ rfl rfl rfl ?_
            (fun x hx o h => good_snoc (sl := .q k) (.inl (by simp [Op.uses])) hx o h)⟩
          · intro u hu; simp [St.store, hu]
          · simp [St.store]
          · intro b hb; simp [St.store, hb]
          · refine ⟨max (max cap (f (ownItems k (s.thread t).past)).length) g, ?_⟩
            rw [ownItems_snoc]
            simp only [St.store, if_true]
        · cases hc1
      | put k =>
        simp only [chk1] at hc1
        split at hc1
        · rename_i hl
          obtain ⟨a, h1, h2, ⟨cap, h3⟩, h7⟩ := hI.held t (.q k) hl
          simp only [act, if_true, h1, h3]
          refine ⟨_, inv_put hI (sl := .q k) (a := a) hrest (by simp [chk1, hl]) hl h1 ?_ ?_ rfl ?_ rfl (.inl rfl) ?_
            (fun x hx o h => good_snoc (sl := .q k) (.inl (by simp [Op.uses])) hx o h)⟩
          · intro u hu; simp [St.store, hu]
          · simp [St.store]
          · intro b hb; simp [St.store, hb]
          · intro k'
            simp only
            split
            · rename_i e; subst e
              refine .inr ⟨rfl, _, cap, by simp only [St.store, if_true]; rfl, fun e => by simp [e]⟩
            · exact .inl rfl
        · cases hc1

theorem inv_init (z : Sizes) {calls : Nat → List (Call A)} (hf : ∀ t, ∀ c ∈ calls t, c.Fits z.list) :
    Inv z (init z (fun t => opsOf (calls t))) (fun _ _ => false) := by
  refine ⟨rfl, ?_, (fun t sl h => by cases h), (fun t sl t' sl' a h => by cases h), by simp [init], ?_, (fun k => by simp [init]), (fun k a h => by simp [init] at h)⟩
  · intro t
    obtain ⟨L', h⟩ := chk_calls (fun _ => false) (calls t) (hf t)
    show (chk z.list _ (opsOf (calls t))).isSome = true
    rw [h]; rfl
  · intro a ha
    simp only [init, List.mem_singleton] at ha
    subst ha
    exact ⟨by simp [init], _, rfl, ListSet.wf_new _, by simp [ListSet.new, ListSet.len], ListSet.visited_new _⟩

theorem inv_run (z : Sizes) (evs : List Ev) {s : St A} {live : Nat → Live} (hI : Inv z s live) : ∃ live', Inv z (evs.foldl (step z) s) live' := by
  induction evs generalizing s live with
  | nil => exact ⟨live, hI⟩
  | cons e evs ih => obtain ⟨l1, h1⟩ := inv_step z hI e; exact ih h1

end Fave.Pools
