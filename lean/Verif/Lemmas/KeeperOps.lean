import Verif.Lemmas.CondenseOps
import Verif.Spec.Keeper
/-!
# Condensing operations that only add
-/
namespace Fave
namespace Log

/-! ## numbers of links -/

/-- the number of links at one node and level after an operation -/
def LogOp.lensAt (i l : Nat) (x : Nat) : LogOp → Nat
  | .addLink s k _ => if i = s ∧ l = k then x + 1 else x
  | .addLinks s k ts => if i = s ∧ l = k then x + ts.length else x
  | .replaceLinks s k ts => if i = s ∧ l = k then ts.length else x
  | _ => x

def lensAt (i l x : Nat) (ops : List LogOp) : Nat := ops.foldl (LogOp.lensAt i l) x

theorem lensAt_append (i l x : Nat) (a b : List LogOp) : lensAt i l x (a ++ b) = lensAt i l (lensAt i l x a) b := by
  simp [lensAt, List.foldl_append]

theorem lensAt_cons (i l x : Nat) (op : LogOp) (b : List LogOp) : lensAt i l x (op :: b) = lensAt i l (op.lensAt i l x) b := rfl

theorem linkLens_eq (ops : List LogOp) (i l : Nat) : linkLens ops i l = lensAt i l 0 ops := by
  have key : ∀ f : Nat → Nat → Nat, ops.foldl LogOp.linkLens f i l = lensAt i l (f i l) ops := by
    induction ops with
    | nil => intro f; rfl
    | cons op ops ih =>
      intro f
      rw [List.foldl_cons, ih, lensAt_cons]
      congr 1
      cases op <;> rfl
  exact key _

theorem LogOp.lensAt_mono (i l : Nat) {x y : Nat} (h : x ≤ y) (op : LogOp) : op.lensAt i l x ≤ op.lensAt i l y := by
  cases op <;> simp only [LogOp.lensAt] <;> (try split) <;> omega

theorem lensAt_mono (i l : Nat) {x y : Nat} (h : x ≤ y) (ops : List LogOp) : lensAt i l x ops ≤ lensAt i l y ops := by
  induction ops generalizing x y with
  | nil => exact h
  | cons op ops ih => exact ih (op.lensAt_mono i l h)

/-- a part of a log never has more links than the log up to there -/
theorem lensAt_part (i l x : Nat) (a b : List LogOp) : lensAt i l 0 b ≤ lensAt i l x (a ++ b) := by
  rw [lensAt_append]; exact lensAt_mono i l (Nat.zero_le _) b

/-! ## levels -/

/-- every node is at level 0 or at its own level -/
def Lev (lev : Nat → Nat) (w : View) : Prop := ∀ id v, w.node id = some v → v.level = 0 ∨ v.level = lev id

theorem Lev.empty (lev : Nat → Nat) : Lev lev View.empty := fun _ _ h => by cases h

theorem Lev.sem {lev : Nat → Nat} {w : View} (h : Lev lev w) {op : LogOp} (ho : op.Adds lev) : Lev lev (op.sem w) := by
  have key : ∀ (s : Nat) (v : LVertex), (v.level = 0 ∨ v.level = lev s) → Lev lev (w.setNode s (some v)) := by
    intro s v hv id u hu
    simp only [View.setNode] at hu
    split at hu
    · rename_i e; subst e; cases hu; exact hv
    · exact h id u hu
  have base : ∀ s l, (w.nodeOr s l).level = 0 ∨ (w.nodeOr s l).level = lev s := by
    intro s l
    unfold View.nodeOr
    cases hn : w.node s with
    | none => exact .inl rfl
    | some v => exact h s v hn
  cases op with
  | addNode id l =>
    refine key id _ (.inr ?_)
    cases w.node id with
    | none => exact ho
    | some v => exact ho
  | setEntryPoint id l => exact h
  | addLink s l t => exact key s _ (base s l)
  | addLinks s l t => exact key s _ (base s l)
  | replaceLinks s l t => exact key s _ (base s l)
  | addTombstone id => exact h
  | removeTombstone id => exact ho.elim
  | clearLinks id => exact ho.elim
  | deleteNode id => exact ho.elim
  | resetIndex => exact ho.elim
  | clearLinksAtLevel id l => exact ho.elim
  | addPQ d => exact ho.elim

theorem Lev.semAll {lev : Nat → Nat} {w : View} (h : Lev lev w) {ops : List LogOp} (ho : ∀ op ∈ ops, op.Adds lev) :
    Lev lev (semAll w ops) := by
  induction ops generalizing w with
  | nil => exact h
  | cons op ops ih => exact ih (h.sem (ho op (by simp))) fun o hm => ho o (by simp [hm])

theorem Lev.condensable {lev : Nat → Nat} {w : View} (h : Lev lev w) {ops : List LogOp} (ho : ∀ op ∈ ops, op.Adds lev) :
    Condensable w ops := by
  intro done op rest e
  have hop := ho op (by rw [e]; simp)
  cases op with
  | addNode id l =>
    simp only [LogOp.Adds] at hop
    by_cases h0 : l > 0
    · exact .inl h0
    · refine .inr fun v hv => ?_
      rcases h id v hv with h1 | h1
      · exact h1
      · omega
  | setEntryPoint id l => trivial
  | addLink s l t => trivial
  | addLinks s l t => trivial
  | replaceLinks s l t => trivial
  | addTombstone id => trivial
  | removeTombstone id => exact hop.elim
  | clearLinks id => exact hop.elim
  | deleteNode id => exact hop.elim
  | resetIndex => exact hop.elim
  | clearLinksAtLevel id l => exact hop.elim
  | addPQ d => exact hop.elim

/-! ## the state while condensing -/

/-- number of links at a level -/
def View.count (w : View) (i l : Nat) : Nat := ((w.base i).conns.getD l []).length

/-- the marks of replaced links say how the numbers of links came about -/
structure PInv (done : List LogOp) (s : LogState) : Prop where
  view : s.view = semAll View.empty done
  mark : ∀ i l, s.replaced i l = true → ∃ v, s.view.node i = some v ∧ l < v.conns.length
  added : ∀ i l, s.replaced i l = false → ∀ x, lensAt i l x done = x + s.view.count i l
  replaced : ∀ i l, s.replaced i l = true → ∀ x, lensAt i l x done = s.view.count i l

theorem PInv.init : PInv [] fresh := by
  refine ⟨?_, ?_, ?_, ?_⟩
  · rw [fresh_view]; rfl
  · intro i l h; cases h
  · intro i l _ x; rw [fresh_view]; rfl
  · intro i l h; cases h

theorem count_setNode (w : View) (s : Nat) (v : LVertex) (i l : Nat) :
    (w.setNode s (some v)).count i l = if i = s then (v.conns.getD l []).length else w.count i l := by
  unfold View.count View.base View.setNode
  by_cases h : i = s
  · subst h; simp
  · simp [h]

theorem count_pad (c : List (List Nat)) (n l : Nat) : ((pad c n).getD l []).length = (c.getD l []).length := by rw [pad_getD]

theorem PInv.step {maxLen : Nat} {lev : Nat → Nat} {done : List LogOp} {s s' : LogState} (h : PInv done s) {op : LogOp}
    (ho : op.Adds lev) (hf : op.Fits maxLen) (ha : applyOp maxLen true s op = .ok s') : PInv (done ++ [op]) s' := by
  obtain ⟨s2, h1, h2, h3, -⟩ := applyOp_keep s op hf
  rw [ha] at h1; cases h1
  have hv : s'.view = op.sem s.view := by
    rw [h2]; cases op <;> first | rfl | exact ho.elim
  have hl : ∀ i l x, lensAt i l x (done ++ [op]) = op.lensAt i l (lensAt i l x done) := fun i l x => by
    rw [lensAt_append]; rfl
  have hview : s'.view = semAll View.empty (done ++ [op]) := by rw [semAll_snoc, ← h.view, hv]
  have nodes : ∀ {i : Nat} {u : LVertex}, s'.view = s.view.setNode i (some u) → (s.view.base i).conns.length ≤ u.conns.length →
      ∀ j l, s.replaced j l = true → ∃ v, s'.view.node j = some v ∧ l < v.conns.length := by
    intro i u he hu j l hj
    obtain ⟨v, h4, h5⟩ := h.mark j l hj
    rw [he]
    by_cases e : j = i
    · subst e
      refine ⟨u, by simp [View.setNode], ?_⟩
      have : s.view.base j = v := by unfold View.base; rw [h4]; rfl
      rw [this] at hu; omega
    · exact ⟨v, by simp [View.setNode, e, h4], h5⟩
  -- operations that do not touch links
  have quiet : (∀ i l x, op.lensAt i l x = x) → s'.replaced = s.replaced → (∀ i l, s'.view.count i l = s.view.count i l) →
      (∀ j l, s.replaced j l = true → ∃ v, s'.view.node j = some v ∧ l < v.conns.length) → PInv (done ++ [op]) s' := by
    intro a1 a2 a3 a4
    refine ⟨hview, ?_, ?_, ?_⟩
    · intro i l hi; rw [a2] at hi; exact a4 i l hi
    · intro i l hi x; rw [a2] at hi; rw [hl, a1, a3]; exact h.added i l hi x
    · intro i l hi x; rw [a2] at hi; rw [hl, a1, a3]; exact h.replaced i l hi x
  -- links added
  have added : ∀ (id k : Nat) (ts : List Nat), (∀ i l x, op.lensAt i l x = if i = id ∧ l = k then x + ts.length else x) →
      s'.replaced = s.replaced →
      s'.view = s.view.setNode id (some ⟨(s.view.base id).id, (s.view.base id).level,
        (pad (s.view.base id).conns (k + 1)).modify k (· ++ ts)⟩) → PInv (done ++ [op]) s' := by
    intro id k ts a1 a2 a3
    have hcnt : ∀ i l, s'.view.count i l = if i = id ∧ l = k then s.view.count i l + ts.length else s.view.count i l := by
      intro i l
      rw [a3, count_setNode]
      by_cases hi : i = id
      · subst hi
        simp only [if_true, true_and]
        rw [getD_modify _ _ _ _ (by rw [pad_length]; omega)]
        by_cases hk : k = l
        · subst hk; simp only [if_true, List.length_append, count_pad]; rfl
        · rw [if_neg hk, if_neg (fun e => hk e.symm), count_pad]; rfl
      · simp [hi]
    refine ⟨hview, ?_, ?_, ?_⟩
    · intro i l hi; rw [a2] at hi
      exact nodes a3 (by simp only [List.length_modify, pad_length]; omega) i l hi
    · intro i l hi x; rw [a2] at hi
      rw [hl, a1, hcnt, h.added i l hi x]; split <;> omega
    · intro i l hi x; rw [a2] at hi
      rw [hl, a1, hcnt, h.replaced i l hi x]
  cases op with
  | addNode id l =>
    rw [sem_addNode] at hv
    refine quiet (fun _ _ _ => rfl) h3 (fun i k => ?_) (nodes hv (by simp only [pad_length]; omega))
    rw [hv, count_setNode]
    split
    · rename_i e; subst e; rw [count_pad]; rfl
    · rfl
  | setEntryPoint id l =>
    refine quiet (fun _ _ _ => rfl) h3 (fun i k => by rw [hv]; rfl) (fun j k hj => ?_)
    rw [hv]; exact h.mark j k hj
  | addTombstone id =>
    refine quiet (fun _ _ _ => rfl) h3 (fun i k => by rw [hv]; rfl) (fun j k hj => ?_)
    rw [hv]; exact h.mark j k hj
  | addLink id l t => exact added id l [t] (fun _ _ _ => rfl) h3 (by rw [hv, sem_addLink, sem_addLinks])
  | addLinks id l ts => exact added id l ts (fun _ _ _ => rfl) h3 (by rw [hv, sem_addLinks])
  | replaceLinks id k ts =>
    rw [sem_replaceLinks] at hv
    have hcnt : ∀ i l, s'.view.count i l = if i = id ∧ l = k then ts.length else s.view.count i l := by
      intro i l
      rw [hv, count_setNode]
      by_cases hi : i = id
      · subst hi
        simp only [if_true, true_and]
        have hk' : k < (pad (s.view.base i).conns (k + 1)).length := by rw [pad_length]; omega
        rw [List.getD_eq_getElem?_getD, List.getElem?_set]
        by_cases hk : l = k
        · subst hk; simp [hk']
        · rw [if_neg (fun e => hk e.symm), if_neg hk, ← List.getD_eq_getElem?_getD, count_pad]; rfl
      · simp [hi]
    have hrep : ∀ i l, s'.replaced i l = ((decide (i = id) && decide (l = k)) || s.replaced i l) := fun i l => by rw [h3]; rfl
    refine ⟨hview, ?_, ?_, ?_⟩
    · intro i l hi
      rw [hrep] at hi
      by_cases hj : s.replaced i l = true
      · exact nodes hv (by simp only [List.length_set, pad_length]; omega) i l hj
      · have hh : i = id ∧ l = k := by simpa [hj] using hi
        obtain ⟨rfl, rfl⟩ := hh
        exact ⟨_, by rw [hv]; simp [View.setNode]; rfl, by simp only [List.length_set, pad_length]; omega⟩
    · intro i l hi x
      rw [hrep, Bool.or_eq_false_iff] at hi
      have hne : ¬ (i = id ∧ l = k) := by
        rintro ⟨rfl, rfl⟩; simp at hi
      rw [hl, hcnt]
      simp only [LogOp.lensAt, if_neg hne]
      exact h.added i l hi.2 x
    · intro i l hi x
      rw [hl, hcnt]
      simp only [LogOp.lensAt]
      split
      · rfl
      · rename_i hne
        rw [hrep] at hi
        have : s.replaced i l = true := by
          cases hj : s.replaced i l with
          | true => rfl
          | false => rw [hj] at hi; simp at hi; exact absurd hi hne
        exact h.replaced i l this x
  | removeTombstone id => exact ho.elim
  | clearLinks id => exact ho.elim
  | deleteNode id => exact ho.elim
  | resetIndex => exact ho.elim
  | clearLinksAtLevel id l => exact ho.elim
  | addPQ d => exact ho.elim

theorem PInv.all {maxLen : Nat} {lev : Nat → Nat} {done ops : List LogOp} {s s' : LogState} (h : PInv done s)
    (ho : ∀ op ∈ ops, op.Adds lev) (hf : ∀ op ∈ ops, op.Fits maxLen) (ha : applyAll maxLen true s ops = .ok s') :
    PInv (done ++ ops) s' := by
  induction ops generalizing done s with
  | nil => simp only [applyAll] at ha; cases ha; simpa using h
  | cons op ops ih =>
    simp only [applyAll] at ha
    split at ha
    · cases ha
    · rename_i s1 h1
      have := ih (h.step (ho op (by simp)) (hf op (by simp)) h1) (fun o hm => ho o (by simp [hm])) (fun o hm => hf o (by simp [hm])) ha
      simpa using this

/-! ## the condensed operations -/

theorem lensAt_levelOps (rep : Nat → Bool) (id k : Nat) (cs : List (List Nat)) (i l x : Nat) :
    lensAt i l x (levelOps rep id k cs) =
      if i = id ∧ k ≤ l ∧ l < k + cs.length then
        (if rep l then (cs.getD (l - k) []).length else x + (cs.getD (l - k) []).length) else x := by
  induction cs generalizing k x with
  | nil =>
    rw [if_neg (by rintro ⟨-, h1, h2⟩; simp at h2; omega)]; rfl
  | cons c cs ih =>
    have e1 : (if rep k = true then LogOp.replaceLinks id k c else .addLinks id k c).lensAt i l x =
        if i = id ∧ l = k then (if rep k then c.length else x + c.length) else x := by
      by_cases hr : rep k = true <;> simp [hr, LogOp.lensAt]
    simp only [levelOps, lensAt_cons]
    rw [ih, e1]
    by_cases hi : i = id
    · subst hi
      by_cases hk : l = k
      · subst hk
        have h1 : ¬ (i = i ∧ l + 1 ≤ l ∧ l < l + 1 + cs.length) := by omega
        have h2 : i = i ∧ l ≤ l ∧ l < l + (c :: cs).length := by simp
        have h3 : i = i ∧ l = l := ⟨rfl, rfl⟩
        rw [if_neg h1, if_pos h2, if_pos h3, Nat.sub_self, List.getD_cons_zero]
      · have h3 : ¬ (i = i ∧ l = k) := fun h => hk h.2
        rw [if_neg h3]
        by_cases h1 : i = i ∧ k + 1 ≤ l ∧ l < k + 1 + cs.length
        · have h2 : i = i ∧ k ≤ l ∧ l < k + (c :: cs).length := ⟨rfl, by omega, by simp; omega⟩
          rw [if_pos h1, if_pos h2]
          have : l - k = (l - (k + 1)) + 1 := by omega
          rw [this, List.getD_cons_succ]
        · have h2 : ¬ (i = i ∧ k ≤ l ∧ l < k + (c :: cs).length) := by simp; omega
          rw [if_neg h1, if_neg h2]
    · have h1 : ∀ P : Prop, ¬ (i = id ∧ P) := fun P h => hi h.1
      rw [if_neg (h1 _), if_neg (h1 _), if_neg (h1 _)]

theorem lensAt_vertexOps (st : LogState) (j : Nat) (v : LVertex) (hv : v.id = j) (i l x : Nat) :
    lensAt i l x (vertexOps st (some v)) =
      if i = j ∧ l < v.conns.length then (if st.replaced j l then (v.conns.getD l []).length else x + (v.conns.getD l []).length)
      else x := by
  subst hv
  simp only [vertexOps, lensAt_append]
  have e : lensAt i l x (if v.level > 0 then [LogOp.addNode v.id v.level] else []) = x := by
    split <;> rfl
  rw [e, lensAt_levelOps]
  simp

theorem lensAt_nodeOps (st : LogState) (hid : ∀ j v, j < st.nodes.len → st.nodes.get j = some v → v.id = j) {n : Nat}
    (hn : n ≤ st.nodes.len) (i l x : Nat) :
    lensAt i l x (nodeOps st n) = if i < n then lensAt i l x (vertexOps st (st.nodes.get i)) else x := by
  induction n with
  | zero => rfl
  | succ n ih =>
    have e : nodeOps st (n + 1) = nodeOps st n ++ vertexOps st (st.nodes.get n) := by
      unfold nodeOps; rw [List.range_succ, List.flatMap_append]; simp
    rw [e, lensAt_append, ih (by omega)]
    by_cases h1 : i < n
    · rw [if_pos h1, if_pos (by omega)]
      cases hv : st.nodes.get n with
      | none => rfl
      | some v => rw [lensAt_vertexOps st n v (hid n v (by omega) hv), if_neg (by omega)]
    · rw [if_neg h1]
      by_cases h2 : i = n
      · subst h2; rw [if_pos (by omega)]
      · rw [if_neg (by omega)]
        cases hv : st.nodes.get n with
        | none => rfl
        | some v => rw [lensAt_vertexOps st n v (hid n v (by omega) hv), if_neg (by omega)]

theorem lensAt_condOps {ops : List LogOp} {s : LogState} (h : PInv ops s)
    (hid : ∀ j v, j < s.nodes.len → s.nodes.get j = some v → v.id = j) (order : List Nat) (i l x : Nat) :
    lensAt i l x (condOps s order) = lensAt i l x ops := by
  have e1 : ∀ y, lensAt i l y (if s.epChanged then [LogOp.setEntryPoint s.ep s.level] else []) = y := fun y => by split <;> rfl
  have e2 : ∀ y, lensAt i l y (order.map LogOp.addTombstone) = y := by
    intro y
    induction order with
    | nil => rfl
    | cons t ts ih => exact ih
  unfold condOps
  rw [lensAt_append, lensAt_append, e1, e2, lensAt_nodeOps s hid (Nat.le_refl _)]
  have hnode : s.view.node i = if i < s.nodes.len then s.nodes.get i else none := rfl
  by_cases hi : i < s.nodes.len
  · rw [if_pos hi] at hnode ⊢
    cases hv : s.nodes.get i with
    | none =>
      rw [hv] at hnode
      have h0 : s.view.count i l = 0 := by unfold View.count View.base; rw [hnode]; rfl
      have hr : s.replaced i l = false := by
        cases hr : s.replaced i l with
        | false => rfl
        | true => obtain ⟨v, h1, -⟩ := h.mark i l hr; rw [hnode] at h1; cases h1
      rw [h.added i l hr, h0]; rfl
    | some v =>
      rw [hv] at hnode
      have h0 : s.view.count i l = (v.conns.getD l []).length := by unfold View.count View.base; rw [hnode]; rfl
      rw [lensAt_vertexOps s i v (hid i v hi hv)]
      by_cases hl : l < v.conns.length
      · rw [if_pos ⟨rfl, hl⟩]
        cases hr : s.replaced i l with
        | true => rw [if_pos rfl, h.replaced i l hr, h0]
        | false => rw [h.added i l hr, h0]; rfl
      · rw [if_neg (fun hh => hl hh.2)]
        cases hr : s.replaced i l with
        | true => obtain ⟨u, h1, h2⟩ := h.mark i l hr; rw [hnode] at h1; cases h1; exact absurd h2 hl
        | false =>
          rw [h.added i l hr, h0, List.getD_eq_getElem?_getD, List.getElem?_eq_none (by omega)]; rfl
  · rw [if_neg hi] at hnode ⊢
    have h0 : s.view.count i l = 0 := by unfold View.count View.base; rw [hnode]; rfl
    have hr : s.replaced i l = false := by
      cases hr : s.replaced i l with
      | false => rfl
      | true => obtain ⟨v, h1, -⟩ := h.mark i l hr; rw [hnode] at h1; cases h1
    rw [h.added i l hr, h0]; rfl

/-- operations that can be written -/
structure Plain (lev : Nat → Nat) (maxLen : Nat) (op : LogOp) : Prop where
  adds : op.Adds lev
  range : op.InRange
  fits : op.Fits maxLen

/-- `a` can stand for `b`: it does the same after anything, and writes as many links -/
structure Same (lev : Nat → Nat) (maxLen : Nat) (a b : List LogOp) : Prop where
  ok : ∀ op ∈ a, Plain lev maxLen op
  sem : ∀ w, Lev lev w → semAll w a = semAll w b
  lens : ∀ i l x, lensAt i l x a = lensAt i l x b

theorem Same.refl {lev : Nat → Nat} {maxLen : Nat} {a : List LogOp} (h : ∀ op ∈ a, Plain lev maxLen op) : Same lev maxLen a a :=
  ⟨h, fun _ _ => rfl, fun _ _ _ => rfl⟩

theorem Same.trans {lev : Nat → Nat} {maxLen : Nat} {a b c : List LogOp} (h1 : Same lev maxLen a b) (h2 : Same lev maxLen b c) :
    Same lev maxLen a c :=
  ⟨h1.ok, fun w hw => (h1.sem w hw).trans (h2.sem w hw), fun i l x => (h1.lens i l x).trans (h2.lens i l x)⟩

theorem Same.append {lev : Nat → Nat} {maxLen : Nat} {a a' b b' : List LogOp} (h1 : Same lev maxLen a a')
    (h2 : Same lev maxLen b b') : Same lev maxLen (a ++ b) (a' ++ b') := by
  refine ⟨?_, fun w hw => ?_, fun i l x => ?_⟩
  · intro op hop
    rcases List.mem_append.1 hop with hop | hop
    · exact h1.ok op hop
    · exact h2.ok op hop
  · rw [semAll_append, semAll_append, ← h1.sem w hw]
    exact h2.sem _ (hw.semAll fun op hop => (h1.ok op hop).adds)
  · rw [lensAt_append, lensAt_append, h1.lens, h2.lens]

/-- Condensing a log of operations that only add gives operations that can stand for it. -/
theorem condense_same {maxLen : Nat} (hm : 56250 ≤ maxLen) {lev : Nat → Nat} {ops : List LogOp}
    (hp : ∀ op ∈ ops, Plain lev maxLen op) (hl : ∀ i l, lensAt i l 0 ops ≤ 65535) {order : LogState → List Nat}
    (ho : ∀ s, (order s).Perm s.tombs) :
    ∃ ops', condense maxLen order (encodeAll ops) = .ok (encodeAll ops') ∧ Same lev maxLen ops' ops := by
  have key : ∀ w, Lev lev w → _ := fun w hw =>
    condense_ops hm w ops (fun op h => (hp op h).range) (fun op h => (hp op h).fits) (hw.condensable fun op h => (hp op h).adds)
      (fun i l => by rw [linkLens_eq]; exact hl i l) order ho
  obtain ⟨s, h1, h2, h3, h4, h5⟩ := key View.empty (Lev.empty lev)
  have hP : PInv ops s := by
    have := PInv.init.all (fun op h => (hp op h).adds) (fun op h => (hp op h).fits) h1
    simpa using this
  have hid : ∀ j v, j < s.nodes.len → s.nodes.get j = some v → v.id = j := fun j v hj hv =>
    (h2.node j v (by show (if j < s.nodes.len then _ else _) = _; rw [if_pos hj, hv])).id
  have hlev : Lev lev s.view := by
    rw [hP.view]; exact (Lev.empty lev).semAll fun op h => (hp op h).adds
  refine ⟨condOps s (order s), h3, fun op hop => ⟨?_, (h4 op hop).1, (h4 op hop).2.1⟩, fun w hw => ?_, fun i l x => ?_⟩
  · unfold condOps nodeOps at hop
    rcases List.mem_append.1 hop with hop | hop
    · rcases List.mem_append.1 hop with hop | hop
      · obtain ⟨j, hj, hop⟩ := List.mem_flatMap.1 hop
        have hj : j < s.nodes.len := by simpa using hj
        cases hv : s.nodes.get j with
        | none => rw [hv] at hop; cases hop
        | some v =>
          rw [hv] at hop
          simp only [vertexOps] at hop
          rcases List.mem_append.1 hop with hop | hop
          · split at hop
            · simp only [List.mem_singleton] at hop
              subst hop
              rename_i h0
              have hid := hid j v hj hv
              rcases hlev j v (by show (if j < s.nodes.len then _ else _) = _; rw [if_pos hj, hv]) with h6 | h6
              · omega
              · show v.level = lev v.id
                rw [hid]; exact h6
            · cases hop
          · have lv : ∀ (cs : List (List Nat)) (k : Nat), op ∈ levelOps (s.replaced v.id) v.id k cs → op.Adds lev := by
              intro cs
              induction cs with
              | nil => intro k h; cases h
              | cons c cs ih =>
                intro k h
                rcases List.mem_cons.1 h with h | h
                · subst h; split <;> trivial
                · exact ih _ h
            exact lv _ _ hop
      · split at hop
        · simp only [List.mem_singleton] at hop; subst hop; trivial
        · cases hop
    · obtain ⟨t, -, rfl⟩ := List.mem_map.1 hop
      trivial
  · obtain ⟨s', a1, -, -, -, a5⟩ := key w hw
    rw [h1] at a1; cases a1
    exact a5
  · exact lensAt_condOps hP hid _ i l x

end Log
end Fave
