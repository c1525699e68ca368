import Verif.Lemmas.CondenseInv
/-!
# Logs that only overwrite can be replayed twice
-/
namespace Fave
namespace Log

/-- operations whose second execution changes nothing: they set a value -/
def LogOp.Overwrites : LogOp → Prop
  | .addNode .. => True
  | .setEntryPoint .. => True
  | .replaceLinks .. => True
  | .addTombstone _ => True
  | .removeTombstone _ => True
  | _ => False

/-- what a sequence of such operations sets -/
structure Effect where
  need : Nat → Nat := fun _ => 0
  lvl : Nat → Option Nat := fun _ => none
  lnk : Nat → Nat → Option (List Nat) := fun _ _ => none
  ep : Option (Nat × Nat) := none
  tomb : Nat → Option Bool := fun _ => none

def Effect.step (σ : Effect) : LogOp → Effect
  | .addNode id l => { σ with
      need := fun i => if i = id then max (σ.need i) (l + 1) else σ.need i
      lvl := fun i => if i = id then some l else σ.lvl i }
  | .setEntryPoint id l => { σ with ep := some (id, l) }
  | .replaceLinks id l ts => { σ with
      need := fun i => if i = id then max (σ.need i) (l + 1) else σ.need i
      lnk := fun i k => if i = id ∧ k = l then some ts else σ.lnk i k }
  | .addTombstone id => { σ with tomb := fun i => if i = id then some true else σ.tomb i }
  | .removeTombstone id => { σ with tomb := fun i => if i = id then some false else σ.tomb i }
  | _ => σ

structure Effect.Wf (σ : Effect) : Prop where
  lvl : ∀ i, σ.need i = 0 → σ.lvl i = none
  lnk : ∀ i l ts, σ.lnk i l = some ts → l < σ.need i

theorem Effect.Wf.step {σ : Effect} (h : σ.Wf) (op : LogOp) : (σ.step op).Wf := by
  cases op with
  | addNode id l =>
    refine ⟨fun i hi => ?_, fun i k ts hk => ?_⟩
    · simp only [Effect.step] at hi ⊢
      by_cases hid : i = id
      · rw [if_pos hid] at hi; omega
      · rw [if_neg hid] at hi ⊢; exact h.lvl i hi
    · have := h.lnk i k ts hk
      simp only [Effect.step]
      by_cases hid : i = id
      · rw [if_pos hid]; omega
      · rw [if_neg hid]; exact this
  | replaceLinks id l x =>
    refine ⟨fun i hi => ?_, fun i k ts hk => ?_⟩
    · simp only [Effect.step] at hi ⊢
      by_cases hid : i = id
      · rw [if_pos hid] at hi; omega
      · rw [if_neg hid] at hi; exact h.lvl i hi
    · simp only [Effect.step] at hk ⊢
      by_cases hid : i = id
      · subst hid
        simp only [if_true, true_and] at hk ⊢
        by_cases hkl : k = l
        · omega
        · rw [if_neg hkl] at hk
          have := h.lnk i k ts hk; omega
      · rw [if_neg (by simp [hid])] at hk
        rw [if_neg hid]; exact h.lnk i k ts hk
  | setEntryPoint id l => exact ⟨h.lvl, h.lnk⟩
  | addTombstone id => exact ⟨h.lvl, h.lnk⟩
  | removeTombstone id => exact ⟨h.lvl, h.lnk⟩
  | addLink => exact h
  | addLinks => exact h
  | clearLinks => exact h
  | deleteNode => exact h
  | resetIndex => exact h
  | clearLinksAtLevel => exact h
  | addPQ => exact h

/-- links after the effect -/
def Effect.conns (σ : Effect) (i : Nat) (c : List (List Nat)) : List (List Nat) :=
  (List.range (max c.length (σ.need i))).map fun j => (σ.lnk i j).getD (c.getD j [])

theorem Effect.conns_getElem? (σ : Effect) (i : Nat) (c : List (List Nat)) (j : Nat) :
    (σ.conns i c)[j]? = if j < max c.length (σ.need i) then some ((σ.lnk i j).getD (c.getD j [])) else none := by
  unfold Effect.conns
  rw [List.getElem?_map]
  by_cases h : j < max c.length (σ.need i)
  · rw [List.getElem?_range h, if_pos h]; rfl
  · rw [List.getElem?_eq_none (by simp; omega), if_neg h]; rfl

theorem Effect.conns_length (σ : Effect) (i : Nat) (c : List (List Nat)) :
    (σ.conns i c).length = max c.length (σ.need i) := by simp [Effect.conns]

/-- the node after the effect -/
def Effect.node (σ : Effect) (w : View) (i : Nat) : LVertex :=
  ⟨(w.base i).id, (σ.lvl i).getD (w.base i).level, σ.conns i (w.base i).conns⟩

/-- the state after the effect -/
def Effect.apply (σ : Effect) (w : View) : View where
  node i := if σ.need i = 0 then w.node i else some (σ.node w i)
  ep := (σ.ep.map Prod.fst).getD w.ep
  level := (σ.ep.map Prod.snd).getD w.level
  tomb i := (σ.tomb i).getD (w.tomb i)
  pq := w.pq
  compressed := w.compressed

theorem Effect.Wf.conns_zero {σ : Effect} (h : σ.Wf) {i : Nat} (hi : σ.need i = 0) (c : List (List Nat)) : σ.conns i c = c := by
  refine List.ext_getElem? fun j => ?_
  rw [Effect.conns_getElem?, hi]
  have hn : σ.lnk i j = none := by
    cases hk : σ.lnk i j with
    | none => rfl
    | some ts => have := h.lnk i j ts hk; omega
  rw [hn]
  by_cases hj : j < c.length
  · rw [if_pos (by omega)]; simp [hj]
  · rw [if_neg (by omega)]; simp [Nat.not_lt.1 hj]

theorem Effect.Wf.base {σ : Effect} (h : σ.Wf) (w : View) (i : Nat) : (σ.apply w).base i = σ.node w i := by
  unfold View.base Effect.apply
  by_cases hi : σ.need i = 0
  · simp only [if_pos hi]
    unfold Effect.node
    rw [h.conns_zero hi, h.lvl i hi]
    rfl
  · simp only [if_neg hi]; rfl

theorem Effect.Wf.pad {σ : Effect} (h : σ.Wf) (i n : Nat) (c : List (List Nat)) (σ' : Effect)
    (h1 : σ'.need i = max (σ.need i) n) (h2 : ∀ j, σ'.lnk i j = σ.lnk i j) : pad (σ.conns i c) n = σ'.conns i c := by
  refine List.ext_getElem? fun j => ?_
  rw [pad_getElem?, Effect.conns_getElem?, Effect.conns_getElem?, Effect.conns_length, h1, h2]
  by_cases hj : j < max c.length (σ.need i)
  · rw [if_pos hj, if_pos hj, if_pos (by omega)]
  · rw [if_neg hj]
    by_cases hn : j < n
    · rw [if_pos hn, if_pos (by omega)]
      have hk : σ.lnk i j = none := by
        cases hk : σ.lnk i j with
        | none => rfl
        | some ts => have := h.lnk i j ts hk; omega
      rw [hk]
      simp [show c.length ≤ j by omega]
    · rw [if_neg hn, if_neg (by omega)]

theorem Effect.Wf.set {σ : Effect} (h : σ.Wf) (i l : Nat) (x : List Nat) (c : List (List Nat)) :
    (Log.pad (σ.conns i c) (l + 1)).set l x = (σ.step (.replaceLinks i l x)).conns i c := by
  rw [h.pad i (l + 1) c { σ with need := fun k => max (σ.need k) (l + 1) } rfl (fun _ => rfl)]
  refine List.ext_getElem? fun j => ?_
  rw [List.getElem?_set, Effect.conns_getElem?, Effect.conns_getElem?, Effect.conns_length]
  simp only [Effect.step, if_true, true_and]
  by_cases hj : l = j
  · subst hj
    rw [if_pos rfl, if_pos (by omega), if_pos (by omega), if_pos rfl]; rfl
  · rw [if_neg hj]
    have : ¬ j = l := fun e => hj e.symm
    simp only [if_neg this]

theorem Effect.apply_step {σ : Effect} (h : σ.Wf) (w : View) (op : LogOp) (ho : op.Overwrites) :
    op.sem (σ.apply w) = (σ.step op).apply w := by
  cases op with
  | addNode id l =>
    rw [sem_addNode, h.base]
    refine View.ext' (funext fun i => ?_) rfl rfl rfl rfl rfl
    simp only [View.setNode, Effect.apply]
    by_cases hi : i = id
    · subst hi
      have hn : ¬ (σ.step (.addNode i l)).need i = 0 := by simp only [Effect.step, if_true]; omega
      rw [if_pos rfl, if_neg hn]
      congr 1
      simp only [Effect.node]
      rw [h.pad i (l + 1) (w.base i).conns (σ.step (.addNode i l)) (by simp [Effect.step]) (fun _ => rfl)]
      simp [Effect.step]
    · have hn : (σ.step (.addNode id l)).need i = σ.need i := by simp only [Effect.step, if_neg hi]
      rw [if_neg hi, hn]
      simp only [Effect.node, Effect.conns, Effect.step, if_neg hi]
  | replaceLinks id l x =>
    rw [sem_replaceLinks, h.base]
    refine View.ext' (funext fun i => ?_) rfl rfl rfl rfl rfl
    simp only [View.setNode, Effect.apply]
    by_cases hi : i = id
    · subst hi
      have hn : ¬ (σ.step (.replaceLinks i l x)).need i = 0 := by simp only [Effect.step, if_true]; omega
      rw [if_pos rfl, if_neg hn]
      congr 1
      simp only [Effect.node]
      rw [h.set]
      rfl
    · have hn : (σ.step (.replaceLinks id l x)).need i = σ.need i := by simp only [Effect.step, if_neg hi]
      rw [if_neg hi, hn]
      simp only [Effect.node, Effect.conns, Effect.step, hi, false_and, if_false]
  | setEntryPoint id l => rfl
  | addTombstone id =>
    refine View.ext' rfl rfl rfl (funext fun i => ?_) rfl rfl
    simp only [LogOp.sem, Effect.apply, Effect.step]
    by_cases hi : i = id <;> simp [hi]
  | removeTombstone id =>
    refine View.ext' rfl rfl rfl (funext fun i => ?_) rfl rfl
    simp only [LogOp.sem, Effect.apply, Effect.step]
    by_cases hi : i = id <;> simp [hi]
  | addLink => exact ho.elim
  | addLinks => exact ho.elim
  | clearLinks => exact ho.elim
  | deleteNode => exact ho.elim
  | resetIndex => exact ho.elim
  | clearLinksAtLevel => exact ho.elim
  | addPQ => exact ho.elim

theorem Effect.apply_all {σ : Effect} (h : σ.Wf) (w : View) (ops : List LogOp) (ho : ∀ op ∈ ops, op.Overwrites) :
    semAll (σ.apply w) ops = (ops.foldl Effect.step σ).apply w := by
  induction ops generalizing σ with
  | nil => rfl
  | cons op ops ih =>
    simp only [semAll, List.foldl_cons]
    rw [Effect.apply_step h w op (ho op (by simp))]
    exact ih (h.step op) fun o hh => ho o (by simp [hh])

theorem Effect.apply_empty (w : View) : (({} : Effect)).apply w = w := rfl

theorem Effect.apply_twice (σ : Effect) (w : View) : σ.apply (σ.apply w) = σ.apply w := by
  refine View.ext' (funext fun i => ?_) ?_ ?_ (funext fun i => ?_) rfl rfl
  · simp only [Effect.apply]
    by_cases hi : σ.need i = 0
    · rw [if_pos hi, if_pos hi]
    · rw [if_neg hi]
      rw [if_neg hi]
      congr 1
      have hb : View.base (σ.apply w) i = σ.node w i := by simp [View.base, Effect.apply, hi]
      show Effect.node σ (σ.apply w) i = _
      unfold Effect.node
      rw [hb]
      simp only [Effect.node]
      congr 1
      · cases σ.lvl i <;> rfl
      · refine List.ext_getElem? fun j => ?_
        rw [Effect.conns_getElem?, Effect.conns_getElem?, Effect.conns_length, List.getD_eq_getElem?_getD (l := σ.conns i _),
          Effect.conns_getElem?]
        by_cases hj : j < max (w.base i).conns.length (σ.need i)
        · rw [if_pos hj, if_pos (by omega)]
          cases σ.lnk i j <;> rfl
        · rw [if_neg hj, if_neg (by omega)]
  · simp only [Effect.apply]; cases σ.ep <;> rfl
  · simp only [Effect.apply]; cases σ.ep <;> rfl
  · simp only [Effect.apply]; cases σ.tomb i <;> rfl

/-- a log of overwriting operations can be replayed twice -/
theorem semAll_twice (w : View) (ops : List LogOp) (ho : ∀ op ∈ ops, op.Overwrites) :
    semAll (semAll w ops) ops = semAll w ops := by
  have hw : ({} : Effect).Wf := ⟨fun _ _ => rfl, fun _ _ _ h => by cases h⟩
  have h1 := Effect.apply_all hw w ops ho
  have h2 := Effect.apply_all hw (semAll w ops) ops ho
  rw [Effect.apply_empty] at h1 h2
  rw [h2, h1, Effect.apply_twice]

end Log
end Fave
