import Verif.Lemmas.Condense
import Verif.Spec.Condense
/-!
# Condensing: the invariant that relates the condensed log to the log
-/
namespace Fave
namespace Log

theorem linkLens_snoc (ops : List LogOp) (op : LogOp) : linkLens (ops ++ [op]) = op.linkLens (linkLens ops) := by
  simp [linkLens]

/-! ## merging and the elementary changes -/

theorem mergeC_pad_new (old new : List (List Nat)) (rep : Nat → Bool) (n : Nat)
    (h : ∀ j, rep j = true → j < new.length ∨ old.getD j [] = []) :
    mergeC old (pad new n) rep = pad (mergeC old new rep) n := by
  refine List.ext_getElem? fun j => ?_
  rw [mergeC_getElem?, pad_getElem?, mergeC_length, mergeC_getElem?, pad_length, pad_getD]
  by_cases h1 : j < new.length
  · rw [if_pos (show j < max new.length n by omega), if_pos (show j < max old.length new.length by omega), if_pos h1]
  · rw [if_neg h1]
    have hn : new.getD j [] = [] := by
      rw [List.getD_eq_getElem?_getD, List.getElem?_eq_none (by omega)]; rfl
    by_cases h2 : j < n
    · rw [if_pos (by omega)]
      have hv : (if rep j then new.getD j [] else old.getD j [] ++ new.getD j []) = old.getD j [] := by
        by_cases hr : rep j = true
        · rw [if_pos hr, hn]
          rcases h j hr with h3 | h3
          · omega
          · exact h3.symm
        · rw [if_neg hr, hn, List.append_nil]
      rw [hv]
      by_cases h3 : j < old.length
      · rw [if_pos (by omega)]; simp [h3]
      · rw [if_neg (by omega), if_pos h2]; simp [h3]
    · rw [if_neg (by omega)]
      by_cases h3 : j < old.length
      · rw [if_pos (by omega)]
      · rw [if_neg (by omega), if_neg h2]; simp [h3]

theorem getD_modify (c : List (List Nat)) (l j : Nat) (f : List Nat → List Nat) (hl : l < c.length) :
    (c.modify l f).getD j [] = if l = j then f (c.getD j []) else c.getD j [] := by
  rw [List.getD_eq_getElem?_getD, List.getElem?_modify, List.getD_eq_getElem?_getD]
  by_cases h : l = j
  · subst h; simp [hl]
  · simp [h]

theorem mergeC_append (old new : List (List Nat)) (rep : Nat → Bool) (l : Nat) (x : List Nat) (hl : l < new.length) :
    mergeC old (new.modify l (· ++ x)) rep = (mergeC old new rep).modify l (· ++ x) := by
  refine List.ext_getElem? fun j => ?_
  rw [mergeC_getElem?, List.getElem?_modify, mergeC_getElem?, List.length_modify, getD_modify _ _ _ _ hl]
  by_cases h1 : j < new.length
  · rw [if_pos h1, if_pos h1]
    by_cases h2 : l = j
    · subst h2
      by_cases hr : rep l = true <;> simp [hr]
    · simp [h2]
  · rw [if_neg h1, if_neg h1]
    have h2 : ¬ l = j := by omega
    simp [h2]

theorem mergeC_replace (old new : List (List Nat)) (rep : Nat → Bool) (l : Nat) (x : List Nat) (hl : l < new.length) :
    mergeC old (new.set l x) (fun j => decide (j = l) || rep j) = (mergeC old new rep).set l x := by
  refine List.ext_getElem? fun j => ?_
  rw [mergeC_getElem?, List.getElem?_set, mergeC_getElem?, List.length_set, mergeC_length]
  have hg : (new.set l x).getD j [] = if l = j then x else new.getD j [] := by
    rw [List.getD_eq_getElem?_getD, List.getElem?_set, List.getD_eq_getElem?_getD]
    by_cases h : l = j
    · subst h; simp [hl]
    · simp [h]
  rw [hg]
  by_cases h1 : j < new.length
  · rw [if_pos h1, if_pos h1]
    by_cases h2 : l = j
    · subst h2
      simp; omega
    · have h3 : ¬ j = l := fun h => h2 h.symm
      simp [h2, h3]
  · rw [if_neg h1, if_neg h1]
    have h2 : ¬ l = j := by omega
    simp [h2]

theorem mergeC_nil_new (old : List (List Nat)) (rep : Nat → Bool) : mergeC old [] rep = old := by
  refine List.ext_getElem? fun j => ?_
  rw [mergeC_getElem?]; simp

theorem mergeC_nil_old (new : List (List Nat)) (rep : Nat → Bool) : mergeC [] new rep = new := by
  refine List.ext_getElem? fun j => ?_
  rw [mergeC_getElem?]
  by_cases h : j < new.length
  · rw [if_pos h]; simp [h]
  · rw [if_neg h]; simp [Nat.not_lt.1 h]

theorem mergeC_congr (old new : List (List Nat)) {r1 r2 : Nat → Bool} (h : ∀ j, j < new.length → r1 j = r2 j) :
    mergeC old new r1 = mergeC old new r2 := by
  refine List.ext_getElem? fun j => ?_
  rw [mergeC_getElem?, mergeC_getElem?]
  by_cases h1 : j < new.length
  · rw [if_pos h1, if_pos h1, h j h1]
  · rw [if_neg h1, if_neg h1]

/-- the node, or an empty one -/
def View.base (w : View) (id : Nat) : LVertex := (w.node id).getD ⟨id, 0, []⟩

theorem nodeOr_id (w : View) (id l : Nat) : (w.nodeOr id l).id = (w.base id).id := by
  unfold View.nodeOr View.base; cases w.node id <;> rfl

theorem nodeOr_level (w : View) (id l : Nat) : (w.nodeOr id l).level = (w.base id).level := by
  unfold View.nodeOr View.base; cases w.node id <;> rfl

theorem nodeOr_pad (w : View) (id l : Nat) : pad (w.nodeOr id l).conns (l + 1) = pad (w.base id).conns (l + 1) := by
  unfold View.nodeOr View.base
  cases w.node id with
  | some v => rfl
  | none => simp [pad]

theorem condSem_base (w : View) (st : LogState) (id : Nat) (hid : ∀ v, st.view.node id = some v → v.id = id) :
    (condSem w st).base id = merge (w.node id) (st.view.base id) (st.replaced id) := by
  have hv : viewNodes st.nodes id = st.view.node id := rfl
  unfold View.base
  simp only [condSem, hv]
  cases h : st.view.node id with
  | none => simp [merge, mergeC_nil_new]
  | some v => simp

theorem condSem_node (w : View) (st : LogState) (i : Nat) :
    (condSem w st).node i = match st.view.node i with
      | none => w.node i
      | some v => some (merge (w.node i) v (st.replaced i)) := rfl

/-! ## the invariant -/

structure VOk (maxLen : Nat) (lens : Nat → Nat → Nat) (i : Nat) (v : LVertex) : Prop where
  id : v.id = i
  level : v.level + 1 ≤ v.conns.length
  levels : v.conns.length < 2 ^ 16
  fits : i < 2 ^ 50 ∧ i * 5 / 4 + 25000 ≤ maxLen
  links : ∀ l ts, v.conns[l]? = some ts → ts.length ≤ lens i l ∧ ∀ t ∈ ts, t < 2 ^ 64

structure CInv (maxLen : Nat) (w : View) (done : List LogOp) (s : LogState) : Prop where
  len : 25000 ≤ s.nodes.len
  node : ∀ i v, s.view.node i = some v → VOk maxLen (linkLens done) i v
  repl : ∀ i l, s.replaced i l = true → w.node i = none ∨ ∃ v, s.view.node i = some v ∧ l < v.conns.length
  ep : s.ep < 2 ^ 64 ∧ s.level < 2 ^ 16
  tomb : ∀ i, s.view.tomb i = true → i < 2 ^ 64
  touched : ∀ i, ∀ op ∈ done, op.touches i → w.node i ≠ none → s.view.node i ≠ none
  sem : condSem w s = semAll w done

theorem applyOp_len {maxLen : Nat} {keep : Bool} {st st' : LogState} {op : LogOp} (hf : op.Fits maxLen)
    (h : applyOp maxLen keep st op = .ok st') (hl : 25000 ≤ st.nodes.len) : 25000 ≤ st'.nodes.len := by
  have hi : Grow.initialSize = 25000 := rfl
  cases op with
  | addNode id l =>
    obtain ⟨-, h2, hm⟩ := hf
    obtain ⟨t, ht, hlt, hle, -⟩ := growTab_ok (t := st.nodes) h2 hm
    simp only [applyOp, putNode, ht, if_neg (Nat.not_le.2 hlt)] at h
    cases hg : t.get id with
    | none => rw [hg] at h; cases h; show _ ≤ t.len; omega
    | some v => rw [hg] at h; cases h; show _ ≤ t.len; omega
  | addLink s l x =>
    obtain ⟨hl', h2, hm⟩ := hf
    obtain ⟨t, ht, hle, -⟩ := setLinks_ok (st := st) (fun y => y ++ [x]) hl' h2 hm
    have := ht.symm.trans h
    cases this; show _ ≤ t.len; omega
  | addLinks s l x =>
    obtain ⟨hl', h2, hm⟩ := hf
    obtain ⟨t, ht, hle, -⟩ := setLinks_ok (st := st) (fun y => y ++ x) hl' h2 hm
    have := ht.symm.trans h
    cases this; show _ ≤ t.len; omega
  | replaceLinks s l x =>
    obtain ⟨hl', h2, hm⟩ := hf
    obtain ⟨t, ht, hle, -⟩ := setLinks_ok (st := st) (fun _ => x) hl' h2 hm
    simp only [applyOp, ht] at h
    cases keep <;> (cases h; show _ ≤ t.len; omega)
  | setEntryPoint id l => cases h; exact hl
  | addTombstone id => cases h; exact hl
  | removeTombstone id => cases h; exact hl
  | addPQ d => cases h; exact hl
  | resetIndex => cases h; show _ ≤ Grow.initialSize; omega
  | clearLinks id =>
    simp only [applyOp, clearNode] at h
    split at h
    · cases h; exact hl
    · split at h
      · cases h
      · split at h
        · cases h; exact hl
        · cases h; exact hl
  | deleteNode id =>
    simp only [applyOp, dropNode] at h
    split at h
    · cases h; exact hl
    · split at h
      · cases h
      · cases h; exact hl
  | clearLinksAtLevel id l =>
    simp only [applyOp, clearLevel] at h
    cases keep with
    | false =>
      simp only [Bool.false_eq_true, if_false] at h
      split at h
      · cases h; exact hl
      · split at h
        · cases h
        · split at h
          · cases h; exact hl
          · split at h
            · cases h
            · cases h; exact hl
    | true =>
      simp only [if_true] at h
      split at h
      · cases h; exact hl
      · split at h
        · cases h
        · split at h
          · cases h; exact hl
          · split at h
            · cases h
            · cases h; exact hl

theorem linkLens_ge_of {maxLen : Nat} {f g : Nat → Nat → Nat} {i : Nat} {v : LVertex} (h : VOk maxLen f i v)
    (hfg : ∀ l, f i l ≤ g i l) : VOk maxLen g i v :=
  ⟨h.id, h.level, h.levels, h.fits, fun l ts hl => ⟨Nat.le_trans (h.links l ts hl).1 (hfg l), (h.links l ts hl).2⟩⟩

/-- the base node before a link operation is fine -/
theorem base_ok {maxLen : Nat} {lens : Nat → Nat → Nat} {w : View} {i n : Nat}
    (h : ∀ v, w.node i = some v → VOk maxLen lens i v) (hf : i < 2 ^ 50 ∧ i * 5 / 4 + 25000 ≤ maxLen)
    (hn : n < 2 ^ 16 - 1) :
    VOk maxLen lens i { w.base i with conns := pad (w.base i).conns (n + 1) } := by
  cases hw : w.node i with
  | none =>
    have hb : w.base i = ⟨i, 0, []⟩ := by simp [View.base, hw]
    rw [hb]
    refine ⟨rfl, by rw [pad_length]; simp, by simp only [pad_length, List.length_nil]; omega, hf, fun l ts hl => ?_⟩
    simp only [pad_getElem?] at hl
    by_cases h2 : l < n + 1
    · simp [h2] at hl; subst hl; simp
    · simp [h2] at hl
  | some v =>
    have hb : w.base i = v := by simp [View.base, hw]
    rw [hb]
    obtain ⟨a1, a2, a3, a4, a5⟩ := h v hw
    refine ⟨a1, by rw [pad_length]; exact Nat.le_trans a2 (Nat.le_max_left _ _), by simp only [pad_length]; omega, a4,
      fun l ts hl => ?_⟩
    simp only [pad_getElem?] at hl
    by_cases h1 : l < v.conns.length
    · rw [if_pos h1] at hl; exact a5 l ts hl
    · rw [if_neg h1] at hl
      by_cases h2 : l < n + 1
      · rw [if_pos h2] at hl; cases hl; simp
      · rw [if_neg h2] at hl; cases hl

theorem VOk.setConns {maxLen : Nat} {f g : Nat → Nat → Nat} {i l : Nat} {v : LVertex} (h : VOk maxLen f i v)
    (F : List Nat → List Nat) (hfg : ∀ k, k ≠ l → f i k ≤ g i k)
    (hF : ∀ ts, v.conns[l]? = some ts → (F ts).length ≤ g i l ∧ ∀ t ∈ F ts, t < 2 ^ 64) :
    VOk maxLen g i { v with conns := v.conns.modify l F } := by
  refine ⟨h.id, by rw [List.length_modify]; exact h.level, by rw [List.length_modify]; exact h.levels, h.fits,
    fun k ts hk => ?_⟩
  simp only [List.getElem?_modify] at hk
  by_cases hkl : l = k
  · subst hkl
    cases hc : v.conns[l]? with
    | none => rw [hc] at hk; simp at hk
    | some c => rw [hc] at hk; simp at hk; subst hk; exact hF c hc
  · cases hc : v.conns[k]? with
    | none => rw [hc] at hk; simp at hk
    | some c =>
      rw [hc] at hk; simp [hkl] at hk; subst hk
      exact ⟨Nat.le_trans (h.links k c hc).1 (hfg k fun e => hkl e.symm), (h.links k c hc).2⟩

theorem merge_eq (old : Option LVertex) (v : LVertex) (rep : Nat → Bool) :
    merge old v rep = ⟨(old.getD ⟨v.id, 0, []⟩).id, if v.level > 0 then v.level else (old.getD ⟨v.id, 0, []⟩).level,
      mergeC (old.getD ⟨v.id, 0, []⟩).conns v.conns rep⟩ := rfl

/-- the marks concern levels the node has, or a node that is new -/
def RepOk (old : Option LVertex) (v : LVertex) (rep : Nat → Bool) : Prop :=
  ∀ j, rep j = true → old = none ∨ j < v.conns.length

theorem RepOk.pad {old : Option LVertex} {v : LVertex} {rep : Nat → Bool} (h : RepOk old v rep) (i : Nat) :
    ∀ j, rep j = true → j < v.conns.length ∨ (old.getD ⟨i, 0, []⟩).conns.getD j [] = [] := by
  intro j hj
  rcases h j hj with h1 | h1
  · right; subst h1; simp
  · exact .inl h1

theorem merge_append {old : Option LVertex} {v : LVertex} {rep : Nat → Bool} (h : RepOk old v rep) (l : Nat) (x : List Nat) :
    merge old { v with conns := (pad v.conns (l + 1)).modify l (· ++ x) } rep =
      { merge old v rep with conns := (pad (merge old v rep).conns (l + 1)).modify l (· ++ x) } := by
  simp only [merge_eq]
  rw [mergeC_append _ _ _ _ _ (by rw [pad_length]; omega), mergeC_pad_new _ _ _ _ (h.pad _)]

theorem merge_replace {old : Option LVertex} {v : LVertex} {rep : Nat → Bool} (h : RepOk old v rep) (l : Nat) (x : List Nat) :
    merge old { v with conns := (pad v.conns (l + 1)).set l x } (fun j => decide (j = l) || rep j) =
      { merge old v rep with conns := (pad (merge old v rep).conns (l + 1)).set l x } := by
  simp only [merge_eq]
  rw [mergeC_replace _ _ _ _ _ (by rw [pad_length]; omega), mergeC_pad_new _ _ _ _ (h.pad _)]

theorem merge_node {old : Option LVertex} {v : LVertex} {rep : Nat → Bool} (h : RepOk old v rep) (l : Nat)
    (hl : l > 0 ∨ ∀ u, old = some u → u.level = 0) :
    merge old { v with level := l, conns := pad v.conns (l + 1) } rep =
      { merge old v rep with level := l, conns := pad (merge old v rep).conns (l + 1) } := by
  simp only [merge_eq]
  rw [mergeC_pad_new _ _ _ _ (h.pad _)]
  congr 1
  by_cases h1 : l > 0
  · rw [if_pos h1]
  · rw [if_neg h1]
    cases old with
    | none => simp; omega
    | some u => simp; rcases hl with h2 | h2
                · omega
                · rw [h2 u rfl]; omega

theorem CInv.repOk {maxLen : Nat} {w : View} {done : List LogOp} {s : LogState} (h : CInv maxLen w done s) (i : Nat) :
    RepOk (w.node i) (s.view.base i) (s.replaced i) := by
  intro j hj
  rcases h.repl i j hj with h1 | ⟨v, h1, h2⟩
  · exact .inl h1
  · right
    have : s.view.base i = v := by simp [View.base, h1]
    rw [this]; exact h2

theorem semAll_snoc (w : View) (done : List LogOp) (op : LogOp) : semAll w (done ++ [op]) = op.sem (semAll w done) := by
  simp [semAll]

theorem sem_addNode (w : View) (id l : Nat) :
    LogOp.sem w (.addNode id l) = w.setNode id (some { w.base id with level := l, conns := pad (w.base id).conns (l + 1) }) := by
  simp only [LogOp.sem, View.base]
  cases w.node id with
  | none => simp [pad]
  | some v => rfl

theorem sem_addLinks (w : View) (id l : Nat) (x : List Nat) :
    LogOp.sem w (.addLinks id l x) =
      w.setNode id (some { w.base id with conns := (pad (w.base id).conns (l + 1)).modify l (· ++ x) }) := by
  simp only [LogOp.sem]
  rw [nodeOr_pad, nodeOr_id, nodeOr_level]

theorem sem_addLink (w : View) (id l x : Nat) :
    LogOp.sem w (.addLink id l x) = LogOp.sem w (.addLinks id l [x]) := rfl

theorem sem_replaceLinks (w : View) (id l : Nat) (x : List Nat) :
    LogOp.sem w (.replaceLinks id l x) =
      w.setNode id (some { w.base id with conns := (pad (w.base id).conns (l + 1)).set l x }) := by
  simp only [LogOp.sem]
  rw [nodeOr_pad, nodeOr_id, nodeOr_level]

theorem view_tomb (s : LogState) (i : Nat) : s.view.tomb i = s.tombs.contains i := rfl

/-- Changing one node in the condensed state: enough to compare that node. -/
theorem condSem_setNode {w : View} {s s' : LogState} {id : Nat} {v u : LVertex}
    (hv : s'.view = s.view.setNode id (some v)) (hr : ∀ i, i ≠ id → s'.replaced i = s.replaced i)
    (hep : s'.epChanged = s.epChanged) (hu : merge (w.node id) v (s'.replaced id) = u) :
    condSem w s' = (condSem w s).setNode id (some u) := by
  have h1 : s'.view.ep = s.view.ep := by rw [hv]; rfl
  have h2 : s'.view.level = s.view.level := by rw [hv]; rfl
  have h3 : s'.view.tomb = s.view.tomb := by rw [hv]; rfl
  refine View.ext' (funext fun i => ?_) ?_ ?_ (funext fun i => ?_) rfl rfl
  · rw [condSem_node, hv]
    simp only [View.setNode]
    by_cases hi : i = id
    · subst hi; simp [hu]
    · simp only [if_neg hi, hr i hi]; rfl
  · show (if s'.epChanged then s'.view.ep else _) = (if s.epChanged then s.view.ep else _)
    rw [hep, h1]
  · show (if s'.epChanged then s'.view.level else _) = (if s.epChanged then s.view.level else _)
    rw [hep, h2]
  · show (s'.view.tomb i || _) = (s.view.tomb i || _)
    rw [h3]

theorem CInv.setNode {maxLen : Nat} {w : View} {done : List LogOp} {s s' : LogState} {op : LogOp} {id : Nat} {v : LVertex}
    (h : CInv maxLen w done s) (hlen : 25000 ≤ s'.nodes.len)
    (hv : s'.view = s.view.setNode id (some v)) (hep : s'.epChanged = s.epChanged)
    (hr : ∀ i, i ≠ id → s'.replaced i = s.replaced i)
    (hr2 : ∀ l, s'.replaced id l = true → s.replaced id l = true ∨ l < v.conns.length)
    (hmono : (s.view.base id).conns.length ≤ v.conns.length)
    (hlens : ∀ i, i ≠ id → ∀ l, linkLens done i l ≤ linkLens (done ++ [op]) i l)
    (hok : VOk maxLen (linkLens (done ++ [op])) id v)
    (hsem : op.sem (semAll w done) = (semAll w done).setNode id (some (merge (w.node id) v (s'.replaced id))))
    (ht : ∀ i, op.touches i → i = id) :
    CInv maxLen w (done ++ [op]) s' := by
  have hnode : ∀ i, s'.view.node i = if i = id then some v else s.view.node i := fun i => by rw [hv]; rfl
  refine ⟨hlen, fun i u hu => ?_, fun i l hl => ?_, ?_, fun i hi => ?_, fun i o ho hto hw => ?_, ?_⟩
  · rw [hnode] at hu
    by_cases hi : i = id
    · subst hi; rw [if_pos rfl] at hu; cases hu; exact hok
    · rw [if_neg hi] at hu
      exact linkLens_ge_of (h.node i u hu) (hlens i hi)
  · by_cases hi : i = id
    · subst hi
      rcases hr2 l hl with h1 | h1
      · rcases h.repl i l h1 with h2 | ⟨u, h2, h3⟩
        · exact .inl h2
        · refine .inr ⟨v, by rw [hnode, if_pos rfl], ?_⟩
          have : s.view.base i = u := by simp [View.base, h2]
          rw [this] at hmono
          omega
      · exact .inr ⟨v, by rw [hnode, if_pos rfl], h1⟩
    · rw [hr i hi] at hl
      rcases h.repl i l hl with h2 | ⟨u, h2, h3⟩
      · exact .inl h2
      · exact .inr ⟨u, by rw [hnode, if_neg hi, h2], h3⟩
  · have h1 : s'.view.ep = s.view.ep := by rw [hv]; rfl
    have h2 : s'.view.level = s.view.level := by rw [hv]; rfl
    exact ⟨Nat.lt_of_le_of_lt (Nat.le_of_eq h1) h.ep.1, Nat.lt_of_le_of_lt (Nat.le_of_eq h2) h.ep.2⟩
  · have h3 : s'.view.tomb = s.view.tomb := by rw [hv]; rfl
    rw [h3] at hi
    exact h.tomb i hi
  · rw [hnode]
    by_cases hi : i = id
    · rw [if_pos hi]; simp
    · rw [if_neg hi]
      rcases List.mem_append.1 ho with ho | ho
      · exact h.touched i o ho hto hw
      · simp at ho; subst ho; exact absurd (ht i hto) hi
  · rw [semAll_snoc, hsem, condSem_setNode hv hr hep rfl, h.sem]

theorem CInv.base_sem {maxLen : Nat} {w : View} {done : List LogOp} {s : LogState} (h : CInv maxLen w done s) (id : Nat) :
    (semAll w done).base id = merge (w.node id) (s.view.base id) (s.replaced id) := by
  rw [← h.sem]
  exact condSem_base w s id fun v hv => (h.node id v hv).id

theorem pad_length_ge (c : List (List Nat)) (n : Nat) : c.length ≤ (pad c n).length := by rw [pad_length]; omega

theorem CInv.addLinks {maxLen : Nat} {w : View} {done : List LogOp} {s s' : LogState} {op : LogOp} {id l : Nat}
    {x : List Nat} (h : CInv maxLen w done s) (hlen : 25000 ≤ s'.nodes.len)
    (hv : s'.view = LogOp.sem s.view (.addLinks id l x)) (hep : s'.epChanged = s.epChanged)
    (hr : s'.replaced = s.replaced) (hf : id < 2 ^ 50 ∧ id * 5 / 4 + 25000 ≤ maxLen) (hl : l < 2 ^ 16 - 1)
    (hx : ∀ t ∈ x, t < 2 ^ 64)
    (hop : (fun f => LogOp.linkLens f op) = fun f => LogOp.linkLens f (.addLinks id l x))
    (hsem : ∀ w, op.sem w = LogOp.sem w (.addLinks id l x)) (ht : ∀ i, op.touches i → i = id) :
    CInv maxLen w (done ++ [op]) s' := by
  rw [sem_addLinks] at hv
  have hlens : ∀ i k, linkLens (done ++ [op]) i k =
      if i = id ∧ k = l then linkLens done i k + x.length else linkLens done i k := by
    intro i k; rw [linkLens_snoc]
    have : op.linkLens (linkLens done) = LogOp.linkLens (linkLens done) (.addLinks id l x) := congrFun hop (linkLens done)
    rw [this]; rfl
  refine h.setNode hlen hv hep (fun i _ => by rw [hr]) (fun k hk => .inl (by rw [hr] at hk; exact hk)) ?_ ?_ ?_ ?_ ht
  · rw [List.length_modify]; exact pad_length_ge _ _
  · intro i hi k; rw [hlens, if_neg (by simp [hi])]; exact Nat.le_refl _
  · refine (base_ok (h.node id) hf hl).setConns (· ++ x) (fun k hk => ?_) (fun ts hts => ?_)
    · rw [hlens, if_neg (by simp [hk])]; exact Nat.le_refl _
    · rw [hlens, if_pos ⟨rfl, rfl⟩]
      have := (base_ok (h.node id) hf hl).links l ts hts
      refine ⟨by simp; omega, fun t ht => ?_⟩
      rcases List.mem_append.1 ht with h1 | h1
      · exact this.2 t h1
      · exact hx t h1
  · rw [hsem, sem_addLinks, h.base_sem, hr, merge_append (h.repOk id)]

theorem CInv.setLinks {maxLen : Nat} {w : View} {done : List LogOp} {s s' : LogState} {op : LogOp} {id l : Nat}
    {x : List Nat} (h : CInv maxLen w done s) (hlen : 25000 ≤ s'.nodes.len)
    (hv : s'.view = s.view.setNode id (some { s.view.base id with conns := (pad (s.view.base id).conns (l + 1)).set l x }))
    (hep : s'.epChanged = s.epChanged)
    (hr : s'.replaced = fun i k => (decide (i = id) && decide (k = l)) || s.replaced i k)
    (hf : id < 2 ^ 50 ∧ id * 5 / 4 + 25000 ≤ maxLen) (hl : l < 2 ^ 16 - 1)
    (hx : ∀ t ∈ x, t < 2 ^ 64)
    (hop : ∀ i k, (¬ (i = id ∧ k = l) → linkLens done i k ≤ linkLens (done ++ [op]) i k) ∧
      x.length ≤ linkLens (done ++ [op]) id l)
    (hsem : op.sem (semAll w done) = LogOp.sem (semAll w done) (.replaceLinks id l x)) (ht : ∀ i, op.touches i → i = id) :
    CInv maxLen w (done ++ [op]) s' := by
  have hid : s'.replaced id = fun k => decide (k = l) || s.replaced id k := by rw [hr]; funext k; simp
  have hset : (pad (s.view.base id).conns (l + 1)).set l x = (pad (s.view.base id).conns (l + 1)).modify l (fun _ => x) :=
    set_modify (fun _ => x) (List.getElem?_eq_getElem (by rw [pad_length]; omega))
  refine h.setNode hlen hv hep (fun i hi => by rw [hr]; funext k; simp [hi]) (fun k hk => ?_) ?_ ?_ ?_ ?_ ht
  · rw [hid] at hk
    simp only [Bool.or_eq_true, decide_eq_true_eq] at hk
    rcases hk with hk | hk
    · subst hk; right; rw [List.length_set, pad_length]; omega
    · exact .inl hk
  · rw [List.length_set]; exact pad_length_ge _ _
  · intro i hi k; exact (hop i k).1 (by simp [hi])
  · rw [hset]
    refine (base_ok (h.node id) hf hl).setConns (fun _ => x) (fun k hk => (hop id k).1 (by simp [hk])) (fun ts hts => ?_)
    exact ⟨(hop 0 0).2, hx⟩
  · rw [hsem, sem_replaceLinks, h.base_sem, hid, merge_replace (h.repOk id)]

theorem condSem_view {w : View} {s s' : LogState} (hn : s'.view.node = s.view.node) (hr : s'.replaced = s.replaced) :
    (condSem w s').node = (condSem w s).node := by
  funext i; rw [condSem_node, condSem_node, hn, hr]

theorem CInv.step {maxLen : Nat} {w : View} {done : List LogOp} {s : LogState} {op : LogOp} (hm : 56250 ≤ maxLen)
    (h : CInv maxLen w done s) (hr : op.InRange) (hf : op.Fits maxLen) (hc : op.Condensable w done) :
    ∃ s', applyOp maxLen true s op = .ok s' ∧ CInv maxLen w (done ++ [op]) s' := by
  obtain ⟨s', h1, h2, h3, h4⟩ := applyOp_keep s op hf
  have hlen := applyOp_len hf h1 h.len
  refine ⟨s', h1, ?_⟩
  cases op with
  | addNode id l =>
    rw [show LogOp.semKeep s (.addNode id l) = LogOp.sem s.view (.addNode id l) from rfl, sem_addNode] at h2
    have hlens : linkLens (done ++ [.addNode id l]) = linkLens done := by rw [linkLens_snoc]; rfl
    have hb := base_ok (h.node id) hf.2 hf.1
    refine h.setNode hlen h2 h4 (fun i _ => by rw [h3]; rfl) (fun k hk => .inl (by rw [h3] at hk; exact hk)) (pad_length_ge _ _)
      (fun i _ k => by rw [hlens]; exact Nat.le_refl _) ?_ ?_ (fun i hi => hi.symm)
    · rw [hlens]
      exact ⟨hb.id, by show l + 1 ≤ _; rw [pad_length]; exact Nat.le_max_right _ _, hb.levels, hb.fits, hb.links⟩
    · rw [sem_addNode, h.base_sem, h3, ← merge_node (h.repOk id) l hc]; rfl
  | addLink id l x =>
    exact h.addLinks hlen h2 h4 h3 hf.2 hf.1 (x := [x]) (by simp; exact hr.2.2) rfl (fun _ => rfl) (fun i hi => hi.symm)
  | addLinks id l x =>
    exact h.addLinks hlen h2 h4 h3 hf.2 hf.1 hr.2.2.2 rfl (fun _ => rfl) (fun i hi => hi.symm)
  | replaceLinks id l x =>
    rw [show LogOp.semKeep s (.replaceLinks id l x) = LogOp.sem s.view (.replaceLinks id l x) from rfl, sem_replaceLinks] at h2
    refine h.setLinks hlen h2 h4 h3 hf.2 hf.1 hr.2.2.2 (fun i k => ?_) rfl (fun i hi => hi.symm)
    rw [linkLens_snoc]
    simp only [LogOp.linkLens]
    refine ⟨fun hik => ?_, by simp⟩
    rw [if_neg hik]; exact Nat.le_refl _
  | clearLinksAtLevel id l =>
    obtain ⟨hc1, hc2⟩ := hc
    -- the node is in the table and, if it is new, below 25000
    have hin : id < s.nodes.len ∧ (id < 2 ^ 50 ∧ id * 5 / 4 + 25000 ≤ maxLen) := by
      rw [← h.sem, condSem_node] at hc1
      cases hn : s.view.node id with
      | some v =>
        refine ⟨?_, (h.node id v hn).fits⟩
        refine Nat.lt_of_not_le fun hle => ?_
        rw [show s.view.node id = none from viewNodes_absent hle] at hn
        cases hn
      | none =>
        rw [hn] at hc1
        rcases hc2 hc1 with h5 | ⟨o, ho, hto⟩
        · have := h.len
          exact ⟨by omega, by omega, by omega⟩
        · exact absurd hn (h.touched id o ho hto hc1)
    simp only [LogOp.semKeep, if_pos hin.1, nodeOr_pad, nodeOr_id, nodeOr_level] at h2
    have h3' : s'.replaced = fun i k => (decide (i = id) && decide (k = l)) || s.replaced i k := by
      rw [h3]; funext i k; simp [LogOp.marks, hin.1]
    have hlens : linkLens (done ++ [.clearLinksAtLevel id l]) = linkLens done := by rw [linkLens_snoc]; rfl
    refine h.setLinks (x := []) hlen h2 h4 h3' hin.2 hf.1 (by simp) (fun i k => ?_) ?_ (fun i hi => hi.elim)
    · rw [hlens]; exact ⟨fun _ => Nat.le_refl _, Nat.zero_le _⟩
    · cases hn : (semAll w done).node id with
      | none => exact absurd hn hc1
      | some v => simp [LogOp.sem, View.nodeOr, hn]
  | setEntryPoint id l =>
    have hv : s'.view.node = s.view.node := by rw [h2]; rfl
    have ht : s'.view.tomb = s.view.tomb := by rw [h2]; rfl
    have he : s'.ep = id := by show s'.view.ep = _; rw [h2]; rfl
    have hl : s'.level = l := by show s'.view.level = _; rw [h2]; rfl
    have hlens : linkLens (done ++ [.setEntryPoint id l]) = linkLens done := by rw [linkLens_snoc]; rfl
    have h3 : s'.replaced = s.replaced := h3
    have h4 : s'.epChanged = true := h4
    refine ⟨hlen, by rw [hlens, hv]; exact h.node, by rw [h3, hv]; exact h.repl, by rw [he, hl]; exact hr, by rw [ht]; exact h.tomb,
      fun i o ho => ?_, ?_⟩
    · rw [hv]
      rcases List.mem_append.1 ho with ho | ho
      · exact h.touched i o ho
      · simp at ho; subst ho; exact fun hh => hh.elim
    · rw [semAll_snoc, ← h.sem]
      refine View.ext' (condSem_view hv h3) ?_ ?_ (funext fun i => ?_) rfl rfl
      · show (if s'.epChanged then s'.ep else _) = id
        rw [h4, he]; rfl
      · show (if s'.epChanged then s'.level else _) = l
        rw [h4, hl]; rfl
      · show (s'.view.tomb i || _) = (s.view.tomb i || _)
        rw [ht]
  | addTombstone id =>
    have hv : s'.view.node = s.view.node := by rw [h2]; rfl
    have ht : ∀ i, s'.view.tomb i = (decide (i = id) || s.view.tomb i) := fun i => by rw [h2]; rfl
    have he : s'.ep = s.ep := by show s'.view.ep = _; rw [h2]; rfl
    have hl : s'.level = s.level := by show s'.view.level = _; rw [h2]; rfl
    have hlens : linkLens (done ++ [.addTombstone id]) = linkLens done := by rw [linkLens_snoc]; rfl
    have h3 : s'.replaced = s.replaced := h3
    have h4 : s'.epChanged = s.epChanged := h4
    refine ⟨hlen, by rw [hlens, hv]; exact h.node, by rw [h3, hv]; exact h.repl, by rw [he, hl]; exact h.ep, fun i hi => ?_,
      fun i o ho => ?_, ?_⟩
    · rw [ht] at hi
      simp only [Bool.or_eq_true, decide_eq_true_eq] at hi
      rcases hi with rfl | hi
      · exact hr
      · exact h.tomb i hi
    · rw [hv]
      rcases List.mem_append.1 ho with ho | ho
      · exact h.touched i o ho
      · simp at ho; subst ho; exact fun hh => hh.elim
    · rw [semAll_snoc, ← h.sem]
      refine View.ext' (condSem_view hv h3) ?_ ?_ (funext fun i => ?_) rfl rfl
      · show (if s'.epChanged then s'.ep else _) = (if s.epChanged then s.ep else _)
        rw [h4, he]
      · show (if s'.epChanged then s'.level else _) = (if s.epChanged then s.level else _)
        rw [h4, hl]
      · show (s'.view.tomb i || _) = (decide (i = id) || (s.view.tomb i || _))
        rw [ht, Bool.or_assoc]
  | removeTombstone id =>
    have hv : s'.view.node = s.view.node := by rw [h2]; rfl
    have ht : ∀ i, s'.view.tomb i = (!decide (i = id) && s.view.tomb i) := fun i => by rw [h2]; rfl
    have he : s'.ep = s.ep := by show s'.view.ep = _; rw [h2]; rfl
    have hl : s'.level = s.level := by show s'.view.level = _; rw [h2]; rfl
    have hlens : linkLens (done ++ [.removeTombstone id]) = linkLens done := by rw [linkLens_snoc]; rfl
    have h3 : s'.replaced = s.replaced := h3
    have h4 : s'.epChanged = s.epChanged := h4
    refine ⟨hlen, by rw [hlens, hv]; exact h.node, by rw [h3, hv]; exact h.repl, by rw [he, hl]; exact h.ep, fun i hi => ?_,
      fun i o ho => ?_, ?_⟩
    · rw [ht] at hi
      simp only [Bool.and_eq_true] at hi
      exact h.tomb i hi.2
    · rw [hv]
      rcases List.mem_append.1 ho with ho | ho
      · exact h.touched i o ho
      · simp at ho; subst ho; exact fun hh => hh.elim
    · rw [semAll_snoc, ← h.sem]
      refine View.ext' (condSem_view hv h3) ?_ ?_ (funext fun i => ?_) rfl rfl
      · show (if s'.epChanged then s'.ep else _) = (if s.epChanged then s.ep else _)
        rw [h4, he]
      · show (if s'.epChanged then s'.level else _) = (if s.epChanged then s.level else _)
        rw [h4, hl]
      · show (s'.view.tomb i || w.tomb i) = (!decide (i = id) && (s.view.tomb i || w.tomb i))
        rw [ht]
        by_cases hi : i = id
        · subst hi
          have : w.tomb i = false := hc
          simp [this]
        · simp [hi]
  | resetIndex =>
    obtain ⟨c1, c2, c3⟩ := hc
    have hv : s'.view.node = fun _ => none := by rw [h2]; rfl
    have ht : s'.view.tomb = s.view.tomb := by rw [h2]; rfl
    have he : s'.ep = 0 := by show s'.view.ep = _; rw [h2]; rfl
    have hl : s'.level = 0 := by show s'.view.level = _; rw [h2]; rfl
    refine ⟨hlen, (by rw [hv]; intro i v hh; cases hh), fun i l _ => .inl (c1 i), by rw [he, hl]; decide, by rw [ht]; exact h.tomb,
      fun i _ _ _ hw => absurd (c1 i) hw, ?_⟩
    rw [semAll_snoc, ← h.sem]
    refine View.ext' (funext fun i => ?_) ?_ ?_ (funext fun i => ?_) rfl rfl
    · rw [condSem_node, hv]; exact c1 i
    · show (if s'.epChanged then s'.ep else w.ep) = 0
      rw [he, c2]; exact ite_self _
    · show (if s'.epChanged then s'.level else w.level) = 0
      rw [hl, c3]; exact ite_self _
    · show (s'.view.tomb i || _) = (s.view.tomb i || _)
      rw [ht]
  | deleteNode id =>
    have c1 : w.node id = none := hc
    have hv : ∀ i, s'.view.node i = if i = id then none else s.view.node i := fun i => by rw [h2]; rfl
    have ht : s'.view.tomb = s.view.tomb := by rw [h2]; rfl
    have he : s'.ep = s.ep := by show s'.view.ep = _; rw [h2]; rfl
    have hl : s'.level = s.level := by show s'.view.level = _; rw [h2]; rfl
    have hlens : linkLens (done ++ [.deleteNode id]) = linkLens done := by rw [linkLens_snoc]; rfl
    have h3 : s'.replaced = s.replaced := h3
    have h4 : s'.epChanged = s.epChanged := h4
    refine ⟨hlen, fun i v hh => ?_, fun i l hh => ?_, by rw [he, hl]; exact h.ep, by rw [ht]; exact h.tomb,
      fun i o ho hto hw => ?_, ?_⟩
    · rw [hv] at hh
      by_cases hi : i = id
      · rw [if_pos hi] at hh; cases hh
      · rw [if_neg hi] at hh; rw [hlens]; exact h.node i v hh
    · by_cases hi : i = id
      · subst hi; exact .inl c1
      · rw [h3] at hh; rw [hv, if_neg hi]; exact h.repl i l hh
    · have hi : i ≠ id := fun e => hw (e ▸ c1)
      rw [hv, if_neg hi]
      rcases List.mem_append.1 ho with ho | ho
      · exact h.touched i o ho hto hw
      · simp at ho; subst ho; exact hto.elim
    · rw [semAll_snoc, ← h.sem]
      refine View.ext' (funext fun i => ?_) ?_ ?_ (funext fun i => ?_) rfl rfl
      · rw [condSem_node, hv]
        show _ = (if i = id then none else (condSem w s).node i)
        by_cases hi : i = id
        · subst hi; rw [if_pos rfl, if_pos rfl]; exact c1
        · rw [if_neg hi, if_neg hi, h3]; rfl
      · show (if s'.epChanged then s'.ep else _) = (if s.epChanged then s.ep else _)
        rw [h4, he]
      · show (if s'.epChanged then s'.level else _) = (if s.epChanged then s.level else _)
        rw [h4, hl]
      · show (s'.view.tomb i || _) = (s.view.tomb i || _)
        rw [ht]
  | clearLinks id =>
    have c1 : w.node id = none := hc
    have hv : ∀ i, s'.view.node i =
        if i = id then (s.view.node id).map fun v => { v with conns := v.conns.map fun _ => [] } else s.view.node i :=
      fun i => by rw [h2]; rfl
    have ht : s'.view.tomb = s.view.tomb := by rw [h2]; rfl
    have he : s'.ep = s.ep := by show s'.view.ep = _; rw [h2]; rfl
    have hl : s'.level = s.level := by show s'.view.level = _; rw [h2]; rfl
    have hlens : linkLens (done ++ [.clearLinks id]) = linkLens done := by rw [linkLens_snoc]; rfl
    have h3 : s'.replaced = s.replaced := h3
    have h4 : s'.epChanged = s.epChanged := h4
    refine ⟨hlen, fun i v hh => ?_, fun i l hh => ?_, by rw [he, hl]; exact h.ep, by rw [ht]; exact h.tomb,
      fun i o ho hto hw => ?_, ?_⟩
    · rw [hv] at hh
      rw [hlens]
      by_cases hi : i = id
      · subst hi
        rw [if_pos rfl] at hh
        cases hn : s.view.node i with
        | none => rw [hn] at hh; cases hh
        | some u =>
          rw [hn] at hh; cases hh
          obtain ⟨a1, a2, a3, a4, a5⟩ := h.node i u hn
          refine ⟨a1, by simpa using a2, by simpa using a3, a4, fun k ts hk => ?_⟩
          simp only [List.getElem?_map] at hk
          cases hk' : u.conns[k]? with
          | none => rw [hk'] at hk; cases hk
          | some y => rw [hk'] at hk; cases hk; simp
      · rw [if_neg hi] at hh; exact h.node i v hh
    · by_cases hi : i = id
      · subst hi; exact .inl c1
      · rw [h3] at hh; rw [hv, if_neg hi]; exact h.repl i l hh
    · have hi : i ≠ id := fun e => hw (e ▸ c1)
      rw [hv, if_neg hi]
      rcases List.mem_append.1 ho with ho | ho
      · exact h.touched i o ho hto hw
      · simp at ho; subst ho; exact hto.elim
    · rw [semAll_snoc, ← h.sem]
      refine View.ext' (funext fun i => ?_) ?_ ?_ (funext fun i => ?_) rfl rfl
      · rw [condSem_node, hv]
        show _ = (if i = id then ((condSem w s).node id).map (fun v => { v with conns := v.conns.map fun _ => [] })
          else (condSem w s).node i)
        by_cases hi : i = id
        · subst hi
          rw [if_pos rfl, if_pos rfl, condSem_node]
          cases hn : s.view.node i with
          | none => simp [c1]
          | some u => simp [c1, merge, mergeC_nil_old]
        · rw [if_neg hi, if_neg hi, h3]; rfl
      · show (if s'.epChanged then s'.ep else _) = (if s.epChanged then s.ep else _)
        rw [h4, he]
      · show (if s'.epChanged then s'.level else _) = (if s.epChanged then s.level else _)
        rw [h4, hl]
      · show (s'.view.tomb i || _) = (s.view.tomb i || _)
        rw [ht]
  | addPQ d => exact hc.elim

theorem CInv.init (maxLen : Nat) (w : View) : CInv maxLen w [] fresh := by
  have hv : fresh.view = View.empty := fresh_view
  refine ⟨Nat.le_refl _, fun i v h => ?_, fun i l h => ?_, by decide, fun i h => ?_, fun i o ho => ?_, ?_⟩
  · rw [hv] at h; cases h
  · cases h
  · rw [hv] at h; cases h
  · cases ho
  · refine View.ext' (funext fun i => ?_) rfl rfl (funext fun i => rfl) rfl rfl
    rw [condSem_node, hv]; rfl

theorem CInv.all {maxLen : Nat} {w : View} {done ops : List LogOp} {s : LogState} (hm : 56250 ≤ maxLen)
    (h : CInv maxLen w done s) (hr : ∀ op ∈ ops, op.InRange) (hf : ∀ op ∈ ops, op.Fits maxLen)
    (hc : Condensable w (done ++ ops)) :
    ∃ s', applyAll maxLen true s ops = .ok s' ∧ CInv maxLen w (done ++ ops) s' := by
  induction ops generalizing done s with
  | nil => exact ⟨s, rfl, by simpa using h⟩
  | cons op ops ih =>
    obtain ⟨s1, h1, h2⟩ := h.step hm (hr op (by simp)) (hf op (by simp)) (hc done op ops rfl)
    obtain ⟨s2, h3, h4⟩ := ih h2 (fun o ho => hr o (by simp [ho])) (fun o ho => hf o (by simp [ho])) (by simpa using hc)
    exact ⟨s2, by simp only [applyAll, h1, h3], by simpa using h4⟩

end Log
end Fave
