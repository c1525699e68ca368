import Verif.Lemmas.Codec
import Verif.Props.C31
/-!
# The reader of the commit log computes the meaning of the log
-/
namespace Fave
namespace Log

/-- the nodes of a table as far as they exist -/
def viewNodes (t : Slots LVertex) (i : Nat) : Option LVertex := if i < t.len then t.get i else none

theorem newSize_le {len id : Nat} (h1 : len ≤ id) (h2 : id < 2 ^ 50) : Grow.newSize len id ≤ id * 5 / 4 + 25000 := by
  have e1 : Grow.round53 len = len := C31.round53_small (by omega)
  have e2 : Grow.round53 (5 * len) = 5 * len := C31.round53_small (by omega)
  have hd : Grow.delta = 25000 := rfl
  simp only [Grow.newSize, e1, e2]
  by_cases h3 : len < 4 * Grow.delta
  · rw [if_pos h3]
    have : (len + Grow.delta) % 2 ^ 64 = len + Grow.delta := Nat.mod_eq_of_lt (by omega)
    rw [this]
    by_cases h4 : len + Grow.delta ≤ id
    · rw [if_pos h4, Nat.mod_eq_of_lt (by omega)]; omega
    · rw [if_neg h4]; omega
  · rw [if_neg h3]
    by_cases h4 : 5 * len / 4 ≤ id
    · rw [if_pos h4, Nat.mod_eq_of_lt (by omega)]; omega
    · rw [if_neg h4]; omega

theorem growTab_ok {maxLen : Nat} {t : Slots LVertex} {id : Nat} (h2 : id < 2 ^ 50) (hm : id * 5 / 4 + 25000 ≤ maxLen) :
    ∃ t', growTab maxLen t id = .ok t' ∧ id < t'.len ∧ t.len ≤ t'.len ∧ viewNodes t' = viewNodes t := by
  unfold growTab
  by_cases h : id < t.len
  · rw [(C31.grow_only_if_needed maxLen t id).2 h]
    exact ⟨t, rfl, h, Nat.le_refl _, rfl⟩
  · have hs := newSize_le (Nat.le_of_not_lt h) h2
    have hg : Grow.grow maxLen t id = .ok (some (t.copyTo (Grow.newSize t.len id))) := by
      unfold Grow.grow; rw [if_neg h, if_neg (by omega)]
    obtain ⟨a1, a2, a3, a4⟩ := C31.grow_keeps_content_partial maxLen t id (by omega) hg
    rw [hg]
    refine ⟨_, rfl, a1, a2, funext fun i => ?_⟩
    unfold viewNodes
    by_cases hi : i < t.len
    · rw [if_pos hi, if_pos (by omega), a3 i hi]
    · rw [if_neg hi]
      by_cases hi2 : i < (t.copyTo (Grow.newSize t.len id)).len
      · rw [if_pos hi2]; exact a4 i (by omega) hi2
      · rw [if_neg hi2]

theorem viewNodes_put {t : Slots LVertex} {id : Nat} (h : id < t.len) (v : Option LVertex) :
    viewNodes (t.put id v) = fun i => if i = id then v else viewNodes t i := by
  funext i
  simp only [viewNodes, Slots.put]
  by_cases hi : i = id
  · subst hi; simp [h]
  · simp [hi]

theorem viewNodes_lt {t : Slots LVertex} {id : Nat} (h : id < t.len) : viewNodes t id = t.get id := by
  simp [viewNodes, h]

theorem growConns_pad {c : List (List Nat)} {l : Nat} (h : l < 2 ^ 16 - 1) : growConns c l = pad c (l + 1) := by
  unfold growConns pad
  have : (l + 1) % 2 ^ 16 = l + 1 := Nat.mod_eq_of_lt (by omega)
  by_cases hc : c.length ≤ l
  · simp only [if_pos hc, this]
    rw [List.take_of_length_le (by omega)]
  · rw [if_neg hc, show l + 1 - c.length = 0 by omega]; simp

theorem freshConns_eq {l : Nat} (h : l < 2 ^ 16 - 1) : freshConns l = List.replicate (l + 1) [] := by
  unfold freshConns; rw [Nat.mod_eq_of_lt (by omega)]

theorem pad_length (c : List (List Nat)) (n : Nat) : (pad c n).length = max c.length n := by
  simp [pad]; omega

theorem set_modify {α : Type} {l : List α} {i : Nat} {x : α} (f : α → α) (h : l[i]? = some x) :
    l.set i (f x) = l.modify i f := by
  refine List.ext_getElem? fun j => ?_
  rw [List.getElem?_set, List.getElem?_modify]
  by_cases hj : i = j
  · subst hj
    obtain ⟨h1, h2⟩ := List.getElem?_eq_some_iff.1 h
    simp [h1, h2]
  · simp [hj]

theorem view_node (st : LogState) : st.view.node = viewNodes st.nodes := rfl

/-- changing links, as a view -/
theorem setLinks_ok {maxLen : Nat} {st : LogState} {s l : Nat} (f : List Nat → List Nat) (hl : l < 2 ^ 16 - 1)
    (h2 : s < 2 ^ 50) (hm : s * 5 / 4 + 25000 ≤ maxLen) :
    ∃ t, setLinks maxLen st s l f = .ok { st with nodes := t } ∧ st.nodes.len ≤ t.len ∧
      viewNodes t = fun i => if i = s then
        some { st.view.nodeOr s l with conns := (pad (st.view.nodeOr s l).conns (l + 1)).modify l f }
        else viewNodes st.nodes i := by
  obtain ⟨t, ht, hlt, hle, hv⟩ := growTab_ok (t := st.nodes) h2 hm
  unfold setLinks
  rw [ht]
  simp only [if_neg (Nat.not_le.2 hlt)]
  have hn : orNew (t.get s) s l = st.view.nodeOr s l := by
    unfold View.nodeOr orNew
    rw [view_node, ← hv, viewNodes_lt hlt, freshConns_eq hl]
  rw [hn, growConns_pad hl]
  have hlen : l < (pad (st.view.nodeOr s l).conns (l + 1)).length := by rw [pad_length]; omega
  rw [List.getElem?_eq_getElem hlen]
  refine ⟨_, rfl, by simpa [Slots.put] using hle, ?_⟩
  rw [viewNodes_put hlt, hv, set_modify f (List.getElem?_eq_getElem hlen)]

/-- the meaning of an operation when a log is condensed: like `sem`, but clearing the links of an absent node creates it -/
def LogOp.semKeep (st : LogState) : LogOp → View
  | .clearLinksAtLevel id l =>
    if id < st.nodes.len then
      st.view.setNode id (some { st.view.nodeOr id l with conns := (pad (st.view.nodeOr id l).conns (l + 1)).set l [] })
    else st.view
  | op => op.sem st.view

/-- marks of replaced links after an operation -/
def LogOp.marks (st : LogState) : LogOp → Nat → Nat → Bool
  | .replaceLinks s l _ => fun i k => (decide (i = s) && decide (k = l)) || st.replaced i k
  | .clearLinksAtLevel s l =>
    fun i k => (decide (s < st.nodes.len) && decide (i = s) && decide (k = l)) || st.replaced i k
  | _ => st.replaced

/-- whether the search start was ever set -/
def LogOp.setsEP : LogOp → Bool
  | .setEntryPoint .. => true
  | _ => false

theorem outOfBounds_iff {id len : Nat} (h : id < 2 ^ 63) : outOfBounds id len = decide (len ≤ id) := by
  simp [outOfBounds, h]

theorem View.ext' {a b : View} (h1 : a.node = b.node) (h2 : a.ep = b.ep) (h3 : a.level = b.level) (h4 : a.tomb = b.tomb)
    (h5 : a.pq = b.pq) (h6 : a.compressed = b.compressed) : a = b := by
  cases a; cases b; simp_all

theorem viewNodes_absent {t : Slots LVertex} {id : Nat} (h : t.len ≤ id) : viewNodes t id = none := by
  simp [viewNodes, Nat.not_lt.2 h]

theorem setNode_absent {w : View} {id : Nat} (h : w.node id = none) : w.setNode id none = w := by
  refine View.ext' (funext fun i => ?_) rfl rfl rfl rfl rfl
  simp only [View.setNode]
  by_cases hi : i = id
  · subst hi; rw [if_pos rfl, h]
  · rw [if_neg hi]

theorem contains_putTomb (ts : List Nat) (id i : Nat) :
    (if ts.contains id then ts else ts ++ [id]).contains i = (decide (i = id) || ts.contains i) := by
  by_cases h : ts.contains id = true
  · rw [if_pos h]
    by_cases hi : i = id
    · subst hi; simp_all
    · simp [hi]
  · rw [if_neg h, Bool.eq_iff_iff]
    simp [or_comm]

theorem contains_dropTomb (ts : List Nat) (id i : Nat) :
    (ts.filter (fun t => t != id)).contains i = (!decide (i = id) && ts.contains i) := by
  rw [Bool.eq_iff_iff]
  simp [and_comm]

/-- one complete record, without `keep`: the view changes as the operation says -/
theorem applyOp_view {maxLen : Nat} (st : LogState) (op : LogOp) (hf : op.Fits maxLen) :
    ∃ st', applyOp maxLen false st op = .ok st' ∧ st'.view = op.sem st.view ∧
      st'.replaced = st.replaced ∧ st'.epChanged = (op.setsEP || st.epChanged) := by
  cases op with
  | addNode id l =>
    obtain ⟨hl, h2, hm⟩ := hf
    obtain ⟨t, ht, hlt, hle, hv⟩ := growTab_ok (t := st.nodes) h2 hm
    simp only [applyOp, putNode, ht, if_neg (Nat.not_le.2 hlt)]
    have hg : st.view.node id = t.get id := by rw [view_node, ← hv, viewNodes_lt hlt]
    cases h : t.get id with
    | none =>
      refine ⟨_, rfl, View.ext' ?_ rfl rfl rfl rfl rfl, rfl, rfl⟩
      rw [view_node]
      show viewNodes (t.put id _) = _
      rw [viewNodes_put hlt, hv, freshConns_eq hl]
      simp only [LogOp.sem, hg, h, View.setNode]; rfl
    | some v =>
      refine ⟨_, rfl, View.ext' ?_ rfl rfl rfl rfl rfl, rfl, rfl⟩
      rw [view_node]
      show viewNodes (t.put id _) = _
      rw [viewNodes_put hlt, hv, growConns_pad hl]
      simp only [LogOp.sem, hg, h, View.setNode]; rfl
  | setEntryPoint id l => exact ⟨_, rfl, rfl, rfl, rfl⟩
  | addLink s l x =>
    obtain ⟨hl, h2, hm⟩ := hf
    obtain ⟨t, ht, hle, hv⟩ := setLinks_ok (st := st) (fun y => y ++ [x]) hl h2 hm
    exact ⟨_, ht, View.ext' hv rfl rfl rfl rfl rfl, rfl, rfl⟩
  | addLinks s l x =>
    obtain ⟨hl, h2, hm⟩ := hf
    obtain ⟨t, ht, hle, hv⟩ := setLinks_ok (st := st) (fun y => y ++ x) hl h2 hm
    exact ⟨_, ht, View.ext' hv rfl rfl rfl rfl rfl, rfl, rfl⟩
  | replaceLinks s l x =>
    obtain ⟨hl, h2, hm⟩ := hf
    obtain ⟨t, ht, hle, hv⟩ := setLinks_ok (st := st) (fun _ => x) hl h2 hm
    simp only [applyOp, ht]
    refine ⟨_, rfl, View.ext' ?_ rfl rfl rfl rfl rfl, rfl, rfl⟩
    have hlen : l < (pad (st.view.nodeOr s l).conns (l + 1)).length := by rw [pad_length]; omega
    rw [← set_modify (fun _ => x) (List.getElem?_eq_getElem hlen)] at hv
    exact hv
  | addTombstone id =>
    exact ⟨_, rfl, View.ext' rfl rfl rfl (funext fun i => contains_putTomb _ _ _) rfl rfl, rfl, rfl⟩
  | removeTombstone id =>
    exact ⟨_, rfl, View.ext' rfl rfl rfl (funext fun i => contains_dropTomb _ _ _) rfl rfl, rfl, rfl⟩
  | clearLinks id =>
    simp only [applyOp, clearNode, outOfBounds_iff (show id < 2 ^ 63 from hf), decide_eq_true_eq]
    by_cases hb : st.nodes.len ≤ id
    · rw [if_pos hb]
      refine ⟨_, rfl, ?_, rfl, rfl⟩
      have : st.view.node id = none := viewNodes_absent hb
      simp only [LogOp.sem, this, Option.map_none]
      exact (setNode_absent this).symm
    · rw [if_neg hb, if_neg hb]
      have hlt := Nat.not_le.1 hb
      have hg : st.view.node id = st.nodes.get id := viewNodes_lt hlt
      cases h : st.nodes.get id with
      | none =>
        refine ⟨_, rfl, ?_, rfl, rfl⟩
        rw [h] at hg
        simp only [LogOp.sem, hg, Option.map_none]
        exact (setNode_absent hg).symm
      | some v =>
        refine ⟨_, rfl, View.ext' ?_ rfl rfl rfl rfl rfl, rfl, rfl⟩
        rw [view_node]
        show viewNodes (st.nodes.put id _) = _
        rw [viewNodes_put hlt, ← List.map_const']
        simp only [LogOp.sem, hg, h, View.setNode]; rfl
  | deleteNode id =>
    simp only [applyOp, dropNode, outOfBounds_iff (show id < 2 ^ 63 from hf), decide_eq_true_eq]
    by_cases hb : st.nodes.len ≤ id
    · rw [if_pos hb]
      refine ⟨_, rfl, ?_, rfl, rfl⟩
      exact (setNode_absent (viewNodes_absent hb)).symm
    · rw [if_neg hb, if_neg hb]
      refine ⟨_, rfl, View.ext' ?_ rfl rfl rfl rfl rfl, rfl, rfl⟩
      rw [view_node]
      show viewNodes (st.nodes.put id _) = _
      rw [viewNodes_put (Nat.not_le.1 hb)]
      rfl
  | resetIndex =>
    refine ⟨_, rfl, View.ext' (funext fun i => ?_) rfl rfl rfl rfl rfl, rfl, rfl⟩
    exact ite_self _
  | clearLinksAtLevel id l =>
    simp only [applyOp, clearLevel, outOfBounds_iff (show id < 2 ^ 63 from hf.2), decide_eq_true_eq, Bool.false_eq_true,
      if_false]
    by_cases hb : st.nodes.len ≤ id
    · rw [if_pos hb]
      refine ⟨_, rfl, ?_, rfl, rfl⟩
      have : st.view.node id = none := viewNodes_absent hb
      simp only [LogOp.sem, this, Option.map_none]
      exact (setNode_absent this).symm
    · rw [if_neg hb, if_neg hb]
      have hlt := Nat.not_le.1 hb
      have hg : st.view.node id = st.nodes.get id := viewNodes_lt hlt
      cases h : st.nodes.get id with
      | none =>
        simp only [Option.isNone_none, Bool.not_false, Bool.and_self, if_true]
        refine ⟨_, rfl, ?_, rfl, rfl⟩
        rw [h] at hg
        simp only [LogOp.sem, hg, Option.map_none]
        exact (setNode_absent hg).symm
      | some v =>
        simp only [orNew, Option.getD_some, Option.isNone_some, Bool.false_and, Bool.false_eq_true, if_false,
          growConns_pad hf.1]
        rw [if_neg (by rw [pad_length]; omega)]
        refine ⟨_, rfl, View.ext' ?_ rfl rfl rfl rfl rfl, rfl, rfl⟩
        rw [view_node]
        show viewNodes (st.nodes.put id _) = _
        rw [viewNodes_put hlt]
        simp only [LogOp.sem, hg, h, View.setNode]; rfl
  | addPQ d => exact ⟨_, rfl, rfl, rfl, rfl⟩

/-- one complete record, with `keep` (condensing) -/
theorem applyOp_keep {maxLen : Nat} (st : LogState) (op : LogOp) (hf : op.Fits maxLen) :
    ∃ st', applyOp maxLen true st op = .ok st' ∧ st'.view = op.semKeep st ∧
      st'.replaced = op.marks st ∧ st'.epChanged = (op.setsEP || st.epChanged) := by
  cases op with
  | replaceLinks s l x =>
    obtain ⟨hl, h2, hm⟩ := hf
    obtain ⟨t, ht, hle, hv⟩ := setLinks_ok (st := st) (fun _ => x) hl h2 hm
    simp only [applyOp, ht]
    refine ⟨_, rfl, View.ext' ?_ rfl rfl rfl rfl rfl, rfl, rfl⟩
    have hlen : l < (pad (st.view.nodeOr s l).conns (l + 1)).length := by rw [pad_length]; omega
    rw [← set_modify (fun _ => x) (List.getElem?_eq_getElem hlen)] at hv
    exact hv
  | clearLinksAtLevel id l =>
    simp only [applyOp, clearLevel, outOfBounds_iff (show id < 2 ^ 63 from hf.2), decide_eq_true_eq, if_true,
      LogOp.semKeep]
    by_cases hb : st.nodes.len ≤ id
    · rw [if_pos hb, if_neg (Nat.not_lt.2 hb)]
      refine ⟨_, rfl, rfl, ?_, rfl⟩
      funext i k
      simp [LogOp.marks, Nat.not_lt.2 hb]
    · rw [if_neg hb, if_neg hb]
      have hlt := Nat.not_le.1 hb
      have hg : st.view.node id = st.nodes.get id := viewNodes_lt hlt
      have hn : orNew ((markReplaced st id l).nodes.get id) id l = st.view.nodeOr id l := by
        unfold View.nodeOr orNew
        rw [hg, freshConns_eq hf.1]; rfl
      simp only [hn, Bool.not_true, Bool.and_false, Bool.false_eq_true, if_false]
      rw [growConns_pad hf.1, if_neg (by rw [pad_length]; omega), if_pos hlt]
      refine ⟨_, rfl, View.ext' ?_ rfl rfl rfl rfl rfl, ?_, rfl⟩
      · rw [view_node]
        show viewNodes (st.nodes.put id _) = _
        rw [viewNodes_put hlt]
        rfl
      · funext i k
        simp [LogOp.marks, hlt, markReplaced]
  | addNode id l => exact applyOp_view st (.addNode id l) hf
  | setEntryPoint id l => exact applyOp_view (maxLen := maxLen) st (.setEntryPoint id l) hf
  | addLink s l x => exact applyOp_view st (.addLink s l x) hf
  | addLinks s l x => exact applyOp_view st (.addLinks s l x) hf
  | addTombstone id => exact applyOp_view (maxLen := maxLen) st (.addTombstone id) hf
  | removeTombstone id => exact applyOp_view (maxLen := maxLen) st (.removeTombstone id) hf
  | clearLinks id => exact applyOp_view (maxLen := maxLen) st (.clearLinks id) hf
  | deleteNode id => exact applyOp_view (maxLen := maxLen) st (.deleteNode id) hf
  | resetIndex => exact applyOp_view (maxLen := maxLen) st .resetIndex hf
  | addPQ d => exact applyOp_view (maxLen := maxLen) st (.addPQ d) hf

/-- several complete records -/
def applyAll (maxLen : Nat) (keep : Bool) (st : LogState) : List LogOp → Except RErr LogState
  | [] => .ok st
  | op :: ops =>
    match applyOp maxLen keep st op with
    | .error e => .error e
    | .ok st => applyAll maxLen keep st ops

/-- bytes counted for a log -/
def counted (ops : List LogOp) : Nat := (ops.map fun op => 1 + op.counted).sum

theorem encodeAll_cons (op : LogOp) (ops : List LogOp) : encodeAll (op :: ops) = op.tag :: (op.payload ++ encodeAll ops) := rfl

theorem replayLoop_encode {maxLen : Nat} {keep : Bool} {ops : List LogOp} (hr : ∀ op ∈ ops, op.InRange) {st st' : LogState}
    (ha : applyAll maxLen keep st ops = .ok st') (fuel v : Nat) (r : Bytes) :
    replayLoop maxLen keep (ops.length + fuel) st v (encodeAll ops ++ r) =
      replayLoop maxLen keep fuel st' (v + counted ops) r := by
  induction ops generalizing st v with
  | nil => cases ha; simp [encodeAll, counted]
  | cons op ops ih =>
    simp only [applyAll] at ha
    cases h : applyOp maxLen keep st op with
    | error e => rw [h] at ha; cases ha
    | ok s1 =>
      rw [h] at ha
      have h1 := (readRecord_encode maxLen keep st op (hr op (by simp)) (encodeAll ops ++ r)).1 s1 h
      rw [encodeAll_cons, List.length_cons, show ops.length + 1 + fuel = (ops.length + fuel) + 1 by omega]
      simp only [List.cons_append, replayLoop, List.append_assoc, h1]
      rw [ih (fun o ho => hr o (by simp [ho])) ha]
      simp [counted]; congr 1; omega

theorem length_le_encodeAll (ops : List LogOp) : ops.length ≤ (encodeAll ops).length := by
  induction ops with
  | nil => simp
  | cons op ops ih => rw [encodeAll_cons]; simp; omega

/-- replaying a complete log -/
theorem replay_encode {maxLen : Nat} {keep : Bool} {ops : List LogOp} (hr : ∀ op ∈ ops, op.InRange) {st st' : LogState}
    (ha : applyAll maxLen keep st ops = .ok st') :
    replay maxLen keep st (encodeAll ops) = (st', counted ops, none) := by
  have h := replayLoop_encode hr ha ((encodeAll ops).length + 1 - ops.length) 0 []
  have hl := length_le_encodeAll ops
  rw [List.append_nil, show ops.length + ((encodeAll ops).length + 1 - ops.length) = (encodeAll ops).length + 1 by omega] at h
  unfold replay
  rw [h, Nat.zero_add]
  obtain ⟨n, hn⟩ : ∃ n, (encodeAll ops).length + 1 - ops.length = n + 1 := ⟨(encodeAll ops).length - ops.length, by omega⟩
  rw [hn]
  rfl

theorem applyAll_view {maxLen : Nat} {ops : List LogOp} (hf : ∀ op ∈ ops, op.Fits maxLen) (st : LogState) :
    ∃ st', applyAll maxLen false st ops = .ok st' ∧ st'.view = semAll st.view ops := by
  induction ops generalizing st with
  | nil => exact ⟨st, rfl, rfl⟩
  | cons op ops ih =>
    obtain ⟨s1, h1, h2, -⟩ := applyOp_view st op (hf op (by simp))
    obtain ⟨s2, h3, h4⟩ := ih (fun o ho => hf o (by simp [ho])) s1
    refine ⟨s2, by simp only [applyAll, h1, h3], ?_⟩
    rw [h4, h2]; rfl

theorem applyAll_append {maxLen : Nat} {keep : Bool} {a b : List LogOp} {st s1 : LogState}
    (h : applyAll maxLen keep st a = .ok s1) : applyAll maxLen keep st (a ++ b) = applyAll maxLen keep s1 b := by
  induction a generalizing st with
  | nil => cases h; rfl
  | cons op a ih =>
    simp only [applyAll, List.cons_append] at h ⊢
    cases h1 : applyOp maxLen keep st op with
    | error e => rw [h1] at h; cases h
    | ok s2 => rw [h1] at h; exact ih h

theorem fresh_view : fresh.view = View.empty := by
  refine View.ext' (funext fun i => ?_) rfl rfl (funext fun i => rfl) rfl rfl
  exact ite_self _

end Log
end Fave
