import Verif.Model.Condense
import Verif.Lemmas.LogSem
/-!
# Condensed logs: the operations they contain and what these do
-/
namespace Fave
namespace Log

/-- operations for the levels of a node, from `level` on -/
def levelOps (rep : Nat → Bool) (id : Nat) : Nat → List (List Nat) → List LogOp
  | _, [] => []
  | l, links :: rest =>
    (if rep l then LogOp.replaceLinks id l links else .addLinks id l links) :: levelOps rep id (l + 1) rest

def vertexOps (st : LogState) : Option LVertex → List LogOp
  | none => []
  | some v => (if v.level > 0 then [LogOp.addNode v.id v.level] else []) ++ levelOps (st.replaced v.id) v.id 0 v.conns

def nodeOps (st : LogState) (n : Nat) : List LogOp := (List.range n).flatMap fun i => vertexOps st (st.nodes.get i)

def condOps (st : LogState) (order : List Nat) : List LogOp :=
  nodeOps st st.nodes.len ++ (if st.epChanged then [LogOp.setEntryPoint st.ep st.level] else []) ++
    order.map LogOp.addTombstone

theorem encodeAll_append (a b : List LogOp) : encodeAll (a ++ b) = encodeAll a ++ encodeAll b := by
  simp [encodeAll]

theorem writeLevels_eq (st : LogState) (id : Nat) (l : Nat) (cs : List (List Nat)) (hl : l + cs.length ≤ 2 ^ 16)
    (hc : ∀ c ∈ cs, c.length < 2 ^ 16) :
    writeLevels st id l cs = encodeAll (levelOps (st.replaced id) id l cs) := by
  induction cs generalizing l with
  | nil => rfl
  | cons c cs ih =>
    have h1 : l % 2 ^ 16 = l := Nat.mod_eq_of_lt (by simp at hl; omega)
    have hc1 := hc c (by simp)
    simp only [writeLevels, levelOps, h1]
    rw [ih (l + 1) (by simp at hl ⊢; omega) fun d hd => hc d (by simp [hd])]
    by_cases hr : st.replaced id l = true
    · rw [if_pos hr, if_pos hr]
      rw [encodeAll_cons]
      simp only [writeSetLinks, LogOp.tag, LogOp.payload, leWords]
      rw [Nat.min_eq_left (by omega), List.take_of_length_le (by omega)]
      simp
    · rw [if_neg hr, if_neg hr, encodeAll_cons]
      simp [writeAddLinks, LogOp.tag, LogOp.payload, leWords]

/-- a node that can be written without loss -/
def LVertex.Small (v : LVertex) : Prop := v.conns.length < 2 ^ 16 ∧ ∀ c ∈ v.conns, c.length < 2 ^ 16

theorem writeVertex_eq (st : LogState) (v? : Option LVertex) (h : ∀ v, v? = some v → v.Small) :
    writeVertex st v? = encodeAll (vertexOps st v?) := by
  cases v? with
  | none => rfl
  | some v =>
    obtain ⟨h1, h2⟩ := h v rfl
    simp only [writeVertex, vertexOps, encodeAll_append]
    rw [writeLevels_eq st v.id 0 v.conns (by omega) h2]
    by_cases hl : v.level > 0
    · rw [if_pos hl, if_pos hl]
      simp [writeNode, encodeAll, LogOp.encode, LogOp.tag, LogOp.payload]
    · rw [if_neg hl, if_neg hl]; rfl

theorem encodeAll_flatMap {α : Type} (l : List α) (f : α → List LogOp) :
    encodeAll (l.flatMap f) = l.flatMap fun a => encodeAll (f a) := by
  induction l with
  | nil => rfl
  | cons a l ih => simp [encodeAll_append, ih]

theorem condensed_eq (st : LogState) (order : List Nat)
    (h : ∀ i v, i < st.nodes.len → st.nodes.get i = some v → v.Small) :
    condensed st order = encodeAll (condOps st order) := by
  unfold condensed condOps nodeOps
  rw [encodeAll_append, encodeAll_append, encodeAll_flatMap]
  congr 1
  · congr 1
    · rw [List.flatMap_def, List.flatMap_def]
      congr 1
      refine List.map_congr_left fun i hi => writeVertex_eq st _ fun v hv => h i v (by simpa using hi) hv
    · by_cases hc : st.epChanged = true
      · simp [hc, encodeAll, writeEP, LogOp.encode, LogOp.tag, LogOp.payload]
      · rw [if_neg hc, if_neg hc]; rfl
  · induction order with
    | nil => rfl
    | cons a l ih => rw [List.map_cons, encodeAll_cons, List.flatMap_cons, ih]; rfl

/-! ## what the operations do to any state before them -/

/-- links of a node after the condensed log: `new` replaces or extends `old` -/
def mergeC (old new : List (List Nat)) (rep : Nat → Bool) : List (List Nat) :=
  (List.range (max old.length new.length)).map fun j =>
    if j < new.length then (if rep j then new.getD j [] else old.getD j [] ++ new.getD j []) else old.getD j []

theorem mergeC_getElem? (old new : List (List Nat)) (rep : Nat → Bool) (j : Nat) :
    (mergeC old new rep)[j]? =
      if j < new.length then some (if rep j then new.getD j [] else old.getD j [] ++ new.getD j []) else old[j]? := by
  unfold mergeC
  rw [List.getElem?_map]
  by_cases h : j < max old.length new.length
  · rw [List.getElem?_range h]
    by_cases h2 : j < new.length
    · simp [h2]
    · have h3 : j < old.length := by omega
      simp [h2, h3]
  · have h2 : ¬ j < new.length := by omega
    have h3 : ¬ j < old.length := by omega
    rw [List.getElem?_eq_none (by simp; omega)]
    simp [h2, Nat.not_lt.1 h3]

theorem mergeC_length (old new : List (List Nat)) (rep : Nat → Bool) :
    (mergeC old new rep).length = max old.length new.length := by simp [mergeC]

/-- a node of the condensed log laid over an older node -/
def merge (old : Option LVertex) (v : LVertex) (rep : Nat → Bool) : LVertex :=
  let o := old.getD ⟨v.id, 0, []⟩
  ⟨o.id, if v.level > 0 then v.level else o.level, mergeC o.conns v.conns rep⟩

theorem pad_getElem? (c : List (List Nat)) (n j : Nat) :
    (pad c n)[j]? = if j < c.length then c[j]? else if j < n then some [] else none := by
  unfold pad
  rw [List.getElem?_append]
  by_cases h : j < c.length
  · simp [h]
  · rw [if_neg h, if_neg h, List.getElem?_replicate]
    by_cases h2 : j < n
    · rw [if_pos (by omega), if_pos h2]
    · rw [if_neg (by omega), if_neg h2]

theorem pad_getD (c : List (List Nat)) (n j : Nat) : (pad c n).getD j [] = c.getD j [] := by
  rw [List.getD_eq_getElem?_getD, List.getD_eq_getElem?_getD, pad_getElem?]
  by_cases h : j < c.length
  · rw [if_pos h]
  · rw [if_neg h, List.getElem?_eq_none (by omega)]
    by_cases h2 : j < n <;> simp [h2]

/-- the function one level record applies -/
def levelF (rep : Nat → Bool) (l : Nat) (links : List Nat) (x : List Nat) : List Nat := if rep l then links else x ++ links

/-- conns after the level records from `k` on -/
def foldC (rep : Nat → Bool) : Nat → List (List Nat) → List (List Nat) → List (List Nat)
  | _, [], c => c
  | k, links :: rest, c => foldC rep (k + 1) rest ((pad c (k + 1)).modify k (levelF rep k links))

theorem foldC_getElem? (rep : Nat → Bool) (k : Nat) (news c : List (List Nat)) (hk : k ≤ c.length) (j : Nat) :
    (foldC rep k news c)[j]? =
      if k ≤ j ∧ j < k + news.length then some (levelF rep j (news.getD (j - k) []) (c.getD j [])) else c[j]? := by
  induction news generalizing k c with
  | nil => rw [if_neg (by simp)]; rfl
  | cons links rest ih =>
    simp only [foldC]
    have hlen : ((pad c (k + 1)).modify k (levelF rep k links)).length = max c.length (k + 1) := by
      rw [List.length_modify, pad_length]
    rw [ih (k + 1) _ (by rw [hlen]; omega)]
    by_cases h1 : j = k
    · subst h1
      rw [if_neg (by omega), if_pos (by simp), List.getElem?_modify, pad_getElem?]
      by_cases h2 : j < c.length
      · simp [h2]
      · simp [h2]
    · by_cases h2 : k ≤ j ∧ j < k + (links :: rest).length
      · rw [if_pos h2, if_pos (by simp at h2; omega)]
        have h3 : j - k = (j - (k + 1)) + 1 := by omega
        rw [h3, List.getD_cons_succ, List.getD_eq_getElem?_getD (l := List.modify _ _ _), List.getElem?_modify]
        have hkj : ¬ k = j := by omega
        simp only [hkj, if_false]
        have hid : ((fun a : List Nat => a) <$> (pad c (k + 1))[j]?) = (pad c (k + 1))[j]? := by
          cases (pad c (k + 1))[j]? <;> rfl
        rw [hid, ← List.getD_eq_getElem?_getD, pad_getD]
      · rw [if_neg h2, if_neg (by simp at h2; omega), List.getElem?_modify, pad_getElem?]
        by_cases h3 : j < c.length
        · simp [h3]; omega
        · simp [h3]; omega

theorem foldC_merge (rep : Nat → Bool) (new c : List (List Nat)) : foldC rep 0 new c = mergeC c new rep := by
  refine List.ext_getElem? fun j => ?_
  rw [foldC_getElem? rep 0 new c (Nat.zero_le _), mergeC_getElem?]
  simp only [Nat.zero_le, true_and, Nat.zero_add, Nat.sub_zero]
  rfl

theorem mergeC_pad (c : List (List Nat)) (n : Nat) (new : List (List Nat)) (rep : Nat → Bool) (h : n ≤ new.length) :
    mergeC (pad c n) new rep = mergeC c new rep := by
  refine List.ext_getElem? fun j => ?_
  rw [mergeC_getElem?, mergeC_getElem?]
  by_cases h1 : j < new.length
  · rw [if_pos h1, if_pos h1, pad_getD]
  · rw [if_neg h1, if_neg h1, pad_getElem?]
    by_cases h2 : j < c.length
    · rw [if_pos h2]
    · rw [if_neg h2, if_neg (by omega), List.getElem?_eq_none (by omega)]

theorem setNode_setNode (w : View) (i : Nat) (a b : Option LVertex) : (w.setNode i a).setNode i b = w.setNode i b := by
  refine View.ext' (funext fun j => ?_) rfl rfl rfl rfl rfl
  simp only [View.setNode]
  by_cases h : j = i <;> simp [h]

theorem setNode_node (w : View) (i : Nat) (a : Option LVertex) : (w.setNode i a).node i = a := by simp [View.setNode]

theorem setNode_self (w : View) (i : Nat) : w.setNode i (w.node i) = w := by
  refine View.ext' (funext fun j => ?_) rfl rfl rfl rfl rfl
  simp only [View.setNode]
  by_cases h : j = i
  · subst h; simp
  · simp [h]

/-- the level record, on a present node -/
theorem sem_level (w : View) (rep : Nat → Bool) (i l : Nat) (links : List Nat) (u : LVertex) (h : w.node i = some u) :
    LogOp.sem w (if rep l then .replaceLinks i l links else .addLinks i l links) =
      w.setNode i (some { u with conns := (pad u.conns (l + 1)).modify l (levelF rep l links) }) := by
  have hn : w.nodeOr i l = u := by simp [View.nodeOr, h]
  have hlen : l < (pad u.conns (l + 1)).length := by rw [pad_length]; omega
  by_cases hr : rep l = true
  · have hF : levelF rep l links = fun _ => links := funext fun x => if_pos hr
    simp only [if_pos hr, LogOp.sem, hn, hF]
    rw [← set_modify (fun _ => links) (List.getElem?_eq_getElem hlen)]
  · have hF : levelF rep l links = fun x => x ++ links := funext fun x => if_neg hr
    simp only [if_neg hr, LogOp.sem, hn, hF]

theorem semAll_levels (w : View) (rep : Nat → Bool) (i k : Nat) (cs : List (List Nat)) (u : LVertex) (h : w.node i = some u) :
    semAll w (levelOps rep i k cs) = w.setNode i (some { u with conns := foldC rep k cs u.conns }) := by
  induction cs generalizing w k u with
  | nil =>
    show w = _
    simp only [foldC]
    rw [← h, setNode_self]
  | cons links rest ih =>
    simp only [levelOps, semAll, List.foldl_cons]
    rw [sem_level w rep i k links u h]
    refine (ih _ (k + 1) _ (setNode_node _ _ _)).trans ?_
    rw [setNode_setNode]
    rfl

/-- the records of one node -/
theorem semAll_vertex (w : View) (st : LogState) (v : LVertex) (h : v.level + 1 ≤ v.conns.length) :
    semAll w (vertexOps st (some v)) = w.setNode v.id (some (merge (w.node v.id) v (st.replaced v.id))) := by
  simp only [vertexOps, semAll, List.foldl_append]
  by_cases hl : v.level > 0
  · simp only [if_pos hl, List.foldl_cons, List.foldl_nil]
    have hs : LogOp.sem w (.addNode v.id v.level) = w.setNode v.id (some
        ⟨((w.node v.id).getD ⟨v.id, 0, []⟩).id, v.level, pad ((w.node v.id).getD ⟨v.id, 0, []⟩).conns (v.level + 1)⟩) := by
      simp only [LogOp.sem]
      cases hw : w.node v.id with
      | none => simp [pad]
      | some u => simp
    rw [hs]
    refine (semAll_levels _ _ v.id 0 v.conns _ (setNode_node _ _ _)).trans ?_
    rw [setNode_setNode, foldC_merge, mergeC_pad _ _ _ _ h]
    simp [merge, hl]
  · simp only [if_neg hl, List.foldl_nil]
    cases hw : w.node v.id with
    | some u =>
      refine (semAll_levels _ _ v.id 0 v.conns u hw).trans ?_
      rw [foldC_merge]
      simp [merge, hl]
    | none =>
      obtain ⟨links, rest, hc⟩ : ∃ a b, v.conns = a :: b := by
        cases hv : v.conns with
        | nil => rw [hv] at h; simp at h
        | cons a b => exact ⟨a, b, rfl⟩
      rw [hc]
      simp only [levelOps, List.foldl_cons]
      -- the first record creates the node
      have hs : LogOp.sem w (if st.replaced v.id 0 then .replaceLinks v.id 0 links else .addLinks v.id 0 links) =
          w.setNode v.id (some ⟨v.id, 0, (pad [] 1).modify 0 (levelF (st.replaced v.id) 0 links)⟩) := by
        by_cases hr : st.replaced v.id 0 = true
        · simp [hr, LogOp.sem, View.nodeOr, hw, pad, levelF]
        · simp [hr, LogOp.sem, View.nodeOr, hw, pad, levelF]
      rw [hs]
      refine (semAll_levels _ _ v.id 1 rest _ (setNode_node _ _ _)).trans ?_
      rw [setNode_setNode]
      have hf : foldC (st.replaced v.id) 1 rest ((pad [] 1).modify 0 (levelF (st.replaced v.id) 0 links)) =
          foldC (st.replaced v.id) 0 (links :: rest) [] := rfl
      rw [hf, foldC_merge]
      simp [merge, hl, hc]

/-- a table whose nodes are where they belong and have the levels they claim -/
def Sane (st : LogState) : Prop :=
  ∀ i v, i < st.nodes.len → st.nodes.get i = some v → v.id = i ∧ v.level + 1 ≤ v.conns.length

/-- the state after replaying the condensed form of `st` on top of `w` -/
def condSem (w : View) (st : LogState) : View where
  node i := match viewNodes st.nodes i with
    | none => w.node i
    | some v => some (merge (w.node i) v (st.replaced i))
  ep := if st.epChanged then st.ep else w.ep
  level := if st.epChanged then st.level else w.level
  tomb i := st.tombs.contains i || w.tomb i
  pq := w.pq
  compressed := w.compressed

theorem semAll_append (w : View) (a b : List LogOp) : semAll w (a ++ b) = semAll (semAll w a) b := by
  simp [semAll]

theorem semAll_nodes (w : View) (st : LogState) (hs : Sane st) (n : Nat) (hn : n ≤ st.nodes.len) :
    semAll w (nodeOps st n) =
      { w with node := fun i => if i < n then (condSem w st).node i else w.node i } := by
  induction n with
  | zero => refine View.ext' (funext fun i => ?_) rfl rfl rfl rfl rfl; simp [nodeOps, semAll]
  | succ n ih =>
    have h1 : nodeOps st (n + 1) = nodeOps st n ++ vertexOps st (st.nodes.get n) := by
      simp [nodeOps, List.range_succ]
    rw [h1, semAll_append, ih (by omega)]
    cases hv : st.nodes.get n with
    | none =>
      refine View.ext' (funext fun i => ?_) rfl rfl rfl rfl rfl
      show (if i < n then _ else _) = (if i < n + 1 then _ else _)
      by_cases hi : i < n
      · rw [if_pos hi, if_pos (by omega)]
      · rw [if_neg hi]
        by_cases hi2 : i = n
        · subst hi2
          rw [if_pos (by omega)]
          simp [condSem, viewNodes, hv]
        · rw [if_neg (by omega)]
    | some v =>
      obtain ⟨h2, h3⟩ := hs n v (by omega) hv
      rw [semAll_vertex _ _ _ h3]
      subst h2
      refine View.ext' (funext fun i => ?_) rfl rfl rfl rfl rfl
      simp only [View.setNode]
      by_cases hi2 : i = v.id
      · subst hi2
        simp [condSem, viewNodes, hv, show v.id < st.nodes.len by omega]
      · rw [if_neg hi2]
        by_cases hi : i < v.id
        · rw [if_pos hi, if_pos (by omega)]
        · rw [if_neg hi, if_neg (by omega)]

theorem semAll_tombs (w : View) (ts : List Nat) :
    semAll w (ts.map LogOp.addTombstone) = { w with tomb := fun i => ts.contains i || w.tomb i } := by
  induction ts generalizing w with
  | nil => rfl
  | cons t ts ih =>
    rw [List.map_cons]
    refine (ih (LogOp.sem w (.addTombstone t))).trans ?_
    refine View.ext' rfl rfl rfl (funext fun i => ?_) rfl rfl
    show (ts.contains i || (decide (i = t) || w.tomb i)) = ((t :: ts).contains i || w.tomb i)
    rw [Bool.eq_iff_iff]
    simp [or_left_comm, or_assoc]

theorem semAll_condOps (w : View) (st : LogState) (hs : Sane st) {order : List Nat} (ho : order.Perm st.tombs) :
    semAll w (condOps st order) = condSem w st := by
  unfold condOps
  rw [semAll_append, semAll_append, semAll_nodes w st hs _ (Nat.le_refl _), semAll_tombs]
  have ht : ∀ i, order.contains i = st.tombs.contains i := fun i => by
    rw [Bool.eq_iff_iff]; simp [ho.mem_iff]
  have hnode : (fun i => if i < st.nodes.len then (condSem w st).node i else w.node i) = (condSem w st).node := by
    funext i
    by_cases hi : i < st.nodes.len
    · rw [if_pos hi]
    · rw [if_neg hi]; simp [condSem, viewNodes, hi]
  rw [hnode]
  by_cases hc : st.epChanged = true
  · simp only [if_pos hc]
    refine View.ext' rfl ?_ ?_ (funext fun i => ?_) rfl rfl
    · simp [condSem, hc, semAll, LogOp.sem]
    · simp [condSem, hc, semAll, LogOp.sem]
    · show (order.contains i || _) = _
      rw [ht]; rfl
  · simp only [if_neg hc]
    refine View.ext' rfl ?_ ?_ (funext fun i => ?_) rfl rfl
    · simp [condSem, hc, semAll]
    · simp [condSem, hc, semAll]
    · show (order.contains i || _) = _
      rw [ht]; rfl

end Log
end Fave
