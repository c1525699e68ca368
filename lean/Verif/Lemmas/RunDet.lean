import Verif.Lemmas.KnnDet
import Verif.Lemmas.History
/-!
# Sequences of operations without ties do not depend on the order in which goroutines finish
-/
set_option linter.unusedSectionVars false
namespace Fave.Index
open Queue Spec Search Graph
variable {V D : Type} [Dist D]

/-- all numbers in use are below the size of the vector cache -/
structure Below (P : Params V D) (s : Index V) : Prop where
  cache : ∀ id v, s.cache.get id = some v → id < P.cacheSize
  kv : ∀ id v, s.kv.get id = some v → id < P.cacheSize

theorem Below.get {P : Params V D} {s : Index V} (h : Below P s) {id : Nat} {v : Vertex V} (hg : s.get id = some v) : id < P.cacheSize := by
  unfold Index.get at hg
  split at hg
  · rename_i w hw; exact h.cache _ _ hw
  · cases hk : s.kv.get id with
    | none => rw [hk] at hg; cases hg
    | some w => exact h.kv _ _ hk

theorem below_add {P : Params V D} {s : Index V} (h : Below P s) (hi : IdsOk s) {vo : VecOracle V} {sched : Scheds D} {x : Nat} {vec : V} {level : Nat}
    (hx : x < P.cacheSize) : Below P (add P vo sched s x vec level).1 := by
  have hk := add_keeps (P := P) (vo := vo) (sched := sched) (x := x) (vec := vec) (level := level) hi
  refine ⟨?_, by rw [hk.kv]; exact h.kv⟩
  intro id v hv
  by_cases he : id = x
  · omega
  · cases hg : s.get id with
    | some w => exact h.get hg
    | none =>
      have := hk.none id he hg
      unfold Index.get at this
      rw [hv] at this
      cases this

theorem below_writes {P : Params V D} (ws : List (Write V)) (hw : ∀ v, Write.node v ∈ ws → v.id < P.cacheSize) {s : Index V} (h : Below P s) :
    Below P (ws.foldl applyWrite s) := by
  induction ws generalizing s with
  | nil => exact h
  | cons w ws ih =>
    rw [List.foldl_cons]
    refine ih (fun v hv => hw v (List.mem_cons_of_mem _ hv)) ?_
    cases w with
    | entry e => exact ⟨h.cache, h.kv⟩
    | count c => exact ⟨h.cache, h.kv⟩
    | node v =>
      have hv := hw v List.mem_cons_self
      constructor
      · intro id w hg
        simp only [applyWrite, Tab.get_put] at hg
        split at hg
        · omega
        · exact h.cache _ _ hg
      · intro id w hg
        simp only [applyWrite, Tab.get_put] at hg
        split at hg
        · omega
        · exact h.kv _ _ hg

theorem below_prefix {P : Params V D} {s : Index V} (h : Below P s) (hi : IdsOk s) {order : List Nat} {n : Nat} {ws : List (Write V)}
    (hp : ws <+: s.flushWrites order n) : Below P (ws.foldl applyWrite s) := by
  refine below_writes ws (fun v hv => ?_) h
  have hm := hp.subset hv
  unfold flushWrites at hm
  simp only [List.mem_append, List.mem_map, List.mem_cons, List.not_mem_nil, or_false, Write.node.injEq, reduceCtorEq, exists_eq_right, or_self] at hm
  have hc := dirty_cached hi order v hm
  unfold Cached at hc
  cases hw : s.cache.get v.id with
  | none => rw [hw] at hc; cases hc
  | some w => exact h.cache _ w hw

theorem run_keeps {P : Params V D} {s : Index V} (hi : IdsOk s) (hb : Below P s) (op : Op V D) (sched : Scheds D) (hu : op.Untied P s) :
    IdsOk (op.run P sched s).1 ∧ Below P (op.run P sched s).1 := by
  cases op with
  | add vo x vec level => exact ⟨(add_keeps hi).ids, below_add hb hi hu.1⟩
  | flush order n =>
    have hp := (flushUpToBad_prefix P (flushWrites s order n)).1
    exact ⟨(idsOk_crash hi hp).1, below_prefix hb hi hp⟩
  | cut order n k =>
    have hp : (s.flushWrites order n).take k <+: s.flushWrites order n := List.take_prefix _ _
    exact ⟨(idsOk_crash hi hp).1, below_prefix hb hi hp⟩
  | load => exact ⟨⟨hi.cache, hi.kv⟩, ⟨hb.cache, hb.kv⟩⟩
  | unread => exact ⟨⟨hi.cache, hi.kv⟩, ⟨hb.cache, hb.kv⟩⟩
  | restart => exact ⟨⟨fun id v hv => (by cases hv), hi.kv⟩, ⟨fun id v hv => (by cases hv), hb.kv⟩⟩
  | near q max ef allow => exact ⟨hi, hb⟩
  | knn q k ef allow => exact ⟨hi, hb⟩

theorem calm_of_noTies {P : Params V D} (hs : P.cacheSize ≤ P.visitedSize) (hsym : Sym P.metric) {s : Index V} (hb : ∀ id v, s.get id = some v → id < P.cacheSize)
    {q : V} (h : NoTies P.metric (fun id => (s.get id).map Vertex.vec) q) : (s.graph P).Calm q := by
  refine ⟨?_, hb, fun id v hg => Nat.lt_of_lt_of_le (hb id v hg) hs, hsym⟩
  rintro i j di dj ⟨u, hu, hdu⟩ ⟨w, hw, hdw⟩ hij
  have hu : s.get i = some u := hu
  have hw : s.get j = some w := hw
  exact h i j u.vec w.vec di dj (by simp [hu]) (by simp [hw]) hij hdu hdw

theorem add_det [LawfulDist D] {P : Params V D} (hef : 1 ≤ P.efC) (hs : P.cacheSize ≤ P.visitedSize) (hsym : Sym P.metric) {s : Index V} (hi : IdsOk s)
    (hb : ∀ id v, s.get id = some v → id < P.cacheSize) (vo : VecOracle V) (σ τ : Scheds D) (x : Nat) (vec : V) (level : Nat)
    (h : NoTies P.metric (fun id => if id = x then some (P.norm vec) else (s.get id).map Vertex.vec) (P.norm vec)) :
    add P vo σ s x vec level = add P vo τ s x vec level := by
  unfold add
  split
  · rfl
  · refine insertNode_det hef vo σ τ _ x level (fun hx => calm_of_noTies hs hsym ?_ ?_) hi
    · intro id v hg
      rw [get_put] at hg
      split at hg
      · rename_i he; rw [he]; exact hx
      · exact hb id v hg
    · intro i j u w du dw hu hw
      have e : ∀ id, ((({ s with once := true } : Index V).put (newNode x (P.norm vec) level)).get id).map Vertex.vec =
          if id = x then some (P.norm vec) else (s.get id).map Vertex.vec := by
        intro id
        rw [get_put]
        by_cases he : id = x
        · rw [if_pos he, if_pos (show id = (newNode x (P.norm vec) level).id from he)]; rfl
        · rw [if_neg he, if_neg (show ¬ id = (newNode x (P.norm vec) level).id from he)]; rfl
      simp only [e] at hu hw
      exact h i j u w du dw hu hw

theorem op_det [LawfulDist D] {P : Params V D} (hef : 1 ≤ P.efC) (hs : P.cacheSize ≤ P.visitedSize) (hsym : Sym P.metric) {s : Index V} (hi : IdsOk s)
    (hb : Below P s) (op : Op V D) (σ τ : Scheds D) (hu : op.Untied P s) : op.run P σ s = op.run P τ s := by
  cases op with
  | add vo x vec level =>
    simp only [Op.run]
    rw [add_det hef hs hsym hi (fun id v => hb.get) vo σ τ x vec level hu.2]
  | near q max ef allow =>
    simp only [Op.run]
    rw [knnMaxDist_det (g := s.graph P) (calm_of_noTies hs hsym (fun id v => hb.get) hu.2) σ τ max hu.1 allow]
  | knn q k ef allow =>
    simp only [Op.run]
    rw [knnSearch_det (g := s.graph P) (calm_of_noTies hs hsym (fun id v => hb.get) hu.2) s.isEmpty σ τ k hu.1 allow]
  | _ => rfl

theorem runAll_det [LawfulDist D] {P : Params V D} (hef : 1 ≤ P.efC) (hs : P.cacheSize ≤ P.visitedSize) (hsym : Sym P.metric) (σ τ : Nat → Scheds D)
    (ops : List (Op V D)) (i : Nat) {s : Index V} (hi : IdsOk s) (hb : Below P s) (hu : UntiedAll P σ s i ops) :
    runAll P σ s i ops = runAll P τ s i ops := by
  induction ops generalizing s i with
  | nil => rfl
  | cons op ops ih =>
    obtain ⟨h1, h2⟩ := hu
    have hk := run_keeps hi hb op (σ i) h1
    unfold runAll
    rw [← op_det hef hs hsym hi hb op (σ i) (τ i) h1]
    simp only
    rw [ih (i + 1) hk.1 hk.2 h2]

/-! ### checking concrete collections for ties -/

/-- no ties among the listed numbers -/
def noTiesB (m : Metric V D) (vec : Nat → Option V) (q : V) (keys : List Nat) : Bool :=
  keys.all fun i => keys.all fun j => i == j ||
    match (vec i).bind (m.dist q), (vec j).bind (m.dist q) with
    | some a, some c => Dist.lt a c || Dist.lt c a
    | _, _ => true

theorem noTies_of_keys {m : Metric V D} {vec : Nat → Option V} {q : V} (keys : List Nat) (hk : ∀ id, id ∉ keys → vec id = none)
    (h : noTiesB m vec q keys = true) : NoTies m vec q := by
  intro i j u w du dw hu hw hij hdu hdw
  have hi : i ∈ keys := Classical.byContradiction fun hc => by rw [hk i hc] at hu; cases hu
  have hj : j ∈ keys := Classical.byContradiction fun hc => by rw [hk j hc] at hw; cases hw
  unfold noTiesB at h
  have := List.all_eq_true.mp (List.all_eq_true.mp h i hi) j hj
  simpa [hu, hw, hdu, hdw, hij] using this

theorem get_none_of_keys {s : Index V} {id : Nat} (h : id ∉ s.cache.keys ++ s.kv.keys) : s.get id = none := by
  cases hg : s.get id with
  | none => rfl
  | some v =>
    exfalso; apply h
    unfold Index.get at hg
    rw [List.mem_append]
    split at hg
    · rename_i w hw; exact .inl (Tab.mem_keys_of_get hw)
    · right
      cases hk : s.kv.get id with
      | none => rw [hk] at hg; cases hg
      | some w => exact Tab.mem_keys_of_get hk

/-- `Op.Untied` as a computation -/
def Op.untiedB (P : Params V D) (s : Index V) : Op V D → Bool
  | .add _ x vec _ => decide (x < P.cacheSize) &&
      noTiesB P.metric (fun id => if id = x then some (P.norm vec) else (s.get id).map Vertex.vec) (P.norm vec) (x :: (s.cache.keys ++ s.kv.keys))
  | .near q _ ef _ => decide (1 ≤ ef) && noTiesB P.metric (fun id => (s.get id).map Vertex.vec) (P.norm q) (s.cache.keys ++ s.kv.keys)
  | .knn q _ ef _ => decide (1 ≤ ef) && noTiesB P.metric (fun id => (s.get id).map Vertex.vec) q (s.cache.keys ++ s.kv.keys)
  | _ => true

theorem untied_of_b {P : Params V D} {s : Index V} {op : Op V D} (h : op.untiedB P s = true) : op.Untied P s := by
  cases op with
  | add vo x vec level =>
    simp only [Op.untiedB, Bool.and_eq_true, decide_eq_true_eq] at h
    refine ⟨h.1, noTies_of_keys _ (fun id hid => ?_) h.2⟩
    simp only [List.mem_cons, not_or] at hid
    simp only [if_neg hid.1, get_none_of_keys hid.2, Option.map_none]
  | near q max ef allow =>
    simp only [Op.untiedB, Bool.and_eq_true, decide_eq_true_eq] at h
    exact ⟨h.1, noTies_of_keys _ (fun id hid => by simp only [get_none_of_keys hid, Option.map_none]) h.2⟩
  | knn q k ef allow =>
    simp only [Op.untiedB, Bool.and_eq_true, decide_eq_true_eq] at h
    exact ⟨h.1, noTies_of_keys _ (fun id hid => by simp only [get_none_of_keys hid, Option.map_none]) h.2⟩
  | _ => trivial

def untiedAllB (P : Params V D) (scheds : Nat → Scheds D) (s : Index V) : Nat → List (Op V D) → Bool
  | _, [] => true
  | i, op :: ops => op.untiedB P s && untiedAllB P scheds (op.run P (scheds i) s).1 (i + 1) ops

theorem untiedAll_of_b {P : Params V D} {scheds : Nat → Scheds D} {s : Index V} {i : Nat} {ops : List (Op V D)} (h : untiedAllB P scheds s i ops = true) :
    UntiedAll P scheds s i ops := by
  induction ops generalizing s i with
  | nil => trivial
  | cons op ops ih =>
    simp only [untiedAllB, Bool.and_eq_true] at h
    exact ⟨untied_of_b h.1, ih h.2⟩

end Fave.Index
