import Verif.Spec.Ties
import Verif.Lemmas.Insert
import Verif.Lemmas.Flush
/-!
# No node lies above the highest layer drawn
-/
namespace Fave.Index
variable {V D : Type} [Dist D]
open Queue

/-- nothing lies above layer `b` -/
structure Low (b : Nat) (s : Index V) : Prop where
  top : s.maxLayer ≤ b
  cache : ∀ id v, s.cache.get id = some v → v.level ≤ b
  kv : ∀ id v, s.kv.get id = some v → v.level ≤ b

theorem Low.get {b : Nat} {s : Index V} (h : Low b s) {id : Nat} {v : Vertex V} (hg : s.get id = some v) : v.level ≤ b := by
  unfold Index.get at hg
  split at hg
  · rename_i w hw; cases hg; exact h.cache _ _ hw
  · obtain ⟨w, hw, rfl⟩ := Option.map_eq_some_iff.mp hg
    exact show w.level ≤ b from h.kv _ _ hw

theorem Low.put {b : Nat} {s : Index V} (h : Low b s) {v : Vertex V} (hv : v.level ≤ b) : Low b (s.put v) := by
  refine ⟨h.top, fun id w hw => ?_, h.kv⟩
  simp only [Index.put, Tab.get_put] at hw
  split at hw
  · cases hw; exact hv
  · exact h.cache _ _ hw

theorem low_init (b : Nat) : Low b (init : Index V) := ⟨Nat.zero_le _, fun _ _ h => by simp [init] at h, fun _ _ h => by simp [init] at h⟩

theorem low_connectNeighbor (P : Params V D) (vo : VecOracle V) (x : Nat) {b level : Nat} (hl : level ≤ b) {s : Index V} (nb : Nat) (h : Low b s) :
    Low b (connectNeighbor P vo x level s nb).1 := by
  cases hg : s.get nb with
  | none => simp only [connectNeighbor, hg]; exact h
  | some v =>
    have hr : (if level > v.level then upgrade { v with committed := false } level else { v with committed := false }) =
        raised v level := rfl
    have hv : (raised v level).level ≤ b := by
      rcases (raised_level v level).2.2 with e | e <;> rw [e]
      · exact h.get hg
      · exact hl
    have e1 : Low b (s.put (raised v level)) := h.put hv
    have e2 : ∀ links, Low b ((s.put (raised v level)).put (setConns (raised v level) level links)) := fun links => e1.put hv
    simp only [connectNeighbor, hg, hr]
    repeat' split
    all_goals first | exact h | exact e1 | exact e2 _

theorem low_connectAll (P : Params V D) (vo : VecOracle V) (x : Nat) {b level : Nat} (hl : level ≤ b) (nbs : List Nat) {s : Index V} (h : Low b s) :
    Low b (connectAll P vo x level s nbs).1 := by
  induction nbs generalizing s with
  | nil => exact h
  | cons nb nbs ih =>
    unfold connectAll
    have h1 := low_connectNeighbor P vo x hl nb h
    split
    · rename_i he; rw [he] at h1; exact h1
    · rename_i he; rw [he] at h1; exact ih h1

theorem low_doAtLevel (P : Params V D) (vo : VecOracle V) (sched : Graph.Scheds D) (q : V) (x ep : Nat) {b level : Nat} (hl : level ≤ b)
    {s : Index V} (h : Low b s) : Low b (doAtLevel P vo sched q x s ep level).1 := by
  unfold doAtLevel
  split
  · exact h
  · split
    · exact h
    · split
      · exact h
      · rename_i kept _
        simp only
        split
        · exact h
        · rename_i v hv
          split
          · exact h
          · have h1 := low_connectAll P vo x hl ((drain lessMax kept).map Item.id)
              (h.put (v := setConns v level ((drain lessMax kept).map Item.id)) (show v.level ≤ b from h.get hv))
            split
            · rename_i he; rw [he] at h1; exact h1
            · rename_i he; rw [he] at h1; split <;> exact h1

theorem low_doLevels (P : Params V D) (vo : VecOracle V) (sched : Graph.Scheds D) (q : V) (x : Nat) {b : Nat} (n ep : Nat) (hn : n ≤ b + 1)
    {s : Index V} (h : Low b s) : Low b (doLevels P vo sched q x n s ep).1 := by
  induction n generalizing s ep with
  | zero => exact h
  | succ level ih =>
    unfold doLevels
    have h1 := low_doAtLevel P vo sched q x ep (show level ≤ b by omega) h
    split
    · rename_i he; rw [he] at h1; exact h1
    · rename_i he; rw [he] at h1; exact ih _ (by omega) h1

theorem low_connectNew (P : Params V D) (vo : VecOracle V) (sched : Graph.Scheds D) (q : V) (x : Nat) {b level : Nat} (hl : level ≤ b)
    {s : Index V} (h : Low b s) : Low b (connectNew P vo sched s x q level).1 := by
  unfold connectNew
  split
  · exact h
  · rename_i ep _
    have h1 := low_doLevels P vo sched q x (Nat.min level s.maxLayer + 1) ep
      (Nat.succ_le_succ (Nat.le_trans (Nat.min_le_left level s.maxLayer) hl)) h
    split
    · rename_i he; rw [he] at h1; exact h1
    · rename_i s1 he
      rw [he] at h1
      have h1 : Low b s1 := h1
      split
      · exact h1
      · rename_i v hv
        have h2 := h1.put (v := { v with maint := false }) (show v.level ≤ b from h1.get hv)
        simp only
        split
        · exact ⟨hl, h2.cache, h2.kv⟩
        · exact h2

theorem low_add (P : Params V D) (vo : VecOracle V) (sched : Graph.Scheds D) (x : Nat) (vec : V) {b level : Nat} (hl : level ≤ b)
    {s : Index V} (h : Low b s) : Low b (add P vo sched s x vec level).1 := by
  unfold add
  split
  · exact h
  · unfold insertNode
    split
    · unfold insertInitial
      exact Low.put (s := { s with once := true, entry := x, maxLayer := 0 }) ⟨Nat.zero_le _, h.cache, h.kv⟩ (Nat.zero_le _)
    · simp only
      have h1 : Low b ({ s with once := true } : Index V) := ⟨h.top, h.cache, h.kv⟩
      split
      · exact h1
      · exact low_connectNew P vo sched _ x hl (h1.put (v := newNode x (P.norm vec) level) hl)

theorem low_write {b : Nat} {s : Index V} (h : Low b s) (w : Write V) (hw : ∀ v, w = .node v → v.level ≤ b) : Low b (applyWrite s w) := by
  cases w with
  | entry _ => exact ⟨h.top, h.cache, h.kv⟩
  | count _ => exact ⟨h.top, h.cache, h.kv⟩
  | node v =>
    have hv := hw v rfl
    refine ⟨h.top, fun id u hu => ?_, fun id u hu => ?_⟩
    · simp only [applyWrite, Tab.get_put] at hu
      split at hu
      · cases hu; exact hv
      · exact h.cache _ _ hu
    · simp only [applyWrite, Tab.get_put] at hu
      split at hu
      · cases hu; exact hv
      · exact h.kv _ _ hu

theorem low_writes {b : Nat} (ws : List (Write V)) {s : Index V} (h : Low b s) (hw : ∀ v, .node v ∈ ws → v.level ≤ b) : Low b (ws.foldl applyWrite s) := by
  induction ws generalizing s with
  | nil => exact h
  | cons w ws ih => exact ih (low_write h w (fun v e => hw v (by simp [e]))) (fun v hv => hw v (by simp [hv]))

theorem low_flushWrites {b : Nat} {s : Index V} (h : Low b s) (order : List Nat) (n : Nat) : ∀ v, .node v ∈ s.flushWrites order n → v.level ≤ b := by
  intro v hv
  simp only [flushWrites, dirty, List.mem_append, List.mem_map, List.mem_filterMap, List.mem_cons, reduceCtorEq, List.not_mem_nil, or_self, or_false] at hv
  obtain ⟨w, ⟨id, _, hb⟩, e⟩ := hv
  cases e
  obtain ⟨u, hu, hif⟩ := Option.bind_eq_some_iff.mp hb
  split at hif
  · cases hif
  · cases hif; exact h.cache _ _ hu

theorem low_op (P : Params V D) (sched : Graph.Scheds D) {b : Nat} {s : Index V} (h : Low b s) (op : Op V D)
    (hl : ∀ vo x vec level, op = .add vo x vec level → level ≤ b) : Low b (op.run P sched s).1 := by
  cases op with
  | add vo x vec level => exact low_add P vo sched x vec (hl _ _ _ _ rfl) h
  | flush order n =>
    refine low_writes _ h (fun v hv => low_flushWrites h order n v ?_)
    exact (flushUpToBad_prefix P (s.flushWrites order n)).1.subset hv
  | cut order n k => exact low_writes _ h (fun v hv => low_flushWrites h order n v (List.mem_of_mem_take hv))
  | load => exact ⟨h.top, h.cache, h.kv⟩
  | unread => exact ⟨h.top, h.cache, h.kv⟩
  | restart => exact ⟨Nat.zero_le _, fun _ _ hg => by simp [Op.run, reopen] at hg, h.kv⟩
  | near q max ef allow => exact h
  | knn q k ef allow => exact h

/-- whatever is done, no layer above those of the additions comes into being -/
theorem low_runAll (P : Params V D) (scheds : Nat → Graph.Scheds D) {b : Nat} (ops : List (Op V D)) (i : Nat) {s : Index V} (h : Low b s)
    (hl : ∀ vo x vec level, .add vo x vec level ∈ ops → level ≤ b) : Low b (runAll P scheds s i ops).1 := by
  induction ops generalizing s i with
  | nil => exact h
  | cons op ops ih =>
    exact ih (i + 1) (low_op P (scheds i) h op (fun vo x vec level e => hl vo x vec level (by simp [e])))
      (fun vo x vec level e => hl vo x vec level (by simp [e]))

end Fave.Index
