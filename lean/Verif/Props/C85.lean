import Verif.Lemmas.PanicsApart
/-!
# C85: a panic leaves nothing locked

Any number of calls run at the same time, each on any path, and each may panic wherever it can.  As long as the vertices in the key-value store have
all their layers, the others go on: a call that panics gives back every lock.  A vertex with too few layers makes a search panic with the lock of the
vertex held; from then on everything that needs this vertex hangs, and what hangs keeps its own locks; but what has to do with other collections, and
the calls of the client that do not search or insert, still end.
-/
namespace Fave.C85

open Locks Panics

/-- the `i`-th call has ended -/
abbrev over (s : List Thread) (i : Nat) : Prop := ∃ t, s[i]? = some t ∧ t.todo = []

/-- all vertices have all their layers -/
abbrev sane : Nat → Bool := fun _ => false

/-- Whatever calls run at the same time, on whatever paths, wherever they panic, and in whatever order: one of them can go on until all have ended. -/
theorem never_stuck_partial (calls : List Call) (h : ∀ c ∈ calls, c.op.fails = false) (is : List Nat) (s : List Thread)
    (hr : run (begin sane calls) is = some s) : ended s ∨ ∃ i s', step s i = some s' := by
  by_cases he : ended s
  · exact .inl he
  · exact .inr (good_not_stuck (allGood_run (allGood_begin (fun _ _ => rfl) h) hr) he)

/-- And they do end: after a bounded number of steps, and every beginning can be completed. -/
theorem all_end_partial (calls : List Call) (h : ∀ c ∈ calls, c.op.fails = false) (is : List Nat) (s : List Thread)
    (hr : run (begin sane calls) is = some s) :
    is.length ≤ (calls.map fun c => cost (c.path sane).1).sum ∧ ∃ is' s', run (begin sane calls) (is ++ is') = some s' ∧ ended s' := by
  constructor
  · have := left_run (allGood_begin (fun _ _ => rfl) h) hr
    rw [Panics.left_begin] at this
    omega
  · obtain ⟨is', s', h1, h2⟩ := good_ends (allGood_run (allGood_begin (fun _ _ => rfl) h) hr) (Nat.le_refl _)
    exact ⟨is', s', by rw [run_append, hr]; exact h1, h2⟩

/-- A call that has ended, by a panic or not, holds no lock. -/
theorem nothing_kept_partial (calls : List Call) (h : ∀ c ∈ calls, c.op.fails = false) (is : List Nat) (s : List Thread)
    (hr : run (begin sane calls) is = some s) (i : Nat) (t : Thread) (hi : s[i]? = some t) (he : t.todo = []) : t.held = [] := by
  have := (allGood_run (allGood_begin (fun _ _ => rfl) h) hr t (List.mem_of_getElem? hi)).1
  rw [he] at this
  exact this

/-- The calls are those of C74: one that meets no panic does there what it does here. -/
theorem same_without_panic (damaged : Nat → Bool) (op : Op) (o : Nat) (cs : List Nat) :
    (Call.mk op o cs none).path damaged = ((op.prog.path o cs).1, (op.prog.path o cs).2, .done none) := by
  have := walk_none o (code (damaged o) op) (fun _ => none) cs
  rw [erase_code] at this
  exact this

/-- With damaged vertices: a call that has ended holds no lock, unless it has panicked at a missing layer; then it holds the lock of one vertex of its
collection, for writing, and no other. -/
theorem kept_exactly (damaged : Nat → Bool) (calls : List Call) (h : ∀ c ∈ calls, c.op.fails = false) (is : List Nat) (s : List Thread)
    (hr : run (begin damaged calls) is = some s) (i : Nat) (c : Call) (hc : calls[i]? = some c) (t : Thread) (hi : s[i]? = some t) (he : t.todo = []) :
    if (c.path damaged).2.2 = .panic .noLayer then ∃ v, t.held = [(⟨.vertex, c.coll, v⟩, true)] else t.held = [] := by
  rw [Panics.held_at_end hr hc hi he]
  exact call_kept (h c (List.mem_of_getElem? hc))

/-- After that, no call that still has to take the lock of this vertex ever ends. -/
theorem missing_layer_hangs (damaged : Nat → Bool) (calls : List Call) (is : List Nat) (s : List Thread) (hr : run (begin damaged calls) is = some s)
    (i j : Nat) (l : Lock) (t u : Thread) (hi : s[i]? = some t) (he : t.todo = []) (hl : (l, true) ∈ t.held)
    (hj : s[j]? = some u) (w : Bool) (hm : Act.take l w ∈ u.todo) (is' : List Nat) (s' : List Thread) (hr' : run s is' = some s') : ¬ over s' j := by
  obtain ⟨v, hv1, hv2⟩ := frozen_keeps_run hr' (.ended i t hi he) hi hl hj hm (by simp)
  rintro ⟨x, hx1, hx2⟩
  rw [hv1, Option.some.injEq] at hx1
  rw [hx1, hx2] at hv2
  cases hv2

/-- It spreads: an insertion that waits for this vertex keeps `deleteVsInsertLock`, so that no deletion from the collection that still has to take
that lock ever ends. -/
theorem missing_layer_hangs_deletions (damaged : Nat → Bool) (calls : List Call) (is : List Nat) (s : List Thread)
    (hr : run (begin damaged calls) is = some s) (i j k : Nat) (o v : Nat) (t d u : Thread) (hi : s[i]? = some t) (he : t.todo = [])
    (hl : (⟨.vertex, o, v⟩, true) ∈ t.held) (hj : s[j]? = some d) (r : List Act) (hw : d.todo = .take ⟨.vertex, o, v⟩ true :: r)
    (hd : (⟨.delIns, o, 0⟩, false) ∈ d.held) (hk : s[k]? = some u) (hm : Act.take ⟨.delIns, o, 0⟩ true ∈ u.todo)
    (is' : List Nat) (s' : List Thread) (hr' : run s is' = some s') : ¬ over s' j ∧ ¬ over s' k := by
  refine ⟨missing_layer_hangs damaged calls is s hr i j _ t d hi he hl hj true (by rw [hw]; simp) is' s' hr', ?_⟩
  have hf : Frozen s j := .waits j i d t ⟨.vertex, o, v⟩ true true r hj hw hi hl rfl (.ended i t hi he)
  obtain ⟨x, hx1, hx2⟩ := frozen_keeps_run hr' hf hj hd hk hm rfl
  rintro ⟨y, hy1, hy2⟩
  rw [hx1, Option.some.injEq] at hy1
  rw [hy1, hy2] at hx2
  cases hx2

/-- But it does not spread to other collections, nor to the calls that neither search nor insert: whatever has happened, there is a way on in which
all of these end. -/
theorem others_end (damaged : Nat → Bool) (calls : List Call) (h : ∀ c ∈ calls, c.op.fails = false) (is : List Nat) (s : List Thread)
    (hr : run (begin damaged calls) is = some s) :
    ∃ is' s', run s is' = some s' ∧ ∀ (i : Nat) (c : Call), calls[i]? = some c →
      damaged c.coll = false ∨ c.op ∈ [Op.login, .openPod, .collections, .create, .drop, .getDocument] → over s' i := by
  obtain ⟨h1, h2, h3⟩ := fair_run (allFair_begin (damaged := damaged) h) hr
  obtain ⟨is', s', h4, h5⟩ := fair_ends h1 (Nat.le_refl _)
  refine ⟨is', s', h4, fun i c hc hs => ?_⟩
  have hlen : ∀ (is : List Nat) (s s' : List Thread), run s is = some s' → s'.length = s.length := by
    intro is
    induction is with
    | nil => intro s s' hr; simp only [run, Option.some.injEq] at hr; rw [hr]
    | cons k is ih =>
      intro s s' hr
      simp only [run] at hr
      cases hst : step s k with
      | none => rw [hst] at hr; cases hr
      | some s1 =>
        rw [hst] at hr
        obtain ⟨x, x', -, -, rfl⟩ := step_some hst
        rw [ih _ _ hr, List.length_set]
  have hlt : i < s'.length := by
    rw [hlen _ _ _ h4, hlen _ _ _ hr]
    simpa [Panics.begin] using (List.getElem?_eq_some_iff.mp hc).1
  exact ⟨s'[i], by simp [hlt], h5 i (h2 i (safe_begin hc (h c (List.mem_of_getElem? hc)) hs)) _ (by simp [hlt])⟩

/-- As long as one of them has not ended, something can go on, and not for ever. -/
theorem others_never_stuck (damaged : Nat → Bool) (calls : List Call) (h : ∀ c ∈ calls, c.op.fails = false) (is : List Nat) (s : List Thread)
    (hr : run (begin damaged calls) is = some s) (i : Nat) (c : Call) (hc : calls[i]? = some c)
    (hs : damaged c.coll = false ∨ c.op ∈ [Op.login, .openPod, .collections, .create, .drop, .getDocument]) (t : Thread) (hi : s[i]? = some t)
    (hne : t.todo ≠ []) : (∃ k s', step s k = some s') ∧ is.length ≤ (calls.map fun c => cost (c.path damaged).1).sum := by
  obtain ⟨h1, h2, h3⟩ := fair_run (allFair_begin (damaged := damaged) h) hr
  rw [Panics.left_begin] at h3
  exact ⟨safe_goes h1 (List.mem_of_getElem? hi) (h2 i (safe_begin hc (h c (List.mem_of_getElem? hc)) hs) t hi) hne, by omega⟩

/-! ## Cases -/

/-- a search in collection 1 that looks at vertex 3 -/
def near (m : Option Nat) : Call := ⟨.near, 1, [1, 0, 1, 0, 1, 0, 0, 0, 0, 1, 1, 1, 3], m⟩

/-- an addition of one document, number 7, to collection 1, which looks at vertex 3 -/
def adding (m : Option Nat) : Call := ⟨.addDocuments, 1, [1, 0, 0, 1, 1, 0, 1, 7, 0, 1, 1, 0, 9, 0, 1, 0, 1, 0, 0, 0, 1, 1, 1, 3], m⟩

/-- collection 1 is damaged -/
def torn : Nat → Bool := fun o => o == 1

-- every place at which a call can panic is come to
example : ((List.range 5).map fun m => ((near (some m)).path torn).2.2) =
    [.panic .noPod, .panic .noIndex, .panic .noVector, .panic .noLayer, .panic .badLimit] := by decide +kernel
example : ((List.range 8).map fun m => ((adding (some m)).path torn).2.2) =
    [.panic .noPod, .panic .noIndex, .panic .nullDoc, .panic .noText, .panic .noVector, .panic .noLevel, .panic .noPlace, .panic .noLayer] := by
  decide +kernel

/-- a search without panic, an addition for which there is no place in the vector cache, one of which the level can not be computed, a listing -/
def calls : List Call := [near none, adding (some 6), adding (some 5), ⟨.collections, 0, [1], none⟩]

-- the premises of the first theorems, and a state in the middle in which the second addition, about to panic, holds three locks
example : (∀ c ∈ calls, c.op.fails = false) ∧ (calls.map fun c => (c.path sane).1.length) = [24, 22, 18, 4] := by decide +kernel
example : ((reached (Panics.begin sane calls) (List.replicate 22 1)).map (·.held))[1]? =
    some [(⟨.shard, 1, 9⟩, false), (⟨.delIns, 1, 0⟩, false), (⟨.compress, 1, 0⟩, false)] := by decide +kernel
example : ((reached (Panics.begin sane calls) (List.replicate 25 1)).map fun t => (t.todo.length, t.held))[1]? = some (0, []) := by decide +kernel

/-- a search that panics at vertex 3, then an addition that needs vertex 3, a deletion, a listing, and a search in collection 2 -/
def after : List Call := [near (some 3), adding none, ⟨.delete, 1, [1, 0], none⟩, ⟨.collections, 1, [1], none⟩, ⟨.near, 2, [1, 0, 1, 0, 1, 0, 0, 0, 0, 1, 1, 1, 3], none⟩]

/-- the search has ended, the addition has come as far as it can -/
def halted : List Thread := reached (Panics.begin torn after) (List.replicate 21 0 ++ List.replicate 31 1)

-- the premises of `kept_exactly`, `missing_layer_hangs` and `missing_layer_hangs_deletions`
example : (∀ c ∈ after, c.op.fails = false) ∧ run (Panics.begin torn after) (List.replicate 21 0 ++ List.replicate 31 1) = some halted ∧
    ((near (some 3)).path torn).2.2 = .panic .noLayer ∧
    (halted[0]?.map fun t => (t.todo, t.held)) = some ([], [(⟨.vertex, 1, 3⟩, true)]) ∧
    (halted[1]?.map fun t => (t.todo.head?, t.held)) =
      some (some (.take ⟨.vertex, 1, 3⟩ true), [(⟨.delIns, 1, 0⟩, false), (⟨.compress, 1, 0⟩, false)]) ∧
    (halted[2]?.map fun t => decide (Act.take ⟨.delIns, 1, 0⟩ true ∈ t.todo)) = some true := by decide +kernel

-- the listing and the search in the other collection still end, as `others_end` says, and then nothing more is possible but that the deletion announces itself
example : ((reached halted (List.replicate 5 3 ++ List.replicate 30 4)).map fun t => t.todo.length) = [0, 10, 9, 0, 0] := by decide +kernel

end Fave.C85
