import Verif.Lemmas.Locks
/-!
# C74: nothing waits for ever for a lock of the client or of the index

Any number of calls — of the client and of the index, on any collections, on any paths through the functions — run at the same time.  Unless a
clean-up is cut short by the key-value store, whatever has happened so far, either all calls have ended or one of them can go on; the number of
steps is bounded; and a lock held for writing is held by nobody else.  The two clean-ups that are cut short end with a lock held, and from then
on everything that needs that lock hangs.
-/
namespace Fave.C74

open Locks

/-- a goroutine holds the lock -/
abbrev holds (s : List Thread) (i : Nat) (l : Lock) (write : Bool) : Prop := ∃ t, s[i]? = some t ∧ (l, write) ∈ t.held

/-- the `i`-th call has ended -/
abbrev over (s : List Thread) (i : Nat) : Prop := ∃ t, s[i]? = some t ∧ t.todo = []

/-- Whatever calls run at the same time, on whatever paths and in whatever order, there is always one that can go on until all have ended: as
long as no clean-up is cut short by the key-value store. -/
theorem never_stuck_partial (calls : List (Op × Nat × List Nat)) (h : ∀ c ∈ calls, c.1.fails = false) (is : List Nat) (s : List Thread)
    (hr : run (begin calls) is = some s) : ended s ∨ ∃ i s', step s i = some s' := by
  by_cases he : ended s
  · exact .inl he
  · exact .inr (good_not_stuck (allGood_run (allGood_begin h) hr) he)

/-- The calls of the client — all that the server makes — never fail in this way: for them the claim holds as it stands. -/
theorem requests_never_stuck (calls : List (Op × Nat × List Nat))
    (h : ∀ c ∈ calls, c.1 ∈ [Op.login, .openPod, .collections, .create, .drop, .addDocuments, .near, .getDocument]) (is : List Nat) (s : List Thread)
    (hr : run (begin calls) is = some s) : ended s ∨ ∃ i s', step s i = some s' := by
  refine never_stuck_partial calls (fun c hc => ?_) is s hr
  have := h c hc
  simp only [List.mem_cons, List.not_mem_nil, or_false] at this
  rcases this with e | e | e | e | e | e | e | e <;> rw [e] <;> rfl

/-- Nor can they go on for ever: the steps are counted by the paths. -/
theorem bounded_partial (calls : List (Op × Nat × List Nat)) (h : ∀ c ∈ calls, c.1.fails = false) (is : List Nat) (s : List Thread)
    (hr : run (begin calls) is = some s) :
    is.length ≤ (calls.map fun c => cost (c.1.prog.path c.2.1 c.2.2).1).sum := by
  have := left_run (allGood_begin h) hr
  rw [left_begin] at this
  omega

/-- So every beginning can be completed. -/
theorem all_end_partial (calls : List (Op × Nat × List Nat)) (h : ∀ c ∈ calls, c.1.fails = false) (is : List Nat) (s : List Thread)
    (hr : run (begin calls) is = some s) : ∃ is' s', run (begin calls) (is ++ is') = some s' ∧ ended s' := by
  obtain ⟨is', s', h1, h2⟩ := good_ends (allGood_run (allGood_begin h) hr) (Nat.le_refl _)
  exact ⟨is', s', by rw [run_append, hr]; exact h1, h2⟩

/-- A lock that is held for writing is held by nobody else, cut short or not: an insertion and a deletion of one collection are never inside
`deleteVsInsertLock` together, and so on for every lock. -/
theorem exclusive (calls : List (Op × Nat × List Nat)) (is : List Nat) (s : List Thread) (hr : run (begin calls) is = some s)
    (i j : Nat) (l : Lock) (w : Bool) (hi : holds s i l true) (hj : holds s j l w) : i = j := by
  obtain ⟨t, h1, h2⟩ := hi
  obtain ⟨u, h3, h4⟩ := hj
  exact (excl_run (excl_begin calls).1 (excl_begin calls).2 hr).1 i j t u l w h1 h3 h2 h4

/-- A call that has ended holds no lock, unless it is a clean-up that was cut short: that one holds the lock of the index for reading, if the
entry point could not be read, and `resetLock` if a vertex could not be deleted. -/
theorem gives_back (calls : List (Op × Nat × List Nat)) (is : List Nat) (s : List Thread) (hr : run (begin calls) is = some s)
    (i : Nat) (op : Op) (o : Nat) (cs : List Nat) (hc : calls[i]? = some (op, o, cs)) (t : Thread) (hi : s[i]? = some t) (he : t.todo = []) :
    t.held = match op with
      | .cleanUpEntryFails => [(⟨.graph, o, 0⟩, false)]
      | .cleanUpRemoveFails => [(⟨.reset, o, 0⟩, true)]
      | _ => [] := by
  rw [held_at_end hr hc hi he]
  by_cases hf : op.fails = false
  · have := leftover_path o op.prog 0 (op_ok op hf) cs []
    rw [this]
    cases op <;> first | rfl | simp [Op.fails] at hf
  · cases op <;> first | exact absurd rfl hf | exact leftover_entryFails o cs | exact leftover_removeFails o cs

/-- After a clean-up whose deletion of a vertex failed, no clean-up of that collection begun later ever ends. -/
theorem failed_removal_hangs (calls : List (Op × Nat × List Nat)) (is : List Nat) (s : List Thread) (hr : run (begin calls) is = some s)
    (i j : Nat) (o : Nat) (cs cs' : List Nat) (op : Op) (hi : calls[i]? = some (.cleanUpRemoveFails, o, cs)) (he : over s i)
    (hop : op = .cleanUp ∨ op = .cleanUpEntryFails ∨ op = .cleanUpRemoveFails) (hj : calls[j]? = some (op, o, cs'))
    (hb : s[j]? = some (Thread.start (op.prog.path o cs').1)) (is' : List Nat) (s' : List Thread) (hr' : run s is' = some s') :
    ¬ over s' j := by
  obtain ⟨t, ht, hte⟩ := he
  have hh := gives_back calls is s hr i _ o cs hi t ht hte
  obtain ⟨r, hp⟩ := cleanUp_begins o cs' hop
  have hm : Act.take (lockOf o .reset 0) true ∈ (Thread.start (op.prog.path o cs').1).todo := by
    show _ ∈ (op.prog.path o cs').1
    rw [hp]; simp
  obtain ⟨u, hu1, hu2⟩ := frozen_keeps_run hr' (.ended i t ht hte) (l := lockOf o .reset 0) (w' := true) ht
    (by rw [hh]; simp [lockOf, Kind.ofProcess, Kind.many]) hb hm rfl
  rintro ⟨v, hv1, hv2⟩
  rw [hu1, Option.some.injEq] at hv1
  rw [hv1, hv2] at hu2
  cases hu2

/-- After a clean-up that could not read the entry point, nothing that still has to change the index ever ends: an insertion, a deletion of the
entry point, another clean-up that gets that far. -/
theorem failed_entry_hangs (calls : List (Op × Nat × List Nat)) (is : List Nat) (s : List Thread) (hr : run (begin calls) is = some s)
    (i j : Nat) (o : Nat) (cs : List Nat) (hi : calls[i]? = some (.cleanUpEntryFails, o, cs)) (he : over s i) (u : Thread)
    (hj : s[j]? = some u) (hm : Act.take ⟨.graph, o, 0⟩ true ∈ u.todo) (is' : List Nat) (s' : List Thread) (hr' : run s is' = some s') :
    ¬ over s' j := by
  obtain ⟨t, ht, hte⟩ := he
  have hh := gives_back calls is s hr i _ o cs hi t ht hte
  obtain ⟨u', hu1, hu2⟩ := frozen_keeps_run hr' (.ended i t ht hte) (l := ⟨.graph, o, 0⟩) (w' := false) ht
    (by rw [hh]; simp) hj hm rfl
  rintro ⟨v, hv1, hv2⟩
  rw [hu1, Option.some.injEq] at hv1
  rw [hv1, hv2] at hu2
  cases hu2

/-- And it spreads: a deletion that waits for `resetLock` after a failed removal keeps `deleteVsInsertLock`, so that no insertion that has not
got that lock yet ever ends. -/
theorem failed_removal_hangs_insertions (calls : List (Op × Nat × List Nat)) (is : List Nat) (s : List Thread)
    (hr : run (begin calls) is = some s) (i j k : Nat) (o : Nat) (cs : List Nat) (hi : calls[i]? = some (.cleanUpRemoveFails, o, cs))
    (he : over s i) (d : Thread) (hj : s[j]? = some d) (r : List Act) (hw : d.todo = .take ⟨.reset, o, 0⟩ true :: r)
    (hd : (⟨.delIns, o, 0⟩, true) ∈ d.held) (u : Thread) (hk : s[k]? = some u) (hm : Act.take ⟨.delIns, o, 0⟩ false ∈ u.todo)
    (is' : List Nat) (s' : List Thread) (hr' : run s is' = some s') : ¬ over s' k := by
  obtain ⟨t, ht, hte⟩ := he
  have hh := gives_back calls is s hr i _ o cs hi t ht hte
  have hf : Frozen s j := .waits j i d t ⟨.reset, o, 0⟩ true true r hj hw ht (by rw [hh]; simp) rfl (.ended i t ht hte)
  obtain ⟨u', hu1, hu2⟩ := frozen_keeps_run hr' hf hj hd hk hm rfl
  rintro ⟨v, hv1, hv2⟩
  rw [hu1, Option.some.injEq] at hv1
  rw [hv1, hv2] at hu2
  cases hu2

/-! ## Cases -/

/-- an insertion of vertex 7, a deletion of the entry point, a search and a clean-up, all of collection 1 -/
def calls : List (Op × Nat × List Nat) :=
  [(.add, 1, [1, 0, 1, 7, 1, 1, 1, 3, 0, 0, 1, 0, 1, 7]), (.delete, 1, [1, 0, 1, 1, 1, 0, 0]), (.near, 1, [1, 0, 1]), (.cleanUp, 1, [1, 1])]

-- the premise holds, the paths are not empty, and they can be interleaved: the insertion and the deletion are both under way
example : ∀ c ∈ calls, c.1.fails = false := by decide
example : (calls.map fun c => (c.1.prog.path c.2.1 c.2.2).1.length) = [27, 19, 10, 10] := by decide +kernel
example : ∃ s, run (begin calls) [0, 0, 1, 1, 0, 0, 3, 3, 2, 0, 0, 0] = some s ∧ ¬ ended s ∧
    holds s 0 ⟨.delIns, 1, 0⟩ false ∧ ¬ holds s 1 ⟨.delIns, 1, 0⟩ true ∧ holds s 3 ⟨.reset, 1, 0⟩ true := by
  refine ⟨reached (begin calls) [0, 0, 1, 1, 0, 0, 3, 3, 2, 0, 0, 0], by decide +kernel, ?_, ⟨_, rfl, by decide +kernel⟩, ?_,
    ⟨_, rfl, by decide +kernel⟩⟩
  · intro h
    exact absurd (h (reached (begin calls) [0, 0, 1, 1, 0, 0, 3, 3, 2, 0, 0, 0])[0] (List.getElem_mem _)) (by decide +kernel)
  · rintro ⟨t, h1, h2⟩
    have : some t = (reached (begin calls) [0, 0, 1, 1, 0, 0, 3, 3, 2, 0, 0, 0])[1]? := h1.symm
    have h3 : ((reached (begin calls) [0, 0, 1, 1, 0, 0, 3, 3, 2, 0, 0, 0])[1]?.map (·.held)) = some [(⟨.compress, 1, 0⟩, false)] := by
      decide +kernel
    rw [← this] at h3
    simp only [Option.map_some, Option.some.injEq] at h3
    rw [h3] at h2
    simp at h2

/-- a clean-up that can not delete a vertex, then the deletion of the entry point and an insertion -/
def bad : List (Op × Nat × List Nat) :=
  [(.cleanUpRemoveFails, 1, []), (.delete, 1, [1, 0, 1, 1, 1, 0, 0]), (.add, 1, [1, 0, 1, 7, 1, 1, 1, 3, 0, 0, 1, 0, 1, 7]),
   (.cleanUp, 1, [1, 1])]

/-- the clean-up runs to its end; the deletion comes as far as `resetLock`; the insertion as far as `deleteVsInsertLock` -/
def badRun : List Nat := List.replicate 18 0 ++ List.replicate 16 1 ++ [2]

/-- The claim without the condition is false: one failed deletion of a key, and the deletion of the entry point, the insertion and the next
clean-up all wait and none can go on. -/
theorem full_claim_false : ∃ calls is s, run (begin calls) is = some s ∧ ¬ (ended s ∨ ∃ i s', step s i = some s') := by
  refine ⟨bad, badRun, reached (begin bad) badRun, by decide +kernel, ?_⟩
  rintro (h | ⟨i, s', h⟩)
  · have : ((reached (begin bad) badRun).all fun t => t.todo.isEmpty) = true :=
      List.all_eq_true.mpr fun t ht => by rw [h t ht]; rfl
    exact absurd this (by decide +kernel)
  · have hlen : (reached (begin bad) badRun).length = 4 := by decide +kernel
    have hall : ∀ i < 4, (step (reached (begin bad) badRun) i).isNone = true := by decide +kernel
    by_cases hi : i < 4
    · have := hall i hi; rw [h] at this; cases this
    · have : (reached (begin bad) badRun)[i]? = none := by simp [hlen]; omega
      simp [step, this] at h

-- in it the premises of `failed_removal_hangs_insertions` hold
example : over (reached (begin bad) badRun) 0 ∧ ((reached (begin bad) badRun)[1]?.map fun d => (d.todo.head?, d.held)) =
    some (some (.take ⟨.reset, 1, 0⟩ true),
      [(⟨.delete, 1, 0⟩, true), (⟨.delIns, 1, 0⟩, true), (⟨.compress, 1, 0⟩, false)]) ∧
    ((reached (begin bad) badRun)[2]?.map fun u => u.todo.contains (.take ⟨.delIns, 1, 0⟩ false)) = some true := by
  refine ⟨⟨_, rfl, ?_⟩, ?_, ?_⟩ <;> decide +kernel

/-- a clean-up that can not read the entry point, and an insertion -/
def bad2 : List (Op × Nat × List Nat) :=
  [(.cleanUpEntryFails, 1, []), (.add, 1, [1, 0, 1, 7, 1, 1, 1, 3, 0, 0, 1, 0, 1, 7])]

-- the clean-up ends, holding the lock of the index for reading; the insertion still has to write
example : ((run (begin bad2) (List.replicate 16 0)).bind (·[0]?)).map (fun t => (t.todo, t.held)) = some ([], [(⟨.graph, 1, 0⟩, false)]) ∧
    ((run (begin bad2) (List.replicate 16 0)).bind (·[1]?)).map (fun t => t.todo.contains (.take ⟨.graph, 1, 0⟩ true)) = some true := by
  decide +kernel

end Fave.C74
