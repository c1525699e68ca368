import Verif.Spec.Stored
import Verif.Lemmas.Decimal
import Verif.Lemmas.JsonPrefix
/-!
# Lemmas about the key-value table as texts
-/
namespace Fave.Stored
open Json F32

theorem nat_zero : nat 0 = ['0'] := Nat.toDigits_zero 10

theorem nat_injective {m n : Nat} (h : nat m = nat n) : m = n := by
  have := congrArg Json.num h
  rwa [num_nat, num_nat] at this

theorem nat_ne {n : Nat} {c : Char} {r : Text} (hc : c.isDigit = false) : nat n ≠ c :: r := by
  intro h
  have := (nat_digits n).2 c (by rw [h]; simp)
  rw [hc] at this
  exact absurd this (by decide)

theorem uintJ_ok (n : Nat) : (uintJ n).Ok := by
  refine .num _ ⟨nat_digits n, fun h => ?_, by simp, by simp⟩
  by_cases h0 : n = 0
  · rw [h0]; exact nat_zero
  · exact absurd h (nat_head h0)

theorem uintOf_uintJ {n : Nat} (old : Nat) (h : n < 2 ^ 64) : uintOf old (uintJ n) = some n := by
  simp only [uintOf, uintJ, num_nat]
  rw [if_neg]
  simpa using h

theorem intOf_uintJ {n : Nat} (old : Nat) (h : n < 2 ^ 63) : intOf old (uintJ n) = some n := by
  simp only [intOf, uintJ, num_nat]
  rw [if_neg]
  simpa using h

theorem sliceJ_ok {b : Bool} {l : List J} (h : ∀ v ∈ l, v.Ok) : (sliceJ b l).Ok := by
  unfold sliceJ
  split
  · exact .null
  · exact .arr l h

theorem sliceOf_sliceJ {α : Type} {f : J → Option α} {b : Bool} {l : List J} {r : List α} (h : every f l = some r) :
    sliceOf f (sliceJ b l) = some r := by
  unfold sliceJ
  split
  · rename_i hb
    simp only [Bool.and_eq_true, List.isEmpty_iff] at hb
    rw [hb.2] at h
    exact h
  · exact h

theorem every_uint {l : List Nat} (h : ∀ x ∈ l, x < 2 ^ 64) : every (uintOf 0) (l.map uintJ) = some l := by
  induction l with
  | nil => rfl
  | cons x l ih =>
    simp only [List.map_cons, every, uintOf_uintJ 0 (h x (by simp)), ih (fun y hy => h y (by simp [hy]))]

theorem every_conns (nils : Nat → Bool) {ls : List (List Nat)} (h : ∀ l ∈ ls, ∀ x ∈ l, x < 2 ^ 64) (i : Nat) :
    every (sliceOf (uintOf 0)) (connsJ nils i ls) = some ls := by
  induction ls generalizing i with
  | nil => rfl
  | cons l ls ih =>
    simp only [connsJ, every, sliceOf_sliceJ (every_uint (h l (by simp))), ih (fun y hy => h y (by simp [hy]))]

theorem connsJ_ok (nils : Nat → Bool) (ls : List (List Nat)) (i : Nat) : ∀ v ∈ connsJ nils i ls, v.Ok := by
  induction ls generalizing i with
  | nil => simp [connsJ]
  | cons l ls ih =>
    simp only [connsJ, List.mem_cons]
    rintro v (rfl | hv)
    · refine sliceJ_ok fun w hw => ?_
      obtain ⟨n, -, rfl⟩ := List.mem_map.1 hw
      exact uintJ_ok n
    · exact ih _ v hv

theorem floats_back {l : List Num} (h : ∀ n ∈ l, ∃ x, n = .fin x ∧ IsFloat x) :
    ∃ r, floatsJ l = some r ∧ every floatOf r = some l ∧ ∀ v ∈ r, v.Ok := by
  induction l with
  | nil => exact ⟨[], rfl, rfl, by simp⟩
  | cons n l ih =>
    obtain ⟨r, h1, h2, h3⟩ := ih (fun m hm => h m (by simp [hm]))
    obtain ⟨x, rfl, hx⟩ := h n (by simp)
    obtain ⟨a, g1, g2, g3⟩ := Fmt.lit_back f32_good (x := x) hx
    refine ⟨.num a :: r, ?_, ?_, ?_⟩
    · simp only [floatsJ, g1, h1]
    · simp only [every, floatOf, g3, Option.map_some, h2]
    · simp only [List.mem_cons]
      rintro v (rfl | hv)
      · exact .num a g2
      · exact h3 v hv

/-- the text of a vertex, and what is read from it -/
theorem vertex_back (nils : Nat → Bool) {v : Vert} (h : Fits v) :
    ∃ j, vertexJ nils v = some j ∧ j.Ok ∧ vertexOf j = some { v with committed := false } ∧ ∃ l, j = .obj l := by
  obtain ⟨h1, h2, h3, h4⟩ := h
  obtain ⟨r, f1, f2, f3⟩ := floats_back h4
  refine ⟨_, by rw [vertexJ, f1]; rfl, ?_, ?_, _, rfl⟩
  · refine .obj _ ?_
    simp only [List.mem_cons, List.not_mem_nil, or_false]
    rintro m (rfl | rfl | rfl | rfl | rfl)
    · exact uintJ_ok _
    · exact uintJ_ok _
    · exact sliceJ_ok (connsJ_ok nils _ _)
    · exact .bool _
    · exact sliceJ_ok f3
  · have m1 : means nId nId = true := by decide
    have m2 : means nLevel nId = false := by decide
    have m3 : means nLevel nLevel = true := by decide
    have m4 : means nConns nId = false := by decide
    have m5 : means nConns nLevel = false := by decide
    have m6 : means nConns nConns = true := by decide
    have m7 : means nMaint nId = false := by decide
    have m8 : means nMaint nLevel = false := by decide
    have m9 : means nMaint nConns = false := by decide
    have m10 : means nMaint nMaint = true := by decide
    have m11 : means nVec nId = false := by decide
    have m12 : means nVec nLevel = false := by decide
    have m13 : means nVec nConns = false := by decide
    have m14 : means nVec nMaint = false := by decide
    have m15 : means nVec nVec = true := by decide
    simp only [vertexOf, fields, field, m1, m2, m3, m4, m5, m6, m7, m8, m9, m10, m11, m12, m13, m14, m15, if_true, Bool.false_eq_true, if_false,
      uintOf_uintJ _ h1, intOf_uintJ _ h2, sliceOf_sliceJ (every_conns nils h3 2), sliceOf_sliceJ f2, boolOf, Option.map_some, Option.bind_some, zero]

theorem oneJ_ok (name : Text) (n : Nat) : (J.obj [(name, uintJ n)]).Ok := by
  refine .obj _ ?_
  simp only [List.mem_singleton, forall_eq]
  exact uintJ_ok n

theorem one_back {name : Text} {n : Nat} (hm : means name name = true) (h : n < 2 ^ 64) : oneOf name (.obj [(name, uintJ n)]) = some n := by
  simp only [oneOf, oneField, hm, if_true, uintOf_uintJ 0 h, Option.bind_some]

theorem get_filter {α : Type} (t : Tab α) (id k : Nat) : Tab.get (t.filter fun e => decide (e.1 ≠ id)) k = if k = id then none else t.get k := by
  induction t with
  | nil => simp [Tab.get]
  | cons e t ih =>
    obtain ⟨a, v⟩ := e
    by_cases ha : a = id
    · subst ha
      simp only [ne_eq, not_true, decide_false, Bool.false_eq_true, not_false_eq_true, List.filter_cons_of_neg, Tab.get]
      rw [ih]
      by_cases hk : k = a
      · simp [hk]
      · rw [if_neg hk, if_neg hk, if_neg (fun h => hk h.symm)]
    · have : (decide ((a, v).1 ≠ id)) = true := by simpa using ha
      rw [List.filter_cons_of_pos (by simpa using ha)]
      simp only [Tab.get]
      by_cases hk : a = k
      · subst hk; simp [ha]
      · rw [if_neg hk, if_neg hk, ih]

theorem kEntry_key (n : Nat) : nat n ≠ kEntry := nat_ne (by decide)
theorem nCount_key (n : Nat) : nat n ≠ nCount := nat_ne (by decide)

/-- one change keeps the texts and the structures together -/
theorem change_says {t : Table} {s : Index (List Num)} (h : Says t s) {c : Change} (hc : c.Fits) :
    ∃ t', change t c = some t' ∧ Says t' (c.apply s) := by
  obtain ⟨h1, h2, h3⟩ := h
  cases c with
  | write nils w =>
    cases w with
    | node v =>
      obtain ⟨j, j1, j2, j3, -⟩ := vertex_back nils (v := v) hc
      refine ⟨_, by rw [change, j1]; rfl, fun id => ?_, ?_, ?_⟩
      · simp only [Table.node, Table.put, Change.apply, Index.applyWrite, Tab.get_put]
        by_cases hi : id = v.id
        · subst hi
          simp only [if_true, Option.bind_some, parse_render j2, j3]
        · rw [if_neg (fun e => hi (nat_injective e)), if_neg hi]
          exact h1 id
      · rw [show (Change.apply s (.write nils (.node v))).loadEntry.entry = s.loadEntry.entry from rfl, ← h2]
        simp only [Table.entry, Table.put]
        rw [if_neg (fun e => kEntry_key _ e.symm)]
      · rw [show (Change.apply s (.write nils (.node v))).docCount = s.docCount from rfl, ← h3]
        simp only [Table.count, Table.put]
        rw [if_neg (fun e => nCount_key _ e.symm)]
    | entry e =>
      refine ⟨_, rfl, fun id => ?_, ?_, ?_⟩
      · rw [show (Change.apply s (.write nils (.entry e))).kv = s.kv from rfl, ← h1 id]
        simp only [Table.node, Table.put]
        rw [if_neg (kEntry_key _)]
      · simp only [Table.entry, Table.put, if_true, Option.bind_some]
        rw [entryJ, parse_render (oneJ_ok _ _)]
        simp only [Option.bind_some]
        rw [one_back (by decide) hc]
        rfl
      · rw [show (Change.apply s (.write nils (.entry e))).docCount = s.docCount from rfl, ← h3]
        simp only [Table.count, Table.put]
        rw [if_neg (by decide)]
    | count n =>
      refine ⟨_, rfl, fun id => ?_, ?_, ?_⟩
      · rw [show (Change.apply s (.write nils (.count n))).kv = s.kv from rfl, ← h1 id]
        simp only [Table.node, Table.put]
        rw [if_neg (nCount_key _)]
      · rw [show (Change.apply s (.write nils (.count n))).loadEntry.entry = s.loadEntry.entry from rfl, ← h2]
        simp only [Table.entry, Table.put]
        rw [if_neg (by decide)]
      · simp only [Table.count, Table.put, if_true, Option.bind_some]
        rw [countJ, parse_render (oneJ_ok _ _)]
        simp only [Option.bind_some]
        rw [one_back (by decide) hc]
        rfl
  | remove id =>
    refine ⟨_, rfl, fun k => ?_, ?_, ?_⟩
    · show _ = Tab.get (s.kv.filter fun e => decide (e.1 ≠ id)) k
      rw [get_filter]
      simp only [Table.node, Table.del]
      by_cases hk : k = id
      · subst hk; simp
      · rw [if_neg (fun e => hk (nat_injective e)), if_neg hk]
        exact h1 k
    · rw [show (Change.apply s (.remove id)).loadEntry.entry = s.loadEntry.entry from rfl, ← h2]
      simp only [Table.entry, Table.del]
      rw [if_neg (fun e => kEntry_key _ e.symm)]
    · rw [show (Change.apply s (.remove id)).docCount = s.docCount from rfl, ← h3]
      simp only [Table.count, Table.del]
      rw [if_neg (fun e => nCount_key _ e.symm)]

theorem changes_says {t : Table} {s : Index (List Num)} (h : Says t s) (cs : List Change) (hc : ∀ c ∈ cs, c.Fits) :
    ∃ t', changes t cs = some t' ∧ Says t' (cs.foldl Change.apply s) := by
  induction cs generalizing t s with
  | nil => exact ⟨t, rfl, h⟩
  | cons c cs ih =>
    obtain ⟨t', h1, h2⟩ := change_says h (hc c (by simp))
    obtain ⟨t'', g1, g2⟩ := ih h2 (fun d hd => hc d (by simp [hd]))
    exact ⟨t'', by rw [changes, h1]; exact g1, g2⟩

/-- a vector is written exactly if it has no infinite number and none that is not a number -/
theorem floatsJ_none {l : List Num} (h : ∃ n ∈ l, n = .nan ∨ ∃ s, n = .inf s) : floatsJ l = none := by
  induction l with
  | nil => simp at h
  | cons n l ih =>
    cases n with
    | fin x =>
      have : floatsJ l = none := ih (by simpa using h)
      simp only [floatsJ, this]
      cases f32.lit x <;> rfl
    | inf s => rfl
    | nan => rfl

end Fave.Stored
