import Verif.Lemmas.Stored
import Verif.Model.Collection32
/-!
# C77 — what an index stores as JSON is what it reads back

*Every vertex, entry point and counter that `Flush` writes to the key-value table is read back as it was, whatever was written or removed before and
after under other keys; 32-bit numbers lose nothing on the way through decimals; a vector with an infinite number or one that is none is not written at
all; and a value of which only the beginning was stored is refused, never taken for another.*
-/
namespace Fave.C77
open Json F32 Stored

/-- **C77**: every JSON value with proper numbers is read back from its text — strings with any characters included. -/
theorem text_round_trip (html : Bool) {v : J} (h : v.Ok) : parse (render html v) = some v := parse_render h

/-- **C77**: the reader is total: whatever is read with any number of steps is read with as many as the text has characters. -/
theorem steps_suffice (t : Text) (v : J) : parse t = some v ↔ ∃ n r, value n t = some (v, r) ∧ skip r = [] := by
  constructor
  · intro h
    unfold parse at h
    split at h
    · rename_i w r hw
      split at h
      · rename_i hr
        simp only [Option.some.injEq] at h
        subst h
        exact ⟨_, r, hw, hr⟩
      · simp at h
    · simp at h
  · rintro ⟨n, r, h, hr⟩
    simp only [parse, value_fuel h, hr, if_true]

/-- **C77**: every 32-bit number is written as a JSON number that is read back as the same number. -/
theorem number_round_trip {x : ℚ} (h : IsFloat x) :
    ∃ l, f32.lit x = some l ∧ parse l.text = some (.num l) ∧ f32.read l.value = some x := by
  obtain ⟨l, h1, h2, h3⟩ := Fmt.lit_back f32_good (x := x) h
  exact ⟨l, h1, parse_render (html := true) (.num l h2), h3⟩

/-- **C77**: reading a number rounds its exact value as the arithmetic of the distances does. -/
theorem reading_rounds (q : ℚ) : f32.read q = match fl q with | .fin x => some x | _ => none := by
  show (if |F32.round q| < 2 ^ 128 then some (F32.round q) else none) = _
  unfold fl
  split <;> rfl

/-- **C77**: a vertex is read back as it was, whichever of its empty slices are nil; only `Committed` is not stored. -/
theorem vertex_round_trip (nils : Nat → Bool) {v : Vert} (h : Fits v) :
    ∃ j, vertexJ nils v = some j ∧ (parse (render true j)).bind vertexOf = some { v with committed := false } := by
  obtain ⟨j, h1, h2, h3, -⟩ := vertex_back nils h
  exact ⟨j, h1, by rw [parse_render h2]; exact h3⟩

/-- **C77**: a vertex is refused by the encoder exactly if its vector has an infinite number or one that is not a number. -/
theorem refused_iff (nils : Nat → Bool) (v : Vert) (h : ∀ n ∈ v.vec, ∀ x, n = .fin x → IsFloat x) :
    vertexJ nils v = none ↔ marshals v.vec = false := by
  constructor
  · intro hn
    cases hm : marshals v.vec with
    | false => rfl
    | true =>
      have : ∀ n ∈ v.vec, ∃ x, n = .fin x ∧ IsFloat x := by
        intro n hn
        have := List.all_eq_true.1 hm n hn
        cases n with
        | fin x => exact ⟨x, rfl, h _ hn x rfl⟩
        | inf s => simp at this
        | nan => simp at this
      obtain ⟨r, hr, -, -⟩ := floats_back this
      rw [vertexJ, hr] at hn
      simp at hn
  · intro hm
    have : floatsJ v.vec = none := by
      apply floatsJ_none
      simp only [marshals, List.all_eq_false] at hm
      obtain ⟨n, hn, hb⟩ := hm
      refine ⟨n, hn, ?_⟩
      cases n with
      | fin x => simp at hb
      | inf s => exact .inr ⟨s, rfl⟩
      | nan => exact .inl rfl
    rw [vertexJ, this]
    rfl

/-- **C77**: after any writes and removals the texts of the table say exactly what the model of the index keeps: every node, the entry point and the
counter. -/
theorem table_says (cs : List Change) (h : ∀ c ∈ cs, c.Fits) :
    ∃ t, changes Table.empty cs = some t ∧ Says t (cs.foldl Change.apply Index.init) := by
  apply changes_says _ cs h
  exact ⟨fun id => rfl, rfl, rfl⟩

/-- **C77**: a row of changes fails exactly if it writes a vertex that JSON refuses; nothing is skipped. -/
theorem changes_refused_iff (cs : List Change) (h : ∀ nils v, .write nils (.node v) ∈ cs → ∀ n ∈ v.vec, ∀ x, n = .fin x → IsFloat x) (t : Table) :
    changes t cs = none ↔ ∃ nils v, .write nils (.node v) ∈ cs ∧ marshals v.vec = false := by
  induction cs generalizing t with
  | nil => simp [changes]
  | cons c cs ih =>
    have ih := ih fun nils v hv => h nils v (by simp [hv])
    have go : ∀ t', change t c = some t' → (∀ nils v, c = .write nils (.node v) → marshals v.vec = true) →
        (changes t (c :: cs) = none ↔ ∃ nils v, .write nils (.node v) ∈ c :: cs ∧ marshals v.vec = false) := by
      intro t' ht hc
      rw [changes, ht, Option.bind_some, ih t']
      constructor
      · rintro ⟨nils, v, h1, h2⟩; exact ⟨nils, v, by simp [h1], h2⟩
      · rintro ⟨nils, v, h1, h2⟩
        rcases List.mem_cons.1 h1 with e | h1
        · rw [hc nils v e.symm] at h2; cases h2
        · exact ⟨nils, v, h1, h2⟩
    match c, h, go with
    | .write nils (.node v), h, go =>
      have := refused_iff nils v (h nils v (by simp))
      cases hj : vertexJ nils v with
      | none => exact ⟨fun _ => ⟨nils, v, by simp, this.1 hj⟩, fun _ => by simp [changes, change, hj]⟩
      | some j =>
        refine go _ (by simp only [change, hj]; rfl) fun nils' v' e => ?_
        injection e with e1 e2; injection e2 with e2
        subst e2
        by_contra hm
        rw [this.2 (by simpa using hm)] at hj
        cases hj
    | .write _ (.entry e), _, go => exact go _ rfl (by simp)
    | .write _ (.count n), _, go => exact go _ rfl (by simp)
    | .remove id, _, go => exact go _ rfl (by simp)

/-- **C77**: the keys of two nodes differ, and no node has the key of the entry point or of the counter. -/
theorem keys_apart (m n : Nat) : (nat m = nat n ↔ m = n) ∧ nat m ≠ kEntry ∧ nat m ≠ nCount ∧ kEntry ≠ nCount :=
  ⟨⟨nat_injective, fun h => by rw [h]⟩, kEntry_key m, nCount_key m, by decide⟩

/-- **C77**: if only a beginning of a node was stored, there is no such node. -/
theorem torn_node (t : Table) (nils : Nat → Bool) {v : Vert} (h : Fits v) {j : J} (hj : vertexJ nils v = some j) {p q : Text}
    (hpq : p ++ q = render true j) (hq : q ≠ []) : (t.put (nat v.id) p).node v.id = none := by
  obtain ⟨j', h1, h2, -, l, rfl⟩ := vertex_back nils h
  rw [hj] at h1
  simp only [Option.some.injEq] at h1
  subst h1
  simp only [Table.node, Table.put, if_true, Option.bind_some, parse_torn h2 hpq hq, Option.bind_none]

/-- **C77**: if only a beginning of the counter was stored, reading it is an error. -/
theorem torn_count (t : Table) (n : Nat) {p q : Text} (hpq : p ++ q = render true (countJ n)) (hq : q ≠ []) : (t.put nCount p).count = none := by
  simp only [Table.count, Table.put, if_true, Option.bind_some, parse_torn (oneJ_ok _ _) hpq hq, Option.bind_none]

/-- **C77**: if only a beginning of the entry point was stored, it is silently 0 — never the number the digits up to there would make. -/
theorem torn_entry (t : Table) (e : Nat) {p q : Text} (hpq : p ++ q = render true (entryJ e)) (hq : q ≠ []) : (t.put kEntry p).entry = 0 := by
  simp only [Table.entry, Table.put, if_true, Option.bind_some, parse_torn (oneJ_ok _ _) hpq hq, Option.bind_none, Option.getD_none]

/-! ## Concrete cases -/

/-- a vertex on two layers with numbers that need rounding, a very small and a very large one -/
def someVertex : Vert := ⟨3, 1, [[1, 2], []], false, [.fin (13421773 / 2 ^ 27), .fin (-7 / 2 ^ 149), .fin (2 ^ 100), .fin 0], true⟩

/-- it meets the hypotheses -/
example : Fits someVertex := by
  refine ⟨by decide, by decide, by decide, ?_⟩
  intro n hn
  simp only [someVertex, List.mem_cons, List.not_mem_nil, or_false] at hn
  rcases hn with rfl | rfl | rfl | rfl
  · exact ⟨_, rfl, 13421773, -27, by norm_num, by norm_num, by norm_num, by rw [abs_of_pos] <;> norm_num⟩
  · exact ⟨_, rfl, -7, -149, by norm_num, by norm_num, by norm_num, by rw [abs_of_neg] <;> norm_num⟩
  · exact ⟨_, rfl, 1, 100, by norm_num, by norm_num, by norm_num, by rw [abs_of_pos] <;> norm_num⟩
  · exact ⟨_, rfl, 0, 0, by norm_num, by norm_num, by norm_num, by norm_num⟩

/-- its text, and what is read from it with and without the last brace, with spaces and other letters, and with a number too large for 32 bits -/
example :
    ((vertexJ (fun i => i = 3) someVertex).map fun j => String.ofList (render true j)) =
      some "{\"_id\":3,\"level\":1,\"connections\":[[1,2],null],\"maintenance\":false,\"vector\":[0.1,-1e-44,1.2676506e+30,0]}" ∧
    ((vertexJ (fun i => i = 3) someVertex).bind fun j => (parse (render true j)).bind vertexOf) = some { someVertex with committed := false } ∧
    ((vertexJ (fun i => i = 3) someVertex).bind fun j => (parse (render true j).dropLast).bind vertexOf) = none ∧
    (parse (" {\"_ID\" : 7, \"Level\":null, \"vector\": [1.5E1, null], \"other\":{\"a\":[]} } ").toList).bind vertexOf =
      some ⟨7, 0, [], false, [.fin 15, .fin 0], false⟩ ∧
    (parse ("{\"_id\":7,\"vector\":[3.5e38]}").toList).bind vertexOf = none ∧
    (parse ("{\"_id\":1.0}").toList).bind vertexOf = none ∧ (parse ("{\"_id\":01}").toList).isSome = false := by decide +kernel

/-- a table after writes, an overwritten node and a removal -/
example :
    (changes Table.empty [.write (fun _ => true) (.node someVertex), .write (fun _ => true) (.node { someVertex with id := 12, vec := [] }),
      .write (fun _ => true) (.entry 3), .write (fun _ => true) (.count 2), .write (fun _ => false) (.node { someVertex with level := 0 }),
      .remove 12]).map (fun t => (t.node 3, t.node 12, t.entry, t.count)) =
    some (some { someVertex with level := 0, committed := false }, none, 3, some 2) := by decide +kernel

/-- a string with a quote, a line break, a character beyond 16 bits and one of HTML; an escaped pair of halves is one character -/
example :
    String.ofList (render true (.str ['a', '"', '\n', '<', '😀'])) = "\"a\\\"\\n\\u003c😀\"" ∧
    ((parse ("\"\\ud83d\\ude00\\ud83d\"").toList).map fun v => match v with | .str s => s | _ => []) = some ['😀', Char.ofNat 0xfffd] := by decide +kernel

/-- the entry point 25 cut after its first digit is not 2 -/
example : parse ("{\"id\":2").toList = none ∧ (Table.empty.put kEntry ("{\"id\":2").toList).entry = 0 ∧
    (Table.empty.put kEntry (render true (entryJ 25))).entry = 25 := ⟨rfl, by decide +kernel, by decide +kernel⟩

/-- a vector with something that is not a number is refused -/
example : vertexJ (fun _ => false) { someVertex with vec := [.fin 1, .nan] } = none ∧ marshals [.fin 1, .nan] = false :=
  ⟨by rw [vertexJ, floatsJ_none ⟨.nan, by simp, .inl rfl⟩]; rfl, rfl⟩

-- a good vertex beside it does not help, and later changes are not made
example : ∃ nils v, Change.write nils (.node v) ∈ [.write (fun _ => true) (.entry 3), .write (fun _ => true) (.node someVertex),
      .write (fun _ => false) (.node { someVertex with vec := [.fin 1, .nan] }), .remove 3] ∧ marshals v.vec = false :=
  ⟨fun _ => false, _, .tail _ (.tail _ (.head _)), rfl⟩

end Fave.C77
