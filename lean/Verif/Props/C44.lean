import Verif.Lemmas.ClientNear
import Verif.Spec.ExampleClient
/-!
# C44: looking up a document by property returns a matching document

The statement is not true for all properties and values: with a blank property or value the condition is dropped and any document is the
answer (`blank_gets_any_document`), and since the condition is the text `property=value`, a property or value that itself contains `=`
makes different conditions indistinguishable, so that no storage library could answer both correctly (`ambiguous_conditions`).
-/
namespace Fave.C44
open Client
variable {F D : Type} [Dist D]

/-- the document has the property with that value: a string, or a number in decimal notation -/
def Holds (p : Props F) (property value : Str) : Prop :=
  p.get property = some (.str value) ∨ ∃ n : Nat, p.get property = some (.int n) ∧ value = digits n

/-- no character that has a meaning in conditions -/
def Plain (s : Str) : Prop := '=' ∉ s ∧ '<' ∉ s ∧ '>' ∉ s

/-- the documents of a collection -/
def docsOf (w : World F) (name : Str) : List (Props F) := ((w.dbs.get (ns ++ name)).getD ⟨[], []⟩).docs

theorem get_cases (o : Oracle F D) (sat : Str → Props F → Bool) (w : World F) (name property value : Str) :
    (getDocument o sat w name property value).2 = .error .error ∨
    ∃ p, (getDocument o sat w name property value).2 = .ok p ∧ (docsOf w name).find? (sat (exprOf property value)) = some p := by
  unfold getDocument
  simp only []
  split
  · exact .inl rfl
  · split
    · exact .inl rfl
    · simp only [setColl_dbs]
      split
      · exact .inl rfl
      · cases hf : ((w.dbs.get (ns ++ name)).getD ⟨[], []⟩).docs.find? (sat (exprOf property value)) with
        | none => exact .inl rfl
        | some p => exact .inr ⟨p, rfl, hf⟩

/-- Provided the storage library understands plain conditions (`hsat`): for a plain, non-blank property and value the answer is a
document of that collection with that property and value; an answer that there is none is given only if there is none (or a call of the
storage library fails). -/
theorem lookup_matches_partial [DecidableEq F] (E : Env F D) (o : Oracle F D) (sat : Str → Props F → Bool)
    (hsat : ∀ property value p, property ≠ [] → value ≠ [] → Plain property → Plain value →
      (sat (property ++ '=' :: value) p = true ↔ Holds p property value))
    (w : World F) (name property value : Str) (hp : property ≠ []) (hv : value ≠ []) (pp : Plain property) (pv : Plain value) :
    (∀ p, (serve E w (.get o sat name property value)).2 = .doc p → p ∈ docsOf w name ∧ Holds p property value) ∧
    ((∃ p ∈ docsOf w name, Holds p property value) → w.session = true → w.pod = true → o.isOpen = false → o.docOpen = false → o.find 0 = false →
      ∃ p, (serve E w (.get o sat name property value)).2 = .doc p) := by
  have he : exprOf property value = property ++ '=' :: value := by unfold exprOf; rw [if_pos ⟨hp, hv⟩]
  constructor
  · intro p h
    simp only [serve] at h
    rcases get_cases o sat w name property value with h1 | ⟨q, h1, h2⟩
    · rw [h1] at h; cases h
    · rw [h1] at h
      cases h
      refine ⟨List.mem_of_find?_eq_some h2, ?_⟩
      have := List.find?_some h2
      rw [he] at this
      exact (hsat _ _ _ hp hv pp pv).mp this
  · rintro ⟨p, hm, hh⟩ hs hpod h1 h2 h3
    have hdb : ∃ d, w.dbs.get (ns ++ name) = some d := by
      cases hd : w.dbs.get (ns ++ name) with
      | none => unfold docsOf at hm; rw [hd] at hm; simp at hm
      | some d => exact ⟨d, rfl⟩
    obtain ⟨d, hd⟩ := hdb
    simp only [serve, getDocument]
    rw [if_neg (by simp [h1, hs, hpod]), if_neg (by simp [h2, hd])]
    simp only [setColl_dbs, h3]
    cases hf : ((w.dbs.get (ns ++ name)).getD ⟨[], []⟩).docs.find? (sat (exprOf property value)) with
    | some q => exact ⟨q, rfl⟩
    | none =>
      have := List.find?_eq_none.mp hf p hm
      rw [he] at this
      exact absurd ((hsat _ _ _ hp hv pp pv).mpr hh) (by simpa using this)

/-- A look-up never changes documents, and never answers with a document of another collection or of none. -/
theorem lookup_stays_inside [DecidableEq F] (E : Env F D) (o : Oracle F D) (sat : Str → Props F → Bool) (w : World F) (name property value : Str) :
    (serve E w (.get o sat name property value)).1.dbs = w.dbs ∧
    ∀ p, (serve E w (.get o sat name property value)).2 = .doc p → p ∈ docsOf w name := by
  constructor
  · simp only [serve, getDocument]
    split
    · rfl
    · split <;> rfl
  · intro p h
    simp only [serve] at h
    rcases get_cases o sat w name property value with h1 | ⟨q, h1, h2⟩
    · rw [h1] at h; cases h
    · rw [h1] at h
      cases h
      exact List.mem_of_find?_eq_some h2

/-- With a blank property or value (and a library that takes the empty condition as "all") the answer is the first document of the
collection, whatever it is. -/
theorem blank_gets_any_document [DecidableEq F] (E : Env F D) (o : Oracle F D) (sat : Str → Props F → Bool) (hall : ∀ p, sat [] p = true)
    (w : World F) (name property value : Str) (hb : property = [] ∨ value = []) (p : Props F) (ps : List (Props F))
    (hd : docsOf w name = p :: ps) (hs : w.session = true) (hpod : w.pod = true)
    (h1 : o.isOpen = false) (h2 : o.docOpen = false) (h3 : o.find 0 = false) :
    (serve E w (.get o sat name property value)).2 = .doc p := by
  have he : exprOf property value = [] := by
    unfold exprOf
    rw [if_neg]
    rintro ⟨a, b⟩
    rcases hb with h | h
    · exact a h
    · exact b h
  have hdb : ∃ d, w.dbs.get (ns ++ name) = some d := by
    cases hdd : w.dbs.get (ns ++ name) with
    | none => unfold docsOf at hd; rw [hdd] at hd; simp at hd
    | some d => exact ⟨d, rfl⟩
  obtain ⟨d, hdd⟩ := hdb
  unfold docsOf at hd
  simp only [serve, getDocument]
  rw [if_neg (by simp [h1, hs, hpod]), if_neg (by simp [h2, hdd])]
  simp only [setColl_dbs, h3, hd, he]
  simp [hall]

/-- Whatever the storage library does: there is a collection of one document and a non-blank condition to which the answer is wrong:
either the document does not satisfy it, or it does and is reported missing. -/
theorem ambiguous_conditions (sat : Str → Props Nat → Bool) :
    ∃ (p : Props Nat) (property value : Str), property ≠ [] ∧ value ≠ [] ∧
      ∀ (E : Env Nat Nat) (o : Oracle Nat Nat) (w : World Nat) (name : Str), docsOf w name = [p] → w.session = true → w.pod = true →
        o.isOpen = false → o.docOpen = false → o.find 0 = false →
        ((serve E w (.get o sat name property value)).2 = .doc p ∧ ¬ Holds p property value) ∨
        ((serve E w (.get o sat name property value)).2 = .failed .error ∧ Holds p property value) := by
  have hdb : ∀ (w : World Nat) (name : Str) (p : Props Nat), docsOf w name = [p] → ∃ d, w.dbs.get (ns ++ name) = some d := by
    intro w name p hd
    cases hdd : w.dbs.get (ns ++ name) with
    | none => unfold docsOf at hd; rw [hdd] at hd; simp at hd
    | some d => exact ⟨d, rfl⟩
  by_cases h : sat ['a', '=', 'b', '=', 'c'] [(['a'], .str ['b', '=', 'c'])] = true
  · refine ⟨[(['a'], .str ['b', '=', 'c'])], ['a', '=', 'b'], ['c'], by simp, by simp, ?_⟩
    intro E o w name hd hs hpod h1 h2 h3
    left
    obtain ⟨d, hdd⟩ := hdb w name _ hd
    unfold docsOf at hd
    have he : exprOf ['a', '=', 'b'] ['c'] = ['a', '=', 'b', '=', 'c'] := by decide
    constructor
    · simp only [serve, getDocument]
      rw [if_neg (by simp [h1, hs, hpod]), if_neg (by simp [h2, hdd])]
      simp only [setColl_dbs, h3, hd, he, List.find?_cons, h]
      simp
    · have hg : Map.get ([(['a'], .str ['b', '=', 'c'])] : Props Nat) ['a', '=', 'b'] = none := by decide
      rintro (hx | ⟨n, hx, _⟩) <;> rw [hg] at hx <;> cases hx
  · refine ⟨[(['a'], .str ['b', '=', 'c'])], ['a'], ['b', '=', 'c'], by simp, by simp, ?_⟩
    intro E o w name hd hs hpod h1 h2 h3
    right
    obtain ⟨d, hdd⟩ := hdb w name _ hd
    unfold docsOf at hd
    have he : exprOf ['a'] ['b', '=', 'c'] = ['a', '=', 'b', '=', 'c'] := by decide
    constructor
    · simp only [serve, getDocument]
      rw [if_neg (by simp [h1, hs, hpod]), if_neg (by simp [h2, hdd])]
      simp only [setColl_dbs, h3, hd, he, List.find?_cons, h]
      simp
    · exact .inl (by decide)

/-! Non-vacuity: a matcher that splits at the first `=` satisfies `hsat`; it finds the document "c" of the example by its title. -/
/-- splits at the first `=` -/
def split : Str → Str × Str
  | [] => ([], [])
  | c :: cs => if c = '=' then ([], cs) else ((c :: (split cs).1), (split cs).2)
def sat0 (e : Str) (p : Props Nat) : Bool :=
  e = [] || (match p.get (split e).1 with
    | some (.str s) => decide (s = (split e).2)
    | some (.int n) => decide (0 ≤ n) && decide ((split e).2 = digits n.toNat)
    | _ => false)
theorem split_spec (a b : Str) (h : '=' ∉ a) : split (a ++ '=' :: b) = (a, b) := by
  induction a with
  | nil => simp [split]
  | cons c a ih =>
    simp only [List.mem_cons, not_or] at h
    simp only [List.cons_append, split, if_neg (Ne.symm h.1), ih h.2]
example : ∀ property value p, property ≠ [] → value ≠ [] → Plain property → Plain value →
    (sat0 (property ++ '=' :: value) p = true ↔ Holds p property value) := by
  intro property value p _ _ pp _
  unfold sat0 Holds
  rw [split_spec _ _ pp.1]
  cases hg : p.get property with
  | none => simp
  | some v =>
    cases v with
    | str s => simp
    | int n =>
      simp only [List.append_eq_nil_iff, reduceCtorEq, and_false, decide_false, Bool.false_or, Bool.and_eq_true, decide_eq_true_eq,
        Option.some.injEq, Val.int.injEq, false_or]
      constructor
      · rintro ⟨h1, h2⟩; exact ⟨n.toNat, by omega, h2⟩
      · rintro ⟨m, rfl, h2⟩; exact ⟨by omega, by simpa using h2⟩
    | null => simp
    | list l => simp
    | floats l => simp
    | other t => simp
example : (serve ExC.E ExC.w1 (.get ExC.o sat0 ExC.books ExC.title ['x', 'y', 'z'])).2 =
    .doc [(ExC.title, .str ['x', 'y', 'z']), (idName, .str ['c']), (hnswName, .int 2)] ∧
    (serve ExC.E ExC.w1 (.get ExC.o sat0 ExC.books ExC.title ['x', 'y'])).2 = .failed .error ∧
    (serve ExC.E ExC.w1 (.get ExC.o sat0 ExC.books ExC.title [])).2 = .doc [(idName, .str ['a']), (hnswName, .int 0)] := by decide +kernel

end Fave.C44
