import Verif.Lemmas.Bodies
import Verif.Lemmas.JsonPrefix
/-!
# C80 — the server reads the request that the client wrote

*A request that is written as the body of a call (`MarshalBinary`) is read by the server (`BindRequest`) as the same request: no field, element, number or
character changes, nil and empty lists are told apart, and neither the order of the members nor anything the client adds to the body matters.*

Proved for the four requests that carry a body.  It does not say that what the server makes of the request afterwards keeps it; for documents and vectors see
C78 and C79.
-/
namespace Fave.C80
open Json F32 Docs Stored Bodies

/-! ## There and back -/

/-- **C80**, documents to be added: properties are whatever a decoder can produce — tables in order, without a name twice, numbers as they were written. -/
theorem add_back {html : Bool} {b : AddB} (h : ∀ l, b.docs = some l → ∀ d, some d ∈ l → ∀ p, d.props = some p → p.Ok ∧ take p = p ∧ p ≠ .null) :
    bind addOf (render html (addJ b)) = .ok b :=
  bind_render (addJ_ok h) (addOf_addJ h)

/-- **C80**, a collection to be created. -/
theorem coll_back {html : Bool} (b : CollB) : bind collOf (render html (collJ b)) = .ok b :=
  bind_render (collJ_ok b) (collOf_collJ b)

/-- **C80**, a search for a text: the limit is an `int64`, the distance any 32-bit float that is a number. -/
theorem near_back {html : Bool} {x : ℚ} (hx : IsFloat x) {n : Int} (hn : -2 ^ 63 ≤ n ∧ n < 2 ^ 63) (name text : Text) :
    ∃ j, nearJ ⟨.fin x, n, name, text⟩ = some j ∧ bind nearOf (render html j) = .ok ⟨.fin x, n, name, text⟩ := by
  obtain ⟨l, h1, h2, h3⟩ := nearJ_back (b := ⟨.fin x, n, name, text⟩) ⟨⟨x, rfl, hx⟩, hn⟩
  exact ⟨_, h1, bind_render h2 h3⟩

/-- **C80**, a search for a vector: the components are 32-bit floats that are numbers. -/
theorem vec_back {html : Bool} {x : ℚ} (hx : IsFloat x) {n : Int} (hn : -2 ^ 63 ≤ n ∧ n < 2 ^ 63) (name : Text) {vec : Option (List Num)}
    (hv : ∀ v, vec = some v → ∀ c ∈ v, ∃ y, c = .fin y ∧ IsFloat y) :
    ∃ j, vecJ ⟨.fin x, n, name, vec⟩ = some j ∧ bind vecOf (render html j) = .ok ⟨.fin x, n, name, vec⟩ := by
  obtain ⟨l, h1, h2, h3⟩ := vecJ_back (b := ⟨.fin x, n, name, vec⟩) ⟨⟨⟨x, rfl, hx⟩, hn⟩, hv⟩
  exact ⟨_, h1, bind_render h2 h3⟩

/-- **C80**, a search with a distance or a component that is not a number — infinite, or not a number at all — is not written. -/
theorem not_written (n : Int) (name text : Text) {vec : List Num} {d : Num} :
    (nearJ ⟨d, n, name, text⟩ = none ↔ ∀ x, d ≠ .fin x ∨ x ≠ 0 ∧ f32.lit x = none) ∧
    ((∃ c ∈ vec, ∀ x, c ≠ .fin x) → vecJ ⟨d, n, name, some vec⟩ = none) := by
  constructor
  · cases d with
    | fin x =>
      by_cases h0 : x = 0
      · subst h0; simp [nearJ, distJ]
      · constructor
        · intro h y
          by_cases hy : x = y
          · subst hy; right; simpa [nearJ, distJ, h0] using h
          · left; simpa using hy
        · intro h
          rcases h x with h | ⟨-, h⟩
          · exact absurd rfl h
          · simp [nearJ, distJ, h0, h]
    | _ => simp [nearJ, distJ]
  · rintro ⟨c, hc, h⟩
    have : compsJ vec = none := by
      induction vec with
      | nil => cases hc
      | cons a vec ih =>
        rcases List.mem_cons.1 hc with rfl | hc'
        · cases c with
          | fin x => exact absurd rfl (h x)
          | _ => rfl
        · cases a with
          | fin x => simp [compsJ, ih hc']
          | _ => rfl
    simp [vecJ, this]

/-! ## Any text -/

/-- **C80**: whatever text was read as a request, writing that request and reading it again gives the same; so a request can be passed on. -/
theorem rewritten {html : Bool} {t : Text} :
    (∀ b, bind addOf t = .ok b → bind addOf (render html (addJ b)) = .ok b) ∧
    (∀ b, bind collOf t = .ok b → bind collOf (render html (collJ b)) = .ok b) ∧
    (∀ b, bind nearOf t = .ok b → ∃ j, nearJ b = some j ∧ bind nearOf (render html j) = .ok b) ∧
    (∀ b, bind vecOf t = .ok b → ∃ j, vecJ b = some j ∧ bind vecOf (render html j) = .ok b) := by
  refine ⟨fun b h => ?_, fun b _ => coll_back b, fun b h => ?_, fun b h => ?_⟩ <;> obtain ⟨v, r, hv, hf⟩ := bind_ok h <;> have ok := (reads_ok _).1 _ _ _ hv
  · exact add_back (addOf_read ok hf)
  · obtain ⟨l, h1, h2, h3⟩ := nearJ_back (nearOf_read ok hf)
    exact ⟨_, h1, bind_render h2 h3⟩
  · obtain ⟨l, h1, h2, h3⟩ := vecJ_back (vecOf_read ok hf)
    exact ⟨_, h1, bind_render h2 h3⟩

/-- **C80**: what follows the request in the body is not looked at. -/
theorem rest_ignored {S : Type} {f : S → Text × J → Option S} {zero s : S} {t : Text} (h : bind (structOf f zero) t = .ok s) (junk : Text) :
    bind (structOf f zero) (t ++ junk) = .ok s := by
  obtain ⟨v, r, hv, hf⟩ := bind_ok h
  have hsk : skip t ≠ [] := by
    intro e
    simp [Bodies.bind, e] at h
  have hsk' : skip (t ++ junk) ≠ [] := by
    rw [skip_append hsk]
    simp [hsk]
  have hnum : ∀ l, v ≠ .num l := by
    rintro l rfl
    simp [structOf] at hf
  have := ((ext (t.length + 1)).1 hv).2 (.inr hnum) ((t ++ junk).length + 1) junk (by simp; omega)
  unfold Bodies.bind
  rw [if_neg hsk', this]
  simp only [hf]

/-- **C80**: a body that is empty or blank is missing, and `null` is a request in which nothing is said. -/
theorem nothing_said {S : Type} (f : S → Text × J → Option S) (zero : S) :
    (∀ t, bind (structOf f zero) t = .missing ↔ ∀ c ∈ t, c = ' ' ∨ c = '\t' ∨ c = '\r' ∨ c = '\n') ∧ bind (structOf f zero) "null".toList = .ok zero := by
  constructor
  · intro t
    have e : skip t = [] ↔ ∀ c ∈ t, c = ' ' ∨ c = '\t' ∨ c = '\r' ∨ c = '\n' := by
      induction t with
      | nil => simp [skip]
      | cons c t ih =>
        by_cases hc : c = ' ' ∨ c = '\t' ∨ c = '\r' ∨ c = '\n'
        · simp only [skip, hc, if_true, ih, List.mem_cons, forall_eq_or_imp, true_and]
        · simp only [skip, hc, if_false, List.mem_cons, forall_eq_or_imp, false_and, reduceCtorEq]
    rw [← e]
    unfold Bodies.bind
    by_cases hs : skip t = []
    · simp [hs]
    · rw [if_neg hs]
      simp only [hs, iff_false]
      split
      · simp
      · split <;> simp
  · rfl

/-! ## Members -/

/-- two members for the same field, whatever letters are capital -/
def Same (a b : Text × J) : Prop := a.1.map Char.toLower = b.1.map Char.toLower

theorem named_same {a b : Text × J} {k : Text} (ha : named a.1 k = true) (hb : named b.1 k = true) : Same a b := by
  simp only [named, beq_iff_eq] at ha hb
  exact ha.trans hb.symm

theorem fold_perm {S : Type} {f : S → Text × J → Option S} (hc : ∀ s a b, ¬ Same a b → (f s a).bind (f · b) = (f s b).bind (f · a))
    {l l' : List (Text × J)} (h : l.Perm l') (hd : l.Pairwise fun a b => ¬ Same a b) (s : S) : fold f s l = fold f s l' := by
  induction h generalizing s with
  | nil => rfl
  | cons a _ ih =>
    simp only [fold]
    congr 1
    funext s'
    exact ih (List.pairwise_cons.1 hd).2 s'
  | swap a b l =>
    have hne : ¬ Same b a := (List.pairwise_cons.1 hd).1 a (by simp)
    have := congrArg (·.bind fun s => fold f s l) (hc s b a hne)
    simp only [Option.bind_assoc] at this
    simpa only [fold] using this
  | trans h1 _ ih1 ih2 =>
    rw [ih1 hd s]
    exact ih2 (h1.pairwise hd fun h h' => h (Eq.symm h')) s

section
seal kId kProperties kFieldName kFieldType kDocuments kName kToVec kIndexes kDistance kLimit kText kVector

theorem doc_shape (m : Text × J) :
    (named m.1 kId = true ∧ ∀ s : DocB, docField s m = (strOf s.id m.2).map fun x => { s with id := x }) ∨
    (named m.1 kProperties = true ∧ ∀ s : DocB, docField s m = some { s with props := propOf m.2 }) ∨
    ∀ s : DocB, docField s m = some s := by
  unfold docField
  by_cases h0 : named m.1 kId = true
  · exact .inl ⟨h0, fun s => by rw [if_pos h0]⟩
  by_cases h1 : named m.1 kProperties = true
  · exact .inr (.inl ⟨h1, fun s => by rw [if_neg h0, if_pos h1]⟩)
  · exact .inr (.inr (fun s => by rw [if_neg h0, if_neg h1]))

theorem doc_commutes (s : DocB) (a b : Text × J) (h : ¬ Same a b) : (docField s a).bind (docField · b) = (docField s b).bind (docField · a) := by
  rcases doc_shape a with ⟨ha, ea⟩ | ⟨ha, ea⟩ | ea <;> rcases doc_shape b with ⟨hb, eb⟩ | ⟨hb, eb⟩ | eb <;>
    first
    | exact absurd (named_same ha hb) h
    | (simp only [ea, eb, Option.map_eq_bind, Option.bind_assoc, Function.comp_def, Option.bind_some]; first | done | exact Option.bind_comm _ _)

theorem index_shape (m : Text × J) :
    (named m.1 kFieldName = true ∧ ∀ s : IndexB, indexField s m = (strOf s.fieldName m.2).map fun x => { s with fieldName := x }) ∨
    (named m.1 kFieldType = true ∧ ∀ s : IndexB, indexField s m = (strOf s.fieldType m.2).map fun x => { s with fieldType := x }) ∨
    ∀ s : IndexB, indexField s m = some s := by
  unfold indexField
  by_cases h0 : named m.1 kFieldName = true
  · exact .inl ⟨h0, fun s => by rw [if_pos h0]⟩
  by_cases h1 : named m.1 kFieldType = true
  · exact .inr (.inl ⟨h1, fun s => by rw [if_neg h0, if_pos h1]⟩)
  · exact .inr (.inr (fun s => by rw [if_neg h0, if_neg h1]))

theorem index_commutes (s : IndexB) (a b : Text × J) (h : ¬ Same a b) : (indexField s a).bind (indexField · b) = (indexField s b).bind (indexField · a) := by
  rcases index_shape a with ⟨ha, ea⟩ | ⟨ha, ea⟩ | ea <;> rcases index_shape b with ⟨hb, eb⟩ | ⟨hb, eb⟩ | eb <;>
    first
    | exact absurd (named_same ha hb) h
    | (simp only [ea, eb, Option.map_eq_bind, Option.bind_assoc, Function.comp_def, Option.bind_some]; first | done | exact Option.bind_comm _ _)

theorem add_shape (m : Text × J) :
    (named m.1 kDocuments = true ∧ ∀ s : AddB, addField s m = (listOf (ptrOf docOf) m.2).map fun x => { s with docs := x }) ∨
    (named m.1 kName = true ∧ ∀ s : AddB, addField s m = (strOf s.name m.2).map fun x => { s with name := x }) ∨
    (named m.1 kToVec = true ∧ ∀ s : AddB, addField s m = (listOf (strOf []) m.2).map fun x => { s with toVec := x }) ∨
    ∀ s : AddB, addField s m = some s := by
  unfold addField
  by_cases h0 : named m.1 kDocuments = true
  · exact .inl ⟨h0, fun s => by rw [if_pos h0]⟩
  by_cases h1 : named m.1 kName = true
  · exact .inr (.inl ⟨h1, fun s => by rw [if_neg h0, if_pos h1]⟩)
  by_cases h2 : named m.1 kToVec = true
  · exact .inr (.inr (.inl ⟨h2, fun s => by rw [if_neg h0, if_neg h1, if_pos h2]⟩))
  · exact .inr (.inr (.inr (fun s => by rw [if_neg h0, if_neg h1, if_neg h2])))

theorem add_commutes (s : AddB) (a b : Text × J) (h : ¬ Same a b) : (addField s a).bind (addField · b) = (addField s b).bind (addField · a) := by
  rcases add_shape a with ⟨ha, ea⟩ | ⟨ha, ea⟩ | ⟨ha, ea⟩ | ea <;> rcases add_shape b with ⟨hb, eb⟩ | ⟨hb, eb⟩ | ⟨hb, eb⟩ | eb <;>
    first
    | exact absurd (named_same ha hb) h
    | (simp only [ea, eb, Option.map_eq_bind, Option.bind_assoc, Function.comp_def, Option.bind_some]; first | done | exact Option.bind_comm _ _)

theorem coll_shape (m : Text × J) :
    (named m.1 kIndexes = true ∧ ∀ s : CollB, collField s m = (listOf (ptrOf (structOf indexField ⟨[], []⟩)) m.2).map fun x => { s with indexes := x }) ∨
    (named m.1 kName = true ∧ ∀ s : CollB, collField s m = (strOf s.name m.2).map fun x => { s with name := x }) ∨
    ∀ s : CollB, collField s m = some s := by
  unfold collField
  by_cases h0 : named m.1 kIndexes = true
  · exact .inl ⟨h0, fun s => by rw [if_pos h0]⟩
  by_cases h1 : named m.1 kName = true
  · exact .inr (.inl ⟨h1, fun s => by rw [if_neg h0, if_pos h1]⟩)
  · exact .inr (.inr (fun s => by rw [if_neg h0, if_neg h1]))

theorem coll_commutes (s : CollB) (a b : Text × J) (h : ¬ Same a b) : (collField s a).bind (collField · b) = (collField s b).bind (collField · a) := by
  rcases coll_shape a with ⟨ha, ea⟩ | ⟨ha, ea⟩ | ea <;> rcases coll_shape b with ⟨hb, eb⟩ | ⟨hb, eb⟩ | eb <;>
    first
    | exact absurd (named_same ha hb) h
    | (simp only [ea, eb, Option.map_eq_bind, Option.bind_assoc, Function.comp_def, Option.bind_some]; first | done | exact Option.bind_comm _ _)

theorem near_shape (m : Text × J) :
    (named m.1 kDistance = true ∧ ∀ s : NearB, nearField s m = (float32Of s.dist m.2).map fun x => { s with dist := x }) ∨
    (named m.1 kLimit = true ∧ ∀ s : NearB, nearField s m = (int64Of s.limit m.2).map fun x => { s with limit := x }) ∨
    (named m.1 kName = true ∧ ∀ s : NearB, nearField s m = (strOf s.name m.2).map fun x => { s with name := x }) ∨
    (named m.1 kText = true ∧ ∀ s : NearB, nearField s m = (strOf s.text m.2).map fun x => { s with text := x }) ∨
    ∀ s : NearB, nearField s m = some s := by
  unfold nearField
  by_cases h0 : named m.1 kDistance = true
  · exact .inl ⟨h0, fun s => by rw [if_pos h0]⟩
  by_cases h1 : named m.1 kLimit = true
  · exact .inr (.inl ⟨h1, fun s => by rw [if_neg h0, if_pos h1]⟩)
  by_cases h2 : named m.1 kName = true
  · exact .inr (.inr (.inl ⟨h2, fun s => by rw [if_neg h0, if_neg h1, if_pos h2]⟩))
  by_cases h3 : named m.1 kText = true
  · exact .inr (.inr (.inr (.inl ⟨h3, fun s => by rw [if_neg h0, if_neg h1, if_neg h2, if_pos h3]⟩)))
  · exact .inr (.inr (.inr (.inr (fun s => by rw [if_neg h0, if_neg h1, if_neg h2, if_neg h3]))))

theorem near_commutes (s : NearB) (a b : Text × J) (h : ¬ Same a b) : (nearField s a).bind (nearField · b) = (nearField s b).bind (nearField · a) := by
  rcases near_shape a with ⟨ha, ea⟩ | ⟨ha, ea⟩ | ⟨ha, ea⟩ | ⟨ha, ea⟩ | ea <;> rcases near_shape b with ⟨hb, eb⟩ | ⟨hb, eb⟩ | ⟨hb, eb⟩ | ⟨hb, eb⟩ | eb <;>
    first
    | exact absurd (named_same ha hb) h
    | (simp only [ea, eb, Option.map_eq_bind, Option.bind_assoc, Function.comp_def, Option.bind_some]; first | done | exact Option.bind_comm _ _)

theorem vec_shape (m : Text × J) :
    (named m.1 kDistance = true ∧ ∀ s : VecB, vecField s m = (float32Of s.dist m.2).map fun x => { s with dist := x }) ∨
    (named m.1 kLimit = true ∧ ∀ s : VecB, vecField s m = (int64Of s.limit m.2).map fun x => { s with limit := x }) ∨
    (named m.1 kName = true ∧ ∀ s : VecB, vecField s m = (strOf s.name m.2).map fun x => { s with name := x }) ∨
    (named m.1 kVector = true ∧ ∀ s : VecB, vecField s m = (listOf floatOf m.2).map fun x => { s with vec := x }) ∨
    ∀ s : VecB, vecField s m = some s := by
  unfold vecField
  by_cases h0 : named m.1 kDistance = true
  · exact .inl ⟨h0, fun s => by rw [if_pos h0]⟩
  by_cases h1 : named m.1 kLimit = true
  · exact .inr (.inl ⟨h1, fun s => by rw [if_neg h0, if_pos h1]⟩)
  by_cases h2 : named m.1 kName = true
  · exact .inr (.inr (.inl ⟨h2, fun s => by rw [if_neg h0, if_neg h1, if_pos h2]⟩))
  by_cases h3 : named m.1 kVector = true
  · exact .inr (.inr (.inr (.inl ⟨h3, fun s => by rw [if_neg h0, if_neg h1, if_neg h2, if_pos h3]⟩)))
  · exact .inr (.inr (.inr (.inr (fun s => by rw [if_neg h0, if_neg h1, if_neg h2, if_neg h3]))))

theorem vec_commutes (s : VecB) (a b : Text × J) (h : ¬ Same a b) : (vecField s a).bind (vecField · b) = (vecField s b).bind (vecField · a) := by
  rcases vec_shape a with ⟨ha, ea⟩ | ⟨ha, ea⟩ | ⟨ha, ea⟩ | ⟨ha, ea⟩ | ea <;> rcases vec_shape b with ⟨hb, eb⟩ | ⟨hb, eb⟩ | ⟨hb, eb⟩ | ⟨hb, eb⟩ | eb <;>
    first
    | exact absurd (named_same ha hb) h
    | (simp only [ea, eb, Option.map_eq_bind, Option.bind_assoc, Function.comp_def, Option.bind_some]; first | done | exact Option.bind_comm _ _)

end

/-- **C80**: the order of the members does not matter, if no field is given twice. -/
theorem order_ignored {l l' : List (Text × J)} (h : l.Perm l') (hd : l.Pairwise fun a b => ¬ Same a b) :
    addOf (.obj l) = addOf (.obj l') ∧ docOf (.obj l) = docOf (.obj l') ∧ collOf (.obj l) = collOf (.obj l') ∧ nearOf (.obj l) = nearOf (.obj l') ∧
      vecOf (.obj l) = vecOf (.obj l') :=
  ⟨fold_perm add_commutes h hd _, fold_perm doc_commutes h hd _, fold_perm coll_commutes h hd _, fold_perm near_commutes h hd _,
    fold_perm vec_commutes h hd _⟩

theorem fold_skip {S : Type} {f : S → Text × J → Option S} {m : Text × J} (hm : ∀ s, f s m = some s) (s : S) (l l' : List (Text × J)) :
    fold f s (l ++ m :: l') = fold f s (l ++ l') := by
  simp only [fold_append, fold, hm, Option.bind_some]

/-- **C80**: a member that the server has no field for changes nothing and is not complained about — also one that is spelt wrongly. -/
theorem unknown_ignored {k : Text} (v : J) (l l' : List (Text × J)) :
    ((∀ n ∈ [kDocuments, kName, kToVec], named k n = false) → addOf (.obj (l ++ (k, v) :: l')) = addOf (.obj (l ++ l'))) ∧
    ((∀ n ∈ [kIndexes, kName], named k n = false) → collOf (.obj (l ++ (k, v) :: l')) = collOf (.obj (l ++ l'))) ∧
    ((∀ n ∈ [kDistance, kLimit, kName, kText], named k n = false) → nearOf (.obj (l ++ (k, v) :: l')) = nearOf (.obj (l ++ l'))) ∧
    ((∀ n ∈ [kDistance, kLimit, kName, kVector], named k n = false) → vecOf (.obj (l ++ (k, v) :: l')) = vecOf (.obj (l ++ l'))) := by
  refine ⟨fun h => fold_skip (fun s => ?_) _ l l', fun h => fold_skip (fun s => ?_) _ l l', fun h => fold_skip (fun s => ?_) _ l l',
    fun h => fold_skip (fun s => ?_) _ l l'⟩ <;>
  simp only [List.forall_mem_cons, List.not_mem_nil, false_imp_iff, implies_true, and_true] at h
  · simp only [addField, h.1, h.2.1, h.2.2, Bool.false_eq_true, if_false]
  · simp only [collField, h.1, h.2, Bool.false_eq_true, if_false]
  · simp only [nearField, h.1, h.2.1, h.2.2.1, h.2.2.2, Bool.false_eq_true, if_false]
  · simp only [vecField, h.1, h.2.1, h.2.2.1, h.2.2.2, Bool.false_eq_true, if_false]

/-! ## Refused -/

theorem fold_bad {S : Type} {f : S → Text × J → Option S} {m : Text × J} (hm : ∀ s, f s m = none) {l : List (Text × J)} (hl : m ∈ l) (s : S) :
    fold f s l = none := by
  induction l generalizing s with
  | nil => cases hl
  | cons a l ih =>
    simp only [fold]
    rcases List.mem_cons.1 hl with rfl | hl
    · rw [hm]; rfl
    · cases f s a with
      | none => rfl
      | some s' => exact ih hl s'

/-- **C80**: the limit of a search is read exactly if it is a whole number without point and exponent that an `int64` holds. -/
theorem limit_iff {old n : Int} {l : Lit} :
    int64Of old (.num l) = some n ↔ l.frac = none ∧ l.exp = none ∧ (n : ℚ) = l.value ∧ -2 ^ 63 ≤ n ∧ n < 2 ^ 63 := by
  have hv : l.frac = none → l.exp = none → l.value = ((if l.neg = true then -(Json.num l.int : Int) else (Json.num l.int : Int) : Int) : ℚ) := by
    intro h1 h2
    unfold Lit.value Lit.ten
    rw [h1, h2]
    split <;> simp
  simp only [int64Of]
  generalize (if l.neg = true then -(Json.num l.int : Int) else (Json.num l.int : Int)) = k at hv ⊢
  simp only [Option.ite_none_left_eq_some, Option.some.injEq, Bool.or_eq_true, decide_eq_true_eq, not_or, Bool.not_eq_true, Option.isSome_eq_false_iff,
    Option.isNone_iff_eq_none, not_lt, not_le]
  constructor
  · rintro ⟨⟨⟨⟨h1, h2⟩, h3⟩, h4⟩, rfl⟩
    exact ⟨h1, h2, (hv h1 h2).symm, h3, h4⟩
  · rintro ⟨h1, h2, h3, h4, h5⟩
    rw [hv h1 h2] at h3
    have : n = k := by exact_mod_cast h3
    subst this
    exact ⟨⟨⟨⟨h1, h2⟩, h4⟩, h5⟩, rfl⟩

/-- **C80**: one member that cannot be read refuses the whole search: a limit that is no `int64`, a distance that is too large for a 32-bit float or not a
number, a text that is not a string. -/
theorem one_bad_member {l : List (Text × J)} {k : Text} {v : J} (hl : (k, v) ∈ l)
    (h : k = kDistance ∧ (∀ a, v = .num a → f32.read a.value = none) ∧ v ≠ .null ∨ k = kLimit ∧ (∀ a, v = .num a → ∀ n, int64Of 0 v ≠ some n) ∧ v ≠ .null ∨
      k = kName ∧ (∀ s, v ≠ .str s) ∧ v ≠ .null) :
    nearOf (.obj l) = none ∧ vecOf (.obj l) = none := by
  have n1 : named kDistance kDistance = true := by decide
  have n2 : named kLimit kDistance = false := by decide
  have n3 : named kLimit kLimit = true := by decide
  have n4 : named kName kDistance = false := by decide
  have n5 : named kName kLimit = false := by decide
  have n6 : named kName kName = true := by decide
  have e1 : (∀ a, v = .num a → f32.read a.value = none) → v ≠ .null → ∀ o, float32Of o v = none := by
    intro h h' o
    cases v with
    | null => exact absurd rfl h'
    | num a => simp [float32Of, h a rfl]
    | _ => rfl
  have e2 : (∀ a, v = .num a → ∀ n, int64Of 0 v ≠ some n) → v ≠ .null → ∀ o, int64Of o v = none := by
    intro h h' o
    cases v with
    | null => exact absurd rfl h'
    | num a =>
      cases hx : int64Of o (.num a) with
      | none => rfl
      | some n => exact absurd (limit_iff.2 (limit_iff.1 hx)) (h a rfl n)
    | _ => rfl
  have e3 : (∀ s, v ≠ .str s) → v ≠ .null → ∀ o, strOf o v = none := by
    intro h h' o
    cases v with
    | null => exact absurd rfl h'
    | str s => exact absurd rfl (h s)
    | _ => rfl
  constructor <;> refine fold_bad (fun s => ?_) hl _ <;> rcases h with ⟨rfl, h, h'⟩ | ⟨rfl, h, h'⟩ | ⟨rfl, h, h'⟩
  · simp [nearField, n1, e1 h h']
  · simp [nearField, n2, n3, e2 h h']
  · simp [nearField, n4, n5, n6, e3 h h']
  · simp [vecField, n1, e1 h h']
  · simp [vecField, n2, n3, e2 h h']
  · simp [vecField, n4, n5, n6, e3 h h']

/-! ## The hypotheses are met -/

/-- a request with a nil document, one without properties and one with: a list, a table, a number as written, a string with `<` -/
def someAdd : AddB :=
  ⟨some [none, some ⟨['x'], none⟩,
    some ⟨[], some (.obj [(['a'], .num ⟨true, ['0'], some ['1', '0'], none⟩), (['b'], .arr [.null, .str ['<', '"']]), (['c'], .obj [])])⟩], ['c'], some []⟩
/-- the properties of the last document -/
def someProp : J := .obj [(['a'], .num ⟨true, ['0'], some ['1', '0'], none⟩), (['b'], .arr [.null, .str ['<', '"']]), (['c'], .obj [])]

theorem someProp_ok : someProp.Ok := by
  refine .obj _ fun m hm => ?_
  simp only [List.mem_cons, List.not_mem_nil, or_false] at hm
  rcases hm with rfl | rfl | rfl
  · exact .num _ (by simp [Lit.Ok, Digits])
  · refine .arr _ fun v hv => ?_
    simp only [List.mem_cons, List.not_mem_nil, or_false] at hv
    rcases hv with rfl | rfl
    · exact .null
    · exact .str _
  · exact .obj _ (by simp)

theorem someAdd_read : ∀ l, someAdd.docs = some l → ∀ d, some d ∈ l → ∀ p, d.props = some p → p.Ok ∧ take p = p ∧ p ≠ .null := by
  rintro l ⟨⟩ d hd p hp
  simp only [List.mem_cons, List.not_mem_nil, or_false, reduceCtorEq, Option.some.injEq, false_or] at hd
  rcases hd with rfl | rfl
  · cases hp
  · simp only [Option.some.injEq] at hp
    subst hp
    exact ⟨someProp_ok, rfl, by simp⟩

example : bind addOf (render true (addJ someAdd)) = .ok someAdd := add_back someAdd_read
example : render true (addJ someAdd) =
    ("{\"documents\":[null,{\"id\":\"x\"},{\"properties\":{\"a\":-0.10,\"b\":[null,\"\\u003c\\\"\"],\"c\":{}}}],\"name\":\"c\",\"propertiesToVectorize\":[]}").toList := by
  decide +kernel
example : render true (collJ ⟨some [some ⟨['f'], ['t']⟩, none], []⟩) = "{\"indexes\":[{\"fieldName\":\"f\",\"fieldType\":\"t\"},null]}".toList := by
  decide +kernel
example : (nearJ ⟨.fin (13421773 / 2 ^ 27), -3, [], ['t']⟩).map (render true) = some "{\"distance\":0.1,\"limit\":-3,\"text\":\"t\"}".toList := by decide +kernel
example : (vecJ ⟨.fin 0, 10, ['c'], some [.fin 1, .fin (-1 / 2)]⟩).map (render true) = some "{\"limit\":10,\"name\":\"c\",\"vector\":[1,-0.5]}".toList := by
  decide +kernel
example : ∃ j, vecJ ⟨.fin 0, 10, ['c'], some [.fin 1, .fin (-1 / 2)]⟩ = some j ∧
    bind vecOf (render true j) = .ok ⟨.fin 0, 10, ['c'], some [.fin 1, .fin (-1 / 2)]⟩ := by
  refine vec_back ⟨0, 0, by norm_num, by norm_num, by norm_num, by norm_num⟩ (by norm_num) _ ?_
  rintro v ⟨⟩ c hc
  simp only [List.mem_cons, List.not_mem_nil, or_false] at hc
  rcases hc with rfl | rfl
  · exact ⟨1, rfl, 1, 0, by norm_num, by norm_num, by norm_num, by norm_num⟩
  · exact ⟨-1 / 2, rfl, -1, -1, by norm_num, by norm_num, by norm_num, by norm_num⟩

-- a distance that is infinite is not written; an infinite component neither
example : nearJ ⟨.inf true, 1, [], []⟩ = none ∧ vecJ ⟨.fin 1, 1, [], some [.fin 1, .nan]⟩ = none := by decide +kernel

-- capital letters, another order, text after the request
example : named "LIMIT".toList kLimit = true ∧ named "propertiesToIndex".toList kToVec = false := by decide
example : bind collOf (render true (collJ ⟨none, ['c']⟩) ++ "} and more".toList) = .ok ⟨none, ['c']⟩ := rest_ignored (coll_back _) _
example : collOf (.obj [(kName, .str ['c']), ("INDEXES".toList, .arr [])]) = collOf (.obj [("INDEXES".toList, .arr []), (kName, .str ['c'])]) ∧
    collOf (.obj [(kName, .str ['c']), ("INDEXES".toList, .arr [])]) = some ⟨some [], ['c']⟩ :=
  ⟨(order_ignored (List.Perm.swap _ _ []) (by simp [Same]; decide)).2.2.1, by
    have n1 : named "INDEXES".toList kIndexes = true := by decide
    have n2 : named kName kIndexes = false := by decide
    have n3 : named kName kName = true := by decide
    simp only [collOf, structOf, fold, collField, n1, n2, n3, strOf, listOf, every]
    simp⟩
-- if a field is given twice the order matters
example : collOf (.obj [(kName, .str ['c']), (kName, .str ['d'])]) = some ⟨none, ['d']⟩ ∧
    collOf (.obj [(kName, .str ['d']), (kName, .str ['c'])]) = some ⟨none, ['c']⟩ := by
  have n2 : named kName kIndexes = false := by decide
  have n3 : named kName kName = true := by decide
  constructor <;> simp [collOf, structOf, fold, collField, n2, n3, strOf]
-- `"limit": 10` is read, `10.0` and `1e1` are not, nor is 2^63
example : int64Of 0 (.num ⟨false, ['1', '0'], none, none⟩) = some 10 ∧ int64Of 0 (.num ⟨false, ['1', '0'], some ['0'], none⟩) = none ∧
    int64Of 0 (.num ⟨false, ['1'], none, some (false, ['1'])⟩) = none ∧
    int64Of 0 (.num ⟨false, "9223372036854775808".toList, none, none⟩) = none ∧
    int64Of 0 (.num ⟨true, "9223372036854775808".toList, none, none⟩) = some (-9223372036854775808) := by decide +kernel
example : nearOf (.obj [(kText, .str ['t']), (kLimit, .num ⟨false, ['1', '0'], some ['0'], none⟩)]) = none :=
  (one_bad_member (k := kLimit) (v := .num ⟨false, ['1', '0'], some ['0'], none⟩) (by simp) (.inr (.inl ⟨rfl, fun a ha n hn => by
    cases ha
    exact absurd (limit_iff.1 hn).1 (by simp), by simp⟩))).1

end Fave.C80
