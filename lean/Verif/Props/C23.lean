import Verif.Lemmas.Rest
import Verif.Props.C21
import Verif.Spec.ExampleClient
/-!
# C23 — malformed REST requests are refused before any effect

True for the requests listed in `Malformed` (`malformed_refused`), and what passes is handed on exactly as sent (`create_handed_on_partial`,
`add_handed_on_partial`, `searches_handed_on`).  Parts that are false: an index of type "bytes" is accepted and silently dropped
(`bytes_index_dropped`), a null index or document crashes the handler (`null_index_crashes`, `null_document_crashes`), and a document whose
properties are not an object crashes it after the documents before it have been stored (`bad_properties_crash_half_way`).
-/
namespace Fave.C23
open Client Rest
variable {F D : Type} [Dist D] [DecidableEq F]

/-- the type names the interface documents, and "bytes" -/
def known : List Str := [tString, tNumber, tMap, tList, tBytes]

/-- blank collection name, missing list or text, unknown index type -/
def Malformed : HReq F D → Prop
  | .create _ name indexes => name = [] ∨ indexes = none ∨ ∃ l : List (Str × Str), indexes = some (l.map some) ∧ ∃ e ∈ l, e.2 ∉ known
  | .add _ name toIndex docs => name = [] ∨ toIndex = none ∨ docs = none
  | .nearText _ name text _ _ => name = [] ∨ text = []
  | .nearVector _ name q _ _ => name = [] ∨ q = none
  | .get _ _ name property value => name = [] ∨ property = [] ∨ value = []
  | .delete _ _ | .list _ => False

theorem ixType_known (t : Str) : ixType t = none ↔ t ∉ known := by
  simp only [ixType, known, List.mem_cons, List.not_mem_nil, or_false, not_or]
  constructor
  · intro h
    refine ⟨?_, ?_, ?_, ?_, ?_⟩ <;> (intro e; subst e; revert h; decide)
  · rintro ⟨h1, h2, h3, h4, h5⟩
    simp only [if_neg h1, if_neg h2, if_neg h3, if_neg h4, if_neg h5]

/-- A malformed request changes nothing at all and is answered with status 400, or 422 if it does not even get through the binding (a
look-up with an empty parameter, a document id that is no UUID). -/
theorem malformed_refused (E : Env F D) (uuid : Str → Bool) (w : World F) (r : HReq F D) (h : Malformed r) :
    (handle E uuid w r).1 = w ∧ ((∃ why, (handle E uuid w r).2 = .bad why) ∨
      (handle E uuid w r).2 = .unprocessable ∧ ((∃ o sat n p v, r = .get o sat n p v) ∨
        ∃ o n ti docs d, r = .add o n ti (some docs) ∧ some d ∈ docs ∧ d.id ≠ [] ∧ uuid d.id = false)) := by
  cases r with
  | create o name indexes =>
    unfold handle
    simp only
    by_cases hn : name = []
    · rw [if_pos hn]; exact ⟨rfl, .inl ⟨_, rfl⟩⟩
    · rw [if_neg hn]
      rcases h with h | h | ⟨l, rfl, ⟨f, t⟩, he, ht⟩
      · exact absurd h hn
      · subst h; exact ⟨rfl, .inl ⟨_, rfl⟩⟩
      · simp only
        rw [readIndexes_bad (f := f) (t := t) (fun e he => by simp at he; obtain ⟨_, _, _, rfl⟩ := he; simp)
          (List.mem_map.mpr ⟨_, he, rfl⟩) ((ixType_known t).mpr ht)]
        exact ⟨rfl, .inl ⟨_, rfl⟩⟩
  | add o name toIndex docs =>
    unfold handle
    simp only
    by_cases hu : (docs.getD []).any (badId uuid) = true
    · rw [if_pos hu]
      refine ⟨rfl, .inr ⟨rfl, .inr ?_⟩⟩
      cases docs with
      | none => simp at hu
      | some l =>
        obtain ⟨d, hd, hx⟩ := List.any_eq_true.mp hu
        cases d with
        | none => cases hx
        | some d =>
          simp only [badId, Bool.and_eq_true, decide_eq_true_eq, Bool.not_eq_true'] at hx
          exact ⟨o, name, toIndex, l, d, rfl, hd, hx.1, hx.2⟩
    · rw [if_neg hu]
      by_cases hn : name = []
      · rw [if_pos hn]; exact ⟨rfl, .inl ⟨_, rfl⟩⟩
      · rw [if_neg hn]
        rcases h with h | h | h
        · exact absurd h hn
        · subst h
          cases docs <;> exact ⟨rfl, .inl ⟨_, rfl⟩⟩
        · subst h; exact ⟨rfl, .inl ⟨_, rfl⟩⟩
  | nearText o name text max limit =>
    unfold handle
    simp only
    by_cases hn : name = []
    · rw [if_pos hn]; exact ⟨rfl, .inl ⟨_, rfl⟩⟩
    · rw [if_neg hn, if_pos (h.resolve_left hn)]; exact ⟨rfl, .inl ⟨_, rfl⟩⟩
  | nearVector o name q max limit =>
    unfold handle
    simp only
    by_cases hn : name = []
    · rw [if_pos hn]; exact ⟨rfl, .inl ⟨_, rfl⟩⟩
    · rw [if_neg hn, h.resolve_left hn]; exact ⟨rfl, .inl ⟨_, rfl⟩⟩
  | get o sat name property value =>
    unfold handle
    simp only
    have h : name = [] ∨ property = [] ∨ value = [] := h
    rw [if_pos h]
    exact ⟨rfl, .inr ⟨rfl, .inl ⟨_, _, _, _, _, rfl⟩⟩⟩
  | delete o name => exact absurd h (by simp [Malformed])
  | list o => exact absurd h (by simp [Malformed])

/-- A creation that is well-formed is handed to the client under the given name with an index map in which every field has the type of
its last entry in the request.  Missing from the full statement: entries of type "bytes" do not count, null entries crash. -/
theorem create_handed_on_partial (E : Env F D) (uuid : Str → Bool) (w : World F) (o : Oracle F D) (name : Str) (l : List (Str × Str)) (hn : name ≠ [])
    (hl : ∀ e ∈ l, e.2 ∈ known) :
    ∃ m : Map IxType, (handle E uuid w (.create o name (some (l.map some)))) =
        ((serve E w (.create o name m)).1, okResp .ok (serve E w (.create o name m)).2) ∧
      (∀ f, m.get f = none ↔ ∀ t, (f, t) ∈ l → t = tBytes) ∧
      (∀ f pre post, (∀ e ∈ post, e.1 ≠ f) → (l = pre ++ (f, tString) :: post → m.get f = some .string) ∧ (l = pre ++ (f, tNumber) :: post → m.get f = some .number) ∧
        (l = pre ++ (f, tMap) :: post → m.get f = some .map) ∧ (l = pre ++ (f, tList) :: post → m.get f = some .list)) := by
  obtain ⟨m, h1, h2⟩ := readIndexes_ok (F := F) (D := D) l (fun e he hx => ((ixType_known _).mp hx) (hl e he)) []
  have hm : ∀ k, m.get k = lastType l k := by intro k; rw [h2]; simp [Map.get]
  refine ⟨m, ?_, ?_, ?_⟩
  · simp only [handle, if_neg hn, h1]
  · intro f
    rw [hm]
    clear hm h1 h2
    induction l with
    | nil => simp [lastType]
    | cons e l ih =>
      obtain ⟨f', t⟩ := e
      have ih := ih (fun e he => hl e (by simp [he]))
      unfold lastType
      cases hlt : lastType l f with
      | some x =>
        rw [hlt] at ih
        simp only [reduceCtorEq, false_iff]
        intro hall
        have := ih.mpr (fun t ht => hall t (by simp [ht]))
        cases this
      | none =>
        rw [hlt] at ih
        have ih := ih.mp rfl
        simp only
        by_cases hf : f' = f
        · subst hf
          rw [if_pos rfl]
          have hk := hl (f', t) (by simp)
          simp only [known, List.mem_cons, List.not_mem_nil, or_false] at hk
          constructor
          · intro h t' ht'
            rcases List.mem_cons.mp ht' with h' | h'
            · cases h'
              rcases hk with rfl | rfl | rfl | rfl | rfl
              · revert h; decide
              · revert h; decide
              · revert h; decide
              · revert h; decide
              · rfl
            · exact ih t' h'
          · intro h
            have := h t (by simp)
            subst this; rfl
        · rw [if_neg hf]
          simp only [true_iff]
          intro t' ht'
          rcases List.mem_cons.mp ht' with h' | h'
          · cases h'; exact absurd rfl hf
          · exact ih t' h'
  · intro f pre post hpost
    have key : ∀ t x, ixType t = some (some x) → l = pre ++ (f, t) :: post → m.get f = some x := by
      intro t x ht he
      rw [hm, he]
      have hp : lastType post f = none := by
        clear he hm h1 h2
        induction post with
        | nil => rfl
        | cons e post ih =>
          unfold lastType
          rw [ih (fun e he => hpost e (by simp [he])), ]
          simp only [if_neg (hpost e (by simp))]
      clear he hm h1 h2
      induction pre with
      | nil => simp [lastType, hp, ht]
      | cons e pre ih =>
        show lastType (e :: (pre ++ (f, t) :: post)) f = some x
        unfold lastType
        rw [ih]
    exact ⟨key _ _ (by decide), key _ _ (by decide), key _ _ (by decide), key _ _ (by decide)⟩

/-- A well-formed addition (ids are UUIDs or absent, all properties are objects) is handed to the client with the given name, list of
properties and documents, in the given order; on success the answer tells the number of documents sent. -/
theorem add_handed_on_partial (E : Env F D) (uuid : Str → Bool) (w : World F) (o : Oracle F D) (name : Str) (ti : List Str) (docs : List (Doc F)) (hn : name ≠ [])
    (hid : ∀ d ∈ docs, d.id = [] ∨ uuid d.id = true) :
    handle E uuid w (.add o name (some ti) (some (docs.map (fun d => some ⟨d.id, some d.props⟩)))) =
      ((serve E w (.add o name ti (docs.map some))).1, okResp (.added docs.length) (serve E w (.add o name ti (docs.map some))).2) := by
  have hu : ¬ ((some (docs.map (fun d => some (⟨d.id, some d.props⟩ : RawDoc F)))).getD []).any (badId uuid) = true := by
    intro h
    obtain ⟨x, hx, hb⟩ := List.any_eq_true.mp h
    obtain ⟨d, hd, rfl⟩ := List.mem_map.mp hx
    rcases hid d hd with h1 | h1 <;> simp [badId, h1] at hb
  have hr : readDocs (docs.map (fun d => some (⟨d.id, some d.props⟩ : RawDoc F))) = some (docs.map some) := by
    have := readDocs_some (docs.map (fun d => (⟨d.id, some d.props⟩ : RawDoc F)))
    rw [List.map_map, List.map_map] at this
    exact this
  unfold handle
  simp only
  rw [if_neg hu, if_neg hn]
  simp only [hr, List.length_map]

/-- Well-formed searches, look-ups and deletions reach the client with the name, text, vector, distance and limit given. -/
theorem searches_handed_on (E : Env F D) (uuid : Str → Bool) (w : World F) (o : Oracle F D) (name : Str) (hn : name ≠ []) :
    (∀ text max limit, text ≠ [] → (handle E uuid w (.nearText o name text max limit)).1 = (serve E w (.nearText o name text max limit)).1 ∧
      ∀ e, (serve E w (.nearText o name text max limit)).2 = .failed e → (handle E uuid w (.nearText o name text max limit)).2 = if e = .panic then .crash else .bad .failed) ∧
    (∀ q max limit, (handle E uuid w (.nearVector o name (some q) max limit)).1 = (serve E w (.nearVector o name q max limit)).1 ∧
      ∀ e, (serve E w (.nearVector o name q max limit)).2 = .failed e → (handle E uuid w (.nearVector o name (some q) max limit)).2 = if e = .panic then .crash else .bad .failed) ∧
    (∀ sat p v, p ≠ [] → v ≠ [] → (handle E uuid w (.get o sat name p v)).1 = (serve E w (.get o sat name p v)).1) ∧
    (handle E uuid w (.delete o name)).1 = (serve E w (.delete o name)).1 := by
  refine ⟨fun text max limit ht => ⟨?_, fun e he => ?_⟩, fun q max limit => ⟨?_, fun e he => ?_⟩, fun sat p v hp hv => ?_, rfl⟩
  · simp only [handle, if_neg hn, if_neg ht]
  · simp only [handle, if_neg hn, if_neg ht, he, nearResp]; cases e <;> rfl
  · simp only [handle, if_neg hn]
  · simp only [handle, if_neg hn, he, nearResp]; cases e <;> rfl
  · simp only [handle]
    rw [if_neg (by simp [hn, hp, hv])]

/-! ## where the statement is false -/

/-- an index of the undocumented type "bytes" is accepted, and the collection is created without it -/
theorem bytes_index_dropped :
    (handle ExC.E (fun _ => true) ExC.w0 (.create ExC.o ['x'] (some [some (ExC.year, tBytes), some (ExC.title, tString)]))).2 = .ok ∧
    (handle ExC.E (fun _ => true) (handle ExC.E (fun _ => true) ExC.w0 (.create ExC.o ['x'] (some [some (ExC.year, tBytes), some (ExC.title, tString)]))).1 (.list ExC.o)).2 =
      .listed [(ExC.books, [(ExC.title, tString), (hnswName, tNumber)]), (ExC.films, [(hnswName, tNumber)]), (['x'], [(ExC.title, tString), (hnswName, tNumber)])] := by
  decide +kernel

/-- a null entry in the index list crashes the handler, in every state -/
theorem null_index_crashes (E : Env F D) (uuid : Str → Bool) (w : World F) (o : Oracle F D) (name : Str) (l : List (Option (Str × Str))) (hn : name ≠ []) :
    handle E uuid w (.create o name (some (none :: l))) = (w, .crash) := by
  simp only [handle, if_neg hn, readIndexes]

/-- the four type names and the index types they stand for -/
def named : List (IxType × Str) := [(.string, tString), (.number, tNumber), (.map, tMap), (.list, tList)]

/-- The list of collections shows the collections the client reports, in its order, each with exactly its indexes of the four documented
types, under the names those types have in a creation. -/
theorem listed_as_reported (E : Env F D) (uuid : Str → Bool) (w : World F) (o : Oracle F D) (l : List (Str × Map IxType))
    (h : (serve E w (.list o)).2 = .names l) :
    ∃ r : List (Str × List (Str × Str)), (handle E uuid w (.list o)).2 = .listed r ∧ r.map Prod.fst = l.map Prod.fst ∧
      ∀ i (hi : i < l.length) (hr : i < r.length), ∀ f t, (f, t) ∈ r[i].2 ↔ ∃ ty, (f, ty) ∈ l[i].2 ∧ (ty, t) ∈ named := by
  refine ⟨_, by simp only [handle, h]; rfl, by simp, fun i hi hr f t => ?_⟩
  simp only [List.getElem_map, List.mem_filterMap, Option.map_eq_some_iff, Prod.mk.injEq]
  constructor
  · rintro ⟨⟨g, ty⟩, hm, t', ht, rfl, rfl⟩
    refine ⟨ty, hm, ?_⟩
    cases ty <;> simp [typeName] at ht <;> subst ht <;> simp [named]
  · rintro ⟨ty, hm, ht⟩
    refine ⟨(f, ty), hm, t, ?_, rfl, rfl⟩
    simp only [named, List.mem_cons, List.not_mem_nil, or_false, Prod.mk.injEq] at ht
    rcases ht with ⟨rfl, rfl⟩ | ⟨rfl, rfl⟩ | ⟨rfl, rfl⟩ | ⟨rfl, rfl⟩ <;> rfl

/-- a list with three indexes of two collections, "bytes" excepted (`bytes_index_dropped`) -/
example : ∃ l, (serve ExC.E ExC.w0 (.list ExC.o)).2 = .names l ∧ (l.map (·.2.length)) = [2, 1] :=
  ⟨_, rfl, by decide +kernel⟩

/-- a null document crashes the handler, in every state -/
theorem null_document_crashes (E : Env F D) (uuid : Str → Bool) (w : World F) (o : Oracle F D) (name : Str) (ti : List Str) (hn : name ≠ []) :
    handle E uuid w (.add o name (some ti) (some [none])) = (w, .crash) := by
  simp only [handle, if_neg hn, readDocs]; rfl

/-- A document whose properties are no object crashes the request after the document before it has been stored: the stored data has
changed and the vector, not yet flushed, has the number the next addition will use again. -/
theorem bad_properties_crash_half_way :
    let r := handle ExC.E (fun _ => true) ExC.w0 (.add ExC.o ExC.books (some [ExC.title]) (some [some ⟨['a'], some [(vectorName, .floats [10, 0])]⟩, some ⟨['b'], none⟩]))
    r.2 = .crash ∧ ((r.1.dbs.get (ns ++ ExC.books)).getD ⟨[], []⟩).docs = [[(idName, .str ['a']), (hnswName, .int 0)]] ∧ (r.1.coll (ns ++ ExC.books)).idx.docCount = none := by
  decide +kernel

/-! Non-vacuity. -/
/-- six malformed requests -/
example : Malformed (.create ExC.o [] (some []) : HReq Nat Nat) ∧ Malformed (.create ExC.o ['x'] none : HReq Nat Nat) ∧
    Malformed (.create ExC.o ['x'] (some ([(ExC.title, tString), (ExC.year, ['d', 'a', 't', 'e'])].map some)) : HReq Nat Nat) ∧
    Malformed (.add ExC.o ['x'] none (some []) : HReq Nat Nat) ∧ Malformed (.nearText ExC.o ['x'] [] 5 5 : HReq Nat Nat) ∧
    Malformed (.nearVector ExC.o ['x'] none 5 5 : HReq Nat Nat) :=
  ⟨.inl rfl, .inr (.inl rfl), .inr (.inr ⟨_, rfl, (ExC.year, ['d', 'a', 't', 'e']), by decide, by decide⟩), .inr (.inl rfl), .inr rfl, .inr rfl⟩
/-- a field named twice -/
example : (∀ e ∈ [(ExC.title, tNumber), (ExC.year, tNumber), (ExC.title, tString)], e.2 ∈ known) ∧
    (handle ExC.E (fun _ => true) (handle ExC.E (fun _ => true) ExC.w0 (.create ExC.o ['x'] (some ([(ExC.title, tNumber), (ExC.year, tNumber), (ExC.title, tString)].map some)))).1
      (.list ExC.o)).2 = .listed [(ExC.books, [(ExC.title, tString), (hnswName, tNumber)]), (ExC.films, [(hnswName, tNumber)]),
        (['x'], [(ExC.year, tNumber), (ExC.title, tString), (hnswName, tNumber)])] := by decide +kernel
/-- a well-formed addition through the handler -/
example : (∀ d ∈ [(⟨['a'], [(vectorName, .floats [10, 0])]⟩ : Doc Nat), ⟨[], [(ExC.title, .str ['y'])]⟩], d.id = [] ∨ (fun s : Str => decide (s = ['a'])) d.id = true) ∧
    (handle ExC.E (fun s => s = ['a']) ExC.w0 (.add ExC.o ExC.books (some [ExC.title]) (some ([(⟨['a'], [(vectorName, .floats [10, 0])]⟩ : Doc Nat), ⟨[], [(ExC.title, .str ['y'])]⟩].map
      (fun d => some ⟨d.id, some d.props⟩))))).2 = .added 2 := by decide +kernel

end Fave.C23
