import Verif.Lemmas.ClientNear
import Verif.Spec.ExampleClient
/-!
# C42: which text is vectorised is determined by the request
-/
namespace Fave.C42
open Client
variable {F D : Type} [Dist D] [DecidableEq F]

/-- the text a property contributes -/
def textAt (p : Props F) (k : Str) : Option Str :=
  match p.get k with
  | some (.str s) => some s
  | _ => none

/-- the specified text: the requested properties the document has, in the requested order, each followed by a space -/
def wanted (p : Props F) (ks : List Str) : Str := (ks.filterMap (textAt p)).flatMap (fun s => s ++ [' '])

/-- the properties of a document, its identifier among them as property "id" -/
def allProps (d : Doc F) : Props F := d.props.set idName (.str d.id)

/-- The text is the concatenation of the requested properties the document has; if it has one of them that is not a string, the
request crashes before anything is sent. -/
theorem text_is_concatenation (p : Props F) (ks : List Str) :
    ((∀ k ∈ ks, ∀ v, p.get k = some v → ∃ s, v = .str s) → textOf p ks = .ok (wanted p ks)) ∧
    ((∃ k ∈ ks, ∃ v, p.get k = some v ∧ ∀ s, v ≠ .str s) → textOf p ks = .error .panic) := by
  induction ks with
  | nil => exact ⟨fun _ => rfl, fun ⟨k, hk, _⟩ => by simp at hk⟩
  | cons k ks ih =>
    constructor
    · intro h
      have ih := ih.1 (fun k' hk' => h k' (List.mem_cons_of_mem _ hk'))
      unfold textOf
      cases hp : p.get k with
      | none =>
        have : textAt p k = none := by unfold textAt; rw [hp]
        simp only [ih, wanted, List.filterMap_cons, this]
      | some v =>
        obtain ⟨s, rfl⟩ := h k (by simp) v hp
        have : textAt p k = some s := by unfold textAt; rw [hp]
        simp only [ih, wanted, List.filterMap_cons, this, List.flatMap_cons]
    · rintro ⟨k', hk', v, hv, hns⟩
      unfold textOf
      rcases List.mem_cons.mp hk' with rfl | hk'
      · rw [hv]
        cases v with
        | str s => exact absurd rfl (hns s)
        | null => rfl
        | int n => rfl
        | list l => rfl
        | floats l => rfl
        | other t => rfl
      · have ih := ih.2 ⟨k', hk', v, hv, hns⟩
        cases hp : p.get k with
        | none => simp only [ih]
        | some u =>
          cases u with
          | str s => simp only [ih]
          | null => rfl
          | int n => rfl
          | list l => rfl
          | floats l => rfl
          | other t => rfl

/-- The text is empty exactly if the document has none of the requested properties. -/
theorem text_empty_iff (p : Props F) (ks : List Str) (t : Str) (h : textOf p ks = .ok t) : t = [] ↔ ∀ k ∈ ks, p.get k = none := by
  induction ks generalizing t with
  | nil => cases h; simp
  | cons k ks ih =>
    unfold textOf at h
    cases hp : p.get k with
    | none =>
      rw [hp] at h
      rw [ih t h]
      simp [hp]
    | some v =>
      have hne : ∀ v, p.get k = some v → ¬ ∀ k' ∈ k :: ks, p.get k' = none := fun v hv hh => by
        rw [hh k (by simp)] at hv; cases hv
      rw [hp] at h
      cases v with
      | str s =>
        simp only at h
        split at h
        · cases h
        · cases h
          refine ⟨fun e => ?_, fun hh => absurd hh (hne _ hp)⟩
          simp at e
      | null => cases h
      | int n => cases h
      | list l => cases h
      | floats l => cases h
      | other t => cases h

/-- Nothing but the specified text is ever sent to the vectoriser: the outcome for a document depends on the vectoriser only through
its answer to that text. -/
theorem only_that_text_is_sent (E : Env F D) (o : Oracle F D) (lookup : Bool) (ti : List Str) (i : Nat) (b : Batch F) (d : Doc F)
    (corpi : Nat → Str → Corpi F) (h : corpi i (wanted (allProps d) ti) = o.corpi i (wanted (allProps d) ti)) :
    addOne E { o with corpi := corpi } lookup ti i b (some d) = addOne E o lookup ti i b (some d) := by
  unfold addOne
  simp only []
  cases hv : (d.props.set idName (.str d.id)).get vectorName with
  | none =>
    simp only []
    cases ht : textOf (d.props.set idName (.str d.id)) ti with
    | error e => rfl
    | ok t =>
      have hw : t = wanted (allProps d) ti := by
        by_cases hs : ∀ k ∈ ti, ∀ v, (d.props.set idName (.str d.id)).get k = some v → ∃ s, v = .str s
        · rw [(text_is_concatenation _ ti).1 hs] at ht; cases ht; rfl
        · have : ∃ k ∈ ti, ∃ v, (d.props.set idName (.str d.id)).get k = some v ∧ ∀ s, v ≠ .str s := by
            apply Classical.byContradiction
            intro hc
            apply hs
            intro k hk v hv'
            apply Classical.byContradiction
            intro hn
            exact hc ⟨k, hk, v, hv', fun s e => hn ⟨s, e⟩⟩
          rw [(text_is_concatenation _ ti).2 this] at ht; cases ht
      subst hw
      simp only [h]
      rfl
  | some v =>
    cases v with
    | null =>
      simp only []
      cases ht : textOf (d.props.set idName (.str d.id)) ti with
      | error e => rfl
      | ok t =>
        have hw : t = wanted (allProps d) ti := by
          by_cases hs : ∀ k ∈ ti, ∀ v, (d.props.set idName (.str d.id)).get k = some v → ∃ s, v = .str s
          · rw [(text_is_concatenation _ ti).1 hs] at ht; cases ht; rfl
          · have : ∃ k ∈ ti, ∃ v, (d.props.set idName (.str d.id)).get k = some v ∧ ∀ s, v ≠ .str s := by
              apply Classical.byContradiction
              intro hc
              apply hs
              intro k hk v hv'
              apply Classical.byContradiction
              intro hn
              exact hc ⟨k, hk, v, hv', fun s e => hn ⟨s, e⟩⟩
            rw [(text_is_concatenation _ ti).2 this] at ht; cases ht
        subst hw
        simp only [h]
        rfl
    | str s => rfl
    | int n => rfl
    | list l => rfl
    | floats l => rfl
    | other t => rfl

/-- A document without vector and with none of the requested properties never touches the index; if it is stored, it is stored with
number -1. -/
theorem without_text_number_minus_one (E : Env F D) (o : Oracle F D) (lookup : Bool) (ti : List Str) (i : Nat) (b b' : Batch F) (d : Doc F)
    (hv : (allProps d).get vectorName = none ∨ (allProps d).get vectorName = some .null) (ht : ∀ k ∈ ti, (allProps d).get k = none)
    (h : addOne E o lookup ti i b (some d) = (b', none)) :
    b'.idx = b.idx ∧ b'.next = b.next ∧
    (o.marshal i = false → ∃ p ∈ b'.docs, p.get hnswName = some (.int (-1)) ∧ p.get idName = some (.str d.id)) := by
  have htx : textOf (d.props.set idName (.str d.id)) ti = .ok [] := by
    have h1 := (text_is_concatenation (allProps d) ti).1 (fun k hk v hv' => by rw [ht k hk] at hv'; cases hv')
    have h2 := (text_empty_iff _ _ _ h1).mpr ht
    rw [h2] at h1; exact h1
  have hst : addOne E o lookup ti i b (some d) = storeDoc E o i b ((d.props.set idName (.str d.id)).set hnswName (.int (-1))) none := by
    unfold addOne
    simp only []
    rcases hv with hv | hv
    · have hv : (d.props.set idName (.str d.id)).get vectorName = none := hv
      rw [hv]; simp only [htx, if_true]
    · have hv : (d.props.set idName (.str d.id)).get vectorName = some .null := hv
      rw [hv]; simp only [htx, if_true]
  rw [hst] at h
  unfold storeDoc at h
  by_cases hm : o.marshal i = true
  · rw [if_pos hm] at h
    cases h
    exact ⟨rfl, rfl, fun hm' => by rw [hm] at hm'; cases hm'⟩
  · rw [if_neg hm] at h
    by_cases hp : o.put i = true
    · rw [if_pos hp] at h; cases h
    · rw [if_neg hp] at h
      cases h
      refine ⟨rfl, rfl, fun _ => ⟨_, List.mem_append_right _ (List.mem_singleton.mpr rfl), by simp, ?_⟩⟩
      rw [Map.get_set, if_neg (by decide)]
      simp

theorem lookupAll_numbers {o : Oracle F D} {docs : List (Props F)} {i : Nat} {ids : List Nat} {ps : List (Props F)}
    (h : lookupAll o docs i ids = .ok ps) : ∀ p ∈ ps, ∃ id ∈ ids, p.get hnswName = some (.int id) := by
  induction ids generalizing i ps with
  | nil => cases h; simp
  | cons id ids ih =>
    unfold lookupAll at h
    split at h
    · cases h
    · split at h
      · cases h
      · rename_i p hp
        split at h
        · cases h
        · rename_i qs hps
          cases h
          intro x hx
          rcases List.mem_cons.mp hx with rfl | hx
          · refine ⟨id, by simp, ?_⟩
            have := List.find?_some hp
            simpa using this
          · obtain ⟨id', h1, h2⟩ := ih hps x hx
            exact ⟨id', List.mem_cons_of_mem _ h1, h2⟩

/-- A document with number -1 never appears in an answer to a search. -/
theorem minus_one_never_found (E : Env F D) (o : Oracle F D) (w : World F) (name : Str) (max : D) (limit : Int) (r : Req F D)
    (hr : (∃ q, r = .nearVector o name q max limit) ∨ (∃ text, r = .nearText o name text max limit))
    (docs : List (Props F)) (ds : List D) (h : (serve E w r).2 = .near docs ds) : ∀ p ∈ docs, p.get hnswName ≠ some (.int (-1)) := by
  have key : ∀ (w1 : World F) (q : List F) (ef : Int), (nearWith E o w1 (ns ++ name) q max ef limit).2 = .ok (docs, ds) →
      ∀ p ∈ docs, p.get hnswName ≠ some (.int (-1)) := by
    intro w1 q ef hn p hp
    obtain ⟨_, _, _, ids', _, _, _, _, hd⟩ := nearWith_ok hn
    obtain ⟨id, _, h2⟩ := lookupAll_numbers hd p hp
    rw [h2]
    intro e
    simp only [Option.some.injEq, Val.int.injEq] at e
    omega
  rcases hr with ⟨q, rfl⟩ | ⟨text, rfl⟩
  · obtain ⟨w1, _, hn⟩ := serve_nearVector h
    exact key _ _ _ hn
  · obtain ⟨w1, q, _, hn⟩ := serve_nearText h
    exact key _ _ _ hn

/-! Non-vacuity: two of three requested properties are there; the identifier can be requested like a property; document "d" of the
example batch has no title and is stored with number -1. -/
example : wanted (allProps (⟨['7'], [(ExC.year, .str ['1', '9']), (ExC.title, .str ['a'])]⟩ : Doc Nat)) [ExC.title, ['x'], idName, ExC.year] =
    ['a', ' ', '7', ' ', '1', '9', ' '] := by decide
example : textOf (allProps (⟨['7'], [(ExC.year, .int 19)]⟩ : Doc Nat)) [ExC.title, ExC.year] = .error .panic := by decide
example : (ExC.w1.dbs.get (ns ++ ExC.books)).map (fun d => d.docs.map (fun p => p.get hnswName)) =
    some [some (.int 0), some (.int 1), some (.int 2), some (.int (-1)), some (.int 3)] := by decide +kernel

end Fave.C42
