import Verif.Model.Client
/-!
# What the theorems about adding documents speak of
-/
namespace Fave.Client
variable {F D : Type} [Dist D]

/-- the number a document of a batch has used up -/
def Res.number : Res → Option Nat
  | .indexed n => some n
  | .unmarshalled n => n
  | _ => none

/-- the numbers given in a batch, in order -/
def given (log : List Res) : List Nat := log.filterMap Res.number

/-- the vector number written in a stored document -/
def docNumber (p : Props F) : Option Nat :=
  match p.get hnswName with
  | some (.int (.ofNat n)) => some n
  | _ => none

/-- the vector numbers of the stored documents, in order -/
def docNumbers (docs : List (Props F)) : List Nat := docs.filterMap docNumber

/-- the documents stored under a (prefixed) collection name -/
def World.docs (w : World F) (c : Str) : List (Props F) := ((w.dbs.get c).getD ⟨[], []⟩).docs

/-- the stored count of vectors under a (prefixed) collection name, 0 if there is none -/
def World.count (w : World F) (c : Str) : Nat := ((w.coll c).idx.kvCount).getD 0

/-- the numbers of a list all of whose elements are numbers -/
def numbersOf (l : List (Elem F)) : Option (List F) :=
  if ∀ e ∈ l, e.value.isSome then some (l.filterMap Elem.value) else none

/-- the vector the document brings along or gets from the vectoriser, if any -/
def vectorOf (o : Oracle F D) (ti : List Str) (i : Nat) (d : Doc F) : Option (List F) :=
  match d.props.get vectorName with
  | some (.list l) => numbersOf l
  | some (.floats v) => some v
  | some .null | none =>
    match textOf (d.props.set idName (.str d.id)) ti with
    | .ok (ch :: t) => match o.corpi i (ch :: t) with | .vec v => some v | _ => none
    | _ => none
  | _ => none

/-- `p` is the stored form of the document `d` with the number `n` -/
structure StoredAs (d : Doc F) (n : Int) (p : Props F) : Prop where
  id : p.get idName = some (.str d.id)
  number : p.get hnswName = some (.int n)
  rest : ∀ k, k ≠ idName → k ≠ hnswName → k ≠ vectorName → p.get k = d.props.get k

/-- A request that leaves the collection in order: an addition can read the count, is answered with success, does not lose a document
that has used up a number, refuses only vectors whose length is not the length `L` of the collection's vectors, and there is a vector in
the collection afterwards; a deletion deletes both documents and vectors or none of them.  Requests of other kinds may do whatever they
do. -/
def Tidy [DecidableEq F] (E : Env F D) (L : Nat) (name : Str) (w : World F) : Req F D → Prop
  | .add o n ti docs => n = name →
      o.count = false ∧ (addDocuments E o w n ti docs).2.2 = none ∧
      (0 < w.count (ns ++ name) ∨ given (addDocuments E o w n ti docs).2.1 ≠ []) ∧
      ∀ i r d, (addDocuments E o w n ti docs).2.1[i]? = some r → docs[i]? = some (some d) →
        (∀ m, r ≠ .unmarshalled (some m)) ∧
        ∀ vec, vectorOf o ti i d = some vec → (r = .refused → E.P.metric.len vec ≠ L) ∧ (∀ m, r = .indexed m → E.P.metric.len vec = L)
  | .delete o n => n = name → o.docDelete = o.deleteTable
  | _ => True

/-- the same for every request of a sequence -/
def TidyRun [DecidableEq F] (E : Env F D) (L : Nat) (name : Str) : World F → List (Req F D) → Prop
  | _, [] => True
  | w, r :: rs => Tidy E L name w r ∧ TidyRun E L name (serve E w r).1 rs

/-- decidable form of `Tidy` -/
def tidyB [DecidableEq F] (E : Env F D) (L : Nat) (name : Str) (w : World F) : Req F D → Bool
  | .add o n ti docs => !decide (n = name) ||
      (!o.count && (addDocuments E o w n ti docs).2.2 == none &&
      (decide (0 < w.count (ns ++ name)) || given (addDocuments E o w n ti docs).2.1 != []) &&
      (((addDocuments E o w n ti docs).2.1.zip docs).zipIdx.all (fun e =>
        (match e.1.1 with | .unmarshalled (some _) => false | _ => true) &&
        match e.1.2 with
        | none => true
        | some d => match vectorOf o ti e.2 d with
          | none => true
          | some vec => match e.1.1 with
            | .refused => decide (E.P.metric.len vec ≠ L)
            | .indexed _ => decide (E.P.metric.len vec = L)
            | _ => true)))
  | .delete o n => !decide (n = name) || o.docDelete == o.deleteTable
  | _ => true

theorem tidyB_sound [DecidableEq F] {E : Env F D} {L : Nat} {name : Str} {w : World F} {r : Req F D} (h : tidyB E L name w r = true) : Tidy E L name w r := by
  cases r with
  | add o n ti docs =>
    intro hn
    simp only [tidyB, hn, decide_true, Bool.not_true, Bool.false_or, Bool.and_eq_true, List.all_eq_true] at h
    obtain ⟨⟨⟨h1, h2⟩, h3⟩, h4⟩ := h
    rw [hn]
    refine ⟨by simpa using h1, by simpa using h2, by simpa using h3, ?_⟩
    intro i r d hi hd
    have hz : ((addDocuments E o w name ti docs).2.1.zip docs)[i]? = some (r, some d) := by
      rw [List.getElem?_zip_eq_some]; exact ⟨hi, hd⟩
    have hm : ((r, some d), i) ∈ ((addDocuments E o w name ti docs).2.1.zip docs).zipIdx := List.mk_mem_zipIdx_iff_getElem?.mpr hz
    have h5 := h4 _ hm
    simp only at h5
    obtain ⟨h6, h7⟩ := h5
    refine ⟨(fun m e => by subst e; cases h6), ?_⟩
    intro vec hv
    rw [hv] at h7
    simp only at h7
    exact ⟨(fun e => by subst e; simpa using h7), (fun m e => by subst e; simpa using h7)⟩
  | delete o n =>
    intro hn
    simpa [tidyB, hn] using h
  | _ => trivial

/-- decidable form of `TidyRun` -/
def tidyRunB [DecidableEq F] (E : Env F D) (L : Nat) (name : Str) : World F → List (Req F D) → Bool
  | _, [] => true
  | w, r :: rs => tidyB E L name w r && tidyRunB E L name (serve E w r).1 rs

theorem tidyRunB_sound [DecidableEq F] {E : Env F D} {L : Nat} {name : Str} (rs : List (Req F D)) {w : World F} (h : tidyRunB E L name w rs = true) :
    TidyRun E L name w rs := by
  induction rs generalizing w with
  | nil => trivial
  | cons r rs ih =>
    simp only [tidyRunB, Bool.and_eq_true] at h
    exact ⟨tidyB_sound h.1, ih h.2⟩

end Fave.Client
