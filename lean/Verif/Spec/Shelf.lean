import Verif.Spec.ClientAdd
/-!
# A collection as its users see it

What a collection should hold after a sequence of requests, read off the requests and the answers of the vectoriser alone.
-/
namespace Fave.Client
variable {F D : Type} [Dist D]

/-- what a user knows: is there a session, is a pod open, is there the collection, and which documents with vectors does it hold, in
order -/
structure Shelf (F : Type) where
  session : Bool
  pod : Bool
  there : Bool
  entries : List (Doc F × List F)

/-- at the beginning -/
def Shelf.start : Shelf F := ⟨false, false, false, []⟩

/-- the documents of a request that have a vector of the right length, with their vectors; `i` is the place of the first one -/
def taken (len : List F → Nat) (L : Nat) (o : Oracle F D) (ti : List Str) : Nat → List (Option (Doc F)) → List (Doc F × List F)
  | _, [] => []
  | i, none :: ds => taken len L o ti (i + 1) ds
  | i, some d :: ds =>
    match vectorOf o ti i d with
    | none => taken len L o ti (i + 1) ds
    | some v => if len v = L then (d, v) :: taken len L o ti (i + 1) ds else taken len L o ti (i + 1) ds

/-- what a request should change -/
def Shelf.next (len : List F → Nat) (L : Nat) (name : Str) (s : Shelf F) : Req F D → Shelf F
  | .login ok => if ok then { s with session := true } else s
  | .openPod ok => if s.session && ok then { s with pod := true } else s
  | .create _ n _ => if n = name ∧ s.pod then { s with there := true } else s
  | .delete _ n => if n = name ∧ s.pod then { s with there := false, entries := [] } else s
  | .add o n ti docs => if n = name ∧ s.pod ∧ s.there then { s with entries := s.entries ++ taken len L o ti 0 docs } else s
  | .restart => { s with session := false, pod := false }
  | _ => s

/-- the storage calls of a request succeed, and the vectoriser answers -/
structure Oracle.Works (o : Oracle F D) : Prop where
  kvCount : o.kvCount = false
  openTable : o.openTable = false
  isOpen : o.isOpen = false
  newIndex : o.newIndex = false
  docOpen : o.docOpen = false
  docCreate : o.docCreate = false
  createTable : o.createTable = false
  docDelete : o.docDelete = false
  deleteTable : o.deleteTable = false
  count : o.count = false
  commit : o.commit = false
  put : ∀ i, o.put i = false
  marshal : ∀ i, o.marshal i = false
  find : ∀ i, o.find i = false
  cut : o.cut = none
  corpi : ∀ i t, ∃ v, o.corpi i t = .vec v

/-- a document that can be read: its vector, if it has one, consists of numbers, and without vector the properties to be vectorised are
strings -/
def Readable (ti : List Str) (d : Doc F) : Prop :=
  (∃ (l : List (Elem F)) (v : List F), d.props.get vectorName = some (.list l) ∧ l.map Elem.value = v.map some) ∨ (∃ v, d.props.get vectorName = some (.floats v)) ∨
  ((d.props.get vectorName = none ∨ d.props.get vectorName = some .null) ∧ ∃ t, textOf (d.props.set idName (.str d.id)) ti = .ok t)

/-- An orderly request: if it is about the collection, the storage works; documents can be read; their vectors have the length of the
collection (other lengths are allowed if there are vectors already, and refused then); after an addition there is a vector and there are
at most `most` of them; the collection's documents are not looked up one by one. -/
def Orderly (len : List F → Nat) (L most : Nat) (name : Str) (s : Shelf F) : Req F D → Prop
  | .create o n _ => n = name → o.Works
  | .delete o n => n = name → o.Works
  | .add o n ti docs => n = name → o.Works ∧ (∀ x ∈ docs, ∃ d, x = some d ∧ Readable ti d) ∧
      (s.entries = [] → ∀ (i : Nat) (d : Doc F) (v : List F), docs[i]? = some (some d) → vectorOf o ti i d = some v → len v = L) ∧
      s.entries ++ taken len L o ti 0 docs ≠ [] ∧ (s.entries ++ taken len L o ti 0 docs).length ≤ most
  | .get _ _ n _ _ => n ≠ name
  | _ => True

/-- the same for every request of a sequence; `Shelf.after` is what it leads to -/
def OrderlyRun (len : List F → Nat) (L most : Nat) (name : Str) : Shelf F → List (Req F D) → Prop
  | _, [] => True
  | s, r :: rs => Orderly len L most name s r ∧ OrderlyRun len L most name (s.next len L name r) rs

/-- what a sequence of requests should lead to -/
def Shelf.after (len : List F → Nat) (L : Nat) (name : Str) (s : Shelf F) (rs : List (Req F D)) : Shelf F := rs.foldl (fun s r => s.next len L name r) s

end Fave.Client
