import Verif.Model.VecText
/-!
# Request bodies as JSON texts

The structures of models/*.go as they are written by `MarshalBinary` (encoding/json through swag) and as the server reads them from the body of a request
(`BindRequest` in restapi/operations/*_parameters.go with the consumer of restapi/configure_fave.go:43).  encoding/json, swag and go-openapi/runtime are
not in /repo.

Simplified: a list that is given twice in one object replaces the first, where encoding/json would read the second over the elements of the first; names
of members are compared with letters of the Latin alphabet folded, where encoding/json also takes `ſ` for `s` and the Kelvin sign for `k`.
-/
namespace Fave.Bodies
open Json F32 Docs Stored

/-! ## Structures -/

/-- `models.Document`; `none`: the properties are nil — models/document.go:20-28 -/
structure DocB where
  id : Text
  props : Option J

/-- `models.AddDocumentsRequest`; `none`: a nil slice or pointer — models/add_documents_request.go:20-30 -/
structure AddB where
  docs : Option (List (Option DocB))
  name : Text
  toVec : Option (List Text)

/-- `models.Index` — models/index.go:18-25 -/
structure IndexB where
  fieldName : Text
  fieldType : Text
  deriving DecidableEq

/-- `models.Collection` — models/collection.go:20-27 -/
structure CollB where
  indexes : Option (List (Option IndexB))
  name : Text
  deriving DecidableEq

/-- `models.NearestDocumentsRequest` — models/nearest_documents_request.go:18-31 -/
structure NearB where
  dist : Num
  limit : Int
  name : Text
  text : Text
  deriving DecidableEq

/-- `models.NearestDocumentsByVectorRequest` — models/nearest_documents_by_vector_request.go:18-31 -/
structure VecB where
  dist : Num
  limit : Int
  name : Text
  vec : Option (List Num)
  deriving DecidableEq

/-! ## Names -/

/-- the member "text" — models/nearest_documents_request.go:30 -/
def kText : Text := "text".toList
/-- the member "limit" — models/nearest_documents_request.go:24 -/
def kLimit : Text := "limit".toList
/-- the member "indexes" — models/collection.go:23 -/
def kIndexes : Text := "indexes".toList
/-- the member "fieldName" — models/index.go:21 -/
def kFieldName : Text := "fieldName".toList
/-- the member "fieldType" — models/index.go:24 -/
def kFieldType : Text := "fieldType".toList
/-- the member "propertiesToVectorize" — models/add_documents_request.go:29 -/
def kToVec : Text := "propertiesToVectorize".toList

/-! ## Writing -/

/-- a member with `omitempty` — models/*.go, the tags of the fields -/
def nonEmpty (empty : Bool) (k : Text) (v : J) : List (Text × J) := if empty then [] else [(k, v)]

/-- a slice; nil is written as `null` — models/add_documents_request.go:23, 29, models/collection.go:23 -/
def listJ {α : Type} (f : α → J) : Option (List α) → J
  | none => .null
  | some l => .arr (l.map f)

/-- a pointer — models/add_documents_request.go:23, models/collection.go:23 -/
def ptrJ {α : Type} (f : α → J) : Option α → J
  | none => .null
  | some a => f a

/-- a document — models/document.go:20-28, 62-67 -/
def docJ (d : DocB) : J := .obj (nonEmpty (d.id == []) kId (.str d.id) ++ match d.props with | none => [] | some p => [(kProperties, p)])

/-- documents to be added — models/add_documents_request.go:20-30, 107-112 -/
def addJ (b : AddB) : J :=
  .obj ((kDocuments, listJ (ptrJ docJ) b.docs) :: (nonEmpty (b.name == []) kName (.str b.name) ++ [(kToVec, listJ .str b.toVec)]))

/-- an index — models/index.go:18-25 -/
def indexB (i : IndexB) : J :=
  .obj (nonEmpty (i.fieldName == []) kFieldName (.str i.fieldName) ++ nonEmpty (i.fieldType == []) kFieldType (.str i.fieldType))

/-- a collection — models/collection.go:20-27, 104-109 -/
def collJ (b : CollB) : J := .obj ((kIndexes, listJ (ptrJ indexB) b.indexes) :: nonEmpty (b.name == []) kName (.str b.name))

/-- an `int64` — models/nearest_documents_request.go:24 -/
def intJ (n : Int) : J := .num ⟨decide (n < 0), nat n.natAbs, none, none⟩

/-- a `float32` with `omitempty`; `none`: not a finite number, so that `json.Marshal` fails — models/nearest_documents_request.go:21 -/
def distJ : Num → Option (List (Text × J))
  | .fin x => if x = 0 then some [] else (f32.lit x).map fun l => [(kDistance, .num l)]
  | _ => none

/-- a search for a text — models/nearest_documents_request.go:18-31, 44-49 -/
def nearJ (b : NearB) : Option J :=
  (distJ b.dist).map fun d => .obj (d ++ nonEmpty (b.limit == 0) kLimit (intJ b.limit) ++ nonEmpty (b.name == []) kName (.str b.name) ++
    nonEmpty (b.text == []) kText (.str b.text))

/-- the components of a vector — models/nearest_documents_by_vector_request.go:30 -/
def compsJ : List Num → Option (List J)
  | [] => some []
  | .fin x :: l =>
    match f32.lit x, compsJ l with
    | some a, some r => some (.num a :: r)
    | _, _ => none
  | _ :: _ => none

/-- a search for a vector — models/nearest_documents_by_vector_request.go:18-31, 44-49 -/
def vecJ (b : VecB) : Option J :=
  match distJ b.dist, (match b.vec with | none => some J.null | some v => (compsJ v).map .arr) with
  | some d, some v => some (.obj (d ++ nonEmpty (b.limit == 0) kLimit (intJ b.limit) ++ nonEmpty (b.name == []) kName (.str b.name) ++ [(kVector, v)]))
  | _, _ => none

/-! ## Reading -/

/-- does the name of a member mean this field? — encoding/json `foldName`, used at configure_fave.go:43 -/
def named (k name : Text) : Bool := k.map Char.toLower == name.map Char.toLower

/-- the members of an object, one after the other — encoding/json `object`, used at configure_fave.go:43 -/
def fold {S : Type} (f : S → Text × J → Option S) : S → List (Text × J) → Option S
  | s, [] => some s
  | s, m :: l => (f s m).bind fun s => fold f s l

/-- a structure; `null` leaves it as it is — encoding/json `object`, `literalStore`, used at configure_fave.go:43 -/
def structOf {S : Type} (f : S → Text × J → Option S) (zero : S) : J → Option S
  | .null => some zero
  | .obj l => fold f zero l
  | _ => none

/-- a pointer to a structure — encoding/json `indirect`, used at configure_fave.go:43 -/
def ptrOf {S : Type} (f : J → Option S) : J → Option (Option S)
  | .null => some none
  | v => (f v).map some

/-- a slice — encoding/json `array`, `literalStore`, used at configure_fave.go:43 -/
def listOf {α : Type} (f : J → Option α) : J → Option (Option (List α))
  | .null => some none
  | .arr l => (every f l).map some
  | _ => none

/-- a string; `null` leaves it — models/document.go:24 (strfmt `UUID.UnmarshalJSON`), models/nearest_documents_request.go:27, 30 -/
def strOf (old : Text) : J → Option Text
  | .null => some old
  | .str s => some s
  | _ => none

/-- an `int64`: no point, no exponent, in range — models/nearest_documents_request.go:24 -/
def int64Of (old : Int) : J → Option Int
  | .null => some old
  | .num l =>
    let n : Int := if l.neg then -(Json.num l.int : Int) else Json.num l.int
    if l.frac.isSome || l.exp.isSome || decide (n < -2 ^ 63) || decide (2 ^ 63 ≤ n) then none else some n
  | _ => none

/-- a `float32` — models/nearest_documents_request.go:21 -/
def float32Of (old : Num) : J → Option Num
  | .null => some old
  | .num l => (f32.read l.value).map .fin
  | _ => none

/-- properties: anything, nil for `null` — models/property.go:11, models/document.go:27 -/
def propOf : J → Option J
  | .null => none
  | v => some (take v)

/-- a member of a document — models/document.go:20-28 -/
def docField (d : DocB) (m : Text × J) : Option DocB :=
  if named m.1 kId then (strOf d.id m.2).map fun x => { d with id := x }
  else if named m.1 kProperties then some { d with props := propOf m.2 }
  else some d

/-- a document — models/document.go:20-28 -/
def docOf : J → Option DocB := structOf docField ⟨[], none⟩

/-- a member of a request to add documents — models/add_documents_request.go:20-30 -/
def addField (b : AddB) (m : Text × J) : Option AddB :=
  if named m.1 kDocuments then (listOf (ptrOf docOf) m.2).map fun x => { b with docs := x }
  else if named m.1 kName then (strOf b.name m.2).map fun x => { b with name := x }
  else if named m.1 kToVec then (listOf (strOf []) m.2).map fun x => { b with toVec := x }
  else some b

/-- a request to add documents — models/add_documents_request.go:20-30, restapi/operations/fave_add_documents_parameters.go:53-58 -/
def addOf : J → Option AddB := structOf addField ⟨none, [], none⟩

/-- a member of an index — models/index.go:18-25 -/
def indexField (i : IndexB) (m : Text × J) : Option IndexB :=
  if named m.1 kFieldName then (strOf i.fieldName m.2).map fun x => { i with fieldName := x }
  else if named m.1 kFieldType then (strOf i.fieldType m.2).map fun x => { i with fieldType := x }
  else some i

/-- a member of a collection — models/collection.go:20-27 -/
def collField (b : CollB) (m : Text × J) : Option CollB :=
  if named m.1 kIndexes then (listOf (ptrOf (structOf indexField ⟨[], []⟩)) m.2).map fun x => { b with indexes := x }
  else if named m.1 kName then (strOf b.name m.2).map fun x => { b with name := x }
  else some b

/-- a collection to be created — models/collection.go:20-27, restapi/operations/fave_create_collection_parameters.go:53-58 -/
def collOf : J → Option CollB := structOf collField ⟨none, []⟩

/-- a member of a search for a text — models/nearest_documents_request.go:18-31 -/
def nearField (b : NearB) (m : Text × J) : Option NearB :=
  if named m.1 kDistance then (float32Of b.dist m.2).map fun x => { b with dist := x }
  else if named m.1 kLimit then (int64Of b.limit m.2).map fun x => { b with limit := x }
  else if named m.1 kName then (strOf b.name m.2).map fun x => { b with name := x }
  else if named m.1 kText then (strOf b.text m.2).map fun x => { b with text := x }
  else some b

/-- a search for a text — models/nearest_documents_request.go:18-31, restapi/operations/fave_get_nearest_documents_parameters.go:53-58 -/
def nearOf : J → Option NearB := structOf nearField ⟨.fin 0, 0, [], []⟩

/-- a member of a search for a vector — models/nearest_documents_by_vector_request.go:18-31 -/
def vecField (b : VecB) (m : Text × J) : Option VecB :=
  if named m.1 kDistance then (float32Of b.dist m.2).map fun x => { b with dist := x }
  else if named m.1 kLimit then (int64Of b.limit m.2).map fun x => { b with limit := x }
  else if named m.1 kName then (strOf b.name m.2).map fun x => { b with name := x }
  else if named m.1 kVector then (listOf floatOf m.2).map fun x => { b with vec := x }
  else some b

/-- a search for a vector — models/nearest_documents_by_vector_request.go:18-31,
restapi/operations/fave_get_nearest_documents_by_vector_parameters.go:53-58 -/
def vecOf : J → Option VecB := structOf vecField ⟨.fin 0, 0, [], none⟩

/-- a body is missing, cannot be read, or is read — restapi/operations/fave_add_documents_parameters.go:53-83 -/
inductive Bound (S : Type) where
  | missing
  | unreadable
  | ok (s : S)

/-- the decoder reads the first value of the body and leaves the rest — go-openapi `JSONConsumer`, used at configure_fave.go:43;
restapi/operations/fave_add_documents_parameters.go:53-83, fave_create_collection_parameters.go:53-83,
fave_get_nearest_documents_parameters.go:53-83, fave_get_nearest_documents_by_vector_parameters.go:53-83 -/
def bind {S : Type} (f : J → Option S) (t : Text) : Bound S :=
  if skip t = [] then .missing
  else
    match value (t.length + 1) t with
    | none => .unreadable
    | some (v, _) =>
      match f v with
      | none => .unreadable
      | some s => .ok s

end Fave.Bodies
