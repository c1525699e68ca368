import Verif.Model.Stored
/-!
# Documents as JSON texts

The way of the properties of a document: from the body of a request, where go-openapi reads numbers as `json.Number` (restapi/configure_fave.go:43,
restapi/operations/fave_add_documents_parameters.go:52-58), through `AddDocuments`, which stores them as JSON (pkg/document/document.go:345-441), back
through the handlers, which read every number as a `float64` (adapters/handlers/documents.go:57-77, 97-117, 129-142), into the body of the answer
(restapi/operations/fave_get_nearest_documents_responses.go:48-57).  encoding/json and the consumer and producer of go-openapi are not in /repo.

A Go map is kept as the list of its members in the order of their keys, which is how it is written.

Simplified: a number of a request is kept as its parts, so that `1E5` and `1e5` are both written `1e+5` where `json.Number` keeps the letters; a stored
`null` in place of a document, which `AddDocuments` never writes, counts as unreadable.
-/
namespace Fave.Docs
open Json F32

/-- the order of keys: that of their bytes, which in UTF-8 is that of their characters — encoding/json `mapEncoder`, used at document.go:432 -/
def before : Text → Text → Bool
  | [], [] => false
  | [], _ :: _ => true
  | _ :: _, [] => false
  | a :: s, b :: t => decide (a.toNat < b.toNat) || (a == b && before s t)

/-- `m[k] = v` — document.go:346, 350, 418, 428, documents.go:69, 109, and encoding/json `objectInterface` -/
def put {α : Type} (k : Text) (v : α) : List (Text × α) → List (Text × α)
  | [] => [(k, v)]
  | (k', v') :: l => if k = k' then (k, v) :: l else if before k k' then (k, v) :: (k', v') :: l else (k', v') :: put k v l

/-- `delete(m, k)` — document.go:373, documents.go:67-68, 107-108, 137-138 -/
def drop {α : Type} (k : Text) (l : List (Text × α)) : List (Text × α) := l.filter fun m => decide (m.1 ≠ k)

mutual
/-- a value of a request as `interface{}`; numbers stay as they are written — go-openapi `JSONConsumer`, used at configure_fave.go:43 -/
def take : J → J
  | .arr l => .arr (takeList l)
  | .obj l => .obj (takeMembers [] l)
  | v => v
/-- the elements of an array — encoding/json `arrayInterface` -/
def takeList : List J → List J
  | [] => []
  | v :: l => take v :: takeList l
/-- the members of an object; the last of several with one key stays — encoding/json `objectInterface` -/
def takeMembers : List (Text × J) → List (Text × J) → List (Text × J)
  | m, [] => m
  | m, (k, v) :: l => takeMembers (put k (take v) m) l
end

/-- a value in a handler: numbers are `float64`, and the distance is a `float32` — documents.go:59-60, 69, 99-100, 109, 129-130 -/
inductive G where
  | null
  | bool (b : Bool)
  | num (x : ℚ)
  | single (x : Num)
  | str (s : Text)
  | arr (l : List G)
  | obj (l : List (Text × G))

mutual
/-- `json.Unmarshal` into an `interface{}`; `none`: a number is out of the range of `float64` — documents.go:60, 100, 130 -/
def floats : J → Option G
  | .null => some .null
  | .bool b => some (.bool b)
  | .num l => (f64.read l.value).map .num
  | .str s => some (.str s)
  | .arr l => (floatsList l).map .arr
  | .obj l => (floatsMembers [] l).map .obj
/-- the elements of an array — encoding/json `arrayInterface` -/
def floatsList : List J → Option (List G)
  | [] => some []
  | v :: l =>
    match floats v, floatsList l with
    | some g, some r => some (g :: r)
    | _, _ => none
/-- the members of an object — encoding/json `objectInterface` -/
def floatsMembers : List (Text × G) → List (Text × J) → Option (List (Text × G))
  | m, [] => some m
  | m, (k, v) :: l =>
    match floats v with
    | some g => floatsMembers (put k g m) l
    | none => none
end

mutual
/-- a value in an answer; `none`: the encoder refuses it — go-openapi `JSONProducer`, used at configure_fave.go:45 -/
def write : G → Option J
  | .null => some .null
  | .bool b => some (.bool b)
  | .num x => (f64.lit x).map .num
  | .single (.fin x) => (f32.lit x).map .num
  | .single _ => none
  | .str s => some (.str s)
  | .arr l => (writeList l).map .arr
  | .obj l => (writeMembers l).map .obj
/-- the elements of an array — encoding/json `arrayEncoder` -/
def writeList : List G → Option (List J)
  | [] => some []
  | g :: l =>
    match write g, writeList l with
    | some v, some r => some (v :: r)
    | _, _ => none
/-- the members of a map — encoding/json `mapEncoder` -/
def writeMembers : List (Text × G) → Option (List (Text × J))
  | [] => some []
  | (k, g) :: l =>
    match write g, writeMembers l with
    | some v, some r => some ((k, v) :: r)
    | _, _ => none
end

/-! ## The way of a document -/

/-- the property "id" — document.go:346, documents.go:65 -/
def kId : Text := ['i', 'd']
/-- the property "vector" — document.go:349, 373, documents.go:68 -/
def kVector : Text := ['v', 'e', 'c', 't', 'o', 'r']
/-- the property of the index — document.go:28 -/
def kIndex : Text := ['h', 'n', 's', 'w', 'I', 'd']
/-- the property "distance" — documents.go:69, 109 -/
def kDistance : Text := ['d', 'i', 's', 't', 'a', 'n', 'c', 'e']
/-- the name of the properties in an answer — models/document.go:27 -/
def kProperties : Text := ['p', 'r', 'o', 'p', 'e', 'r', 't', 'i', 'e', 's']
/-- the name of the documents in an answer — models/nearest_documents_response.go:23 -/
def kDocuments : Text := ['d', 'o', 'c', 'u', 'm', 'e', 'n', 't', 's']
/-- the name of the collection in an answer — models/nearest_documents_response.go:26 -/
def kName : Text := ['n', 'a', 'm', 'e']

/-- the number a document gets in the index, or -1 for one without a vector — document.go:350, 418, 428 -/
def indexJ : Option Nat → J
  | some n => Stored.uintJ n
  | none => .num ⟨true, ['1'], none, none⟩

/-- is there a vector, so that it is not computed from the properties? — document.go:349 -/
def hasVector (p : List (Text × J)) : Bool :=
  match p.lookup kVector with
  | none | some .null => false
  | _ => true

/-- the properties at the time they are stored: those of the request with the id, the number in the index, and without the vector —
document.go:345-430, documents.go:26-36 -/
def kept (id : Text) (n : Option Nat) (props : List (Text × J)) : List (Text × J) :=
  let p := put kId (.str id) (takeMembers [] props)
  if hasVector p then drop kVector (put kIndex (indexJ n) p) else put kIndex (indexJ n) p

/-- the text handed to the document database — document.go:432-438 -/
def stored (p : List (Text × J)) : Text := render true (.obj p)

/-- `json.Unmarshal(v, &props)` — documents.go:59-63, 99-103, 129-133; simplified: the text null, which is accepted and makes the map nil, is refused here
(what is stored is always an object) -/
def recalled (t : Text) : Option (List (Text × G)) :=
  match parse t with
  | some (.obj l) => floatsMembers [] l
  | _ => none

/-- `fmt.Sprintf("%s", props["id"])`; `odd` is what is printed for anything but a string — documents.go:65, 105, 135 -/
def idOf (odd : Option G → Text) : Option G → Text
  | some (.str s) => s
  | g => odd g

/-- `props["distance"] = dists[i]`, in a search — documents.go:69, 109 -/
def withDistance (q : List (Text × G)) : Option Num → List (Text × G)
  | some x => put kDistance (.single x) q
  | none => q

/-- the document of an answer; its id is left out if it is empty — documents.go:64-71, 104-111, 134-139, models/document.go:20-28 -/
def shown (odd : Option G → Text) (p : List (Text × G)) (d : Option Num) : Option J :=
  let id := idOf odd (p.lookup kId)
  (writeMembers (withDistance (drop kVector (drop kId p)) d)).map fun l => .obj ((if id = [] then [] else [(kId, .str id)]) ++ [(kProperties, .obj l)])

/-- an answer: status 400, a panic while the answer is made or written, or a text — documents.go:57-77,
fave_get_nearest_documents_responses.go:48-57 -/
inductive Answer where
  | bad
  | crash
  | ok (t : Text)
  deriving DecidableEq

/-- the answer to a look-up — documents.go:129-142, restapi/operations/get_documents_responses.go:47-57 -/
def lookedUp (odd : Option G → Text) (t : Text) : Answer :=
  match recalled t with
  | none => .bad
  | some p =>
    match shown odd p none with
    | none => .crash
    | some j => .ok (render false j ++ ['\n'])

/-- the documents of a search, each with its distance, until one cannot be read; `none`: `dists[i]` is out of range — documents.go:57-72, 97-112 -/
def hits : List Text → List Num → Except Answer (List (List (Text × G) × Num))
  | [], _ => .ok []
  | t :: ts, ds =>
    match recalled t, ds with
    | none, _ => .error .bad
    | some _, [] => .error .crash
    | some p, d :: ds => (hits ts ds).map fun r => (p, d) :: r

/-- every document of an answer is written, or none — encoding/json `arrayEncoder` -/
def showAll (odd : Option G → Text) : List (List (Text × G) × Num) → Option (List J)
  | [] => some []
  | (p, d) :: l =>
    match shown odd p (some d), showAll odd l with
    | some j, some r => some (j :: r)
    | _, _ => none

/-- the answer to a search — documents.go:57-77, 97-117, models/nearest_documents_response.go:20-27,
fave_get_nearest_documents_responses.go:48-57 -/
def found (odd : Option G → Text) (name : Text) (ts : List Text) (ds : List Num) : Answer :=
  match hits ts ds with
  | .error e => e
  | .ok l =>
    match showAll odd l with
    | none => .crash
    | some js => .ok (render false (.obj ([(kDocuments, .arr js)] ++ (if name = [] then [] else [(kName, .str name)]))) ++ ['\n'])

end Fave.Docs
