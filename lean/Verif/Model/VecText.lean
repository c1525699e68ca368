import Verif.Model.Docs
/-!
# Vectors as JSON texts

A vector comes into FaVe in two ways: as the property `vector` of a document, whose numbers are kept as they are written (`json.Number`), read as 64-bit
floats and cut to 32 bits (pkg/document/document.go:352-371), and as the vector of a search, which encoding/json reads directly as 32-bit floats
(models/nearest_documents_by_vector_request.go:30).
-/
namespace Fave.VecText
open Json F32 Docs Stored

/-- a component of the vector of a document: `value.Float64()`, an error if it is out of range, then `float32(f64Val)`, which may become infinite; anything
but a number is refused — document.go:356-371 (`float32` and `float64` do not occur in a request, see C78) -/
def docComp : J → Option Num
  | .num l => (f64.read l.value).map fl
  | _ => none

/-- what becomes of the property `vector` — document.go:349-352, 390-392 -/
inductive DocVec where
  | none
  | refused
  | vec (v : List Num)
  deriving DecidableEq

/-- the vector of a document: a list, else none if it is missing or `null`, and refused if it is anything else — document.go:349-371, 390-392 -/
def docVec (props : List (Text × J)) : DocVec :=
  match (takeMembers [] props).lookup kVector with
  | none | some .null => .none
  | some (.arr l) =>
    match every docComp l with
    | some v => .vec v
    | none => .refused
  | _ => .refused

/-- what becomes of the vector of a search — restapi/operations/fave_get_nearest_documents_by_vector_parameters.go:57-64, documents.go:85-87 -/
inductive SearchVec where
  | blank
  | refused
  | vec (v : List Num)
  deriving DecidableEq

/-- the vector of a search: `null` leaves the slice nil, which the handler refuses; a `null` in a list leaves a zero —
models/nearest_documents_by_vector_request.go:30, documents.go:85-91 -/
def searchVec : J → SearchVec
  | .null => .blank
  | .arr l =>
    match every floatOf l with
    | some v => .vec v
    | none => .refused
  | _ => .refused

end Fave.VecText
