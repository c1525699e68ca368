import Verif.Model.Texts
/-!
# Answers as texts

What `Model/Texts` leaves open: the status and the text of every answer.  An answer is written by `WriteResponse`: first the status, then the payload as one
line of JSON.  Simplified: the text of an error (`err.Error()`) is any text; the texts go-openapi writes for requests that fail in the binding, and the headers, are
not modelled; the order of the indexes of a collection, which is that of a Go map and differs from call to call, is that in which they were requested.
-/
namespace Fave.Replies
open Json F32 Docs Bodies Client Texts

/-- what the client of the server gets: nothing, since the handler panicked and the connection was closed, or a status and a text; `none`: the text is made by
go-openapi — restapi/operations/fave_create_collection_responses.go:48-57 -/
inductive Out where
  | closed
  | sent (status : Nat) (text : Option Text)
  deriving DecidableEq

/-- the member "message" — models/o_k_response.go:21, models/error_response.go:124 -/
def kMessage : Text := "message".toList
/-- the member "error" — models/error_response.go:23 -/
def kError : Text := "error".toList

/-- a message — adapters/handlers/helpers.go:23-27, models/o_k_response.go:18-22, models/error_response.go:121-125 -/
def messageJ (m : Text) : J := .obj (nonEmpty (m == []) kMessage (.str m))

/-- error messages — adapters/handlers/helpers.go:8-21, models/error_response.go:20-24 -/
def errorJ (ms : List Text) : J := .obj [(kError, .arr (ms.map messageJ))]

/-- the payload as a line — restapi/operations/fave_create_collection_responses.go:48-57: `producer.Produce`, go-openapi's `JSONProducer`, an encoder that does
not escape HTML -/
def line (j : J) : Text := render false j ++ ['\n']

/-- a collection in the list — adapters/handlers/collections.go:60-89 -/
def listedJ (c : Text × List (Text × Text)) : J := collJ ⟨some (c.2.map fun e => some ⟨e.1, e.2⟩), c.1⟩

/-- what is said after success — collections.go:44, 52 -/
def done : TReq → Text
  | .create .. => "Collection created".toList
  | .delete .. => "Collection deleted".toList
  | _ => []

/-- `fmt.Sprintf("Added %d documents", n)` — documents.go:41 -/
def added (n : Nat) : Text := "Added ".toList ++ nat n ++ " documents".toList

/-- what is said after failure: `err` is the text of the error — collections.go:41, 50, 58, documents.go:39, 54, 62, 94, 102, 127, 132 -/
def failed (err : Text) : TReq → List Text
  | .create .. => ["Failed to create collection".toList]
  | .delete .. => ["Failed to delete collection".toList]
  | .list .. => ["Failed to get collections".toList]
  | .add .. => ["Failed to add documents".toList, err]
  | _ => ["Failed to get nearest documents :".toList ++ err]

/-- why a request is refused — collections.go:14, 17, 32, documents.go:16, 19, 22, 47, 50, 83, 86 -/
def refused (err : Text) (r : TReq) : Rest.Why → List Text
  | .name => ["Collection name cannot be blank".toList]
  | .indexes => ["Collection should have at least one index".toList]
  | .indexType => ["Wrong index type".toList]
  | .documents => ["Request should have at least one document".toList]
  | .toVectorize => ["Properties to vectorize cannot be blank".toList]
  | .text => ["Search text should not be blank".toList]
  | .vector => ["Search vector should not be blank".toList]
  | .failed => failed err r

/-- the answer as it is written — restapi/operations/*_responses.go `WriteResponse`; a body that is missing is answered with 422, one that cannot be read with 400
(go-openapi/errors, as in Model/Api) — restapi/operations/fave_create_collection_parameters.go:57-64 -/
def written (err : Text) (r : TReq) : Reply → Out
  | .missing => .sent 422 none
  | .unreadable => .sent 400 none
  | .text (.ok t) => .sent 200 (some t)
  | .text .bad => .sent 400 (some (line (errorJ (failed err r))))
  | .text .crash => .closed
  | .plain .ok => .sent 200 (some (line (messageJ (done r))))
  | .plain (.added n) => .sent 200 (some (line (messageJ (added n))))
  | .plain (.listed l) => .sent 200 (some (line (.arr (l.map listedJ))))
  | .plain (.bad why) => .sent 400 (some (line (errorJ (refused err r why))))
  | .plain .unprocessable => .sent 422 none
  | .plain .crash => .closed
  | .plain (.near ..) | .plain (.doc ..) => .closed

/-- the server, from text to text; log-in, opening of the pod and restart are not requests and have no answer — restapi/operations/*.go `ServeHTTP` -/
def answer [Dist Num] (E : Env Num Num) (uuid : Str → Bool) (odd : Option G → Text) (err : Text) (w : World Num) (r : TReq) : Out :=
  match r with
  | .login _ | .openPod _ | .restart => .closed
  | r => written err r (Texts.serve E uuid odd w r).2

end Fave.Replies
