import Verif.Model.Client
/-!
# Requests that only read

Vocabulary of C88: which requests are reading requests, and what of a state their answers can depend on.
-/
namespace Fave.Client
variable {F D : Type} [Dist D]

/-- the two searches — document.go:456-651 -/
def Req.search : Req F D → Bool
  | .nearVector .. | .nearText .. => true
  | _ => false

/-- requests that by their purpose change nothing: the list of collections, the searches, the look-up of a document —
document.go:248-285, 456-678 -/
def Req.reads : Req F D → Bool
  | .list _ | .nearVector .. | .nearText .. | .get .. => true
  | _ => false

/-- the calls with which a reading request opens table, database and index, and reads the start vertex, succeed —
document.go:290-333, 458-498, 508-512, 560-601, 653-664 -/
structure Oracle.Opens (o : Oracle F D) : Prop where
  kvCount : o.kvCount = false
  openTable : o.openTable = false
  isOpen : o.isOpen = false
  newIndex : o.newIndex = false
  docOpen : o.docOpen = false
  entry : o.entry = false

/-- the oracle of a reading request -/
def Req.oracle : Req F D → Option (Oracle F D)
  | .create o .. | .delete o .. | .list o | .add o .. | .nearVector o .. | .nearText o .. | .get o .. => some o
  | .login _ | .openPod _ | .restart => none

/-- the answers to a sequence of requests -/
def replies [DecidableEq F] (E : Env F D) : World F → List (Req F D) → List (Ans F D)
  | _, [] => []
  | w, r :: rs => (serve E w r).2 :: replies E (serve E w r).1 rs

end Fave.Client
