import Verif.Spec.ClientAdd
import Verif.Model.Rest
/-!
# Why a request can crash (C70)
-/
namespace Fave.Client
variable {F D : Type} [Dist D]

/-- the document brings no vector: the property "vector" is absent or null — pkg/document/document.go:349-400 -/
def NoVector (p : Props F) : Prop := p.get vectorName = none ∨ p.get vectorName = some .null

/-- the document brings no vector, and it has one of the properties to index, but not as a string.  (The property "id" is always
overwritten by a string.) — pkg/document/document.go:347, 401-407 -/
def NotText (ti : List Str) (p : Props F) : Prop :=
  NoVector p ∧ ∃ k ∈ ti, k ≠ idName ∧ ∃ v, p.get k = some v ∧ ∀ s, v ≠ .str s

/-- the vectoriser is asked for a vector of the document and answers with a status other than 200 — document.go:409-414,
pkg/vectorizer/rest/vectorizer.go:56-58 -/
def Unanswered (o : Oracle F D) (lookup : Bool) (ti : List Str) (i : Nat) (d : Doc F) : Prop :=
  NoVector d.props ∧ lookup = true ∧ ∃ text, textOf (d.props.set idName (.str d.id)) ti = .ok text ∧ text ≠ [] ∧ o.corpi i text = .nil

/-- why document number `i` of a request can make it crash when the next number is `n`: it is null, it has a property to index that is no
string, the vectoriser does not answer, or there is no place for its vector in the vector cache — document.go:345-442,
pkg/hnsw/vector_cache.go:75-85 -/
def DocCrash (E : Env F D) (o : Oracle F D) (lookup : Bool) (ti : List Str) (i n : Nat) : Option (Doc F) → Prop
  | none => True
  | some d => NotText ti d.props ∨ Unanswered o lookup ti i d ∨
      (E.P.cacheSize ≤ n ∧ (lookup = true ∨ ¬NoVector d.props) ∧ ∃ vec, vectorOf o ti i d = some vec ∧ E.P.metric.len vec ≠ 0)

/-- the document database of the collection is open but there is no index object: the collection was opened by a look-up of a single
document (document.go:653-678), or its creation or deletion has failed half-way (document.go:146-246) -/
def NoIndex (w : World F) (name : Str) : Prop := (w.coll (ns ++ name)).dbOpen = true ∧ (w.coll (ns ++ name)).hasIdx = false

/-- the reasons for which a request can crash -/
def Cause (E : Env F D) (w : World F) : Req F D → Prop
  | .add o name ti docs => w.pod = false ∨ NoIndex w name ∨
      ∃ j d n, docs[j]? = some d ∧ n ≤ (if o.count then 0 else w.count (ns ++ name)) + j ∧ DocCrash E o w.lookup ti j n d
  | .nearVector _ name _ _ limit => w.pod = false ∨ NoIndex w name ∨ limit < 0
  | .nearText o name text _ limit => w.pod = false ∨ (w.lookup = true ∧ o.corpi 0 text = .nil) ∨ NoIndex w name ∨ limit < 0
  | _ => False

end Fave.Client

namespace Fave.Client
variable {F D : Type} [Dist D]

/-- the request does not leave an open database without index object: creations do not fail after the database is open, deletions do
delete the documents, and single documents are looked up only while the database is open or missing -/
def Steady (w : World F) : Req F D → Prop
  | .create o _ _ => o.openTable = false ∧ o.newIndex = false
  | .delete o _ => o.docDelete = false
  | .get _ _ name _ _ => (w.coll (ns ++ name)).dbOpen = true ∨ w.dbs.get (ns ++ name) = none
  | _ => True

/-- the same for every request of a sequence -/
def SteadyRun [DecidableEq F] (E : Env F D) : World F → List (Req F D) → Prop
  | _, [] => True
  | w, r :: rs => Steady w r ∧ SteadyRun E (serve E w r).1 rs

end Fave.Client

namespace Fave.Rest
open Client
variable {F D : Type} [Dist D]

/-- the reasons for which a request at the REST interface can end without answer — adapters/handlers/collections.go:19-34,
documents.go:24-36 and those of the client -/
def RestCause (E : Env F D) (w : World F) : HReq F D → Prop
  | .create _ _ indexes => ∃ l, indexes = some l ∧ none ∈ l
  | .add o name toIndex docs => ∃ l ti, docs = some l ∧ toIndex = some ti ∧
      (none ∈ l ∨ Cause E w (.add o name ti (l.map fun d => d.bind fun d => d.props.map fun p => ⟨d.id, p⟩)))
  | .nearText o name text max limit => Cause E w (.nearText o name text max limit)
  | .nearVector o name q max limit => ∃ v, q = some v ∧ Cause E w (.nearVector o name v max limit)
  | _ => False

/-- a sequence of requests -/
def handleAll [DecidableEq F] (E : Env F D) (uuid : Str → Bool) (w : World F) (rs : List (HReq F D)) : World F :=
  rs.foldl (fun w r => (handle E uuid w r).1) w

end Fave.Rest
