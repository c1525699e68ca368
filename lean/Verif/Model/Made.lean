import Verif.Model.Client
/-!
# The indices a request makes

`hnsw.New` starts two goroutines and allocates two caches with 25000 places each (hnsw/index.go:232-235, vector_cache.go:48-69,
compressed_vector_cache.go:39-57, maintainance.go:21); they end only by `Drop`, `Shutdown` or `Compress` (Model/Closing), none of which
pkg/document calls.  So what is running is counted by the calls of `New` since the process was started.  Calls of `New` that fail are not
counted.  The conditions are those of `Client.ensureOpen` and `Client.create`.
-/
namespace Fave.Client
variable {F D : Type} [Dist D]

/-- the calls of `New` in the opening shared by `AddDocuments` and the searches: before `DocOpen` — document.go:290-333, 458-498, 560-601 -/
def madeOpening (o : Oracle F D) (w : World F) (c : Str) : Nat :=
  if !w.pod then 0
  else if (o.kvCount || !(w.coll c).tableOpen) && (o.openTable || !(w.coll c).table) then 0
  else if o.isOpen || !w.session then 0
  else if (w.coll c).dbOpen then 0
  else if o.newIndex then 0
  else 1

/-- the calls of `New` in `CreateCollection` — document.go:146-208 -/
def madeCreating (o : Oracle F D) (w : World F) (name : Str) : Nat :=
  if !w.session || !w.pod || o.docCreate || o.createTable then 0
  else if !(w.coll (ns ++ name)).dbOpen && o.docOpen then 0
  else if o.openTable || o.newIndex then 0
  else 1

/-- the calls of `New` in a request; `DeleteCollection`, `GetCollections` and `GetDocument` make none — document.go:146-678 -/
def made (w : World F) : Req F D → Nat
  | .create o name _ => madeCreating o w name
  | .add o name _ _ | .nearVector o name _ _ _ | .nearText o name _ _ _ => madeOpening o w (ns ++ name)
  | _ => 0

/-- the indices alive after some requests, if there were `n` before: a restart ends all -/
def alive [DecidableEq F] (E : Env F D) : World F → Nat → List (Req F D) → Nat
  | _, n, [] => n
  | w, n, r :: rs => alive E (serve E w r).1 (match r with | .restart => 0 | r => n + made w r) rs

end Fave.Client
