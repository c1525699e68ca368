import Verif.Model.History
/-!
# The document client

Model of pkg/document/document.go: collections as pairs of a document database and a key-value table with an HNSW index, adding
documents, searching for the nearest documents, looking up a document, listing, creating and deleting collections, login and pod.

The storage library fairOS-dfs is not part of the repository.  What is assumed of it is written at each use; every one of its calls may
also fail for no visible reason (`Api`).  Strings are lists of characters.  One pod is in use (the server opens one pod when it starts —
adapters/handlers/handler.go:67-71).  `documentCache` only feeds the vector cache, whose behaviour is arbitrary here (`VecOracle`); only
its keys are modelled here (`cacheKey`); the cache itself is in Model/Feed.
-/
namespace Fave.Client

abbrev Str := List Char

/-- a Go map with string keys as a list of pairs; the first pair with a key counts -/
abbrev Map (α : Type) := List (Str × α)

namespace Map
variable {α : Type}
/-- `m[k]` with its `ok` -/
def get (m : Map α) (k : Str) : Option α := (m.find? (fun e => e.1 = k)).map Prod.snd
/-- `delete(m, k)` -/
def del (m : Map α) (k : Str) : Map α := m.filter (fun e => e.1 ≠ k)
/-- `m[k] = v` -/
def set (m : Map α) (k : Str) (v : α) : Map α := m.del k ++ [(k, v)]
/-- the keys -/
def keys (m : Map α) : List Str := m.map Prod.fst
end Map

/-- `namespace` — document.go:29 -/
def ns : Str := ['f', 'a', 'v', 'e', '_']
/-- `hnswIndexName` — document.go:28 -/
def hnswName : Str := ['h', 'n', 's', 'w', 'I', 'd']
/-- the property "id" — document.go:347 -/
def idName : Str := ['i', 'd']
/-- the property "vector" — document.go:350 -/
def vectorName : Str := ['v', 'e', 'c', 't', 'o', 'r']

/-- an element of a `[]interface{}` given as vector, as the type switch sees it — document.go:359-373.  `number`: a `json.Number`,
`none` if it does not parse; `f32`, `f64`: floats, already converted to 32 bits; `other`: any other type. -/
inductive Elem (F : Type) where
  | number (v : Option F)
  | f32 (v : F)
  | f64 (v : F)
  | other
  deriving DecidableEq

/-- a property value (`interface{}`), as far as the client distinguishes them -/
inductive Val (F : Type) where
  | null
  | str (s : Str)
  | int (n : Int)
  | list (l : List (Elem F))
  | floats (l : List F)
  | other (tag : Nat)
  deriving DecidableEq

/-- `Document.Properties` — document.go:56-59 (a nil map, on which the assignment of "id" would panic, cannot come from the REST
interface and is not modelled) -/
abbrev Props (F : Type) := Map (Val F)

/-- `Document` — document.go:56-59 -/
structure Doc (F : Type) where
  id : Str
  props : Props F
  deriving DecidableEq

/-- index types of fairOS-dfs, document.go:51-54 -/
inductive IxType where
  | string | number | map | list | bytes | vector
  deriving DecidableEq

/-- a document database: its indexes and the stored documents in order of arrival -/
structure Db (F : Type) where
  indexes : Map IxType
  docs : List (Props F)
  deriving DecidableEq

/-- everything else that belongs to one (prefixed) collection name -/
structure Coll (F : Type) where
  /-- is the document database open in this process? -/
  dbOpen : Bool
  /-- does the key-value table exist? -/
  table : Bool
  /-- is it open in this process? -/
  tableOpen : Bool
  /-- the contents of the key-value table and, if `hasIdx`, the index object over it -/
  idx : Index (List F)
  /-- is there an entry in `c.indices`? -/
  hasIdx : Bool
  deriving DecidableEq

/-- nothing there -/
def Coll.none {F : Type} : Coll F := ⟨false, false, false, Index.init, false⟩

/-- the client (document.go:38-49) together with its pod -/
structure World (F : Type) where
  /-- `sessionId != ""` -/
  session : Bool
  /-- `podInfo != nil` -/
  pod : Bool
  /-- `lookup != nil` -/
  lookup : Bool
  /-- the document databases of the pod by name -/
  dbs : Map (Db F)
  coll : Str → Coll F

/-- fixed: the index parameters, and whether a stored document replaces an earlier one with the same "id" (a matter of fairOS-dfs) -/
structure Env (F D : Type) where
  P : Params (List F) D
  replace : Bool

/-- what the vectoriser answers: an error, nothing (status other than 200, pkg/vectorizer/rest/vectorizer.go:56-58), a vector —
pkg/vectorizer/rest/vectorizer.go:43-70 -/
inductive Corpi (F : Type) where
  | fail
  | nil
  | vec (v : List F)
  deriving DecidableEq

/-- the failures of the calls one request makes (`true` or `some`: the call fails), and everything else it does not determine: the
vectoriser's answers, levels, schedules, vector cache, and the order in which the cache lists its keys -/
structure Oracle (F D : Type) where
  kvCount : Bool := false
  openTable : Bool := false
  isOpen : Bool := false
  newIndex : Bool := false
  docOpen : Bool := false
  docCreate : Bool := false
  createTable : Bool := false
  docDelete : Bool := false
  deleteTable : Bool := false
  docList : Bool := false
  /-- reading the count fails — insert.go:167-170 -/
  count : Bool := false
  /-- reading the entry point fails — insert.go:185-189 -/
  entry : Bool := false
  commit : Bool := false
  /-- `DocPut` for the i-th document of the batch fails -/
  put : Nat → Bool := fun _ => false
  /-- `json.Marshal` of the i-th document fails -/
  marshal : Nat → Bool := fun _ => false
  /-- `DocFind` for the i-th hit fails -/
  find : Nat → Bool := fun _ => false
  /-- `some k`: the key-value write number `k` of `Flush` fails -/
  cut : Option Nat := none
  corpi : Nat → Str → Corpi F
  vo : Nat → Index.VecOracle (List F)
  sched : Nat → Graph.Scheds D
  level : Nat → Nat
  order : List Nat → List Nat := fun l => l
  order_mem : ∀ l x, x ∈ l → x ∈ order l := by exact fun _ _ h => h

variable {F D : Type} [Dist D]

/-- update of what belongs to one name -/
def World.setColl (w : World F) (c : Str) (x : Coll F) : World F := { w with coll := fun n => if n = c then x else w.coll n }

/-- `Login` — document.go:99-109 -/
def login (ok : Bool) (w : World F) : World F × Option Err := if ok then ({ w with session := true }, none) else (w, some .error)

/-- `OpenPod` — document.go:111-144; `ok`: the pod exists or can be created, and opens -/
def openPod (ok : Bool) (w : World F) : World F × Option Err :=
  if !w.session then (w, some .error)
  else if ok then ({ w with pod := true }, none) else (w, some .error)

/-- `DocCreate` on a pod: an existing database is left as it is — document.go:169-172 -/
def World.withDb (w : World F) (c : Str) (indexes : Map IxType) : World F :=
  if (w.dbs.get c).isSome then w else { w with dbs := w.dbs ++ [(c, ⟨indexes, []⟩)] }

/-- `CreateCollection` — document.go:146-208.  `DocCreate` and `CreateKVTable` fail with the tolerated errors if the database or table
is there already; `DocOpen` with a tolerated error if it is open already. -/
def create (o : Oracle F D) (w : World F) (name : Str) (indexes : Map IxType) : World F × Option Err :=
  if !w.session then (w, some .error)
  else if !w.pod then (w, some .error)
  else
    let c := ns ++ name
    let indexes := indexes.set hnswName .number
    if o.docCreate then (w, some .error)
    else
      let w := w.withDb c indexes
      if o.createTable then (w, some .error)
      else
        let w := w.setColl c { w.coll c with table := true }
        if !(w.coll c).dbOpen && o.docOpen then (w, some .error)
        else
          let w := w.setColl c { w.coll c with dbOpen := true }
          if o.openTable then (w, some .error)
          else
            let w := w.setColl c { w.coll c with tableOpen := true }
            if o.newIndex then (w, some .error)
            else (w.setColl c { w.coll c with idx := (w.coll c).idx.reopen, hasIdx := true }, none)

/-- `DeleteCollection` — document.go:210-246; failures of the two deletions are only logged.  Deleting something open closes it. -/
def delete (o : Oracle F D) (w : World F) (name : Str) : World F × Option Err :=
  if !w.session then (w, some .error)
  else if !w.pod then (w, some .error)
  else
    let c := ns ++ name
    let w := if o.docDelete then w else
      { (w.setColl c { w.coll c with dbOpen := false }) with dbs := w.dbs.del c }
    let w := if o.deleteTable then w else
      w.setColl c { w.coll c with table := false, tableOpen := false, idx := Index.init }
    (w.setColl c { w.coll c with idx := (w.coll c).idx.reopen, hasIdx := false }, none)

/-- `strings.HasPrefix` and `strings.TrimPrefix` — document.go:264,279 -/
def stripPrefix : Str → Str → Option Str
  | [], s => some s
  | _ :: _, [] => none
  | p :: ps, c :: cs => if p = c then stripPrefix ps cs else none

/-- `GetCollections` — document.go:248-285: names and indexes (each field has one index, so the four kinds of index lists are one map) -/
def list (o : Oracle F D) (w : World F) : Except Err (List (Str × Map IxType)) :=
  if !w.session then .error .error
  else if !w.pod then .error .error
  else if o.docList then .error .error
  else .ok (w.dbs.filterMap (fun e => (stripPrefix ns e.1).map (fun n => (n, e.2.indexes))))

/-- the opening shared by `AddDocuments` and the searches — document.go:290-333, 458-498, 560-601.  Without pod the method call on the
nil `podInfo` panics.  `KVCount` fails on a table that is not open, `OpenKVTable` on one that does not exist, `DocOpen` on a database
that does not exist. -/
def ensureOpen (o : Oracle F D) (w : World F) (c : Str) : World F × Option Err :=
  if !w.pod then (w, some .panic)
  else if (o.kvCount || !(w.coll c).tableOpen) && (o.openTable || !(w.coll c).table) then (w, some .error)
  else
    let w := w.setColl c { w.coll c with tableOpen := true }
    if o.isOpen || !w.session then (w, some .error)
    else if (w.coll c).dbOpen then (w, none)
    else if o.newIndex then (w, some .error)
    else
      let w := w.setColl c { w.coll c with idx := (w.coll c).idx.reopen, hasIdx := true }
      if o.docOpen || (w.dbs.get c).isNone then (w, some .error)
      else (w.setColl c { w.coll c with dbOpen := true }, none)

/-- one element of the vector — document.go:359-373; `none`: refused -/
def Elem.value : Elem F → Option F
  | .number v => v
  | .f32 v => some v
  | .f64 v => some v
  | .other => none

/-- the vector of a `[]interface{}` — document.go:355-375 -/
def parseVec : List (Elem F) → Option (List F)
  | [] => some []
  | e :: es =>
    match e.value, parseVec es with
    | some v, some vs => some (v :: vs)
    | _, _ => none

/-- the text to vectorise — document.go:401-407; a property that is present but no string panics -/
def textOf (p : Props F) : List Str → Except Err Str
  | [] => .ok []
  | k :: ks =>
    match p.get k with
    | none => textOf p ks
    | some (.str s) =>
      match textOf p ks with
      | .error e => .error e
      | .ok t => .ok (s ++ [' '] ++ t)
    | some _ => .error .panic

/-- what became of a document of the batch (for the specification only) -/
inductive Res where
  /-- stored with its vector under a number -/
  | indexed (n : Nat)
  /-- stored without vector, number -1 -/
  | plain
  /-- passed over: the vectoriser failed -/
  | noVector
  /-- passed over: the index refused the vector -/
  | refused
  /-- passed over: it could not be marshalled; its vector, if any, has used up a number -/
  | unmarshalled (n : Option Nat)
  deriving DecidableEq

/-- what is recorded of a stored document with or without number -/
def Res.stored : Option Nat → Res
  | some n => .indexed n
  | none => .plain

/-- the state during a batch: index, stored documents, next number -/
structure Batch (F : Type) where
  idx : Index (List F)
  docs : List (Props F)
  next : Nat
  /-- ghost: what became of the documents so far -/
  log : List Res
  deriving DecidableEq

/-- `DocPut` — assumed: the document is stored; if documents are replaced, one with the same "id" is dropped -/
def putDoc (replace : Bool) (docs : List (Props F)) [DecidableEq F] (p : Props F) : List (Props F) :=
  (if replace then docs.filter (fun q => q.get idName ≠ p.get idName) else docs) ++ [p]

/-- marshalling and `DocPut` — document.go:432-441; `n` is the number the document has been given -/
def storeDoc [DecidableEq F] (E : Env F D) (o : Oracle F D) (i : Nat) (b : Batch F) (p : Props F) (n : Option Nat) : Batch F × Option Err :=
  if o.marshal i then ({ b with log := b.log ++ [.unmarshalled n] }, none)
  else if o.put i then (b, some .error)
  else ({ b with docs := putDoc E.replace b.docs p, log := b.log ++ [.stored n] }, none)

/-- adding the vector to the index and then storing the document — document.go:377-386, 415-425.  An index error is logged and the
document passed over; a panic ends the request. -/
def indexDoc [DecidableEq F] (E : Env F D) (o : Oracle F D) (i : Nat) (b : Batch F) (p : Props F) (vec : List F) : Batch F × Option Err :=
  match Index.add E.P (o.vo i) (o.sched i) b.idx b.next vec (o.level i) with
  | (idx, some .panic) => ({ b with idx := idx }, some .panic)
  | (idx, some _) => ({ b with idx := idx, log := b.log ++ [.refused] }, none)
  | (idx, none) => storeDoc E o i { b with idx := idx, next := b.next + 1 } p (some b.next)

/-- one document of the batch — document.go:345-442; a nil document panics -/
def addOne [DecidableEq F] (E : Env F D) (o : Oracle F D) (lookup : Bool) (toIndex : List Str) (i : Nat) (b : Batch F) :
    Option (Doc F) → Batch F × Option Err
  | none => (b, some .panic)
  | some d =>
    let p := d.props.set idName (.str d.id)
    match p.get vectorName with
    | some (.list l) =>
      match parseVec l with
      | none => (b, some .error)
      | some vec => indexDoc E o i b ((p.set hnswName (.int b.next)).del vectorName) vec
    | some (.floats vec) => indexDoc E o i b ((p.set hnswName (.int b.next)).del vectorName) vec
    | some (.str _) | some (.int _) | some (.other _) => (b, some .error)
    | some .null | none =>
      match textOf p toIndex with
      | .error e => (b, some e)
      | .ok text =>
        if text = [] then storeDoc E o i b (p.set hnswName (.int (-1))) none
        else if !lookup then (b, some .error)
        else
          match o.corpi i text with
          | .fail => ({ b with log := b.log ++ [.noVector] }, none)
          | .nil => (b, some .panic)
          | .vec vec => indexDoc E o i b (p.set hnswName (.int b.next)) vec

/-- the loop over the documents — document.go:345-442 -/
def addLoop [DecidableEq F] (E : Env F D) (o : Oracle F D) (lookup : Bool) (toIndex : List Str) :
    Nat → List (Option (Doc F)) → Batch F → Batch F × Option Err
  | _, [], b => (b, none)
  | i, d :: ds, b =>
    match addOne E o lookup toIndex i b d with
    | (b, some e) => (b, some e)
    | (b, none) => addLoop E o lookup toIndex (i + 1) ds b

/-- `Flush` with a write that may fail — insert.go:118-164 -/
def flushCut (P : Params (List F) D) (cut : Option Nat) (s : Index (List F)) (order : List Nat) (n : Nat) : Index (List F) × Option Err :=
  let r := Index.flushUpToBad P (s.flushWrites order n)
  match cut with
  | none => s.flush P order n
  | some k => if k < r.1.length then ((r.1.take k).foldl Index.applyWrite s, some .error) else s.flush P order n

/-- `AddDocuments` up to and including the reading of the count — document.go:287-344 -/
def addBegin (o : Oracle F D) (w : World F) (name : Str) : World F × Except Err Nat :=
  let c := ns ++ name
  match ensureOpen o w c with
  | (w, some e) => (w, .error e)
  | (w, none) =>
    if !(w.coll c).hasIdx then (w, .error .panic)
    else (w, .ok (if o.count then 0 else (w.coll c).idx.docCount.getD 0))

/-- the rest of `AddDocuments` — document.go:345-454 -/
def addFinish [DecidableEq F] (E : Env F D) (o : Oracle F D) (w : World F) (name : Str) (toIndex : List Str) (docs : List (Option (Doc F)))
    (count : Nat) : World F × List Res × Option Err :=
  let c := ns ++ name
  let db := (w.dbs.get c).getD ⟨[], []⟩
  let r := addLoop E o w.lookup toIndex 0 docs ⟨(w.coll c).idx, db.docs, count, []⟩
  let w := { (w.setColl c { w.coll c with idx := r.1.idx }) with
    dbs := w.dbs.map (fun e => if e.1 = c then (c, { e.2 with docs := r.1.docs }) else e) }
  match r.2 with
  | some e => (w, r.1.log, some e)
  | none =>
    let f := flushCut E.P o.cut r.1.idx (o.order r.1.idx.cache.keys) r.1.next
    let w := w.setColl c { w.coll c with idx := f.1 }
    match f.2 with
    | some e => (w, r.1.log, some e)
    | none => (w, r.1.log, if o.commit then some .error else none)

/-- `AddDocuments` — document.go:287-454 -/
def addDocuments [DecidableEq F] (E : Env F D) (o : Oracle F D) (w : World F) (name : Str) (toIndex : List Str)
    (docs : List (Option (Doc F))) : World F × List Res × Option Err :=
  match addBegin o w name with
  | (w, .error e) => (w, [], some e)
  | (w, .ok count) => addFinish E o w name toIndex docs count

/-- `if limit != 0 && len(ids) > limit { ids = ids[:limit]; dists = dists[:limit] }` — document.go:521-524, 617-620 -/
def truncate {A B : Type} (limit : Int) (ids : List A) (dists : List B) : Except Err (List A × List B) :=
  if limit ≠ 0 ∧ limit < ids.length then
    if limit < 0 then .error .panic else .ok (ids.take limit.toNat, dists.take limit.toNat)
  else .ok (ids, dists)

/-- `DocFind` with the condition `hnswId=<id>` and limit 1 — document.go:529-530.  Assumed: the documents whose number is `id`, at most
one of them. -/
def findNumber (docs : List (Props F)) [DecidableEq F] (id : Nat) : Option (Props F) := docs.find? (fun p => p.get hnswName = some (.int id))

/-- the look-ups of the hits — document.go:526-552; which interleaving takes place does not matter (C18): an error if one look-up fails
or finds nothing -/
def lookupAll [DecidableEq F] (o : Oracle F D) (docs : List (Props F)) : Nat → List Nat → Except Err (List (Props F))
  | _, [] => .ok []
  | i, id :: ids =>
    if o.find i then .error .error
    else
      match findNumber docs id with
      | none => .error .error
      | some p =>
        match lookupAll o docs (i + 1) ids with
        | .error e => .error e
        | .ok ps => .ok (p :: ps)

/-- `LoadEntrypoint`: if the entry cannot be read, the entry point becomes 0 — insert.go:181-199 -/
def loaded (o : Oracle F D) (s : Index (List F)) : Index (List F) := if o.entry then { s with entry := 0 } else s.loadEntry

/-- the common end of the searches — document.go:508-554, 604-650 -/
def nearWith [DecidableEq F] (E : Env F D) (o : Oracle F D) (w : World F) (c : Str) (q : List F) (max : D) (ef limit : Int) :
    World F × Except Err (List (Props F) × List D) :=
  if !(w.coll c).hasIdx then (w, .error .panic)
  else
    let idx := loaded o (w.coll c).idx
    let w := w.setColl c { w.coll c with idx := idx }
    (w, match (idx.graph E.P).knnMaxDist (o.sched 0) q max ef none with
      | .error e => .error e
      | .ok (ids, dists) =>
        match truncate limit ids dists with
        | .error e => .error e
        | .ok (ids, dists) =>
          match lookupAll o ((w.dbs.get c).getD ⟨[], []⟩).docs 0 ids with
          | .error e => .error e
          | .ok docs => .ok (docs, dists))

/-- `GetNearDocumentsByVector` — document.go:557-651 -/
def nearVector [DecidableEq F] (E : Env F D) (o : Oracle F D) (w : World F) (name : Str) (q : List F) (max : D) (limit : Int) :
    World F × Except Err (List (Props F) × List D) :=
  match ensureOpen o w (ns ++ name) with
  | (w, some e) => (w, .error e)
  | (w, none) => nearWith E o w (ns ++ name) q max 800 limit

/-- `GetNearDocuments` — document.go:456-555; `limit` is also the width of the search -/
def nearText [DecidableEq F] (E : Env F D) (o : Oracle F D) (w : World F) (name : Str) (text : Str) (max : D) (limit : Int) :
    World F × Except Err (List (Props F) × List D) :=
  match ensureOpen o w (ns ++ name) with
  | (w, some e) => (w, .error e)
  | (w, none) =>
    if !w.lookup then (w, .error .error)
    else
      match o.corpi 0 text with
      | .fail => (w, .error .error)
      | .nil => (w, .error .panic)
      | .vec q => nearWith E o w (ns ++ name) q max limit limit

/-- the condition given to `DocFind` — document.go:666-669 -/
def exprOf (property value : Str) : Str := if property ≠ [] ∧ value ≠ [] then property ++ '=' :: value else []

/-- `GetDocument` — document.go:653-678.  `sat` says which documents fairOS-dfs finds for a condition. -/
def getDocument (o : Oracle F D) (sat : Str → Props F → Bool) (w : World F) (name property value : Str) :
    World F × Except Err (Props F) :=
  let c := ns ++ name
  if o.isOpen || !w.session || !w.pod then (w, .error .error)
  else if !(w.coll c).dbOpen && (o.docOpen || (w.dbs.get c).isNone) then (w, .error .error)
  else
    let w := w.setColl c { w.coll c with dbOpen := true }
    (w, if o.find 0 then .error .error
      else
        match ((w.dbs.get c).getD ⟨[], []⟩).docs.find? (sat (exprOf property value)) with
        | none => .error .error
        | some p => .ok p)

/-- the process stops and starts again: what is open, the session and all index objects are gone -/
def restart (w : World F) : World F :=
  { w with session := false, pod := false,
           coll := fun c => { w.coll c with dbOpen := false, tableOpen := false, idx := (w.coll c).idx.reopen, hasIdx := false } }

/-- a request with everything it does not determine, or a restart -/
inductive Req (F D : Type) where
  | login (ok : Bool)
  | openPod (ok : Bool)
  | create (o : Oracle F D) (name : Str) (indexes : Map IxType)
  | delete (o : Oracle F D) (name : Str)
  | list (o : Oracle F D)
  | add (o : Oracle F D) (name : Str) (toIndex : List Str) (docs : List (Option (Doc F)))
  | nearVector (o : Oracle F D) (name : Str) (q : List F) (max : D) (limit : Int)
  | nearText (o : Oracle F D) (name : Str) (text : Str) (max : D) (limit : Int)
  | get (o : Oracle F D) (sat : Str → Props F → Bool) (name property value : Str)
  | restart

/-- the answer to a request -/
inductive Ans (F D : Type) where
  | done
  | failed (e : Err)
  | names (l : List (Str × Map IxType))
  | near (docs : List (Props F)) (dists : List D)
  | doc (p : Props F)
  deriving DecidableEq

/-- answers that are nothing but an error or not -/
def Ans.ofErr : Option Err → Ans F D
  | none => .done
  | some e => .failed e

/-- answers of searches -/
def Ans.ofNear : Except Err (List (Props F) × List D) → Ans F D
  | .error e => .failed e
  | .ok r => .near r.1 r.2

/-- the methods of `Client`, document.go:99-678 -/
def serve [DecidableEq F] (E : Env F D) (w : World F) : Req F D → World F × Ans F D
  | .login ok => let r := login ok w; (r.1, .ofErr r.2)
  | .openPod ok => let r := openPod ok w; (r.1, .ofErr r.2)
  | .create o name indexes => let r := create o w name indexes; (r.1, .ofErr r.2)
  | .delete o name => let r := delete o w name; (r.1, .ofErr r.2)
  | .list o => (w, match list o w with | .error e => .failed e | .ok l => .names l)
  | .add o name toIndex docs => let r := addDocuments E o w name toIndex docs; (r.1, .ofErr r.2.2)
  | .nearVector o name q max limit =>
    let r := nearVector E o w name q max limit
    (r.1, .ofNear r.2)
  | .nearText o name text max limit =>
    let r := nearText E o w name text max limit
    (r.1, .ofNear r.2)
  | .get o sat name property value =>
    let r := getDocument o sat w name property value
    (r.1, match r.2 with | .error e => .failed e | .ok p => .doc p)
  | .restart => (restart w, .done)

/-- one request after the other -/
def run [DecidableEq F] (E : Env F D) (w : World F) (rs : List (Req F D)) : World F := rs.foldl (fun w r => (serve E w r).1) w

/-- the collection a request is about -/
def Req.about : Req F D → Option Str
  | .create _ n _ | .delete _ n | .add _ n _ _ | .nearVector _ n _ _ _ | .nearText _ n _ _ _ | .get _ _ n _ _ => some n
  | .login _ | .openPod _ | .list _ | .restart => none

/-- an empty pod before login; `dbs` are the foreign databases in it -/
def World.fresh (lookup : Bool) (dbs : Map (Db F)) : World F := ⟨false, false, lookup, dbs, fun _ => Coll.none⟩

/-- decimal digits, `%d` -/
def digits (n : Nat) : Str := if n < 10 then [Char.ofNat (48 + n)] else digits (n / 10) ++ [Char.ofNat (48 + n % 10)]

/-- the key under which `documentCache` keeps a vector: `fmt.Sprintf("%s/%s/%d", c.pod, namespacedCollection, id)` —
document.go:163,305,381,391,424,472,574 -/
def cacheKey (pod c : Str) (id : Nat) : Str := pod ++ '/' :: c ++ '/' :: digits id

end Fave.Client
