import Verif.Model.Locks
/-!
# Panics and the locks that are held when they happen

The functions of Model/Locks once more, with the places at which they can panic.  A panic ends the function and all its callers; on the way out only
what was deferred is done.  So a lock whose `Unlock` is deferred is given back, and any other stays locked.  net/http catches the panic, the process
goes on, and the lock is never given back.

The places are those of C70 (what a request can make panic) and C69 (the logarithm of 0), and one more: a vertex that the key-value store has handed
out with fewer layers of connections than its level says.  Such a vertex is never written by this code, but whoever can write to the pod can write it
(index.go:594-622 does not look at what it reads).  The parts of the functions in which none of this happens are the programs of Model/Locks.

Simplified: the goroutines of a search are one after the other as in Model/Locks; a panic inside one of them would end the process (C70: does not
happen); `sync.Once` counts a call that panics as done.
-/
namespace Fave.Panics
open Locks

/-- where a call can panic: no pod is open — document.go:291, 458, 560; there is no index object — document.go:339, 512, 608; a document is null —
document.go:346; a property to index is no string — document.go:404; the vectoriser gave neither vector nor error — document.go:419, 516; the limit is
negative — document.go:520-523, 617-620; the level is computed from 0 — insert.go:230-234; there is no place in the vector cache — vector_cache.go:167,
compressed_vector_cache.go:135; the vertex has no such layer — search.go:225 -/
inductive Spot where
  | noPod | noIndex | nullDoc | noText | noVector | badLimit | noLevel | noPlace | noLayer
  deriving DecidableEq, Repr

/-- a function with the places at which it can panic: a part that does not panic, a place followed by the rest, one part after the other, one part or
another, a part any number of times, and a part under a lock whose `Unlock` is deferred or not -/
inductive Code where
  | plain (p : Prog)
  | risk (s : Spot) (c : Code)
  | seq (c d : Code)
  | alt (c d : Code)
  | loop (c : Code)
  | hold (k : Kind) (write : Bool) (deferred : Bool) (c : Code)

/-- how a part has ended: by a panic, or not, and then how many places are still passed before the panic (`none`: there is no panic) -/
inductive End where
  | panic (s : Spot)
  | done (left : Option Nat)
  deriving DecidableEq, Repr

/-- at a place: panic, or one place fewer to pass -/
def pass (s : Spot) : Option Nat → End
  | none => .done none
  | some 0 => .panic s
  | some (n + 1) => .done (some n)

/-- `n` times a part, until it panics -/
def rounds (f : List Nat → Option Nat → List Act × List Nat × End) : Nat → List Nat → Option Nat → List Act × List Nat × End
  | 0, cs, m => ([], cs, .done m)
  | n + 1, cs, m => match f cs m with
    | (a, cs, .panic s) => (a, cs, .panic s)
    | (a, cs, .done m) => let (b, cs, e) := rounds f n cs m
                          (a ++ b, cs, e)

/-- is the lock given back: always without a panic, with one if that is deferred -/
def givesBack (deferred : Bool) : End → Bool
  | .panic _ => deferred
  | .done _ => true

/-- the path through a function of collection `o` that the decisions `cs` choose and that panics at the `m`-th place it comes to; compare `Prog.walk` -/
def Code.walk (o : Nat) : Code → (Kind → Option Nat) → List Nat → Option Nat → List Act × List Nat × End
  | .plain p, env, cs, m => let (a, cs) := p.walk o env cs
                            (a, cs, .done m)
  | .risk s c, env, cs, m => match pass s m with
    | .panic s => ([], cs, .panic s)
    | .done m => c.walk o env cs m
  | .seq c d, env, cs, m => match c.walk o env cs m with
    | (a, cs, .panic s) => (a, cs, .panic s)
    | (a, cs, .done m) => let (b, cs, e) := d.walk o env cs m
                          (a ++ b, cs, e)
  | .alt c d, env, cs, m => if cs.headD 0 = 0 then c.walk o env cs.tail m else d.walk o env cs.tail m
  | .loop c, env, cs, m => rounds (c.walk o env) (cs.headD 0) cs.tail m
  | .hold k w d c, env, cs, m =>
    let l := lockOf o k (cs.headD 0)
    let (a, cs, e) := c.walk o (within env k (cs.headD 0)) (if k.many then cs.tail else cs) m
    (Act.take l w :: a ++ (if givesBack d e then [Act.give l w] else []), cs, e)

/-- the path through a function that is called outside of every section -/
def Code.path (o : Nat) (c : Code) (cs : List Nat) (m : Option Nat) : List Act × List Nat × End := c.walk o (fun _ => none) cs m

/-- a part that may be left out -/
def maybe (c : Code) : Code := .alt (.plain .skip) c

instance : Coe Prog Code := ⟨.plain⟩
infixr:60 " ;! " => Code.seq

/-! ## The functions -/

/-- reading the connections of a vertex at a layer; the lock is not deferred — search.go:215-243 -/
def readLayer (damaged : Bool) : Code :=
  if damaged then .hold .vertex true false (.risk .noLayer (rd .edges)) else .hold .vertex true false (rd .edges)

/-- `searchLayerByVector` — search.go:164-325 -/
def searchLayer (damaged : Bool) : Code :=
  visitedList ;! opt (rd .quant) ;! Prog.loop hasTombstone ;! distNode ;! maybe (
    .loop (maybe (readLayer damaged ;! Prog.loop (distNode ;; opt (brief .nds true)) ;! Prog.loop (hasTombstone ;; opt prefetch))) ;!
    visitedList)

/-- `findBestEntrypointForNode` — index.go:391-427 -/
def findBest (damaged : Bool) : Code := .loop (distNode ;! maybe (searchLayer damaged ;! opt marked))

/-- `findAndConnectNeighbors` — neighbor_connections.go:23-136; the lock of a neighbour is deferred (146-147) and nothing under it panics -/
def connect (damaged : Bool) : Code :=
  .loop (pickEntry ;! maybe (searchLayer damaged ;! maybe (heuristic ;! opt (setEdges ;; Locks.log ;; .loop connectNeighbor))))

/-- `preload` of the two caches; deferred — vector_cache.go:158-168, compressed_vector_cache.go:127-136; insert.go:106-112, 263-269 -/
def preload : Code :=
  .alt (.hold .shard false true (dims ;! .risk .noPlace (wr .slot)))
    (rd .quant ;! .hold .shard false true (dims ;! .risk .noPlace (wr .code)))

/-- `insertInitialElement`; deferred — insert.go:81-115 -/
def insertInitial : Code := .hold .graph true true (Locks.log ;! maybe (wr .entry ;! wr .layer ;! Locks.log ;! maybe preload))

/-- `insert`; deferred, and so is the lock inside `sync.Once` — insert.go:201-311 -/
def insert (damaged : Bool) : Code :=
  .hold .delIns false true (
    rd .once ;! maybe (.hold .once true true (look ;! maybe insertInitial)) ;!
    maybe (mark ;! lookBoth ;! .risk .noLevel (Locks.log ;! maybe (brief .graph true ;! maybe (preload ;! findBest damaged ;!
      maybe (connect damaged ;! opt (mark ;; .hold .graph true (rd .layer ;; opt (Locks.log ;; opt (wr .entry ;; wr .layer))))))))))

/-- `Add`; deferred — insert.go:57-79 -/
def add (damaged : Bool) : Code := maybe (.hold .compress false true (insert damaged))

/-- `KnnSearchByVectorMaxDist` — search_with_max_dist.go:22-87 -/
def maxDist (damaged : Bool) : Code :=
  rd .entry ;! distNode ;! maybe (rd .layer ;! .loop (searchLayer damaged) ;! searchLayer damaged)

/-- `knnSearchByVector` — search.go:464-546 -/
def knn (damaged : Bool) : Code :=
  look ;! maybe (rd .entry ;! distNode ;! maybe (rd .layer ;! .loop (searchLayer damaged ;! Prog.loop (.alt addTombstone marked)) ;!
    searchLayer damaged))

/-- `SearchByVector`; deferred — search.go:70-85 -/
def search (damaged : Bool) : Code := .hold .compress false true (.alt flat (knn damaged))

/-- `SearchByVectorDistance` — search.go:96-162 -/
def searchDist (damaged : Bool) : Code := search damaged ;! .loop (search damaged)

/-- `AddDocuments` — document.go:287-454 -/
def addDocuments (damaged : Bool) : Code :=
  rd .pod ;! .risk .noPod (maybe (findIndex ;! .risk .noIndex (docCount ;!
    .loop (.risk .nullDoc (.risk .noText (.risk .noVector (add damaged ;! opt (rd .session ;; rd .pod))))) ;! opt flush)))

/-- `GetNearDocuments`, `GetNearDocumentsByVector` — document.go:456-555, 557-651 -/
def nearDocuments (damaged : Bool) : Code :=
  rd .pod ;! .risk .noPod (maybe (findIndex ;! maybe (.risk .noIndex (loadEntry ;! .risk .noVector (maxDist damaged ;!
    .risk .badLimit (Prog.loop (rd .session ;; rd .pod)))))))

/-- each call; those that do not panic as in Model/Locks, and so a clean-up, which runs in a goroutine of its own whose panic ends the process
(index.go:280-282); `damaged`: the key-value store may hand out vertices with too few layers -/
def code (damaged : Bool) : Op → Code
  | .addDocuments => addDocuments damaged
  | .near => nearDocuments damaged
  | .add => add damaged
  | .maxDist => maxDist damaged
  | .search => search damaged
  | .searchDist => searchDist damaged
  | op => op.prog

/-- a call: what, of which collection, its decisions, and at which place it panics -/
structure Call where
  op : Op
  coll : Nat
  choices : List Nat
  panics : Option Nat
  deriving DecidableEq, Repr

/-- what it does with the locks, and how it ends; `damaged`: the collections of which the key-value store may hand out such vertices -/
def Call.path (damaged : Nat → Bool) (c : Call) : List Act × List Nat × End := (code (damaged c.coll) c.op).path c.coll c.choices c.panics

/-- goroutines busy with calls, before the first step -/
def begin (damaged : Nat → Bool) (calls : List Call) : List Thread := calls.map fun c => Thread.start (c.path damaged).1

end Fave.Panics
