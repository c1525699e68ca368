import Verif.Model.Basic
/-!
# The locks of the client and of the index, and what they guard

Which locks a request takes, in which order, which shared fields it reads and writes meanwhile, and what happens when requests run at the same
time.  Of each function only the locking and the accesses to shared fields are kept: a function is a program over sections in which a lock is
held, in which every decision of the code (errors, early returns, how often a loop runs, which vertex or which shard) is left open.  The decisions
are read from a list of numbers, so that a program and such a list give one path through the function.

The second part is the machine: any number of goroutines, each with the rest of its path, against `sync.Mutex` and `sync.RWMutex` as documented
by package sync (a writer that waits keeps new readers out; locks are not reentrant).

Simplified: goroutines that a function starts and waits for (search.go:253-279) are one after the other here; a panic inside a section is in
Model/Panics; the locks inside the LRU caches and inside fairOS-dfs are never held while another lock is asked for and are left out; taking all 512
locks of a vector cache (`grow`, `drop`, the watcher: vector_cache.go:171-257) is left out here.  Of the accesses only those to fields that
change after they can be seen by others are kept: a vertex is filled before it is put into the cache of the index (insert.go:86-105, 231-262) and
its vector is not changed after that; atomic fields (`compressed`, `count`, `dims`), the LRU caches and the priority queues of the pools
(`sync.Pool`) synchronise themselves; the array that `setConnectionsAtLevel` keeps and `doAtLevel` goes on reading (neighbor_connections.go:99-118)
is looked at in C51.
-/
namespace Fave.Locks

/-! ## The locks -/

/-- kinds of locks: `Client.lock`, `Client.hnswLock` — document.go:38-40; `compressActionLock`, `deleteVsInsertLock`, `deleteLock`,
`initialInsertOnce`, `resetLock`, the embedded lock of the index, `tombstoneLock` — index.go:43-59, 131-155; the lock of a vertex — vertex.go:18-19; the
locks of the shards of a vector cache and its `trackDimensionsOnce` — vector_cache.go:28-44; `visitedListsLock` — pools.go:23; the lock of the
pool of visited lists — visited/pool.go:40-41; the mutex around the collected distances — search.go:249; the lock of the commit logger —
commit_logger.go:325 -/
inductive Kind where
  | client | table | compress | delIns | delete | once | reset | graph | vertex | shard | dims | tomb | visited | pool | nds | log
  deriving DecidableEq, Repr

/-- there is one lock of this kind for the whole process — document.go:38-40 -/
def Kind.ofProcess : Kind → Bool
  | .client | .table => true
  | _ => false

/-- there are several locks of this kind in one index: one for each vertex, each shard, each search — vertex.go:18-19, vector_cache.go:30,
search.go:249; the `sync.Once` of the first insertion is replaced by a reset — delete.go:119 -/
def Kind.many : Kind → Bool
  | .vertex | .shard | .nds | .once | .dims => true
  | _ => false

/-- a lock: its kind, the collection it belongs to, and which one of its kind; the two vector caches of an index share the numbers -/
structure Lock where
  kind : Kind
  owner : Nat
  idx : Nat
  deriving DecidableEq, Repr

/-- the lock of a kind that a function of collection `o` means — see `Kind.ofProcess`, `Kind.many` -/
def lockOf (o : Nat) (k : Kind) (i : Nat) : Lock :=
  ⟨k, if k.ofProcess then 0 else o, if k.many then i else 0⟩

/-! ## The memory -/

/-- fields that several goroutines use: `sessionId`, `pod` with `podInfo`, `indices` — document.go:42-46; `entryPointID`, `currentMaximumLayer`,
the pointer `initialInsertOnce`, `resetCtx` with `resetCtxCancel`, `tombstones` — index.go:53-76, 107; `Level` with `Connections`, `Maintenance`,
`Committed` of a vertex — vertex.go:21-26; a slot of the vector cache and of the compressed one — vector_cache.go:28-44,
compressed_vector_cache.go:24-38; `pq` with `compressedStore` — index.go:152-154; `listSets` of the pool of visited lists — visited/pool.go:18-22;
the file of the commit logger — commit_logger.go:324-402 -/
inductive Field where
  | session | pod | indices
  | entry | layer | once | resetCtx | tombs
  | edges | maint | committed
  | slot | code | quant | lists | file
  deriving DecidableEq, Repr

/-- there is one of it for the whole process — document.go:36-49 -/
def Field.ofProcess : Field → Bool
  | .session | .pod | .indices => true
  | _ => false

/-- the kind of lock that comes with each of several: one for each vertex, one for each slot, where the slots that share a lock count as one —
vertex.go:18-26, vector_cache.go:28-31 -/
def Field.per : Field → Option Kind
  | .edges | .maint | .committed => some .vertex
  | .slot | .code => some .shard
  | _ => none

/-- a piece of memory: a field, the collection it belongs to, and which vertex or shard -/
structure Cell where
  field : Field
  owner : Nat
  idx : Nat
  deriving DecidableEq, Repr

/-- the memory that a function of collection `o` means — see `Field.ofProcess`, `Field.per` -/
def cellOf (o : Nat) (f : Field) (i : Nat) : Cell :=
  ⟨f, if f.ofProcess then 0 else o, if f.per.isSome then i else 0⟩

/-- taking and giving back a lock, for writing or for reading — a `sync.Mutex` is always taken for writing —, and reading or writing memory -/
inductive Act where
  | take (l : Lock) (write : Bool)
  | give (l : Lock) (write : Bool)
  | acc (c : Cell) (write : Bool)
  deriving DecidableEq, Repr

/-! ## Programs -/

/-- the locking of a function: one part after the other, one part or another, a part any number of times, a part while a lock is held, a part
while two locks are held of which the first is given back first, a lock that is taken and not given back, and an access to a field -/
inductive Prog where
  | skip
  | seq (p q : Prog)
  | alt (p q : Prog)
  | loop (p : Prog)
  | hold (k : Kind) (write : Bool) (p : Prog)
  | cross (k₁ k₂ : Kind) (p : Prog)
  | keep (k : Kind) (write : Bool)
  | acc (f : Field) (write : Bool)

/-- `n` times a part -/
def times (f : List Nat → List Act × List Nat) : Nat → List Nat → List Act × List Nat
  | 0, cs => ([], cs)
  | n + 1, cs => let (a, cs) := f cs
                 let (b, cs) := times f n cs
                 (a ++ b, cs)

/-- the section of kind `k` that is entered is that of number `i` -/
def within (env : Kind → Option Nat) (k : Kind) (i : Nat) : Kind → Option Nat :=
  fun k' => if k' = k then some i else env k'

/-- which vertex or shard an access means: inside a section of that kind the one whose lock is held, else any -/
def Field.which (f : Field) (env : Kind → Option Nat) (cs : List Nat) : Nat × List Nat :=
  match f.per with
  | none => (0, cs)
  | some k => match env k with
    | some i => (i, cs)
    | none => (cs.headD 0, cs.tail)

/-- the path through a function of collection `o` that the decisions `cs` choose, inside the sections `env`, and the decisions left over; a
decision missing is `0` -/
def Prog.walk (o : Nat) : Prog → (Kind → Option Nat) → List Nat → List Act × List Nat
  | .skip, _, cs => ([], cs)
  | .seq p q, env, cs => let (a, cs) := p.walk o env cs
                         let (b, cs) := q.walk o env cs
                         (a ++ b, cs)
  | .alt p q, env, cs => if cs.headD 0 = 0 then p.walk o env cs.tail else q.walk o env cs.tail
  | .loop p, env, cs => times (p.walk o env) (cs.headD 0) cs.tail
  | .hold k w p, env, cs =>
    let l := lockOf o k (cs.headD 0)
    let (a, cs) := p.walk o (within env k (cs.headD 0)) (if k.many then cs.tail else cs)
    (Act.take l w :: a ++ [Act.give l w], cs)
  | .cross k₁ k₂ p, env, cs =>
    let (a, cs) := p.walk o env cs
    (Act.take (lockOf o k₁ 0) true :: Act.take (lockOf o k₂ 0) true :: a ++
      [Act.give (lockOf o k₁ 0) true, Act.give (lockOf o k₂ 0) true], cs)
  | .keep k w, _, cs => ([Act.take (lockOf o k (cs.headD 0)) w], if k.many then cs.tail else cs)
  | .acc f w, env, cs => let (i, cs) := f.which env cs
                         ([Act.acc (cellOf o f i) w], cs)

/-- the path through a function that is called outside of every section -/
def Prog.path (o : Nat) (p : Prog) (cs : List Nat) : List Act × List Nat := p.walk o (fun _ => none) cs

/-- a part that may be left out: an early return, a `continue`, an untaken branch -/
def opt (p : Prog) : Prog := .alt .skip p

/-- a short section in which nothing of interest happens -/
def brief (k : Kind) (w : Bool) : Prog := .hold k w .skip

/-- reading a field -/
def rd (f : Field) : Prog := .acc f false

/-- writing a field -/
def wr (f : Field) : Prog := .acc f true

infixr:60 " ;; " => Prog.seq

/-! ## The functions -/

/-- writing to the commit logger — commit_logger.go:324-402; the logger that the client uses does not lock — commit_logger_noop.go:18-90 -/
def log : Prog := opt (.hold .log true (wr .file))

/-- `trackDimensionsOnce.Do` — vector_cache.go:106-108, 163-165; `dims` is atomic -/
def dims : Prog := opt (brief .dims true)

/-- `get` of the vector cache; what is missing is asked of the client, whose function reads `pod` — vector_cache.go:75-85, 101-120,
document.go:161-167, 304-309, 471-476, 573-578 -/
def getPlain : Prog := .hold .shard false (rd .slot) ;; opt (rd .pod ;; dims ;; .hold .shard true (wr .slot))

/-- `get` of the compressed vector cache; what is missing is an error — compressed_vector_cache.go:61-71, 91-94 -/
def getCode : Prog := .hold .shard false (rd .code)

/-- `get` of the one cache or the other — index.go:437-512, heuristic.go:45-83, delete.go:308-316 -/
def get : Prog := .alt getPlain getCode

/-- `preload` of the vector cache: a write, with the lock held for reading — vector_cache.go:158-168 -/
def preloadPlain : Prog := .hold .shard false (dims ;; wr .slot)

/-- `preload` of the compressed cache, likewise — compressed_vector_cache.go:127-136 -/
def preloadCode : Prog := .hold .shard false (dims ;; wr .code)

/-- filling the cache for a new vertex — insert.go:105-112, 251-260 -/
def preload : Prog := .alt preloadPlain (rd .quant ;; preloadCode)

/-- `prefetch`, which takes an address and reads nothing — vector_cache.go:150-155, compressed_vector_cache.go:119-124 -/
def prefetch : Prog := brief .shard false

/-- `delete` of the vector caches — vector_cache.go:88-99, compressed_vector_cache.go:79-89 -/
def forget : Prog := .hold .shard true (.alt (wr .slot) (wr .code))

/-- `hasTombstone` — delete.go:579-584 -/
def hasTombstone : Prog := .hold .tomb false (rd .tombs)

/-- `addTombstone` — delete.go:586-598 -/
def addTombstone : Prog := .hold .tomb true (.loop (wr .tombs ;; log))

/-- `handleDeletedNode` — search.go:447-462 -/
def handleDeletedNode : Prog := hasTombstone ;; opt addTombstone

/-- `distBetweenNodeAndVec`, `distanceToByteNode`, `distanceToFloatNode` — index.go:514-550, search.go:402-432: without a lock unless the
vectors are compressed -/
def distNode : Prog := opt (getCode ;; opt handleDeletedNode ;; rd .quant)

/-- `distBetweenNodes` — index.go:437-512 -/
def distNodes : Prog := get ;; opt handleDeletedNode ;; opt (get ;; opt handleDeletedNode ;; opt (rd .quant))

/-- borrowing and returning a visited list — search.go:168-170, 320-322, visited/pool.go:40-66 -/
def visitedList : Prog := .hold .visited true (.hold .pool true (wr .lists))

/-- reading the level or the connections of a vertex — search.go:215-243, delete.go:330-338, 421-424, 485-487, 543-545 -/
def readEdges : Prog := .hold .vertex true (rd .edges)

/-- writing the connections of a vertex: `setConnectionsAtLevel`, and the sections of `reassignNeighbor` — vertex.go:59-80, delete.go:351-355,
369-372, 379-383 -/
def setEdges : Prog := .hold .vertex true (wr .edges)

/-- `markAsMaintenance`, `unmarkAsMaintenance` — vertex.go:29-39 -/
def mark : Prog := .hold .vertex true (wr .maint)

/-- `isUnderMaintenance` — vertex.go:41-46 -/
def marked : Prog := .hold .vertex true (rd .maint)

/-- `searchLayerByVector` — search.go:164-325; the goroutines of 253-279 one after the other -/
def searchLayer : Prog :=
  visitedList ;; opt (rd .quant) ;; .loop hasTombstone ;; distNode ;; opt (
    .loop (opt (readEdges ;; .loop (distNode ;; opt (brief .nds true)) ;; .loop (hasTombstone ;; opt prefetch))) ;;
    visitedList)

/-- `findBestEntrypointForNode` — index.go:391-427 -/
def findBest : Prog := .loop (distNode ;; opt (searchLayer ;; opt marked))

/-- `selectNeighborsHeuristic` — heuristic.go:23-135 -/
def heuristic : Prog := opt (.loop get ;; .loop handleDeletedNode ;; opt (rd .quant))

/-- `isEmpty`, `isOnlyNode`, and the short sections around the key-value store — index.go:579-584, delete.go:561-566, 271-280, 461-468, 479-481,
537-539 -/
def look : Prog := brief .graph false

/-- `getEntrypoint`, `Entrypoint` — delete.go:139-144, index.go:677-682 -/
def lookEntry : Prog := .hold .graph false (rd .entry)

/-- reading where to start — insert.go:216-224, delete.go:300-304 -/
def lookBoth : Prog := .hold .graph false (rd .entry ;; rd .layer)

/-- `LoadEntrypoint`: a write, with the lock held for reading — insert.go:181-199 -/
def loadEntry : Prog := .hold .graph false (wr .entry)

/-- `findNewLocalEntrypoint` — delete.go:504-559 -/
def findLocal : Prog := lookEntry ;; .alt (lookEntry ;; rd .layer) (.loop (look ;; opt readEdges))

/-- `findNewGlobalEntrypoint` — delete.go:443-501 -/
def findGlobal : Prog := lookEntry ;; opt (.loop (look ;; .loop (lookEntry ;; opt (look ;; opt readEdges))))

/-- `pickEntrypoint` — neighbor_connections.go:246-289 -/
def pickEntry : Prog := .loop (distNode ;; opt (rd .layer ;; findLocal))

/-- `connectNeighborAtLevel` — neighbor_connections.go:138-236 -/
def connectNeighbor : Prog :=
  opt hasTombstone ;; opt (.hold .vertex true (wr .committed ;; rd .edges ;; opt (wr .edges) ;;
    .alt (wr .edges ;; log) (distNodes ;; opt (.loop distNodes ;; heuristic ;; opt (wr .edges ;; log ;; .loop (wr .edges ;; log))))))

/-- `findAndConnectNeighbors` — neighbor_connections.go:23-136 -/
def connect : Prog :=
  .loop (pickEntry ;; opt (searchLayer ;; opt (heuristic ;; opt (setEdges ;; log ;; .loop connectNeighbor))))

/-- `insertInitialElement` — insert.go:81-115 -/
def insertInitial : Prog := .hold .graph true (log ;; opt (wr .entry ;; wr .layer ;; log ;; opt preload))

/-- `insert` — insert.go:201-311; a `sync.Once` that is done does not lock -/
def insert : Prog :=
  .hold .delIns false (
    rd .once ;; opt (.hold .once true (look ;; opt insertInitial)) ;;
    opt (mark ;; lookBoth ;; log ;; opt (brief .graph true ;; opt (preload ;; findBest ;; opt (connect ;; opt (mark ;;
      .hold .graph true (rd .layer ;; opt (log ;; opt (wr .entry ;; wr .layer)))))))))

/-- `Add` — insert.go:56-79 -/
def add : Prog := opt (.hold .compress false insert)

/-- `ValidateBeforeInsert` — insert.go:38-54 -/
def validate : Prog := look ;; opt (rd .entry ;; getPlain)

/-- `Flush`: no lock but that of the commit logger — insert.go:117-163 -/
def flush : Prog := .loop (rd .committed ;; opt (rd .edges ;; rd .maint ;; opt (wr .committed))) ;; opt (rd .entry ;; log)

/-- `GetDocCount` — insert.go:165-179 -/
def docCount : Prog := opt (rd .entry)

/-- `knnSearchByVector` — search.go:464-546 -/
def knn : Prog :=
  look ;; opt (rd .entry ;; distNode ;; opt (rd .layer ;; .loop (searchLayer ;; .loop (.alt addTombstone marked)) ;; searchLayer))

/-- `flatSearch` — flat_search.go:19-74 -/
def flat : Prog := .loop (.hold .graph false (opt hasTombstone) ;; opt distNode)

/-- `SearchByVector` — search.go:70-85 -/
def search : Prog := .hold .compress false (.alt flat knn)

/-- `SearchByVectorDistance` — search.go:96-162 -/
def searchDist : Prog := search ;; .loop search

/-- `KnnSearchByVectorMaxDist` — search_with_max_dist.go:22-87 -/
def maxDist : Prog := rd .entry ;; distNode ;; opt (rd .layer ;; .loop searchLayer ;; searchLayer)

/-- `resetIfOnlyNode`, `resetIfEmpty`: `resetLock` is given back before the lock of the index; `resetUnsecured` — delete.go:87-124 -/
def resetIf : Prog := .cross .reset .graph (opt (wr .resetCtx ;; wr .entry ;; wr .layer ;; wr .once ;; log))

/-- `deleteEntrypoint` — delete.go:414-440 -/
def deleteEntry : Prog := look ;; opt (readEdges ;; findGlobal ;; opt (.hold .graph true (wr .entry ;; wr .layer) ;; log))

/-- `Delete` — delete.go:31-85; `tombstonesAsDenyList` — delete.go:126-137 -/
def remove : Prog :=
  .hold .compress false (.hold .delIns true (.hold .delete true (
    addTombstone ;; .loop (opt (lookEntry ;; opt (.hold .tomb true (rd .tombs) ;; resetIf ;; opt deleteEntry))))))

/-- `copyTombstonesToAllowList` — delete.go:146-166 -/
def copyTombstones : Prog := .hold .reset true (opt (.hold .tomb true (rd .tombs)))

/-- `reassignNeighbor` — delete.go:292-396 -/
def reassign : Prog :=
  .hold .reset true (opt (lookBoth ;; opt (get ;; opt (rd .quant) ;; opt handleDeletedNode ;; opt (readEdges ;; opt (findBest ;; opt (
    .alt (look ;; .alt (setEdges ;; log) (findLocal ;; opt setEdges)) .skip ;;
    opt (mark ;; setEdges ;; log ;; opt (connect ;; opt mark))))))))

/-- `replaceDeletedEntrypoint`, every branch in which nothing fails — delete.go:220-269 -/
def replaceEntry : Prog := .hold .reset true (.loop (lookEntry ;; opt (look ;; deleteEntry)))

/-- one round of `removeTombstonesAndNodes` — delete.go:602-628 -/
def removeOne : Prog := .hold .tomb true (wr .tombs) ;; .hold .reset true (opt (forget ;; log)) ;; log

/-- what `cleanUpTombstonedNodes` does up to the replacing of the entry point — delete.go:176-205, 271-290 -/
def cleanUpBefore : Prog := .hold .reset true (rd .resetCtx) ;; copyTombstones ;; look ;; .loop reassign

/-- `cleanUpTombstonedNodes` where neither reading nor deleting in the key-value store fails — delete.go:176-218 -/
def cleanUp : Prog :=
  .hold .reset true (rd .resetCtx) ;; copyTombstones ;;
    opt (look ;; .loop reassign ;; opt (replaceEntry ;; opt (.loop removeOne ;; opt resetIf)))

/-- the path on which the new entry point's old vertex can not be read: `replaceDeletedEntrypoint` returns at delete.go:250, 255 or 259 with the
lock of the index read-locked -/
def cleanUpEntryFails : Prog :=
  cleanUpBefore ;; .hold .reset true (.loop (lookEntry ;; opt (look ;; deleteEntry)) ;; lookEntry ;; .keep .graph false)

/-- the path on which a vertex can not be deleted: `removeTombstonesAndNodes` returns at delete.go:612 with `resetLock` locked -/
def cleanUpRemoveFails : Prog :=
  cleanUpBefore ;; replaceEntry ;; .loop removeOne ;; .hold .tomb true (wr .tombs) ;; .keep .reset true

/-- `Compress` without the growing of the compressed cache and the dropping of the other; `all` hands out the slots without a lock —
compress.go:27-107, vector_cache.go:71-73 -/
def compress : Prog :=
  look ;; opt (wr .quant ;; getPlain ;; opt (wr .quant ;; .loop (rd .slot) ;;
    .hold .compress true (.loop (rd .quant ;; preloadCode) ;; log)))

/-- `Login` — document.go:99-109 -/
def login : Prog := .hold .client true (opt (wr .session))

/-- `OpenPod` — document.go:111-144 -/
def openPod : Prog := .hold .client true (wr .pod ;; rd .session ;; opt (wr .pod))

/-- `GetCollections` — document.go:248-285 -/
def collections : Prog := .hold .client true (rd .session ;; opt (rd .pod))

/-- `CreateCollection`, `DeleteCollection` — document.go:146-246; a new index is not locked; the goroutines of 224-240 are waited for with the
lock held -/
def clientTable : Prog := .hold .client true (rd .session ;; opt (rd .pod ;; opt (.hold .table true (wr .indices))))

/-- opening the collection and finding its index, with no lock for the session and the pod — document.go:287-338, 457-511, 558-607 -/
def findIndex : Prog := rd .pod ;; rd .session ;; opt (.hold .table true (wr .indices)) ;; .hold .table true (rd .indices)

/-- `AddDocuments` — document.go:287-454 -/
def addDocuments : Prog := rd .pod ;; opt (findIndex ;; docCount ;; .loop (add ;; opt (rd .session ;; rd .pod)) ;; opt flush)

/-- `GetNearDocuments`, `GetNearDocumentsByVector` — document.go:456-555, 557-655 -/
def nearDocuments : Prog := rd .pod ;; opt (findIndex ;; opt (loadEntry ;; maxDist ;; .loop (rd .session ;; rd .pod)))

/-- `GetDocument` — document.go:653-678 -/
def getDocument : Prog := rd .session ;; rd .pod

/-- what a goroutine may be busy with: the calls of the client and those of the index -/
inductive Op where
  | login | openPod | collections | create | drop | addDocuments | near | getDocument
  | add | validate | flush | loadEntry | search | searchDist | maxDist | delete | compress
  | cleanUp | cleanUpEntryFails | cleanUpRemoveFails
  deriving DecidableEq, Repr

/-- the locking of each call -/
def Op.prog : Op → Prog
  | .login => Locks.login
  | .openPod => Locks.openPod
  | .collections => Locks.collections
  | .create | .drop => clientTable
  | .addDocuments => Locks.addDocuments
  | .near => nearDocuments
  | .getDocument => Locks.getDocument
  | .add => Locks.add
  | .validate => Locks.validate
  | .flush => Locks.flush
  | .loadEntry => Locks.loadEntry
  | .search => Locks.search
  | .searchDist => Locks.searchDist
  | .maxDist => Locks.maxDist
  | .delete => remove
  | .compress => Locks.compress
  | .cleanUp => Locks.cleanUp
  | .cleanUpEntryFails => Locks.cleanUpEntryFails
  | .cleanUpRemoveFails => Locks.cleanUpRemoveFails

/-! ## The machine -/

/-- a goroutine: what is left of its path, the locks it holds, and whether it has announced itself as the next writer of the lock that comes
next — `rw.w.Lock` and `readerCount` of sync.RWMutex -/
structure Thread where
  todo : List Act
  held : List (Lock × Bool)
  waiting : Bool
  deriving DecidableEq, Repr

/-- a goroutine before its first step -/
def Thread.start (p : List Act) : Thread := ⟨p, [], false⟩

/-- `l` is held for writing, or the next writer has announced itself -/
def Thread.writes (t : Thread) (l : Lock) : Bool :=
  t.held.contains (l, true) || (t.waiting && t.todo.head? == some (.take l true))

/-- `l` is held -/
def Thread.holds (t : Thread) (l : Lock) : Bool :=
  t.held.contains (l, true) || t.held.contains (l, false)

/-- a step of one goroutine, if it does not have to wait: giving back; using memory; locking to read, unless somebody writes or waits to write; announcing itself as
the next writer, likewise; locking to write, once the readers are gone — package sync -/
def Thread.step (all : List Thread) (t : Thread) : Option Thread :=
  match t.todo with
  | [] => none
  | .give l w :: r => some ⟨r, t.held.erase (l, w), false⟩
  | .acc _ _ :: r => some ⟨r, t.held, false⟩
  | .take l false :: r => if all.any (·.writes l) then none else some ⟨r, (l, false) :: t.held, false⟩
  | .take l true :: r =>
    if t.waiting then
      if all.any (·.holds l) then none else some ⟨r, (l, true) :: t.held, false⟩
    else if all.any (·.writes l) then none else some ⟨t.todo, t.held, true⟩

/-- a step of the `i`-th goroutine -/
def step (s : List Thread) (i : Nat) : Option (List Thread) :=
  match s[i]? with
  | none => none
  | some t => (t.step s).map (s.set i ·)

/-- the steps of a schedule, one after the other -/
def run (s : List Thread) : List Nat → Option (List Thread)
  | [] => some s
  | i :: is => match step s i with
    | none => none
    | some s => run s is

/-- goroutines busy with calls, each for a collection and with its decisions, before the first step -/
def begin (calls : List (Op × Nat × List Nat)) : List Thread :=
  calls.map fun c => Thread.start (c.1.prog.path c.2.1 c.2.2).1

end Fave.Locks
