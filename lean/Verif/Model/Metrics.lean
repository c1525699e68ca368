/-!
# The numbers an index reports about itself

Model of pkg/hnsw/metrics.go, of its callers (delete.go, search.go, insert.go) and of the marks they count.  Calls run at the same time:
one step is one method of the metrics or one section under `tombstoneLock`.  Durations, the size and what is reported about the start are
left out (the calls for the size and the start are commented out — maintainance.go:37, startup.go:43-110).
-/
namespace Fave.Metrics

/-- the gauges and counters behind the pointers of a `Metrics` — metrics.go:21-35 -/
structure Gauges where
  tombstones : Int := 0
  threads : Int := 0
  insert : Int := 0
  delete : Int := 0
  cleaned : Int := 0
deriving DecidableEq, Repr

/-- `Metrics` — metrics.go:21-35; `none`: the pointers are nil -/
structure Metrics where
  enabled : Bool
  gauges : Option Gauges
deriving DecidableEq, Repr

/-- `NewMetrics` — metrics.go:37-124.  The gauges are found by class and shard: an index of the same name that was opened before has left
its numbers there. -/
def new : Option Gauges → Metrics
  | none => ⟨false, none⟩
  | some g => ⟨true, some g⟩

/-- the methods — metrics.go:126-181 -/
inductive Method where
  | addTombstone | removeTombstone | startCleanup | endCleanup | cleanedUp | insertVector | deleteVector
deriving DecidableEq, Repr

/-- what a method does with the gauges — metrics.go:132, 140, 148, 156, 164, 172, 180; `startCleanup` and `endCleanup` are always called
with 1 (delete.go:177-178) -/
def Method.apply : Method → Gauges → Gauges
  | .addTombstone, g => { g with tombstones := g.tombstones + 1 }
  | .removeTombstone, g => { g with tombstones := g.tombstones - 1 }
  | .startCleanup, g => { g with threads := g.threads + 1 }
  | .endCleanup, g => { g with threads := g.threads - 1 }
  | .cleanedUp, g => { g with cleaned := g.cleaned + 1 }
  | .insertVector, g => { g with insert := g.insert + 1 }
  | .deleteVector, g => { g with delete := g.delete + 1 }

/-- a call of a method: nothing if the metrics are not enabled; `none` is the panic at a nil gauge — metrics.go:126-181 -/
def Metrics.call (m : Metrics) (f : Method) : Option Metrics :=
  if !m.enabled then some m
  else
    match m.gauges with
    | none => none
    | some g => some { m with gauges := some (f.apply g) }

/-- calls one after the other -/
def Metrics.calls : Metrics → List Method → Option Metrics
  | m, [] => some m
  | m, f :: fs =>
    match m.call f with
    | none => none
    | some m => m.calls fs

/-- `h.tombstones[id] = struct{}{}` — delete.go:592 -/
def mark (tombs : List Nat) (id : Nat) : List Nat := if tombs.contains id then tombs else id :: tombs

/-- calls that change the numbers, with the place they have reached -/
inductive Agent where
  /-- `Delete` — delete.go:31-86 -/
  | delete (ids : List Nat)
  /-- `Delete` in its loop, with that many ids to go — delete.go:48-83 -/
  | deleting (n : Nat)
  /-- `knnSearchByVector` at a result whose node is gone — search.go:496-506 -/
  | search (id : Nat)
  /-- `handleDeletedNode` — search.go:447-462 -/
  | handle (id : Nat)
  /-- `handleDeletedNode` after the check — search.go:454 -/
  | handleAdd (id : Nat)
  /-- `Add` with an empty or a non-empty vector — insert.go:57-64 -/
  | insert (nonEmpty : Bool)
  /-- `cleanUpTombstonedNodes` — delete.go:176-218 -/
  | clean
  /-- at `copyTombstonesToAllowList` — delete.go:190 -/
  | copy
  /-- at `reassignNeighborsOf` and `replaceDeletedEntrypoint` — delete.go:196-206 -/
  | relink (list : List Nat)
  /-- in the loop of `removeTombstonesAndNodes` — delete.go:602-603 -/
  | removing (list : List Nat)
  /-- between `RemoveTombstone` and the removal of the mark — delete.go:604-606 -/
  | unmarking (id : Nat) (list : List Nat)
  /-- at the deferred `EndCleanup` — delete.go:178 -/
  | ending
  | done
deriving DecidableEq, Repr

/-- one step of a call: the marks before, the place, the methods called, the marks after, the next place -/
inductive Local : List Nat → Agent → List Method → List Nat → Agent → Prop where
  /-- `addTombstone` holds the lock for all ids — delete.go:44-46, 586-598 -/
  | delete (t : List Nat) (ids : List Nat) : Local t (.delete ids) (ids.map fun _ => .addTombstone) (ids.foldl mark t) (.deleting ids.length)
  /-- delete.go:49 -/
  | deleteOne (t : List Nat) (n : Nat) : Local t (.deleting (n + 1)) [.deleteVector] t (.deleting n)
  /-- delete.go:85 -/
  | deleteEnd (t : List Nat) : Local t (.deleting 0) [] t .done
  /-- search.go:501: without looking whether there is a mark -/
  | search (t : List Nat) (id : Nat) : Local t (.search id) [.addTombstone] (mark t id) .done
  /-- `hasTombstone` — search.go:448-452, delete.go:579-584 -/
  | handleOld (t : List Nat) (id : Nat) : id ∈ t → Local t (.handle id) [] t .done
  | handleNew (t : List Nat) (id : Nat) : id ∉ t → Local t (.handle id) [] t (.handleAdd id)
  /-- search.go:454 -/
  | handleAdd (t : List Nat) (id : Nat) : Local t (.handleAdd id) [.addTombstone] (mark t id) .done
  /-- insert.go:59-63 -/
  | insert (t : List Nat) (b : Bool) : Local t (.insert b) (if b then [.insertVector] else []) t .done
  /-- delete.go:177 -/
  | clean (t : List Nat) : Local t .clean [.startCleanup] t .copy
  /-- interrupted, or no marks — delete.go:150-152, 162-164 -/
  | copyStop (t : List Nat) : Local t .copy [] t .ending
  /-- the list holds every marked id once — delete.go:154-166 -/
  | copy (t : List Nat) (list : List Nat) : list.Nodup → (∀ id, id ∈ list ↔ id ∈ t) → Local t .copy [] t (.relink list)
  /-- delete.go:395; the marks made on the way (delete.go:323) are calls of their own, `handle` -/
  | relinked (t : List Nat) (list : List Nat) : Local t (.relink list) [.cleanedUp] t (.relink list)
  /-- interrupted or failed — delete.go:196-206 -/
  | relinkStop (t : List Nat) (list : List Nat) : Local t (.relink list) [] t .ending
  | relinkEnd (t : List Nat) (list : List Nat) : Local t (.relink list) [] t (.removing list)
  /-- delete.go:603 -/
  | removeOne (t : List Nat) (id : Nat) (list : List Nat) : Local t (.removing (id :: list)) [.removeTombstone] t (.unmarking id list)
  /-- `delete(h.tombstones, id)` — delete.go:604-606 -/
  | unmark (t : List Nat) (id : Nat) (list : List Nat) : Local t (.unmarking id list) [] (t.filter (· ≠ id)) (.removing list)
  /-- the node can not be deleted — delete.go:610-613 -/
  | unmarkFail (t : List Nat) (id : Nat) (list : List Nat) : Local t (.unmarking id list) [] (t.filter (· ≠ id)) .ending
  /-- delete.go:208-217 -/
  | removeEnd (t : List Nat) : Local t (.removing []) [] t .ending
  /-- delete.go:178 -/
  | ending (t : List Nat) : Local t .ending [.endCleanup] t .done

/-- an index with calls under way: its metrics, its marks (index.go:107), the calls, whether one of them has panicked in the metrics -/
structure St where
  metrics : Metrics
  tombs : List Nat
  agents : List Agent
  panicked : Bool
deriving DecidableEq, Repr

/-- a new index — index.go:254, 270 — and the calls that will be made -/
def St.init (prom : Option Gauges) (agents : List Agent) : St := ⟨new prom, [], agents, false⟩

/-- the calls of the methods in a state -/
def St.report (s : St) (fs : List Method) : St :=
  match s.metrics.calls fs with
  | none => { s with panicked := true }
  | some m => { s with metrics := m }

/-- one of the calls does a step -/
inductive Step : St → St → Prop where
  | mk (s : St) (before after : List Agent) (a a' : Agent) (fs : List Method) (t : List Nat) :
      s.agents = before ++ a :: after → Local s.tombs a fs t a' →
      Step s { s.report fs with tombs := t, agents := before ++ a' :: after }

/-- any number of steps -/
inductive Steps (s : St) : St → Prop where
  | refl : Steps s s
  | step {t u : St} : Steps s t → Step t u → Steps s u

end Fave.Metrics
