import Verif.Model.Insert
/-!
# Histories of one collection

The index operations in the order in which pkg/document/document.go:287-454 (AddDocuments) and :456-651 (searches) issue
them for one collection, used by one request at a time.
-/
namespace Fave
/-- What is assumed of the fixed parameters: two vectors of different lengths have no distance
(pkg/hnsw/distancer/cosine_dist.go:23-46), normalising keeps the length (normalize.go:16-32), and the sizes fit. -/
structure Params.Ok {V D : Type} (P : Params V D) : Prop where
  conn : P.maxConn ≤ P.maxConn0
  sizes : P.cacheSize ≤ P.visitedSize
  lens : ∀ a b, P.metric.len a ≠ P.metric.len b → P.metric.dist a b = none
  norm : ∀ v, P.metric.len (P.norm v) = P.metric.len v

end Fave
namespace Fave.Index
variable {V D : Type} [Dist D]

/-- The parameters FaVe uses: `MaxConnections` 30 (`DefaultMaxConnections` is not used), twice that on the base layer
(index.go:241-242), `EFConstruction` 60, `initialSize` 25000 and `initialSize + 500` — pkg/document/document.go:189-199,
pkg/hnsw/maintainance.go:21, pools.go:34. -/
def faveParams (metric : Metric V D) (norm : V → V) (jsonOk : V → Bool) : Params V D :=
  { metric := metric, norm := norm, maxConn := 30, maxConn0 := 60, efC := 60, cacheSize := 25000, visitedSize := 25500, jsonOk := jsonOk }

/-- `Hist P s vs`: a collection can be in state `s`, holding the added vectors `vs` (the vector number `i` is `vs[i]`, the
next free number is `vs.length`), after some sequence of

* successful additions, each under the next free number (document.go:349-430: `indexId` counts up after a successful `Add`);
* additions refused because of their length — the number is not used up (document.go:390-393);
* successful flushes after at least one vector has been stored (document.go:443; `order` is the order of the cache keys);
* loads of the entry point before a search (document.go:512,608), which becomes 0 if it cannot be read (insert.go:185-189);
* process restarts at any point between operations; additions that were not flushed are lost with the cache, and the
  next number is the stored count again (document.go:337-343).

All vectors, levels, schedules and vector-cache behaviours are arbitrary. -/
inductive Hist (P : Params V D) : Index V → List V → Prop where
  | init : Hist P init []
  | add {s s' vs} (vo : VecOracle V) (sched : Graph.Scheds D) (vec : V) (level : Nat) :
      Hist P s vs → add P vo sched s vs.length vec level = (s', none) → Hist P s' (vs ++ [vec])
  | refused {s s' vs e} (vo : VecOracle V) (sched : Graph.Scheds D) (vec : V) (level : Nat) :
      Hist P s vs → vs ≠ [] → (∀ u ∈ vs, P.metric.len u ≠ P.metric.len vec) →
      add P vo sched s vs.length vec level = (s', some e) → Hist P s' vs
  | flush {s s' vs} (order : List Nat) :
      Hist P s vs → vs ≠ [] → (∀ id ∈ s.cache.keys, id ∈ order) → flush P s order vs.length = (s', none) → Hist P s' vs
  | load {s vs} : Hist P s vs → Hist P s.loadEntry vs
  | unread {s vs} : Hist P s vs → Hist P { s with entry := 0 } vs
  | restart {s vs} : Hist P s vs → Hist P s.reopen (vs.take (s.kvCount.getD 0))

/-- `Any P s`: the state after any sequence of index operations whatsoever: additions under freely chosen numbers with any
outcome, flushes that are completed, fail or are cut short by a crash or a failing write after any number of writes (`Flush`,
insert.go:118-164), loads of the entry point (which becomes 0 if it cannot be read, insert.go:185-189), restarts. -/
inductive Any (P : Params V D) : Index V → Prop where
  | init : Any P init
  | add {s} (vo : VecOracle V) (sched : Graph.Scheds D) (x : Nat) (vec : V) (level : Nat) :
      Any P s → Any P (add P vo sched s x vec level).1
  | flush {s} (order : List Nat) (n : Nat) : Any P s → Any P (flush P s order n).1
  | crash {s} (order : List Nat) (n : Nat) (ws : List (Write V)) :
      Any P s → ws <+: s.flushWrites order n → Any P (ws.foldl applyWrite s).reopen
  | cut {s} (order : List Nat) (n : Nat) (ws : List (Write V)) :
      Any P s → ws <+: s.flushWrites order n → Any P (ws.foldl applyWrite s)
  | load {s} : Any P s → Any P s.loadEntry
  | unread {s} : Any P s → Any P { s with entry := 0 }
  | restart {s} : Any P s → Any P s.reopen

end Fave.Index
