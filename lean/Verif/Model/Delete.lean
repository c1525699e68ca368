import Verif.Model.History
import Verif.Model.Flat
/-!
# Deleting vectors and cleaning up after deletions

Model of pkg/hnsw/delete.go.  (FaVe's `VectorIndex` interface has no deletion — pkg/hnsw/index.go; the functions are part of the index
package.)  The commit log is a no-op, the index is not compressed, one operation runs at a time; locks are not modelled.
-/
namespace Fave.Index
variable {V D : Type} [Dist D]
open Queue

/-- `resetUnsecured` — delete.go:111-124: the nodes stay -/
def resetIndex (s : Index V) : Index V := { s with entry := 0, maxLayer := 0, once := false }

/-- the loop of `Delete` — delete.go:48-83.  `isOnlyNodeUnsecured` is always true (delete.go:568-577), so deleting the entry point resets
the index. -/
def deleteStep (s : Index V) (id : Nat) : Index V :=
  match s.get id with
  | none => s
  | some _ => if s.entry = id then resetIndex s else s

/-- `Delete` — delete.go:31-86 with `addTombstone` (586-598); with the no-op commit log it cannot fail -/
def delete (s : Index V) (ids : List Nat) : Index V := ids.foldl deleteStep { s with tombs := ids ++ s.tombs }

/-- `connectNeighborAtLevel` with a deny list — neighbor_connections.go:138-236 -/
def connectNeighborD (P : Params V D) (deny : List Nat) (vo : VecOracle V) (x level : Nat) (s : Index V) (nb : Nat) : Index V × Option Err :=
  match s.get nb with
  | none => (s, none)
  | some v =>
    if nb = x then (s, none)
    else if s.tombs.contains nb then (s, none)
    else
      let v := { v with committed := false }
      let v := if level > v.level then upgrade v level else v
      let s := s.put v
      match v.conns[level]? with
      | none => (s, some .panic)
      | some cur =>
        if cur.length < maxConns P level then (s.put (setConns v level (cur ++ [x])), none)
        else
          match distNodes P (vo level (some nb) 0) x nb with
          | .error e => (s, some e)
          | .ok d =>
            match overfull P (vo level (some nb)) nb 1 cur (insert lessMax #[] ⟨x, d⟩) with
            | .error e => (s, some e)
            | .ok cands =>
              match selectNeighbors P (vo level (some nb) (cur.length + 1)) deny.contains (maxConns P level) cands with
              | .error e => (s, some e)
              | .ok kept => (s.put (setConns v level ((drain lessMax kept).map Item.id)), none)

/-- `for _, neighborID := range neighbors` — neighbor_connections.go:117-121 -/
def connectAllD (P : Params V D) (deny : List Nat) (vo : VecOracle V) (x level : Nat) : Index V → List Nat → Index V × Option Err
  | s, [] => (s, none)
  | s, nb :: nbs =>
    match connectNeighborD P deny vo x level s nb with
    | (s, some e) => (s, some e)
    | (s, none) => connectAllD P deny vo x level s nbs

/-- `doAtLevel` with a deny list — neighbor_connections.go:73-136 -/
def doAtLevelD (P : Params V D) (deny : List Nat) (vo : VecOracle V) (sched : Graph.Scheds D) (q : V) (x : Nat) (s : Index V) (ep level : Nat) :
    Index V × Except Err Nat :=
  match pickEntry P s q 4 deny ep with
  | .error e => (s, .error e)
  | .ok ep =>
    match Search.searchLayer ((s.graph P).senv q none) (sched level) [ep] P.efC level with
    | .error e => (s, .error e)
    | .ok results =>
      match selectNeighbors P (vo level none 0) deny.contains P.maxConn results with
      | .error e => (s, .error e)
      | .ok kept =>
        let neighbors := (drain lessMax kept).map Item.id
        match s.get x with
        | none => (s, .error .panic)
        | some v =>
          if v.conns.length ≤ level then (s, .error .panic)
          else
            match connectAllD P deny vo x level (s.put (setConns v level neighbors)) neighbors with
            | (s, some e) => (s, .error e)
            | (s, none) =>
              match neighbors.getLast? with
              | none => (s, .ok ep.id)
              | some y => (s, .ok (if y = x then ep.id else y))

/-- `Do` with a deny list — neighbor_connections.go:60-71 -/
def doLevelsD (P : Params V D) (deny : List Nat) (vo : VecOracle V) (sched : Graph.Scheds D) (q : V) (x : Nat) :
    Nat → Index V → Nat → Index V × Option Err
  | 0, s, _ => (s, none)
  | level + 1, s, ep =>
    match doAtLevelD P deny vo sched q x s ep level with
    | (s, .error e) => (s, some e)
    | (s, .ok ep) => doLevelsD P deny vo sched q x level s ep

/-- what a clean-up does not determine: whether it is interrupted (`shouldBreak`, at each of its checks), which calls of the storage fail,
what the vector cache delivers, schedules -/
structure CleanEnv (V D : Type) where
  brkCopy : Bool := false
  brkNode : Nat → Bool := fun _ => false
  brkEntry : Bool := false
  brkRemove : Nat → Bool := fun _ => false
  kvCount : Bool := false
  kvDelete : Nat → Bool := fun _ => false
  /-- the vector of the node that is being relinked — delete.go:309-318 -/
  vec : Nat → Option V
  vo : Nat → VecOracle V
  sched : Nat → Graph.Scheds D

/-- `connectionsPointTo` — delete.go:399-409 -/
def pointsTo (dl : List Nat) (v : Vertex V) : Bool := v.conns.any (fun links => links.any dl.contains)

/-- `reassignNeighbor` — delete.go:290-397, without the check of `shouldBreak`.  `isOnlyNode` is always true (568-577): a node that is its
own entry point loses all links. -/
def reassign (P : Params V D) (E : CleanEnv V D) (dl : List Nat) (s : Index V) (n : Nat) : Index V × Option Err :=
  match s.get n with
  | none => (s, none)
  | some v =>
    if dl.contains v.id then (s, none)
    else
      match vecGet P E.vec n with
      | .error e => (s, some e)
      | .ok q =>
        if !pointsTo dl v then (s, none)
        else
          match findBest P s (E.sched n) q v.level s.maxLayer s.entry with
          | .error e => (s, some e)
          | .ok ep =>
            if ep = n then (s.put { v with conns := List.replicate (v.level + 1) [] }, none)
            else
              let s := s.put { v with maint := true, conns := v.conns.map (fun _ => []) }
              match doLevelsD P dl (E.vo n) (E.sched n) q n (Nat.min v.level s.maxLayer + 1) s ep with
              | (s, some e) => (s, some e)
              | (s, none) =>
                match s.get n with
                | none => (s, some .panic)
                | some v => (s.put { v with maint := false }, none)

/-- the number of entries of the table, `KVCount` -/
def kvSize (s : Index V) : Nat := s.kv.length + (if s.kvEntry.isSome then 1 else 0) + (if s.kvCount.isSome then 1 else 0)

/-- the loop of `reassignNeighborsOf` — delete.go:271-288; the answer says whether it was completed -/
def reassignLoop (P : Params V D) (E : CleanEnv V D) (dl : List Nat) : List Nat → Index V → Index V × Except Err Bool
  | [], s => (s, .ok true)
  | n :: ns, s =>
    if E.brkNode n then (s, .ok false)
    else
      match reassign P E dl s n with
      | (s, some e) => (s, .error e)
      | (s, none) => reassignLoop P E dl ns s

/-- `replaceDeletedEntrypoint` — delete.go:220-269: if the entry point is to be deleted its node is read, but since `isOnlyNode` is always
true `deleteEntrypoint` (415-440) does nothing -/
def replaceEntry (dl : List Nat) (s : Index V) : Option Err :=
  if dl.contains s.entry then (match s.get s.entry with | none => some .error | some _ => none) else none

/-- `removeTombstonesAndNodes` — delete.go:600-632: the node is removed from the key-value table but not from the node cache -/
def removeLoop (E : CleanEnv V D) : List Nat → Index V → Index V × Option Err
  | [], s => (s, none)
  | id :: ids, s =>
    let s := { s with tombs := s.tombs.filter (fun t => t ≠ id) }
    if E.brkRemove id then removeLoop E ids s
    else if E.kvDelete id then (s, some .error)
    else removeLoop E ids { s with kv := s.kv.filter (fun e => e.1 ≠ id) }

/-- `cleanUpTombstonedNodes` — delete.go:176-218; `ok true`: it went through to the end.  `order` is the order in which the list of
tombstones is gone through. -/
def cleanUp (P : Params V D) (E : CleanEnv V D) (s : Index V) (order : List Nat) : Index V × Except Err Bool :=
  if E.brkCopy then (s, .ok false)
  else if order.isEmpty then (s, .ok false)
  else if E.kvCount then (s, .error .error)
  else
    match reassignLoop P E order (List.range (kvSize s)) s with
    | (s, .error e) => (s, .error e)
    | (s, .ok false) => (s, .ok false)
    | (s, .ok true) =>
      if E.brkEntry then (s, .ok false)
      else
        match replaceEntry order s with
        | some e => (s, .error e)
        | none =>
          match removeLoop E order s with
          | (s, some e) => (s, .error e)
          | (s, none) => (if s.isEmpty then resetIndex s else s, .ok true)

/-- the states of an index that is also deleted from: any sequence of operations with any outcome -/
inductive AnyDel (P : Params V D) : Index V → Prop where
  | init : AnyDel P init
  | add {s} (vo : VecOracle V) (sched : Graph.Scheds D) (x : Nat) (vec : V) (level : Nat) :
      AnyDel P s → AnyDel P (add P vo sched s x vec level).1
  | flush {s} (order : List Nat) (n : Nat) : AnyDel P s → AnyDel P (flush P s order n).1
  | cut {s} (order : List Nat) (n : Nat) (ws : List (Write V)) :
      AnyDel P s → ws <+: s.flushWrites order n → AnyDel P (ws.foldl applyWrite s)
  | load {s} : AnyDel P s → AnyDel P s.loadEntry
  | unread {s} : AnyDel P s → AnyDel P { s with entry := 0 }
  | restart {s} : AnyDel P s → AnyDel P s.reopen
  | delete {s} (ids : List Nat) : AnyDel P s → AnyDel P (s.delete ids)
  | cleanUp {s} (E : CleanEnv V D) (order : List Nat) : AnyDel P s → (∀ id, id ∈ order ↔ id ∈ s.tombs) →
      AnyDel P (s.cleanUp P E order).1

end Fave.Index
