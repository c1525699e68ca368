import Verif.Model.CommitLog
/-!
# Condensing a commit log

Model of pkg/hnsw/condensor.go.  The new file is written through the buffered writer of bufiowriter.go; that the file holds
the bytes written in their order is the subject of C30, here the bytes are appended directly.  Failing disk operations are not
modelled here.
-/
namespace Fave
namespace Log

/-- `AddNode` — condensor.go:159-166: type 0, id, `uint16(level)` -/
def writeNode (v : LVertex) : Bytes := 0 :: (le 8 v.id ++ le 2 v.level)

/-- `SetLinksAtLevel` — condensor.go:168-187: type 3; a list longer than 65535 is cut off -/
def writeSetLinks (id level : Nat) (ts : List Nat) : Bytes :=
  3 :: (le 8 id ++ le 2 level ++ le 2 (min ts.length 65535) ++ (ts.take 65535).flatMap (le 8))

/-- `AddLinksAtLevel` — condensor.go:189-202: type 10; the length is converted to `uint16` (`le 2` keeps the two lowest bytes)
but all targets are written -/
def writeAddLinks (id level : Nat) (ts : List Nat) : Bytes :=
  10 :: (le 8 id ++ le 2 level ++ le 2 ts.length ++ ts.flatMap (le 8))

/-- `SetEntryPointWithMaxLayer` — condensor.go:214-221: type 1 -/
def writeEP (id level : Nat) : Bytes := 1 :: (le 8 id ++ le 2 level)

/-- `AddTombstone` — condensor.go:223-229: type 4 -/
def writeTombstone (id : Nat) : Bytes := 4 :: le 8 id

/-- the loop over the levels of one node — condensor.go:69-81; `ReplaceLinks` (deserializer.go:50-58) looks the mark up -/
def writeLevels (st : LogState) (id : Nat) : Nat → List (List Nat) → Bytes
  | _, [] => []
  | level, links :: rest =>
    (if st.replaced id (level % 2 ^ 16) then writeSetLinks id level links else writeAddLinks id (level % 2 ^ 16) links) ++
      writeLevels st id (level + 1) rest

/-- the body of the loop over the nodes — condensor.go:54-82 -/
def writeVertex (st : LogState) : Option LVertex → Bytes
  | none => []
  | some v => (if v.level > 0 then writeNode v else []) ++ writeLevels st v.id 0 v.conns

/-- the content of the condensed log — condensor.go:54-96.  Go iterates over the map of tombstones in arbitrary order:
`order` is that order. -/
def condensed (st : LogState) (order : List Nat) : Bytes :=
  (List.range st.nodes.len).flatMap (fun i => writeVertex st (st.nodes.get i)) ++
    (if st.epChanged then writeEP st.ep st.level else []) ++ order.flatMap writeTombstone

/-- `MemoryCondensor.Do` up to closing the new file — condensor.go:32-104: an unreadable log is not condensed.  `order` gives
the iteration order of the map of tombstones. -/
def condense (maxLen : Nat) (order : LogState → List Nat) (bs : Bytes) : Except RErr Bytes :=
  match replay maxLen true fresh bs with
  | (_, _, some e) => .error e
  | (st, _, none) => .ok (condensed st (order st))

end Log
end Fave
