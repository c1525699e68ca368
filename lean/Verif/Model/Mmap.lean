import Verif.Model.CommitLog
/-!
# The index of the memory-mapped condensor

Model of pkg/hnsw/condensor_mmap_analyzer.go and of the offsets in condensor_mmap.go.  The step that would write into the mapped
file is empty in the code (condensor_mmap_reader.go:69-74); mapping and file handling are not modelled.
-/
namespace Fave
namespace Mmap
open Log (Bytes RErr readFull readNum)

/-- `mmapIndexNode` — condensor_mmap_analyzer.go:53-57 -/
structure MNode where
  id : Nat
  offset : Nat
  maxLevel : Nat
  deriving DecidableEq, Repr

/-- the loop of `sort.Search` (Go standard library): `i`, `j` are the bounds; `fuel` is at least their distance -/
def searchLoop (f : Nat → Bool) : Nat → Nat → Nat → Nat
  | 0, i, _ => i
  | fuel + 1, i, j =>
    if i < j then
      let h := (i + j) / 2
      if !f h then searchLoop f fuel (h + 1) j else searchLoop f fuel i h
    else i

/-- `sort.Search` — called at condensor_mmap_analyzer.go:30 -/
def sortSearch (n : Nat) (f : Nat → Bool) : Nat := searchLoop f n 0 n

/-- the condition of the binary search — condensor_mmap_analyzer.go:31 -/
def atLeast (ns : List MNode) (node a : Nat) : Bool :=
  match ns[a]? with
  | some x => decide (node ≤ x.id)
  | none => true

/-- `UpsertNodeMaxLevel` — condensor_mmap_analyzer.go:29-48.  The inserted entry is first a copy of the entry that was at its
place (`append`, `copy`), of which only id and level are overwritten. -/
def upsert (ns : List MNode) (node level : Nat) : List MNode :=
  let n := sortSearch ns.length (atLeast ns node)
  match ns[n]? with
  | some x =>
    if x.id = node then
      if x.maxLevel < level then ns.set n { x with maxLevel := level } else ns
    else ns.take n ++ { x with id := node, maxLevel := level } :: ns.drop n
  | none => ns.take n ++ ⟨node, 0, level⟩ :: ns.drop n

/-- `mmapIndexNode.Size` — condensor_mmap_analyzer.go:59-62: `maxLevel+1` is computed in 16 bits; `c` is not negative -/
def MNode.size (c : Nat) (n : MNode) : Nat := n.maxLevel * 2 + c * ((n.maxLevel + 1) % 2 ^ 16)

/-- `calculateOffsets` — condensor_mmap.go:68-78: the first offset is left alone; 64-bit sums.  `prev` is the end of the entry
before. -/
def offsets (c : Nat) : Option Nat → List MNode → List MNode
  | _, [] => []
  | none, x :: xs => x :: offsets c (some ((x.offset + x.size c) % 2 ^ 64)) xs
  | some p, x :: xs => { x with offset := p } :: offsets c (some ((p + x.size c) % 2 ^ 64)) xs

/-- `mmapIndex.Size` — condensor_mmap.go:82-89 -/
def indexSize (c : Nat) (ns : List MNode) : Int :=
  match ns.getLast? with
  | none => -1
  | some x => x.offset + x.size c

/-- `io.CopyN(io.Discard, r, n)` (Go standard library) — condensor_mmap_analyzer.go:148 and others: always `io.EOF` if there is
less -/
def skip (n : Nat) (bs : Bytes) : Except RErr Bytes := if n ≤ bs.length then .ok (bs.drop n) else .error .eof

/-- `ReadNode` — condensor_mmap_analyzer.go:131-144 -/
def readNode (ns : List MNode) (bs : Bytes) : List MNode × Except RErr Bytes :=
  match readNum 8 bs with
  | .error e => (ns, .error e)
  | .ok (id, bs) => match readNum 2 bs with
    | .error e => (ns, .error e)
    | .ok (level, bs) => (upsert ns id level, .ok bs)

/-- `ReadLink` — condensor_mmap_analyzer.go:152-171 -/
def readLink (ns : List MNode) (bs : Bytes) : List MNode × Except RErr Bytes :=
  match readNum 8 bs with
  | .error e => (ns, .error e)
  | .ok (source, bs) => match readNum 2 bs with
    | .error e => (ns, .error e)
    | .ok (level, bs) => match skip 8 bs with
      | .error e => (ns, .error e)
      | .ok bs => (upsert ns source level, .ok bs)

/-- `ReadLinks` — condensor_mmap_analyzer.go:173-198: the node is noted before its links are skipped -/
def readLinks (ns : List MNode) (bs : Bytes) : List MNode × Except RErr Bytes :=
  match readNum 8 bs with
  | .error e => (ns, .error e)
  | .ok (source, bs) => match readNum 2 bs with
    | .error e => (ns, .error e)
    | .ok (level, bs) => match readNum 2 bs with
      | .error e => (ns, .error e)
      | .ok (length, bs) => (upsert ns source level, skip (8 * length) bs)

/-- `ReadDeleteNode` — condensor_mmap_analyzer.go:218-226: `DeleteNode` (:50-51) does nothing -/
def readDelete (ns : List MNode) (bs : Bytes) : List MNode × Except RErr Bytes :=
  match readNum 8 bs with
  | .error e => (ns, .error e)
  | .ok (_, bs) => (ns, .ok bs)

/-- the switch — condensor_mmap_analyzer.go:100-121; `ReadEP` :146-150, tombstones and cleared links :200-216 -/
def readRecord (ct : UInt8) (ns : List MNode) (bs : Bytes) : List MNode × Except RErr Bytes :=
  match ct.toNat with
  | 0 => readNode ns bs
  | 1 => (ns, skip 10 bs)
  | 2 => readLink ns bs
  | 3 => readLinks ns bs
  | 4 => (ns, skip 8 bs)
  | 5 => (ns, skip 8 bs)
  | 6 => (ns, skip 8 bs)
  | 7 => readDelete ns bs
  | 8 => ([], .ok bs)
  | _ => (ns, .error .badType)

/-- the loop — condensor_mmap_analyzer.go:89-129; every round consumes a byte -/
def loop : Nat → List MNode → Bytes → List MNode × Option RErr
  | 0, ns, _ => (ns, some .panic)
  | _ + 1, ns, [] => (ns, none)
  | fuel + 1, ns, ct :: bs =>
    match readRecord ct ns bs with
    | (ns, .error e) => (ns, some e)
    | (ns, .ok bs) => loop fuel ns bs

/-- `MmapCondensorAnalyzer.Do` — condensor_mmap_analyzer.go:74-87 -/
def analyze (bs : Bytes) : List MNode × Option RErr := loop (bs.length + 1) [] bs

end Mmap
end Fave
