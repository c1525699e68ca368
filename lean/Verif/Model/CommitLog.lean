import Verif.Model.Grow
/-!
# The commit log: reading

Model of pkg/hnsw/deserializer.go.  A file is a list of bytes; the buffered reader over it delivers the bytes in order and
then reports the end of file (I/O errors of the disk are not modelled).  A failing read ends the whole replay, so the
position of the reader after a failure does not matter.
-/
namespace Fave
namespace Log

/-- content of a file -/
abbrev Bytes := List UInt8

/-- how a replay can fail — deserializer.go:96,147,149,551; `panic` is a run-time panic -/
inductive RErr where
  /-- `io.EOF`: nothing left where a field should start -/
  | eof
  /-- `io.ErrUnexpectedEOF`: a field is cut -/
  | unexpected
  /-- "unrecognized commit type" -/
  | badType
  /-- "Unsuported encoder type" -/
  | badEncoder
  | panic
  deriving DecidableEq, Repr

/-- little-endian representation of `n` in `k` bytes: `binary.LittleEndian.PutUint64/PutUint16` —
pkg/hnsw/condensor.go:116,127 -/
def le : Nat → Nat → Bytes
  | 0, _ => []
  | k + 1, n => UInt8.ofNat n :: le k (n / 256)

/-- `binary.LittleEndian.Uint64/Uint32/Uint16` — deserializer.go:573,586,600,614 -/
def unle : Bytes → Nat
  | [] => 0
  | b :: bs => b.toNat + 256 * unle bs

/-- `io.ReadFull` with a buffer of `n` bytes — deserializer.go:568 and others: `EOF` if nothing could be read,
`ErrUnexpectedEOF` if something but not all; an empty buffer is filled immediately. -/
def readFull (n : Nat) (bs : Bytes) : Except RErr (Bytes × Bytes) :=
  if n ≤ bs.length then .ok (bs.take n, bs.drop n)
  else if bs.isEmpty then .error .eof else .error .unexpected

/-- `readUint64`, `readFloat64` (the bit pattern), `readFloat32` (the bit pattern), `readUint16`, `readByte` —
deserializer.go:565-627: a number of `n` bytes -/
def readNum (n : Nat) (bs : Bytes) : Except RErr (Nat × Bytes) :=
  match readFull n bs with
  | .error e => .error e
  | .ok (b, bs) => .ok (unle b, bs)

/-- the conversion loop of `readUint64Slice` — deserializer.go:646-648 -/
def words : Nat → Bytes → List Nat
  | 0, _ => []
  | n + 1, b => unle (b.take 8) :: words n (b.drop 8)

/-- `readUint64Slice` — deserializer.go:638-651 -/
def readWords (n : Nat) (bs : Bytes) : Except RErr (List Nat × Bytes) :=
  match readFull (8 * n) bs with
  | .error e => .error e
  | .ok (b, bs) => .ok (words n b, bs)

/-- the fields of `vertex` a commit log knows — pkg/hnsw/vertex.go:21-25.  `nil` and empty lists of links are not
distinguished, nor a nil and an empty slice of levels (every vertex of a replay is made with `make`). -/
structure LVertex where
  id : Nat
  level : Nat
  conns : List (List Nat)
  deriving DecidableEq, Repr

/-- an encoder of the product quantisation: tile encoder (six floats as bit patterns, segment, distribution) or k-means
(centres as bit patterns) — deserializer.go:484, 501-506 -/
inductive Encoder where
  | tile (fs : List Nat) (segment dist : Nat)
  | kmeans (ks ds i : Nat) (centers : List (List Nat))
  deriving DecidableEq, Repr

/-- `ssdhelpers.PQData` — deserializer.go:536-543 -/
structure PQData where
  dims : Nat := 0
  enc : Nat := 0
  ks : Nat := 0
  m : Nat := 0
  dist : Nat := 0
  useBits : Bool := false
  encoders : List Encoder := []
  deriving DecidableEq, Repr

/-- `DeserializationResult` — deserializer.go:31-48.  The map of tombstones is a list without repetition (Go's
iteration order is arbitrary), the two-level map of replaced links is a predicate. -/
structure LogState where
  nodes : Slots LVertex
  ep : Nat := 0
  level : Nat := 0
  tombs : List Nat := []
  epChanged : Bool := false
  pq : PQData := {}
  compressed : Bool := false
  replaced : Nat → Nat → Bool := fun _ _ => false

/-- the state a replay starts from when none is given — deserializer.go:86-90 -/
def fresh : LogState := { nodes := Slots.make Grow.initialSize }

/-- result of reading one record: the state (possibly changed even if reading failed) and either the failure or the
number of bytes counted and the rest of the file -/
abbrev Out := LogState × Except RErr (Nat × Bytes)

/-- `maybeGrowConnectionsForLevel` — deserializer.go:655-663; `level+1` is `uint16` arithmetic -/
def growConns (conns : List (List Nat)) (level : Nat) : List (List Nat) :=
  if conns.length ≤ level then
    let n := (level + 1) % 2 ^ 16
    conns.take n ++ List.replicate (n - conns.length) []
  else conns

/-- `make([][]uint64, level+1)` with `level` a `uint16` — deserializer.go:181,229,266,315,411 -/
def freshConns (level : Nat) : List (List Nat) := List.replicate ((level + 1) % 2 ^ 16) []

/-- the call of `growIndexToAccomodateNode` with the assignment after it — deserializer.go:171-178 (and 219-226, 256-263,
305-312) -/
def growTab (maxLen : Nat) (t : Slots LVertex) (id : Nat) : Except RErr (Slots LVertex) :=
  match Grow.grow maxLen t id with
  | .error _ => .error .panic
  | .ok none => .ok t
  | .ok (some t) => .ok t

/-- the second half of `ReadNode` — deserializer.go:171-186 -/
def putNode (maxLen : Nat) (st : LogState) (id level : Nat) : Except RErr LogState :=
  match growTab maxLen st.nodes id with
  | .error e => .error e
  | .ok t =>
    if t.len ≤ id then .error .panic
    else
      match t.get id with
      | none => .ok { st with nodes := t.put id (some ⟨id, level, freshConns level⟩) }
      | some v => .ok { st with nodes := t.put id (some { v with level := level, conns := growConns v.conns level }) }

/-- `ReadNode` — deserializer.go:160-187 -/
def readNode (maxLen : Nat) (st : LogState) (bs : Bytes) : Out :=
  match readNum 8 bs with
  | .error e => (st, .error e)
  | .ok (id, bs) =>
    match readNum 2 bs with
    | .error e => (st, .error e)
    | .ok (level, bs) =>
      match putNode maxLen st id level with
      | .error e => (st, .error e)
      | .ok st => (st, .ok (10, bs))

/-- the case `SetEntryPointMaxLevel` with `ReadEP` — deserializer.go:109-116, 189-201: the fields are assigned before the
error is looked at -/
def readEP (st : LogState) (bs : Bytes) : Out :=
  match readNum 8 bs with
  | .error e => ({ st with ep := 0, level := 0, epChanged := true }, .error e)
  | .ok (id, bs) =>
    match readNum 2 bs with
    | .error e => ({ st with ep := 0, level := 0, epChanged := true }, .error e)
    | .ok (level, bs) => ({ st with ep := id, level := level, epChanged := true }, .ok (10, bs))

/-- an absent node is created with level 0 and `level+1` lists of links — deserializer.go:228-230, 265-267, 314-316,
399-413 -/
def orNew (v? : Option LVertex) (id level : Nat) : LVertex := v?.getD ⟨id, 0, freshConns level⟩

/-- the part common to `ReadLink`, `ReadLinks` and `ReadAddLinks` once the record is read — deserializer.go:219-234,
256-271, 305-321: grow the table, create the node if absent, grow its levels, change the links at the level -/
def setLinks (maxLen : Nat) (st : LogState) (source level : Nat) (f : List Nat → List Nat) : Except RErr LogState :=
  match growTab maxLen st.nodes source with
  | .error e => .error e
  | .ok t =>
    if t.len ≤ source then .error .panic
    else
      let v := orNew (t.get source) source level
      let conns := growConns v.conns level
      match conns[level]? with
      | none => .error .panic
      | some links => .ok { st with nodes := t.put source (some { v with conns := conns.set level (f links) }) }

/-- `ReadLink` — deserializer.go:203-236 -/
def readLink (maxLen : Nat) (st : LogState) (bs : Bytes) : Out :=
  match readNum 8 bs with
  | .error e => (st, .error e)
  | .ok (source, bs) =>
    match readNum 2 bs with
    | .error e => (st, .error e)
    | .ok (level, bs) =>
      match readNum 8 bs with
      | .error e => (st, .error e)
      | .ok (target, bs) =>
        match setLinks maxLen st source level (fun l => l ++ [target]) with
        | .error e => (st, .error e)
        | .ok st => (st, .ok (18, bs))

/-- the twelve bytes before a list of links — deserializer.go:241-249, 290-298 -/
def readHeader (bs : Bytes) : Except RErr ((Nat × Nat × Nat) × Bytes) :=
  match readFull 12 bs with
  | .error e => .error e
  | .ok (b, bs) => .ok ((unle (b.take 8), unle ((b.drop 8).take 2), unle ((b.drop 10).take 2)), bs)

/-- marking links as replaced — deserializer.go:277-281, 392-396, 426-430 -/
def markReplaced (st : LogState) (source level : Nat) : LogState :=
  { st with replaced := fun i l => (decide (i = source) && decide (l = level)) || st.replaced i l }

/-- `ReadLinks` — deserializer.go:238-285 -/
def readLinks (maxLen : Nat) (keep : Bool) (st : LogState) (bs : Bytes) : Out :=
  match readHeader bs with
  | .error e => (st, .error e)
  | .ok ((source, level, length), bs) =>
    match readWords length bs with
    | .error e => (st, .error e)
    | .ok (targets, bs) =>
      match setLinks maxLen st source level (fun _ => targets) with
      | .error e => (st, .error e)
      | .ok st => ((if keep then markReplaced st source level else st), .ok (12 + length * 8, bs))

/-- `ReadAddLinks` — deserializer.go:287-324 -/
def readAddLinks (maxLen : Nat) (st : LogState) (bs : Bytes) : Out :=
  match readHeader bs with
  | .error e => (st, .error e)
  | .ok ((source, level, length), bs) =>
    match readWords length bs with
    | .error e => (st, .error e)
    | .ok (targets, bs) =>
      match setLinks maxLen st source level (fun l => l ++ targets) with
      | .error e => (st, .error e)
      | .ok st => (st, .ok (12 + length * 8, bs))

/-- a tombstone set — deserializer.go:332 -/
def putTomb (st : LogState) (id : Nat) : LogState :=
  { st with tombs := if st.tombs.contains id then st.tombs else st.tombs ++ [id] }

/-- `ReadAddTombstone` — deserializer.go:326-335 -/
def readAddTombstone (st : LogState) (bs : Bytes) : Out :=
  match readNum 8 bs with
  | .error e => (st, .error e)
  | .ok (id, bs) => (putTomb st id, .ok (8, bs))

/-- a tombstone removed — deserializer.go:343 -/
def dropTomb (st : LogState) (id : Nat) : LogState := { st with tombs := st.tombs.filter (fun t => t != id) }

/-- `ReadRemoveTombstone` — deserializer.go:337-346 -/
def readRemoveTombstone (st : LogState) (bs : Bytes) : Out :=
  match readNum 8 bs with
  | .error e => (st, .error e)
  | .ok (id, bs) => (dropTomb st id, .ok (8, bs))

/-- `int(id) >= len(res.Nodes)` — deserializer.go:356,383,442: the conversion makes ids from 2^63 on negative -/
def outOfBounds (id len : Nat) : Bool := decide (id < 2 ^ 63) && decide (len ≤ id)

/-- the second half of `ReadClearLinks` — deserializer.go:356-367 -/
def clearNode (st : LogState) (id : Nat) : Except RErr LogState :=
  if outOfBounds id st.nodes.len then .ok st
  else if st.nodes.len ≤ id then .error .panic
  else
    match st.nodes.get id with
    | none => .ok st
    | some v => .ok { st with nodes := st.nodes.put id (some { v with conns := List.replicate v.conns.length [] }) }

/-- `ReadClearLinks` — deserializer.go:348-368 -/
def readClearLinks (st : LogState) (bs : Bytes) : Out :=
  match readNum 8 bs with
  | .error e => (st, .error e)
  | .ok (id, bs) =>
    match clearNode st id with
    | .error e => (st, .error e)
    | .ok st => (st, .ok (8, bs))

/-- the second half of `ReadClearLinksAtLevel` — deserializer.go:383-433; the second marking (422-431) repeats the first.
Without `keep` an absent node is left absent, with `keep` it is created. -/
def clearLevel (keep : Bool) (st : LogState) (id level : Nat) : Except RErr LogState :=
  if outOfBounds id st.nodes.len then .ok st
  else if st.nodes.len ≤ id then .error .panic
  else
    let st := if keep then markReplaced st id level else st
    if (st.nodes.get id).isNone && !keep then .ok st
    else
      let v := orNew (st.nodes.get id) id level
      let conns := growConns v.conns level
      if conns.length ≤ level then .error .panic
      else .ok { st with nodes := st.nodes.put id (some { v with conns := conns.set level [] }) }

/-- `ReadClearLinksAtLevel` — deserializer.go:370-434 -/
def readClearLinksAtLevel (keep : Bool) (st : LogState) (bs : Bytes) : Out :=
  match readNum 8 bs with
  | .error e => (st, .error e)
  | .ok (id, bs) =>
    match readNum 2 bs with
    | .error e => (st, .error e)
    | .ok (level, bs) =>
      match clearLevel keep st id level with
      | .error e => (st, .error e)
      | .ok st => (st, .ok (10, bs))

/-- the second half of `ReadDeleteNode` — deserializer.go:442-448 -/
def dropNode (st : LogState) (id : Nat) : Except RErr LogState :=
  if outOfBounds id st.nodes.len then .ok st
  else if st.nodes.len ≤ id then .error .panic
  else .ok { st with nodes := st.nodes.put id none }

/-- `ReadDeleteNode` — deserializer.go:436-449 -/
def readDeleteNode (st : LogState) (bs : Bytes) : Out :=
  match readNum 8 bs with
  | .error e => (st, .error e)
  | .ok (id, bs) =>
    match dropNode st id with
    | .error e => (st, .error e)
    | .ok st => (st, .ok (8, bs))

/-- the case `ResetIndex` — deserializer.go:139-142: tombstones and replace marks stay -/
def resetState (st : LogState) : LogState :=
  { st with ep := 0, level := 0, nodes := Slots.make Grow.initialSize }

/-- reading `n` numbers of `k` bytes one after the other — deserializer.go:452-472, 492-498 -/
def readNums (k : Nat) : Nat → Bytes → Except RErr (List Nat × Bytes)
  | 0, bs => .ok ([], bs)
  | n + 1, bs =>
    match readNum k bs with
    | .error e => .error e
    | .ok (x, bs) =>
      match readNums k n bs with
      | .error e => .error e
      | .ok (xs, bs) => .ok (x :: xs, bs)

/-- `ReadTileEncoder` — deserializer.go:451-485 -/
def readTile (bs : Bytes) : Except RErr (Encoder × Bytes) :=
  match readNums 8 6 bs with
  | .error e => .error e
  | .ok (fs, bs) =>
    match readNum 2 bs with
    | .error e => .error e
    | .ok (segment, bs) =>
      match readNum 1 bs with
      | .error e => .error e
      | .ok (dist, bs) => .ok (.tile fs segment dist, bs)

/-- the loop over the centres — deserializer.go:490-500 -/
def readCenters (ds : Nat) : Nat → Bytes → Except RErr (List (List Nat) × Bytes)
  | 0, bs => .ok ([], bs)
  | k + 1, bs =>
    match readNums 4 ds bs with
    | .error e => .error e
    | .ok (c, bs) =>
      match readCenters ds k bs with
      | .error e => .error e
      | .ok (cs, bs) => .ok (c :: cs, bs)

/-- `ReadKMeansEncoder` — deserializer.go:487-508 -/
def readKMeans (pq : PQData) (i : Nat) (bs : Bytes) : Except RErr (Encoder × Bytes) :=
  match readCenters (pq.dims / pq.m) pq.ks bs with
  | .error e => .error e
  | .ok (cs, bs) => .ok (.kmeans pq.ks (pq.dims / pq.m) i cs, bs)

/-- the loop over the encoders — deserializer.go:553-559: encoders read before a failure stay in the state.
`ssdhelpers.UseTileEncoder` is 0. -/
def readEncoders (pq : PQData) (i : Nat) : Nat → Bytes → PQData × Except RErr Bytes
  | 0, bs => (pq, .ok bs)
  | n + 1, bs =>
    match (if pq.enc = 0 then readTile bs else readKMeans pq i bs) with
    | .error e => (pq, .error e)
    | .ok (enc, bs) => readEncoders { pq with encoders := pq.encoders ++ [enc] } (i + 1) n bs

/-- `ReadPQ` — deserializer.go:510-563; `UseTileEncoder` is 0 and `UseKMeansEncoder` is 1.  Only nine bytes are counted
whatever was read (deserializer.go:145). -/
def readPQ (st : LogState) (bs : Bytes) : Out :=
  match readNum 2 bs with
  | .error e => (st, .error e)
  | .ok (dims, bs) =>
    match readNum 1 bs with
    | .error e => (st, .error e)
    | .ok (enc, bs) =>
      match readNum 2 bs with
      | .error e => (st, .error e)
      | .ok (ks, bs) =>
        match readNum 2 bs with
        | .error e => (st, .error e)
        | .ok (m, bs) =>
          match readNum 1 bs with
          | .error e => (st, .error e)
          | .ok (dist, bs) =>
            match readNum 1 bs with
            | .error e => (st, .error e)
            | .ok (ub, bs) =>
              let pq : PQData := { dims := dims, enc := enc, ks := ks, m := m, dist := dist, useBits := ub != 0 }
              if enc = 0 ∨ enc = 1 then
                match readEncoders pq 0 m bs with
                | (pq, .error e) => ({ st with pq := pq }, .error e)
                | (pq, .ok bs) => ({ st with pq := pq, compressed := true }, .ok (9, bs))
              else ({ st with pq := pq }, .error .badEncoder)

/-- the switch over the commit type — deserializer.go:105-148; the numbers are those of commit_logger.go:275-288 -/
def readRecord (maxLen : Nat) (keep : Bool) (ct : UInt8) (st : LogState) (bs : Bytes) : Out :=
  match ct.toNat with
  | 0 => readNode maxLen st bs
  | 1 => readEP st bs
  | 2 => readLink maxLen st bs
  | 3 => readLinks maxLen keep st bs
  | 4 => readAddTombstone st bs
  | 5 => readRemoveTombstone st bs
  | 6 => readClearLinks st bs
  | 7 => readDeleteNode st bs
  | 8 => (resetState st, .ok (0, bs))
  | 9 => readClearLinksAtLevel keep st bs
  | 10 => readAddLinks maxLen st bs
  | 11 => readPQ st bs
  | _ => (st, .error .badType)

/-- the loop of `Do` — deserializer.go:93-157: the state, the valid length and the error.  One byte is consumed per round,
so `fuel` above the length of the file never runs out. -/
def replayLoop (maxLen : Nat) (keep : Bool) : Nat → LogState → Nat → Bytes → LogState × Nat × Option RErr
  | 0, st, valid, _ => (st, valid, some .panic)
  | _ + 1, st, valid, [] => (st, valid, none)
  | fuel + 1, st, valid, ct :: bs =>
    match readRecord maxLen keep ct st bs with
    | (st, .error e) => (st, valid, some e)
    | (st, .ok (n, bs)) => replayLoop maxLen keep fuel st (valid + (1 + n)) bs

/-- `Deserializer.Do` — deserializer.go:80-158 -/
def replay (maxLen : Nat) (keep : Bool) (st : LogState) (bs : Bytes) : LogState × Nat × Option RErr :=
  replayLoop maxLen keep (bs.length + 1) st 0 bs

end Log
end Fave
