import Verif.Model.CommitLog
/-!
# What a commit log means

The operations of the log, the bytes of each operation, and their meaning on the state of an index, independent of how the
reader works: no bytes, no table sizes, no run-time failures.
-/
namespace Fave
namespace Log

/-- the operations of a commit log — pkg/hnsw/commit_logger.go:275-288 -/
inductive LogOp where
  | addNode (id level : Nat)
  | setEntryPoint (id level : Nat)
  | addLink (source level target : Nat)
  | replaceLinks (source level : Nat) (targets : List Nat)
  | addTombstone (id : Nat)
  | removeTombstone (id : Nat)
  | clearLinks (id : Nat)
  | deleteNode (id : Nat)
  | resetIndex
  | clearLinksAtLevel (id level : Nat)
  | addLinks (source level : Nat) (targets : List Nat)
  | addPQ (data : PQData)
  deriving DecidableEq, Repr

/-- a list of 64-bit words -/
def leWords (ts : List Nat) : Bytes := ts.flatMap (le 8)

/-- the bytes of an encoder (the writer is in a dependency; the layout is the one read in deserializer.go:451-508) -/
def encodeEncoder : Encoder → Bytes
  | .tile fs segment dist => leWords fs ++ le 2 segment ++ le 1 dist
  | .kmeans _ _ _ cs => cs.flatMap (fun c => c.flatMap (le 4))

/-- the bytes of an operation after the type byte: condensor.go:159-229 for the operations written there, the layout of
deserializer.go for the others (their writer is in a dependency) -/
def LogOp.payload : LogOp → Bytes
  | .addNode id level => le 8 id ++ le 2 level
  | .setEntryPoint id level => le 8 id ++ le 2 level
  | .addLink s l t => le 8 s ++ le 2 l ++ le 8 t
  | .replaceLinks s l ts => le 8 s ++ le 2 l ++ le 2 ts.length ++ leWords ts
  | .addTombstone id => le 8 id
  | .removeTombstone id => le 8 id
  | .clearLinks id => le 8 id
  | .deleteNode id => le 8 id
  | .resetIndex => []
  | .clearLinksAtLevel id l => le 8 id ++ le 2 l
  | .addLinks s l ts => le 8 s ++ le 2 l ++ le 2 ts.length ++ leWords ts
  | .addPQ d =>
    le 2 d.dims ++ le 1 d.enc ++ le 2 d.ks ++ le 2 d.m ++ le 1 d.dist ++ le 1 (if d.useBits then 1 else 0) ++
      d.encoders.flatMap encodeEncoder

/-- the type byte — commit_logger.go:275-288 -/
def LogOp.tag : LogOp → UInt8
  | .addNode .. => 0
  | .setEntryPoint .. => 1
  | .addLink .. => 2
  | .replaceLinks .. => 3
  | .addTombstone .. => 4
  | .removeTombstone .. => 5
  | .clearLinks .. => 6
  | .deleteNode .. => 7
  | .resetIndex => 8
  | .clearLinksAtLevel .. => 9
  | .addLinks .. => 10
  | .addPQ .. => 11

/-- the bytes of an operation -/
def LogOp.encode (op : LogOp) : Bytes := op.tag :: op.payload

/-- the bytes of a log -/
def encodeAll (ops : List LogOp) : Bytes := ops.flatMap LogOp.encode

/-- an encoder fits the header of its quantisation data -/
def encoderOk (d : PQData) (i : Nat) : Encoder → Prop
  | .tile fs segment dist => d.enc = 0 ∧ fs.length = 6 ∧ (∀ f ∈ fs, f < 2 ^ 64) ∧ segment < 2 ^ 16 ∧ dist < 2 ^ 8
  | .kmeans ks ds j cs => d.enc = 1 ∧ ks = d.ks ∧ ds = d.dims / d.m ∧ j = i ∧ cs.length = d.ks ∧
      ∀ c ∈ cs, c.length = d.dims / d.m ∧ ∀ x ∈ c, x < 2 ^ 32

/-- quantisation data a writer can produce -/
structure PQOk (d : PQData) : Prop where
  dims : d.dims < 2 ^ 16
  enc : d.enc = 0 ∨ d.enc = 1
  ks : d.ks < 2 ^ 16
  m : d.m < 2 ^ 16
  dist : d.dist < 2 ^ 8
  len : d.encoders.length = d.m
  encoders : ∀ i e, d.encoders[i]? = some e → encoderOk d i e

/-- the arguments fit the widths of their fields -/
def LogOp.InRange : LogOp → Prop
  | .addNode id l => id < 2 ^ 64 ∧ l < 2 ^ 16
  | .setEntryPoint id l => id < 2 ^ 64 ∧ l < 2 ^ 16
  | .addLink s l t => s < 2 ^ 64 ∧ l < 2 ^ 16 ∧ t < 2 ^ 64
  | .replaceLinks s l ts => s < 2 ^ 64 ∧ l < 2 ^ 16 ∧ ts.length < 2 ^ 16 ∧ ∀ t ∈ ts, t < 2 ^ 64
  | .addTombstone id => id < 2 ^ 64
  | .removeTombstone id => id < 2 ^ 64
  | .clearLinks id => id < 2 ^ 64
  | .deleteNode id => id < 2 ^ 64
  | .resetIndex => True
  | .clearLinksAtLevel id l => id < 2 ^ 64 ∧ l < 2 ^ 16
  | .addLinks s l ts => s < 2 ^ 64 ∧ l < 2 ^ 16 ∧ ts.length < 2 ^ 16 ∧ ∀ t ∈ ts, t < 2 ^ 64
  | .addPQ d => PQOk d

/-- what a replay is for: the nodes with their levels and links, the search start with its level, the deletion marks, and the
quantisation -/
@[ext] structure View where
  node : Nat → Option LVertex
  ep : Nat
  level : Nat
  tomb : Nat → Bool
  pq : PQData
  compressed : Bool

/-- the part of the reader's state that matters -/
def LogState.view (st : LogState) : View where
  node i := if i < st.nodes.len then st.nodes.get i else none
  ep := st.ep
  level := st.level
  tomb i := st.tombs.contains i
  pq := st.pq
  compressed := st.compressed

/-- the empty index -/
def View.empty : View := ⟨fun _ => none, 0, 0, fun _ => false, {}, false⟩

/-- at least `n` levels -/
def pad (conns : List (List Nat)) (n : Nat) : List (List Nat) := conns ++ List.replicate (n - conns.length) []

/-- the node with this id changed to `v` -/
def View.setNode (w : View) (id : Nat) (v : Option LVertex) : View :=
  { w with node := fun i => if i = id then v else w.node i }

/-- the node, or the one that a link record creates implicitly -/
def View.nodeOr (w : View) (id level : Nat) : LVertex := (w.node id).getD ⟨id, 0, List.replicate (level + 1) []⟩

/-- the meaning of one operation -/
def LogOp.sem (w : View) : LogOp → View
  | .addNode id l =>
    w.setNode id (some (match w.node id with
      | none => ⟨id, l, List.replicate (l + 1) []⟩
      | some v => { v with level := l, conns := pad v.conns (l + 1) }))
  | .setEntryPoint id l => { w with ep := id, level := l }
  | .addLink s l t =>
    let v := w.nodeOr s l
    w.setNode s (some { v with conns := (pad v.conns (l + 1)).modify l (· ++ [t]) })
  | .replaceLinks s l ts =>
    let v := w.nodeOr s l
    w.setNode s (some { v with conns := (pad v.conns (l + 1)).set l ts })
  | .addTombstone id => { w with tomb := fun i => decide (i = id) || w.tomb i }
  | .removeTombstone id => { w with tomb := fun i => !decide (i = id) && w.tomb i }
  | .clearLinks id => w.setNode id ((w.node id).map fun v => { v with conns := v.conns.map fun _ => [] })
  | .deleteNode id => w.setNode id none
  | .resetIndex => { w with node := fun _ => none, ep := 0, level := 0 }
  | .clearLinksAtLevel id l =>
    w.setNode id ((w.node id).map fun v => { v with conns := (pad v.conns (l + 1)).set l [] })
  | .addLinks s l ts =>
    let v := w.nodeOr s l
    w.setNode s (some { v with conns := (pad v.conns (l + 1)).modify l (· ++ ts) })
  | .addPQ d => { w with pq := d, compressed := true }

/-- the meaning of a log -/
def semAll (w : View) (ops : List LogOp) : View := ops.foldl LogOp.sem w

/-- limits of the reader itself: the level is not the very last one (its successor wraps around) and the table of nodes
can be allocated (`maxLen` is the longest slice the Go runtime allocates) -/
def LogOp.Fits (maxLen : Nat) : LogOp → Prop
  | .addNode id l => l < 2 ^ 16 - 1 ∧ id < 2 ^ 50 ∧ id * 5 / 4 + 25000 ≤ maxLen
  | .addLink s l _ => l < 2 ^ 16 - 1 ∧ s < 2 ^ 50 ∧ s * 5 / 4 + 25000 ≤ maxLen
  | .replaceLinks s l _ => l < 2 ^ 16 - 1 ∧ s < 2 ^ 50 ∧ s * 5 / 4 + 25000 ≤ maxLen
  | .addLinks s l _ => l < 2 ^ 16 - 1 ∧ s < 2 ^ 50 ∧ s * 5 / 4 + 25000 ≤ maxLen
  | .clearLinks id => id < 2 ^ 63
  | .deleteNode id => id < 2 ^ 63
  | .clearLinksAtLevel id l => l < 2 ^ 16 - 1 ∧ id < 2 ^ 63
  | _ => True

end Log
end Fave
