import Verif.Model.Mmap
import Verif.Spec.CommitLog
/-!
# What the index of the memory-mapped condensor should be
-/
namespace Fave.Mmap
open Fave.Log (LogOp)

/-- increasing ids, each once -/
def Sorted (ns : List MNode) : Prop := ns.Pairwise fun a b => a.id < b.id

/-- what the index must be after the observations `obs` -/
structure Exact (ns : List MNode) (obs : List (Nat × Nat)) : Prop where
  sorted : Sorted ns
  seen : ∀ x ∈ ns, (x.id, x.maxLevel) ∈ obs
  largest : ∀ x ∈ ns, ∀ l, (x.id, l) ∈ obs → l ≤ x.maxLevel
  all : ∀ i l, (i, l) ∈ obs → ∃ x ∈ ns, x.id = i
  unplaced : ∀ x ∈ ns, x.offset = 0

/-- operations the analyser knows -/
def Known : LogOp → Prop
  | .clearLinksAtLevel .. => False
  | .addLinks .. => False
  | .addPQ _ => False
  | _ => True

/-- observations so far after one more operation: a reset forgets them, deleting a node does not -/
def observe (obs : List (Nat × Nat)) : LogOp → List (Nat × Nat)
  | .addNode i l => obs ++ [(i, l)]
  | .addLink i l _ => obs ++ [(i, l)]
  | .replaceLinks i l _ => obs ++ [(i, l)]
  | .resetIndex => []
  | _ => obs

/-- bytes needed for all entries -/
def totalSize (c : Nat) (ns : List MNode) : Nat := (ns.map (MNode.size c)).sum

end Fave.Mmap
