import Verif.Spec.CommitLog
/-!
# When condensing a log can be invisible

Conditions on a log, in terms of its operations and the state before it only.
-/
namespace Fave
namespace Log

/-- number of links an operation leaves at each node and level, given the numbers before -/
def LogOp.linkLens (f : Nat → Nat → Nat) : LogOp → Nat → Nat → Nat
  | .addLink s l _ => fun i k => if i = s ∧ k = l then f i k + 1 else f i k
  | .addLinks s l ts => fun i k => if i = s ∧ k = l then f i k + ts.length else f i k
  | .replaceLinks s l ts => fun i k => if i = s ∧ k = l then ts.length else f i k
  | _ => f

/-- an upper bound for the number of links a log gives a node at a level (deleting and clearing are not counted) -/
def linkLens (ops : List LogOp) : Nat → Nat → Nat := ops.foldl LogOp.linkLens (fun _ _ => 0)

/-- operations that create the node if it does not exist -/
def LogOp.touches (id : Nat) : LogOp → Prop
  | .addNode i _ => i = id
  | .addLink i _ _ => i = id
  | .addLinks i _ _ => i = id
  | .replaceLinks i _ _ => i = id
  | _ => False

/-- The operation can be condensed on top of the older state `w`, when `done` came before it in the same log: it takes nothing
away that is older than the log (nor lowers a node to level 0), and links are cleared at nodes that exist. -/
def LogOp.Condensable (w : View) (done : List LogOp) : LogOp → Prop
  | .addNode id l => l > 0 ∨ ∀ v, w.node id = some v → v.level = 0
  | .removeTombstone id => w.tomb id = false
  | .clearLinks id => w.node id = none
  | .deleteNode id => w.node id = none
  | .resetIndex => (∀ i, w.node i = none) ∧ w.ep = 0 ∧ w.level = 0
  | .clearLinksAtLevel id _ => (semAll w done).node id ≠ none ∧
      (w.node id ≠ none → id < 25000 ∨ ∃ op ∈ done, op.touches id)
  | .addPQ _ => False
  | _ => True

/-- every operation of the log can be condensed -/
def Condensable (w : View) (ops : List LogOp) : Prop :=
  ∀ done op rest, ops = done ++ op :: rest → op.Condensable w done

end Log
end Fave
