import Verif.Model.Keeper
import Verif.Spec.Condense
/-!
# What a commit log in use has to keep
-/
namespace Fave
namespace Log

/-- operations that only add: nodes (each always with the same level), links, the search start, deletion marks -/
def LogOp.Adds (lev : Nat → Nat) : LogOp → Prop
  | .addNode id l => l = lev id
  | .setEntryPoint .. => True
  | .addLink .. => True
  | .addLinks .. => True
  | .replaceLinks .. => True
  | .addTombstone _ => True
  | _ => False

/-- Which operations are in the log in the end: `sure` have been flushed, `h` have been written.  A crash may take away the last ones
that have not been flushed. -/
def Survives : List LogOp → List LogOp → List KEv → List LogOp → Prop
  | _, h, [], f => f = h
  | sure, h, .write op :: es, f => Survives sure (h ++ [op]) es f
  | _, h, .flush :: es, f => Survives h h es f
  | sure, h, .switch force :: es, f => Survives (if force then h else sure) h es f
  | sure, h, .crash _ :: es, f => ∃ h', sure <+: h' ∧ h' <+: h ∧ Survives h' h' es f
  | sure, h, .spill _ :: es, f => Survives sure h es f
  | sure, h, .clock _ :: es, f => Survives sure h es f
  | sure, h, .condense _ :: es, f => Survives sure h es f
  | sure, h, .combine :: es, f => Survives sure h es f

/-- the clock does not go back -/
def Steady : Nat → List KEv → Prop
  | _, [] => True
  | t, .clock t' :: es => t ≤ t' ∧ Steady t' es
  | t, _ :: es => Steady t es

/-- the operations written -/
def written : List KEv → List LogOp
  | [] => []
  | .write op :: es => op :: written es
  | _ :: es => written es

/-- how many links an operation writes -/
def LogOp.links : LogOp → Nat
  | .addLink .. => 1
  | .addLinks _ _ ls => ls.length
  | .replaceLinks _ _ ls => ls.length
  | _ => 0

/-- iteration orders are orders of the deletion marks, and the process does not stop between the renaming of a combined log and the removal
of its sources -/
def KEv.Fine : KEv → Prop
  | .condense order => ∀ s, (order s).Perm s.tombs
  | .crash (.condensing _ order) => ∀ s, (order s).Perm s.tombs
  | .crash .renamed => False
  | .crash .firstRemoved => False
  | _ => True

end Log
end Fave
