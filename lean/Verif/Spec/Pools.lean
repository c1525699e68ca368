import Verif.Model.Pools
/-!
# What the theorems about pools speak of
-/
namespace Fave.Pools
variable {A : Type}

/-- does the operation use the object in the variable? -/
def Op.uses (sl : Slot) : Op A → Bool
  | .visit _ | .enter _ | .giveBack => decide (sl = .vis)
  | .edit k _ _ | .put k => decide (sl = .q k)
  | _ => false

/-- does it assign another object to the variable? -/
def Op.gets (sl : Slot) : Op A → Bool
  | .borrow => decide (sl = .vis)
  | .get k _ => decide (sl = .q k)
  | _ => false

/-- will the object that is in the variable now be used? -/
def needs (sl : Slot) : List (Op A) → Bool
  | [] => false
  | op :: ops => if op.uses sl then true else if op.gets sl then false else needs sl ops

/-- the contents a queue of one's own would have after the operations: empty when taken, then changed by the uses alone -/
def ownItems (k : QKind) (past : List (Op A)) : List A :=
  past.foldl (fun items op => match op with
    | .get k' _ => if k' = k then [] else items
    | .edit k' f _ => if k' = k then f items else items
    | _ => items) []

/-- the ids marked since the visited list was borrowed -/
def ownMarks (past : List (Op A)) : List Nat :=
  past.foldl (fun ids op => match op with
    | .borrow => []
    | .visit id => id :: ids
    | .enter new => new ++ ids
    | _ => ids) []

/-- the object is as if it were the thread's own -/
def AsOwn (past : List (Op A)) : Slot → Obj A → Prop
  | .vis, o => ∃ l, o = .vis l ∧ ∀ id, l.visited id = decide (id ∈ ownMarks past)
  | .q k, o => ∃ cap, o = .q k (ownItems k past) cap

/-- the object is in some pool -/
def St.pooled (s : St A) (a : Nat) : Prop := a ∈ s.vpool ∨ ∃ k, a ∈ s.qpool k

/-- The ids of entry points fit in a visited list as made.  (Larger ones are not marked in the caller's list, see `Search.markEntries`; in
FaVe ids beyond 25000 crash before, C17.) -/
def Layer.Fits (n : Nat) (x : Layer A) : Prop := ∀ id ∈ x.entries, id < n

def Call.Fits (n : Nat) : Call A → Prop
  | .search above base => (∀ x ∈ above, x.layer.Fits n) ∧ base.layer.Fits n
  | .best above => ∀ x ∈ above, x.layer.Fits n
  | .link x => x.layer.Fits n

end Fave.Pools
