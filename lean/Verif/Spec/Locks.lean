import Verif.Model.Locks
/-!
# Words for the claims about locks
-/
namespace Fave.Locks

/-- what a goroutine that walks the path `p` alone holds at its end -/
def leftover : List Act → List (Lock × Bool) → List (Lock × Bool)
  | [], h => h
  | .take l w :: r, h => leftover r ((l, w) :: h)
  | .give l w :: r, h => leftover r (h.erase (l, w))
  | .acc _ _ :: r, h => leftover r h

/-- calls in which reading or deleting in the key-value store fails while a clean-up holds a lock -/
def Op.fails : Op → Bool
  | .cleanUpEntryFails | .cleanUpRemoveFails => true
  | _ => false

/-- all goroutines have ended -/
def ended (s : List Thread) : Prop := ∀ t ∈ s, t.todo = []

/-- the state after a schedule, empty if the schedule is impossible -/
def reached (s : List Thread) (is : List Nat) : List Thread := (run s is).getD []

/-- a bound on the number of steps of a path: two for taking a lock to write, else one -/
def cost : List Act → Nat
  | [] => 0
  | .take _ true :: r => 2 + cost r
  | _ :: r => 1 + cost r

/-- goroutine `i` has ended, or waits for a lock that is held, in a way that excludes it, by a goroutine of this kind -/
inductive Frozen (s : List Thread) : Nat → Prop where
  | ended (i : Nat) (t : Thread) : s[i]? = some t → t.todo = [] → Frozen s i
  | waits (i j : Nat) (t u : Thread) (l : Lock) (w w' : Bool) (r : List Act) :
      s[i]? = some t → t.todo = .take l w :: r → s[j]? = some u → (l, w') ∈ u.held → (w || w') = true → Frozen s j → Frozen s i

end Fave.Locks
