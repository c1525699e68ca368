import Verif.Model.Compress
/-!
# What compression has to achieve
-/
namespace Fave
namespace Compress
open VecCache

variable {V B : Type}

/-- an index after a start: empty caches, the vectors are where `vectorForID` finds them -/
def start (B : Type) (source : Nat → Option V) (n : Nat) (maxSize : Int) : Sys V B := { new V B n maxSize with source := source }

/-- the vector in the cache for an id -/
def Sys.cached (s : Sys V B) (id : Nat) : Option V := (s.plain.slots[id]?).getD none

/-- the cache has no empty place before a vector -/
def Sys.Gapless (s : Sys V B) : Prop := ∀ i j, i < j → s.cached i = none → s.cached j = none

/-- every vector has its code, in the cache of codes and in the store -/
def Sys.Right (s t : Sys V B) (enc : V → B) : Prop :=
  ∀ id v, s.cached id = some v → code t.codes id = .ok (some (enc v)) ∧ t.store id = some (enc v)

/-- an event that puts a vector under `id` -/
def Ev.inserts (id : Nat) : Ev V → Bool
  | .insert i _ => i = id
  | _ => false

/-- a check of the size of the cache of codes -/
def Ev.ticks : Ev V → Bool
  | .tickCodes => true
  | _ => false

end Compress
end Fave
