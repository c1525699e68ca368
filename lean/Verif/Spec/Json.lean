import Verif.Model.Json
/-!
# Words for the claims about JSON texts
-/
namespace Fave.Json

/-- digits only, and at least one -/
def Digits (t : Text) : Prop := t ≠ [] ∧ ∀ c ∈ t, c.isDigit = true

/-- a number as JSON allows it: no zero in front of other digits, and something behind a point or an `e` -/
def Lit.Ok (l : Lit) : Prop :=
  Digits l.int ∧ (l.int.head? = some '0' → l.int = ['0']) ∧ (∀ f, l.frac = some f → Digits f) ∧ (∀ n e, l.exp = some (n, e) → Digits e)

/-- all numbers of a value are as JSON allows them -/
inductive J.Ok : J → Prop where
  | null : J.Ok .null
  | bool (b : Bool) : J.Ok (.bool b)
  | num (l : Lit) : l.Ok → J.Ok (.num l)
  | str (s : Text) : J.Ok (.str s)
  | arr (l : List J) : (∀ v ∈ l, J.Ok v) → J.Ok (.arr l)
  | obj (l : List (Text × J)) : (∀ m ∈ l, J.Ok m.2) → J.Ok (.obj l)

end Fave.Json
