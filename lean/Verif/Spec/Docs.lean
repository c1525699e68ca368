import Verif.Model.Docs
import Verif.Spec.Json
/-!
# Documents as JSON texts: what is claimed
-/
namespace Fave.Docs
open Json

/-- what a reader of an object takes for a key: the last member of that name -/
def last {α : Type} (l : List (Text × α)) (k : Text) : Option α := l.reverse.lookup k

/-- two texts mean the same to whoever reads numbers as 64-bit floats and objects as tables: truth values and strings are equal, numbers have the same
nearest float, lists are the same element by element, and objects have the same keys with the same values, in any order -/
inductive Same : J → J → Prop where
  | null : Same .null .null
  | bool (b : Bool) : Same (.bool b) (.bool b)
  | num (l l' : Lit) (x : ℚ) : f64.read l.value = some x → f64.read l'.value = some x → Same (.num l) (.num l')
  | str (s : Text) : Same (.str s) (.str s)
  | arr (l l' : List J) : l.length = l'.length → (∀ (i : Nat) v v', l[i]? = some v → l'[i]? = some v' → Same v v') → Same (.arr l) (.arr l')
  | obj (l l' : List (Text × J)) : (∀ k, (last l k).isSome = (last l' k).isSome) →
      (∀ k v v', last l k = some v → last l' k = some v' → Same v v') → Same (.obj l) (.obj l')

/-- every number is in the range of 64-bit floats; members that a later one of the same name replaces do not count -/
inductive InRange : J → Prop where
  | null : InRange .null
  | bool (b : Bool) : InRange (.bool b)
  | num (l : Lit) (x : ℚ) : f64.read l.value = some x → InRange (.num l)
  | str (s : Text) : InRange (.str s)
  | arr (l : List J) : (∀ v ∈ l, InRange v) → InRange (.arr l)
  | obj (l : List (Text × J)) : (∀ k v, last l k = some v → InRange v) → InRange (.obj l)

/-- every number anywhere is in the range of 64-bit floats, those of replaced members as well -/
inductive AllInRange : J → Prop where
  | null : AllInRange .null
  | bool (b : Bool) : AllInRange (.bool b)
  | num (l : Lit) (x : ℚ) : f64.read l.value = some x → AllInRange (.num l)
  | str (s : Text) : AllInRange (.str s)
  | arr (l : List J) : (∀ v ∈ l, AllInRange v) → AllInRange (.arr l)
  | obj (l : List (Text × J)) : (∀ m ∈ l, AllInRange m.2) → AllInRange (.obj l)

/-- the number in the index, -1 if there is none -/
def number : Option Nat → ℚ
  | some m => m
  | none => -1

/-- the document of an answer: its id, unless empty, and its properties -/
def answerJ (id : Text) (w : List (Text × J)) : J := .obj ((if id = [] then [] else [(kId, .str id)]) ++ [(kProperties, .obj w)])

end Fave.Docs
