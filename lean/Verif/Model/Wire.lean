import Verif.Model.Bodies
import Verif.Model.Client
/-!
# The vectoriser on the wire

What is sent to the vectoriser and what is made of its answer: pkg/vectorizer/rest/vectorizer.go:43-70.  Also the functions of pkg/vectorizer/vector.go, of
which only `NewVector` and `ToArray` are used.
-/
namespace Fave.Wire
open Json F32 Docs Stored Bodies

/-- the member "query" — pkg/vectorizer/rest/vectorizer.go:45 -/
def kQuery : Text := "query".toList

/-- the body of the call — pkg/vectorizer/rest/vectorizer.go:44-51 -/
def query (texts : List Text) : Text := render true (.obj [(kQuery, .arr (texts.map .str))])

/-- the members of the answer, one after the other; a name that comes again replaces the entry — pkg/vectorizer/rest/vectorizer.go:60-61 -/
def entries (m : List (Text × Option (List Num))) : List (Text × J) → Option (List (Text × Option (List Num)))
  | [] => some m
  | (k, v) :: l => (listOf floatOf v).bind fun x => entries (put k x m) l

/-- a `map[string][]float32`; `null` leaves it nil — pkg/vectorizer/rest/vectorizer.go:60-61 -/
def mapOf : J → Option (List (Text × Option (List Num)))
  | .null => some []
  | .obj l => entries [] l
  | _ => none

/-- the end of the call: no answer, or a status and a text — pkg/vectorizer/rest/vectorizer.go:51-70 -/
def corpi : Option (Nat × Text) → Client.Corpi Num
  | none => .fail
  | some (status, t) =>
    if status ≠ 200 then .nil
    else
      match bind mapOf t with
      | .ok m => .vec (((m.lookup kVector).getD none).getD [])
      | _ => .fail

/-- `Equal`: an error if the lengths differ — pkg/vectorizer/vector.go:16-28 -/
def equal (a b : List Num) : Option Bool :=
  if a.length ≠ b.length then none else some ((a.zip b).all fun p => F32.eq p.2 p.1)

/-- the sum of `Distance` — pkg/vectorizer/vector.go:59, 65-68 -/
def squares (a b : List Num) : Num := (a.zip b).foldl (fun s p => F32.add s (F32.mul (F32.sub p.1 p.2) (F32.sub p.1 p.2))) (.fin 0)

/-- `Distance`: an error if the lengths differ; `math.Sqrt` in 64 bits and rounding to 32 is the 32-bit root (`C63.sqrt_by_way_of_64_bits`) —
pkg/vectorizer/vector.go:58-71 -/
def apart (a b : List Num) : Option Num := if a.length ≠ b.length then none else some (F32.sqrt (squares a b))

end Fave.Wire
