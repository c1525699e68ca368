import Verif.Model.Client
import Verif.Spec.ExampleIndex
/-!
# A small world used in the non-vacuity examples of the client
-/
namespace Fave.ExC
open Client

/-- the small index parameters of `Ex`, documents are not replaced -/
def E : Env Nat Nat := ⟨Ex.P, false⟩
/-- the vectoriser answers with the length of the text -/
def o : Oracle Nat Nat :=
  { corpi := fun _ t => .vec [t.length, 0], vo := fun _ => Ex.vo, sched := fun _ => Ex.sched, level := fun i => i % 2 }

def books : Str := ['b', 'o', 'o', 'k', 's']
def films : Str := ['f', 'i', 'l', 'm', 's']
def title : Str := ['t', 'i', 't', 'l', 'e']
def year : Str := ['y', 'e', 'a', 'r']

/-- a document with vector -/
def docV (id : Char) (v : List Nat) : Option (Doc Nat) := some ⟨[id], [(vectorName, .floats v)]⟩
/-- a document with a title -/
def docT (id : Char) (t : Str) : Option (Doc Nat) := some ⟨[id], [(title, .str t)]⟩

def setup : List (Req Nat Nat) := [.login true, .openPod true, .create o books [(title, .string)], .create o films []]
/-- a foreign database in the pod -/
def foreign : Map (Db Nat) := [(['n', 'o', 't', 'e', 's'], ⟨[], [[(title, .str ['x'])]]⟩)]
def w0 : World Nat := run E (World.fresh true foreign) setup
/-- three documents with vectors, one with text, one without anything, one with a vector of the wrong length -/
def batch : List (Option (Doc Nat)) :=
  [docV 'a' [10, 0], docV 'b' [12, 0], docT 'c' ['x', 'y', 'z'], some ⟨['d'], [(year, .int 1999)]⟩, docV 'e' [1, 2, 3], docV 'f' [30, 1]]
def w1 : World Nat := (serve E w0 (.add o books [title] batch)).1

end Fave.ExC
