import Verif.Model.Stored
import Verif.Spec.Float32
import Verif.Spec.Json
/-!
# The key-value table of an index as texts: what is claimed
-/
namespace Fave.Stored
open Json F32

/-- a vertex of a running index: numbers of 64 bits (63 for the level), and a vector of finite 32-bit numbers -/
def Fits (v : Vert) : Prop :=
  v.id < 2 ^ 64 ∧ v.level < 2 ^ 63 ∧ (∀ l ∈ v.conns, ∀ x ∈ l, x < 2 ^ 64) ∧ ∀ n ∈ v.vec, ∃ x, n = .fin x ∧ IsFloat x

/-- a change of the table by a running index -/
def Change.Fits : Change → Prop
  | .write _ (.node v) => Stored.Fits v
  | .write _ (.entry e) => e < 2 ^ 64
  | .write _ (.count n) => n < 2 ^ 64
  | .remove _ => True

/-- the texts say what the structures say: every node, the entry point and the counter are read as they are -/
def Says (t : Table) (s : Index (List Num)) : Prop :=
  (∀ id, t.node id = s.kv.get id) ∧ t.entry = s.loadEntry.entry ∧ t.count = s.docCount

end Fave.Stored
