import Verif.Model.Load
/-!
# What uses of a vertex should lead to (C56)
-/
namespace Fave.Spec
variable {V : Type}
open Load

/-- the vertex (if there is one) after a use -/
def effect (o : Option (Vertex V)) : Use V → Option (Vertex V)
  | .look _ => o
  | .change _ f => o.map (fun v => plain (f (plain v)))
  | .create v => some (plain v)

/-- nothing under way, nothing done; cached vertices are objects of their own, and those marked as committed are stored as they are -/
structure Clean (s : St V) : Prop where
  idle : ∀ t, s.pc t = .idle
  done : ∀ id, s.done id = []
  obj : ∀ id p, s.cache.get id = some p → ∃ v, s.heap[p]? = some v
  own : ∀ a b p, s.cache.get a = some p → s.cache.get b = some p → a = b
  sync : ∀ id p v, s.cache.get id = some p → s.heap[p]? = some v → v.committed = true → s.kv.get id = some (plain v)

end Fave.Spec
