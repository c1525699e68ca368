import Verif.Model.Search
/-!
# Two look-ups show the same stored vector (C11, C12, C16)
-/
namespace Fave.Spec
variable {V : Type}

/-- both find nothing, or the same number, level, link lists and vector (the unsaved-changes flag may differ) -/
def SameNode : Option (Vertex V) → Option (Vertex V) → Prop
  | none, none => True
  | some a, some b => a.id = b.id ∧ a.level = b.level ∧ a.conns = b.conns ∧ a.maint = b.maint ∧ a.vec = b.vec
  | _, _ => False

end Fave.Spec
