import Verif.Model.Search
/-!
# Well-formed links, at any moment (C53)

Independent of how the index is built.  Unlike `Spec.WellFormed` this does not ask the numbers to be without gaps.
-/
namespace Fave.Spec
variable {V : Type}

/-- Every vertex is stored under its number and has one link list per level; every link list is without repetition, does not lead back to its own
vertex, is within the limit, and leads only to existing vertices of that level. -/
def LinksOk (base upper : Nat) (get : Nat → Option (Vertex V)) : Prop :=
  ∀ id v, get id = some v → v.id = id ∧ v.conns.length = v.level + 1 ∧
    ∀ k links, v.conns[k]? = some links →
      links.Nodup ∧ id ∉ links ∧ links.length ≤ (if k = 0 then base else upper) ∧ ∀ b ∈ links, ∃ w, get b = some w ∧ k ≤ w.level

end Fave.Spec
