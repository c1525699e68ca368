import Verif.Model.Search
/-!
# What "the link graph is well formed" means (C08)

Independent of how the index is built.
-/
namespace Fave.Spec
variable {V : Type}

/-- The numbers below `n` are stored, and the stored link graph is well formed; `base` is the maximal length of a link list
on the base level, `upper` above. -/
def WellFormed (base upper : Nat) (get : Nat → Option (Vertex V)) (n : Nat) : Prop :=
  ∀ id, id < n → ∃ v, get id = some v ∧ v.id = id ∧
    -- one link list per level
    v.conns.length = v.level + 1 ∧
    ∀ k links, v.conns[k]? = some links →
      links.Nodup ∧ id ∉ links ∧ links.length ≤ (if k = 0 then base else upper) ∧
      -- every link leads to a stored vector of that level
      ∀ b ∈ links, b < n ∧ ∃ w, get b = some w ∧ k ≤ w.level

end Fave.Spec
