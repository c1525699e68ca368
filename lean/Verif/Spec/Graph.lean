import Verif.Model.Search
/-!
# Specification vocabulary for link graphs (independent of the search algorithm)
-/
namespace Fave.Spec
variable {V D : Type}

/-- `id` is stored and its distance to the query can be computed, namely `d` -/
def HasDist (env : SEnv V D) (id : Nat) (d : D) : Prop := ∃ v, env.get id = some v ∧ env.qdist v.vec = some d

/-- `b` is in the link list of `a` on `level` -/
def Linked (env : SEnv V D) (level a b : Nat) : Prop :=
  ∃ v links, env.get a = some v ∧ level ≤ v.level ∧ v.conns[level]? = some links ∧ b ∈ links

/-- ids that can be reached from the `starts` by following links on `level` between stored vectors -/
inductive Reach (env : SEnv V D) (level : Nat) (starts : List Nat) : Nat → Prop where
  | start (id) : id ∈ starts → Reach env level starts id
  | link (a b d) : Reach env level starts a → Linked env level a b → HasDist env b d → Reach env level starts b

/-- neither marked deleted nor excluded by the caller's filter (the filter counts on the base level only) -/
def Eligible (env : SEnv V D) (level id : Nat) : Prop :=
  env.tomb id = false ∧ (level = 0 → ∀ p, env.allow = some p → p id = true)

end Fave.Spec
