import Verif.Lemmas.History
import Verif.Spec.ExampleIndex
/-!
# C09 — adding never alters stored vectors
-/
namespace Fave.C09
open Index
variable {V D : Type} [Dist D]

/-- In any state reachable by any operations (failures and crashes included), an addition with any outcome leaves every
vector with another number stored under its number with the same value; nothing appears or disappears under other numbers,
and what the key-value table holds does not change at all. -/
theorem addition_keeps_other_vectors (P : Params V D) (s : Index V) (h : Any P s)
    (vo : VecOracle V) (sched : Graph.Scheds D) (x : Nat) (vec : V) (level : Nat) (s' : Index V) (outcome : Option Err)
    (ha : add P vo sched s x vec level = (s', outcome)) :
    (∀ id v, id ≠ x → s.get id = some v → ∃ v', s'.get id = some v' ∧ v'.id = id ∧ v'.vec = v.vec ∧ v.level ≤ v'.level) ∧
    (∀ id, id ≠ x → s.get id = none → s'.get id = none) ∧
    s'.kv = s.kv ∧ s'.kvEntry = s.kvEntry ∧ s'.kvCount = s.kvCount := by
  have hi := any_inv h
  have hk := add_keeps (P := P) (vo := vo) (sched := sched) (x := x) (vec := vec) (level := level) hi.1
  rw [ha] at hk
  refine ⟨?_, hk.none, hk.kv, hk.kvEntry, hk.kvCount⟩
  intro id v hx hg
  obtain ⟨v', h1, h2, h3, _, h4⟩ := hk.old id v hx hg
  exact ⟨v', h1, h2.trans (hi.1.get hg), h3, h4⟩

/-- Along any history the collection holds exactly the vectors that were added, under their numbers. -/
theorem stored_vectors_are_the_added_ones (P : Params V D) (hP : P.Ok) (s : Index V) (vs : List V) (h : Hist P s vs) :
    ∀ id u, vs[id]? = some u → ∃ v, s.get id = some v ∧ v.id = id ∧ v.vec = P.norm u := by
  intro id u hu
  have hi := hist_inv hP h
  obtain ⟨v, hv, hid, _⟩ := hi.wf id (List.getElem?_eq_some_iff.mp hu).1
  exact ⟨v, hv, hid, hi.holds id u v hu hv⟩

/-! Non-vacuity: a successful addition that changes links of others, and one that fails after it has changed links. -/
example : Any Ex.P Ex.s4 ∧ ∃ s', add Ex.P Ex.vo Ex.sched Ex.s4 4 [50, 0] 1 = (s', none) ∧
    (s'.get 1).map Vertex.conns ≠ (Ex.s4.get 1).map Vertex.conns := by
  refine ⟨hist_any Ex.hist4, _, rfl, ?_⟩
  decide +kernel
example : ∃ s', add Ex.P (fun l nb _ id => if l = 0 ∧ nb = none then none else Ex.vecs[id]?) Ex.sched Ex.s4 4 [50, 0] 1 = (s', some .error) ∧
    (s'.get 1).map Vertex.conns ≠ (Ex.s4.get 1).map Vertex.conns := by
  refine ⟨_, rfl, ?_⟩
  decide +kernel

end Fave.C09
