import Verif.Lemmas.History
import Verif.Spec.ExampleIndex
import Verif.Spec.Storage
/-!
# C11 — a restart is invisible after a completed batch
-/
namespace Fave.C11
open Index Spec Search
variable {V D : Type} [Dist D]

theorem sameNode_of_core {a b : Option (Vertex V)} (h : a.map core = b.map core) : SameNode a b := by
  rcases agree_cases h with ⟨rfl, rfl⟩ | ⟨v, w, rfl, rfl, e⟩
  · trivial
  · exact e

/-- After any operations whatsoever and then a completed flush, a fresh process over the same storage finds under every
number the same vector, level and links, the same next number and (once loaded, as before every search) the same search
start; every layer search from given entry points gives the same answer. -/
theorem restart_after_flush_invisible (P : Params V D) (s s' : Index V) (h : Any P s) (order : List Nat) (n : Nat)
    (ho : ∀ id ∈ s.cache.keys, id ∈ order) (hf : flush P s order n = (s', none)) :
    (∀ id, SameNode (s'.reopen.loadEntry.get id) (s'.get id)) ∧ (∀ id, SameNode (s'.get id) (s.get id)) ∧
    s'.reopen.loadEntry.docCount = s'.docCount ∧ s'.docCount = some n ∧
    s'.reopen.loadEntry.entry = s'.entry ∧ s'.entry = s.entry ∧
    (∀ q allow sched eps ef level, s.tombs = [] →
      searchLayer ((s'.reopen.loadEntry.graph P).senv q allow) sched eps ef level =
        searchLayer ((s'.graph P).senv q allow) sched eps ef level) := by
  obtain ⟨hi, hs⟩ := any_inv h
  obtain ⟨s1, hw, rfl⟩ := flush_ok hi hf
  have h1 : ∀ id, (s1.get id).map core = (s.get id).map core := hw.get (dirty_cached hi order)
  have h2 : ∀ id, ((s1.kv.get id).map core).map core = (s.get id).map core := fun id => by
    rw [map_core_core]; exact wroteAll hi hs ho hw id
  refine ⟨fun id => sameNode_of_core ((h2 id).trans (h1 id).symm), fun id => sameNode_of_core (h1 id), rfl, rfl, ?_, hw.entry, ?_⟩
  · show s.entry = s1.entry
    exact hw.entry.symm
  · intro q allow sched eps ef level ht
    have ht1 : s1.tombs = [] := hw.tombs.trans ht
    have key := searchLayer_frame (env := (graph P { s1 with kvEntry := some s.entry, kvCount := some n }).senv q allow)
      (get' := fun id => (s1.kv.get id).map core) (keys' := ([] : List Nat) ++ s1.kv.keys) (level := level) (C := fun _ => True)
      ⟨fun id _ => (h2 id).trans (h1 id).symm, fun _ _ _ _ _ _ _ _ => trivial⟩ sched ef eps (fun _ _ => trivial)
      (keysOk P _ q allow)
      (keysOk P ({ s1 with kvEntry := some s.entry, kvCount := some n, cache := [] } : Index V) q allow)
    rw [← key]
    have e : (graph P ((({ s1 with kvEntry := some s.entry, kvCount := some n } : Index V).reopen).loadEntry)).senv q allow =
        SEnvWith ((graph P { s1 with kvEntry := some s.entry, kvCount := some n }).senv q allow)
          (fun id => (s1.kv.get id).map core) (([] : List Nat) ++ s1.kv.keys) := by
      unfold SEnvWith graph Graph.senv reopen loadEntry
      simp only [ht1]
      rfl
    rw [e]

/-- Along a history: everything that was added and flushed is there after the restart. -/
theorem restart_after_flush_keeps_vectors (P : Params V D) (hP : P.Ok) (s s' : Index V) (vs : List V) (h : Hist P s vs) (hv : vs ≠ [])
    (order : List Nat) (ho : ∀ id ∈ s.cache.keys, id ∈ order) (hf : flush P s order vs.length = (s', none)) :
    Hist P s'.reopen vs ∧ ∀ id u, vs[id]? = some u → ∃ v, s'.reopen.get id = some v ∧ v.vec = P.norm u := by
  have h1 : Hist P s'.reopen (vs.take (s'.kvCount.getD 0)) := .restart (.flush order h hv ho hf)
  have hc : s'.kvCount = some vs.length := (restart_after_flush_invisible P s s' (hist_any h) order vs.length ho hf).2.2.2.1
  have e : vs.take (s'.kvCount.getD 0) = vs := by rw [hc]; simp
  rw [e] at h1
  refine ⟨h1, fun id u hu => ?_⟩
  have hi := hist_inv hP h1
  obtain ⟨v, hv, _⟩ := hi.wf id (List.getElem?_eq_some_iff.mp hu).1
  exact ⟨v, hv, hi.holds id u v hu hv⟩

/-! Non-vacuity: the sample index of four vectors, flushed. -/
example : Any Ex.P Ex.s4 ∧ flush Ex.P Ex.s4 [3, 2, 1, 0] 4 = (Ex.s4f, none) ∧ Ex.s4f.reopen.cache = [] ∧
    (Ex.s4f.reopen.get 3).map (fun v => (v.level, v.conns, v.vec)) = some (2, [[0], [1], []], [11, 5]) ∧
    Ex.s4f.reopen.loadEntry.entry = 3 :=
  ⟨hist_any Ex.hist4, by decide +kernel, rfl, by decide +kernel, by decide +kernel⟩

/-! What a restart does change: the height of the upper layers is forgotten, so searches start on the base layer. -/
theorem restart_forgets_layers : Ex.s4f.maxLayer = 2 ∧ Ex.s4f.reopen.loadEntry.maxLayer = 0 := by decide +kernel

end Fave.C11
