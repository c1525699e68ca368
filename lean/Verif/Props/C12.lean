import Verif.Lemmas.History
import Verif.Spec.ExampleIndex
import Verif.Spec.Storage
/-!
# C12 — a crash while flushing never loses completed batches
-/
namespace Fave.C12
open Index Spec Search
variable {V D : Type} [Dist D]

/-- A history, then a flush of `n = vs.length` that dies after any number of storage writes (`ws` is any prefix of the writes), then a
restart:
* every vector of the earlier completed batches (number below the stored count) is there with its value;
* the count is the old or the new one;
* if it has changed, every vector added since is stored too;
* the stored search start, if any, is a stored vector. -/
theorem crash_keeps_completed_batches (P : Params V D) (hP : P.Ok) (s : Index V) (vs : List V) (h : Hist P s vs) (hv : vs ≠ [])
    (order : List Nat) (ho : ∀ id ∈ s.cache.keys, id ∈ order) (ws : List (Write V)) (hp : ws <+: s.flushWrites order vs.length)
    (t : Index V) (ht : t = (ws.foldl applyWrite s).reopen) :
    (∀ id u, id < s.docCount.getD 0 → vs[id]? = some u → ∃ v, t.get id = some v ∧ v.id = id ∧ v.vec = P.norm u) ∧
    (t.docCount = s.docCount ∨ t.docCount = some vs.length) ∧
    (t.docCount ≠ s.docCount → ∀ id u, vs[id]? = some u → ∃ v, t.get id = some v ∧ v.id = id ∧ v.vec = P.norm u) ∧
    (∀ e, t.kvEntry = some e → ∃ v, t.get e = some v) := by
  have hi := hist_inv hP h
  -- every flushed node is the node held in memory or the old stored one
  have hnode : ∀ s1 vs', vs' <+: s.dirty order → WroteNodes s s1 vs' → ∀ id u, id < s.kvCount.getD 0 → vs[id]? = some u →
      ∃ v, (s1.kv.get id).map core = some v ∧ v.id = id ∧ v.vec = P.norm u := by
    intro s1 vs' hvs hw id u hid hu
    rw [hw.kv]
    by_cases hm : id ∈ vs'.map Vertex.id
    · rw [if_pos hm]
      obtain ⟨w, hwm, rfl⟩ := List.mem_map.mp hm
      have hc := dirty_cached hi.ids order w (hvs.subset hwm)
      unfold Cached at hc
      rw [hc]
      refine ⟨core w, rfl, rfl, ?_⟩
      cases hg : s.cache.get w.id with
      | none => rw [hg] at hc; cases hc
      | some w' =>
        rw [hg] at hc
        have hc' : core w' = core w := by simpa using hc
        have hget : s.get w.id = some w' := by unfold Index.get; rw [hg]
        have := hi.holds _ u w' hu hget
        show w.vec = _
        rw [← (core_eq hc').2.2.2.2]; exact this
    · rw [if_neg hm]
      obtain ⟨v, hv, hvid, _⟩ := hi.kvwf id hid
      refine ⟨v, hv, hvid, hi.kvHolds id u v ?_ hv⟩
      rw [List.getElem?_take, if_pos hid]; exact hu
  have hfull : ∀ s1, WroteNodes s s1 (s.dirty order) → ∀ id u, vs[id]? = some u →
      ∃ v, (s1.kv.get id).map core = some v ∧ v.id = id ∧ v.vec = P.norm u := by
    intro s1 hw id u hu
    obtain ⟨v, hv, hvid, _⟩ := hi.wf id (List.getElem?_eq_some_iff.mp hu).1
    have := wroteAll hi.ids hi.synced ho hw id
    rw [hv] at this
    exact ⟨core v, this, hvid, hi.holds id u v hu hv⟩
  have hentry : ∀ s1, WroteNodes s s1 (s.dirty order) → ∃ v, (s1.kv.get s.entry).map core = some v := by
    intro s1 hw
    have hlt := hi.entry hv
    obtain ⟨v, hv', _⟩ := hfull s1 hw s.entry vs[s.entry] (List.getElem?_eq_getElem hlt)
    exact ⟨v, hv'⟩
  obtain ⟨s1, vs', hpre, hw, ⟨h1, _⟩ | ⟨rfl, h1 | h1⟩⟩ := crash_state hi.ids hp
  · subst ht
    rw [h1]
    refine ⟨hnode s1 vs' hpre hw, .inl hw.kvCount, fun hne => absurd hw.kvCount hne, ?_⟩
    intro e he
    have he' : s.kvEntry = some e := by rw [← hw.kvEntry]; exact he
    have hlt := hi.kvEntry e he'
    have hlt' : e < vs.length := Nat.lt_of_lt_of_le hlt hi.le
    obtain ⟨v, hv', _⟩ := hnode s1 vs' hpre hw e vs[e] hlt (List.getElem?_eq_getElem hlt')
    exact ⟨v, hv'⟩
  · subst ht
    rw [h1]
    refine ⟨hnode s1 _ List.prefix_rfl hw, .inl hw.kvCount, fun hne => absurd hw.kvCount hne, ?_⟩
    intro e he
    have : s.entry = e := Option.some.inj he
    subst this
    exact hentry s1 hw
  · subst ht
    rw [h1]
    refine ⟨hnode s1 _ List.prefix_rfl hw, .inr rfl, fun _ => hfull s1 hw, ?_⟩
    intro e he
    have : s.entry = e := Option.some.inj he
    subst this
    exact hentry s1 hw

/-! Non-vacuity: the sample index with a completed batch of four and two further vectors; the flush dies after three of its
seven writes.  The four old vectors are there, the count is still 4. -/
def crashed : Index (List Nat) := (((Ex.s6.flushWrites [4, 2, 5, 3, 1] 6).take 3).foldl applyWrite Ex.s6).reopen
example : Hist Ex.P Ex.s6 Ex.vecs ∧ (∀ id ∈ Ex.s6.cache.keys, id ∈ [4, 2, 5, 3, 1]) ∧ Ex.s6.docCount = some 4 ∧
    (Ex.s6.flushWrites [4, 2, 5, 3, 1] 6).length = 7 ∧ crashed.docCount = some 4 ∧
    (List.range 6).map (fun id => (crashed.get id).map Vertex.vec) =
      [some [10, 0], some [12, 0], some [30, 1], some [11, 5], some [50, 0], some [13, 2]] :=
  ⟨Ex.hist6, by decide +kernel, by decide +kernel, by decide +kernel, by decide +kernel, by decide +kernel⟩

/-- What such a crash can leave behind: a vector of a completed batch with a link to a number that the next vector will get
again — the new vector then inherits links that were made for another one. -/
theorem crash_leaves_link_to_unused_number : crashed.docCount = some 4 ∧
    (crashed.get 2).map (fun v => v.conns) = some [[1, 4]] := by decide +kernel

end Fave.C12
