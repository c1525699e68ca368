import Verif.Lemmas.InsertWF
/-!
# Flushing and re-opening
-/
namespace Fave.Index
open Search Spec
variable {V D : Type} [Dist D]

theorem core_core (v : Vertex V) : core (core v) = core v := rfl

theorem map_core_core (o : Option (Vertex V)) : (o.map core).map core = o.map core := by cases o <;> rfl

theorem reopen_get (s : Index V) (id : Nat) : s.reopen.get id = (s.kv.get id).map core := rfl

/-- the node is in the cache, up to the dirty flag -/
def Cached (s : Index V) (v : Vertex V) : Prop := (s.cache.get v.id).map core = some (core v)

structure WroteNodes (s s' : Index V) (vs : List (Vertex V)) : Prop where
  cache : ∀ id, (s'.cache.get id).map core = (s.cache.get id).map core
  kv : ∀ id, s'.kv.get id = if id ∈ vs.map Vertex.id then (s.cache.get id).map core else s.kv.get id
  ids : IdsOk s → IdsOk s'
  synced : Synced s → Synced s'
  kvEntry : s'.kvEntry = s.kvEntry
  kvCount : s'.kvCount = s.kvCount
  entry : s'.entry = s.entry
  maxLayer : s'.maxLayer = s.maxLayer
  once : s'.once = s.once
  tombs : s'.tombs = s.tombs

theorem wroteNodes (vs : List (Vertex V)) (s : Index V) (hc : ∀ v ∈ vs, Cached s v) :
    WroteNodes s ((vs.map Write.node).foldl applyWrite s) vs := by
  induction vs generalizing s with
  | nil => exact ⟨fun _ => rfl, fun _ => by simp, id, id, rfl, rfl, rfl, rfl, rfl, rfl⟩
  | cons v vs ih =>
    have hv := hc v (by simp)
    rw [List.map_cons, List.foldl_cons]
    have hcache : ∀ id, ((applyWrite s (.node v)).cache.get id).map core = (s.cache.get id).map core := by
      intro id
      simp only [applyWrite, Tab.get_put]
      by_cases h : id = v.id
      · rw [if_pos h, h]; exact hv.symm
      · rw [if_neg h]
    have hkv : ∀ id, (applyWrite s (.node v)).kv.get id = if id = v.id then (s.cache.get id).map core else s.kv.get id := by
      intro id
      simp only [applyWrite, Tab.get_put]
      by_cases h : id = v.id
      · rw [if_pos h, if_pos h, h]; exact hv.symm
      · rw [if_neg h, if_neg h]
    have h := ih (applyWrite s (.node v)) (fun w hw => by unfold Cached; rw [hcache]; exact hc w (by simp [hw]))
    refine ⟨fun id => (h.cache id).trans (hcache id), ?_, ?_, ?_, h.kvEntry, h.kvCount, h.entry, h.maxLayer, h.once, h.tombs⟩
    · intro id
      rw [h.kv, hcache, hkv]
      by_cases h1 : id ∈ vs.map Vertex.id
      · rw [if_pos h1, if_pos (by rw [List.map_cons]; exact List.mem_cons_of_mem _ h1)]
      · rw [if_neg h1]
        by_cases h2 : id = v.id
        · rw [if_pos h2, if_pos (by rw [h2]; simp)]
        · rw [if_neg h2, if_neg (by rw [List.map_cons, List.mem_cons]; exact fun h => h.elim h2 h1)]
    · intro hi
      refine h.ids ⟨?_, ?_⟩
      · intro id w hw
        simp only [applyWrite, Tab.get_put] at hw
        split at hw
        · rename_i h1; cases hw; exact h1.symm
        · exact hi.cache _ _ hw
      · intro id w hw
        simp only [applyWrite, Tab.get_put] at hw
        split at hw
        · rename_i h1; cases hw; exact h1.symm
        · exact hi.kv _ _ hw
    · intro hs
      refine h.synced ?_
      intro id w hw hwc
      simp only [applyWrite, Tab.get_put] at hw ⊢
      split at hw
      · rename_i h1; cases hw; rw [if_pos h1]; rfl
      · rename_i h1; rw [if_neg h1]; exact hs id w hw hwc

theorem dirty_cached {s : Index V} (hi : IdsOk s) (order : List Nat) : ∀ v ∈ s.dirty order, Cached s v := by
  intro v hv
  unfold dirty at hv
  obtain ⟨id, _, h⟩ := List.mem_filterMap.mp hv
  cases hg : s.cache.get id with
  | none => rw [hg] at h; cases h
  | some w =>
    rw [hg] at h
    simp only [Option.bind_some] at h
    split at h
    · cases h
    · cases h
      unfold Cached
      rw [hi.cache _ _ hg, hg]; rfl

theorem mem_dirty {s : Index V} {order : List Nat} {id : Nat} {v : Vertex V} (ho : ∀ id ∈ s.cache.keys, id ∈ order)
    (hg : s.cache.get id = some v) (hc : v.committed = false) : v ∈ s.dirty order := by
  unfold dirty
  rw [List.mem_filterMap]
  exact ⟨id, ho _ (Tab.mem_keys_of_get hg), by simp [hg, hc]⟩

/-- After all dirty nodes have been written, the key-value table holds exactly what look-ups delivered before. -/
theorem wroteAll {s s' : Index V} {order : List Nat} (hi : IdsOk s) (hs : Synced s) (ho : ∀ id ∈ s.cache.keys, id ∈ order)
    (h : WroteNodes s s' (s.dirty order)) (id : Nat) : (s'.kv.get id).map core = (s.get id).map core := by
  rw [h.kv]
  cases hg : s.cache.get id with
  | none =>
    have hn : id ∉ (s.dirty order).map Vertex.id := by
      intro hm
      obtain ⟨v, hv, rfl⟩ := List.mem_map.mp hm
      have := dirty_cached hi order v hv
      unfold Cached at this
      rw [hg] at this; cases this
    rw [if_neg hn]
    unfold get
    rw [hg]
    simp only
    cases s.kv.get id <;> rfl
  | some v =>
    have hget : s.get id = some v := by unfold get; rw [hg]
    rw [hget]
    by_cases hm : id ∈ (s.dirty order).map Vertex.id
    · rw [if_pos hm]; rfl
    · rw [if_neg hm]
      cases hc : v.committed with
      | true => rw [hs id v hg hc]; rfl
      | false =>
        exfalso; apply hm
        have := mem_dirty ho hg hc
        exact List.mem_map.mpr ⟨v, this, hi.cache _ _ hg⟩

theorem WroteNodes.get {s s' : Index V} {vs : List (Vertex V)} (h : WroteNodes s s' vs) (hvs : ∀ v ∈ vs, Cached s v) (id : Nat) :
    (s'.get id).map core = (s.get id).map core := by
  have hc := h.cache id
  have hk := h.kv id
  unfold Index.get
  cases hg : s.cache.get id with
  | none =>
    rw [hg] at hc hk
    cases hg' : s'.cache.get id with
    | some w => rw [hg'] at hc; cases hc
    | none =>
      simp only
      rw [if_neg] at hk
      · rw [hk]
      · intro hm
        obtain ⟨v, hv, rfl⟩ := List.mem_map.mp hm
        have := hvs v hv
        unfold Cached at this
        rw [hg] at this; cases this
  | some v =>
    rw [hg] at hc
    cases hg' : s'.cache.get id with
    | none => rw [hg'] at hc; cases hc
    | some w => rw [hg'] at hc; exact hc

/-- what a flush writes is a prefix of the complete list of writes; all of it if there is no error -/
theorem flushUpToBad_prefix (P : Params V D) (ws : List (Write V)) :
    (flushUpToBad P ws).1 <+: ws ∧ ((flushUpToBad P ws).2 = none → (flushUpToBad P ws).1 = ws) := by
  induction ws with
  | nil => exact ⟨List.prefix_rfl, fun _ => rfl⟩
  | cons w ws ih =>
    cases w with
    | node v =>
      unfold flushUpToBad
      split
      · exact ⟨(List.prefix_cons_inj _).mpr ih.1, fun h => by simp only at h ⊢; rw [ih.2 h]⟩
      · exact ⟨List.nil_prefix, fun h => by cases h⟩
    | entry e => exact ⟨(List.prefix_cons_inj _).mpr ih.1, fun h => by simp only [flushUpToBad] at h ⊢; rw [ih.2 h]⟩
    | count e => exact ⟨(List.prefix_cons_inj _).mpr ih.1, fun h => by simp only [flushUpToBad] at h ⊢; rw [ih.2 h]⟩

/-- the state after a successful flush -/
theorem flush_ok {P : Params V D} {s s' : Index V} {order : List Nat} {n : Nat} (hi : IdsOk s) (h : flush P s order n = (s', none)) :
    ∃ s1, WroteNodes s s1 (s.dirty order) ∧ s' = { s1 with kvEntry := some s.entry, kvCount := some n } := by
  unfold flush at h
  simp only [Prod.mk.injEq] at h
  obtain ⟨h1, h2⟩ := h
  rw [(flushUpToBad_prefix P _).2 h2] at h1
  refine ⟨_, wroteNodes _ s (dirty_cached hi order), ?_⟩
  rw [← h1]
  unfold flushWrites
  rw [List.foldl_append]
  rfl

theorem wf_congr {base upper n : Nat} {g g' : Nat → Option (Vertex V)} (h : ∀ id, (g' id).map core = (g id).map core)
    (hw : WellFormed base upper g n) : WellFormed base upper g' n := by
  intro id hid
  obtain ⟨v, hv, a, b, c⟩ := hw id hid
  rcases agree_cases (h id) with ⟨_, h2⟩ | ⟨v', w, h1, h2, e1, e2, e3, _, _⟩
  · rw [h2] at hv; cases hv
  · have : w = v := by rw [h2] at hv; cases hv; rfl
    subst this
    refine ⟨v', h1, e1.trans a, by rw [e3, e2]; exact b, ?_⟩
    intro k links hk
    rw [e3] at hk
    obtain ⟨d1, d2, d3, d4⟩ := c k links hk
    refine ⟨d1, d2, d3, ?_⟩
    intro b hb
    obtain ⟨f1, x, f2, f3⟩ := d4 b hb
    refine ⟨f1, ?_⟩
    rcases agree_cases (h b) with ⟨_, g2⟩ | ⟨x', y, g1, g2, _, g3, _⟩
    · rw [g2] at f2; cases f2
    · have : y = x := by rw [g2] at f2; cases f2; rfl
      subst this
      exact ⟨x', g1, by omega⟩

end Fave.Index
