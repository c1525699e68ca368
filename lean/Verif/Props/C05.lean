import Verif.Lemmas.Knn
import Verif.Spec.Example
/-!
# C05 — search always terminates
The loop of the model carries a fuel; running out of fuel would be `Err.fuel`.  The fuel of a layer search is
`#entry points + #stored vectors + 1`, so these theorems also bound the number of candidates removed.
-/
namespace Fave.C05
open Graph Search Spec Queue
variable {V D : Type} [Dist D]

/-- A layer search over any graph with finitely many stored vectors (listed in `keys`; links may be cyclic, dangling or
duplicate) ends after removing at most `eps.length + keys.length` candidates. -/
theorem layer_search_terminates (env : SEnv V D) (sched : Sched D) (eps : List (Item D)) (ef : Int) (level : Nat)
    (hkeys : ∀ id v, env.get id = some v → id ∈ env.keys) :
    searchLayer env sched eps ef level ≠ .error .fuel :=
  searchLayer_no_fuel hkeys

/-- A whole search (all layers) always terminates. -/
theorem search_terminates (g : Graph V D) (sched : Scheds D) (q : V) (max : D) (ef : Int) (allow : Option (Nat → Bool))
    (hkeys : ∀ id v, g.get id = some v → id ∈ g.keys) :
    g.knnMaxDist sched q max ef allow ≠ .error .fuel := by
  unfold knnMaxDist retained
  cases h1 : g.distNodeVec g.entry (g.norm q) with
  | none => simp
  | some d =>
    simp only
    cases h2 : descend g sched (g.norm q) g.maxLayer ⟨g.entry, d⟩ with
    | error e =>
      simp only
      intro hc; cases hc
      exact descend_no_fuel hkeys _ _ h2
    | ok ep =>
      simp only
      cases h3 : searchLayer (g.senv (g.norm q) allow) (sched 0) [ep] ef 0 with
      | error e => simp only; intro hc; cases hc; exact searchLayer_no_fuel (env := g.senv (g.norm q) allow) hkeys h3
      | ok r => simp

/-- On a well-formed graph (one link list per level, ids below the sizes of the visited list and of the vector cache) a
search whose entry point is stored and comparable with the query neither fails nor panics. -/
theorem search_succeeds (g : Graph V D) (sched : Scheds D) (q : V) (max : D) (ef : Int) (allow : Option (Nat → Bool))
    (hg : g.Ok) (hsym : ∀ a b, g.metric.dist a b = g.metric.dist b a)
    (d : D) (hd : g.distNodeVec g.entry (g.norm q) = some d) :
    ∃ ids ds, g.knnMaxDist sched q max ef allow = .ok (ids, ds) := by
  obtain ⟨r, hr⟩ := retained_total (sched := sched) (ef := ef) (allow := allow) hg hsym hd
  unfold knnMaxDist
  rw [hr]
  exact ⟨_, _, rfl⟩

/-! Each stored vector is examined at most once per layer: the list of distance computations has no duplicates. -/

/-- distance computations of one layer search, in order of expansion (the same recursion as `Search.loop`, collecting the ids
handed to the goroutines) -/
def examined (env : SEnv V D) (sched : Sched D) (ef : Int) (level : Nat) : Nat → St D → List Nat
  | 0, _ => []
  | fuel + 1, st =>
    match pop lessMin st.cands with
    | none => []
    | some (c, cands) =>
      if Dist.lt st.worst c.dist && decide ((st.results.size : Int) ≥ ef) then []
      else
        let st := { st with cands := cands }
        match env.get c.id with
        | none => examined env sched ef level fuel st
        | some v =>
          if v.level < level then examined env sched ef level fuel st
          else
            match v.conns[level]? with
            | none => []
            | some links =>
              (markNew st.visited links).2 ++
              match expand env sched ef level st links with
              | .error _ => []
              | .ok st' => examined env sched ef level fuel st'

theorem examined_nodup (env : SEnv V D) (sched : Sched D) (ef : Int) (level fuel : Nat) (st : St D) (hw : st.visited.WF) :
    (examined env sched ef level fuel st).Nodup ∧
    ∀ k ∈ examined env sched ef level fuel st, st.visited.visited k = false := by
  induction fuel generalizing st with
  | zero => simp [examined]
  | succ fuel ih =>
    unfold examined
    split
    · simp
    · rename_i c q hp
      split
      · simp
      · simp only
        have hrec := ih { st with cands := q } hw
        split
        · exact hrec
        · split
          · exact hrec
          · split
            · simp
            · rename_i links _
              obtain ⟨m1, m2, m3, m4⟩ := markNew_spec st.visited links hw
              split
              · exact ⟨by simpa using m3, fun k hk => ((m4 k).mp (by simpa using hk)).2⟩
              · rename_i st1 h1
                unfold expand at h1
                have hv := (considerAll_cands_le h1).2
                simp only at hv
                obtain ⟨i1, i2⟩ := ih st1 (by rw [hv]; exact m1)
                have i2' : ∀ k ∈ examined env sched ef level fuel st1, st.visited.visited k = false ∧ k ∉ links := by
                  intro k hk
                  have := i2 k hk
                  rw [hv, m2] at this
                  simpa using this
                refine ⟨List.nodup_append.mpr ⟨m3, i1, ?_⟩, ?_⟩
                · intro a ha b hb hab
                  subst hab
                  exact (i2' a hb).2 ((m4 a).mp ha).1
                · intro k hk
                  rcases List.mem_append.mp hk with hk | hk
                  · exact ((m4 k).mp hk).2
                  · exact (i2' k hk).1

/-- In one layer search no vector's distance is computed twice. -/
theorem layer_search_examines_each_once (env : SEnv V D) (sched : Sched D) (eps : List (Item D)) (ef : Int) (level fuel : Nat)
    (st : St D) (h : start env eps level = .ok st) :
    (examined env sched ef level fuel st).Nodup := by
  refine (examined_nodup env sched ef level fuel st ?_).1
  rw [(start_ok h).2.2]
  exact (markEntries_spec _ _).1

/-! Non-vacuity: the sample graph is cyclic with self, duplicate and dangling links. -/
theorem sample_ok : Ex.graph.Ok := by
  have key : ∀ id v, Ex.graph.get id = some v → v ∈ Ex.verts ∧ v.id = id := by
    intro id v h
    have h : Ex.verts.find? (fun v => v.id == id) = some v := h
    exact ⟨List.mem_of_find?_eq_some h, by simpa using List.find?_some h⟩
  refine ⟨?_, ?_, ?_, ?_⟩
  · intro id v h; obtain ⟨h1, rfl⟩ := key id v h; exact List.mem_map_of_mem h1
  · intro id v h; obtain ⟨h1, rfl⟩ := key id v h
    have : ∀ v ∈ Ex.verts, v.id < 8 := by decide
    exact this v h1
  · intro id v h; obtain ⟨h1, rfl⟩ := key id v h
    have : ∀ v ∈ Ex.verts, v.id < 25000 := by decide
    exact this v h1
  · intro id v h l hl; obtain ⟨h1, rfl⟩ := key id v h
    have : ∀ v ∈ Ex.verts, v.conns.length = v.level + 1 := by decide
    have := this v h1
    exact ⟨v.conns[l], by simp⟩

example : Ex.graph.distNodeVec Ex.graph.entry (Ex.graph.norm 11) = some 1 := by decide

end Fave.C05
