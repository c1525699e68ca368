import Verif.Lemmas.Work
import Verif.Lemmas.HistSearch
import Verif.Spec.ExampleIndex
/-!
# C89 — a search looks at no vector twice on a layer

The property: on each layer a search computes the distance of each vector at most once and expands each vertex at most once, whatever the
graph looks like and in whatever order the goroutines finish, also if it ends with an error or a panic; so the work of a search is at most
the number of stored vectors for each layer.  An expansion starts no more goroutines than a vertex may have links.
-/
namespace Fave.C89
open Search Graph Queue Index
variable {V D : Type} [Dist D]

/-- One layer, any graph: the numbers for which a distance is computed are all different and none is an entry point; the expanded vertices
are all different, and each is an entry point or was asked for. -/
theorem each_once (env : SEnv V D) (sched : Sched D) (eps : List (Item D)) (ef : Int) (level : Nat)
    (hd : (eps.map Item.id).Nodup) (hs : ∀ e ∈ eps, e.id < env.visitedSize) :
    ((layerWork env sched eps ef level).flatMap Burst.asked).Nodup ∧
    (∀ x ∈ (layerWork env sched eps ef level).flatMap Burst.asked, x ∉ eps.map Item.id) ∧
    ((layerWork env sched eps ef level).map Burst.node).Nodup ∧
    (∀ x ∈ (layerWork env sched eps ef level).map Burst.node,
      x ∈ eps.map Item.id ∨ x ∈ (layerWork env sched eps ef level).flatMap Burst.asked) :=
  layerWork_spec ⟨hd, hs⟩

/-- Nothing else is answered: every result is an entry point or its distance was computed. -/
theorem results_were_asked (env : SEnv V D) (sched : Sched D) (eps : List (Item D)) (ef : Int) (level : Nat) (r : Array (Item D))
    (h : searchLayer env sched eps ef level = .ok r) :
    ∀ x ∈ r.toList, x.id ∈ eps.map Item.id ∨ x.id ∈ (layerWork env sched eps ef level).flatMap Burst.asked := by
  unfold searchLayer at h
  unfold layerWork
  cases hs : start env eps level with
  | error e => rw [hs] at h; cases h
  | ok st =>
    rw [hs] at h
    simp only at h ⊢
    split at h
    · cases h
    · rename_i st' hl
      cases h
      intro x hx
      refine (loop_asked _ hl x hx).imp ?_ id
      intro hm
      obtain ⟨y, hy, e⟩ := List.mem_map.mp hm
      obtain ⟨_, h2, _⟩ := start_ok hs
      rw [← e]
      exact List.mem_map_of_mem (List.mem_filter.mp (h2.mem_iff.mp hy)).1

/-- An expansion starts at most as many goroutines as the vertex may have links on that layer, and only for linked numbers. -/
theorem few_at_once (env : SEnv V D) (sched : Sched D) (eps : List (Item D)) (ef : Int) (level most : Nat)
    (hl : ∀ id v links, env.get id = some v → v.conns[level]? = some links → links.length ≤ most) :
    ∀ b ∈ layerWork env sched eps ef level, b.asked.length ≤ most ∧
      ∃ v links, env.get b.node = some v ∧ v.conns[level]? = some links ∧ ∀ x ∈ b.asked, x ∈ links := by
  intro b hb
  unfold layerWork at hb
  split at hb
  · cases hb
  · obtain ⟨v, links, h1, _, h2, h3, h4⟩ := loopWork_links _ _ b hb
    exact ⟨Nat.le_trans h3 (hl _ _ _ h1 h2), v, links, h1, h2, h4⟩

theorem nodup_lt_length {l : List Nat} {n : Nat} (hd : l.Nodup) (h : ∀ x ∈ l, x < n) : l.length ≤ n := by
  have := List.Nodup.length_le_of_subset hd (show l ⊆ List.range n from fun i hi => List.mem_range.mpr (h i hi))
  rwa [List.length_range] at this

variable {P : Params V D} {s : Index V} {vs : List V}

theorem closed_hist (hi : Inv P s vs) (q : V) (allow : Option (Nat → Bool)) (level : Nat) :
    ∀ id v links b, id < vs.length → ((s.graph P).senv q allow).get id = some v → v.conns[level]? = some links → b ∈ links → b < vs.length := by
  intro id v links b hid hg hl hb
  have hg : s.get id = some v := hg
  obtain ⟨w, a1, _, _, a4⟩ := hi.wf id hid
  rw [a1] at hg; cases hg
  exact ((a4 level links hl).2.2.2 b hb).1

theorem descend_asked (hP : P.Ok) (hi : Inv P s vs) (sched : Scheds D) (q : V) (level : Nat) :
    ∀ ep : Item D, ep.id < vs.length →
      (descendAsked (s.graph P) sched q level ep).length ≤ level ∧
      (∀ l ∈ descendAsked (s.graph P) sched q level ep, l.Nodup ∧ ∀ x ∈ l, x < vs.length) ∧
      (∀ e, descend (s.graph P) sched q level ep = .ok e → e.id < vs.length) := by
  have hsz : vs.length ≤ P.visitedSize := Nat.le_trans hi.small hP.sizes
  induction level with
  | zero =>
    intro ep hep
    refine ⟨Nat.le_refl _, fun l hl => (by cases hl), ?_⟩
    intro e he; cases he; exact hep
  | succ level ih =>
    intro ep hep
    have hlist : (layerAsked ((s.graph P).senv q none) (sched (level + 1)) [ep] 1 (level + 1)).Nodup ∧
        ∀ x ∈ layerAsked ((s.graph P).senv q none) (sched (level + 1)) [ep] 1 (level + 1), x < vs.length :=
      ⟨layerAsked_nodup (Nat.lt_of_lt_of_le hep hsz), layerAsked_closed (C := fun i => i < vs.length) (closed_hist hi q none (level + 1)) hep⟩
    unfold descendAsked descend
    cases hs : searchLayer ((s.graph P).senv q none) (sched (level + 1)) [ep] 1 (level + 1) with
    | error e =>
      refine ⟨by simp, ?_, ?_⟩
      · intro l hl
        simp only [List.mem_singleton] at hl
        subst hl; exact hlist
      · intro e' he; simp only at he; cases he
    | ok res =>
      have hres : ∀ x ∈ res.toList, x.id < vs.length :=
        searchLayer_closed (C := fun i => i < vs.length) (closed_hist hi q none (level + 1)) (by simpa using hep) (keysOk P s q none)
          ⟨by simp, by intro e he; simp only [List.mem_singleton] at he; subst he; exact Nat.lt_of_lt_of_le hep hsz⟩ hs
      simp only
      cases hp : pop lessMax res with
      | none =>
        obtain ⟨a, b, c⟩ := ih ep hep
        refine ⟨by simp only [List.length_cons]; omega, ?_, c⟩
        intro l hl
        rcases List.mem_cons.mp hl with rfl | hl
        · exact hlist
        · exact b l hl
      | some y =>
        obtain ⟨best, rest⟩ := y
        have hbest : best.id < vs.length := hres best ((pop_perm lessMax hp).mem_iff.mpr (by simp))
        obtain ⟨a, b, c⟩ := ih best hbest
        refine ⟨by simp only [List.length_cons]; omega, ?_, c⟩
        intro l hl
        rcases List.mem_cons.mp hl with rfl | hl
        · exact hlist
        · exact b l hl

/-- A search in a collection of n vectors — any history of additions, flushes and restarts, any query, width, filter and order of the
goroutines, whatever the outcome: one distance for the start, then on each layer each number at most once, hence at most n distances, so
that there are at most 1 + (layers)·n in all. -/
theorem search_work (hP : P.Ok) (h : Hist P s vs) (hn : vs ≠ []) (sched : Scheds D) (q : V) (ef : Int) (allow : Option (Nat → Bool)) :
    (searchAsked (s.graph P) sched q ef allow).length ≤ s.maxLayer + 2 ∧
    (∀ l ∈ searchAsked (s.graph P) sched q ef allow, l.Nodup ∧ (∀ x ∈ l, x < vs.length) ∧ l.length ≤ vs.length) ∧
    ((searchAsked (s.graph P) sched q ef allow).map List.length).sum ≤ 1 + (s.maxLayer + 1) * vs.length := by
  have hi := hist_inv hP h
  have hent := hi.entry hn
  have hsz : vs.length ≤ P.visitedSize := Nat.le_trans hi.small hP.sizes
  have key : ∃ t, searchAsked (s.graph P) sched q ef allow = [s.entry] :: t ∧ t.length ≤ s.maxLayer + 1 ∧
      ∀ l ∈ t, l.Nodup ∧ ∀ x ∈ l, x < vs.length := by
    unfold searchAsked
    refine ⟨_, rfl, ?_⟩
    cases hd : (s.graph P).distNodeVec (s.graph P).entry q with
    | none => simp
    | some d =>
      obtain ⟨a, b, c⟩ := descend_asked hP hi sched q s.maxLayer ⟨s.entry, d⟩ hent
      simp only
      have a : (descendAsked (s.graph P) sched q (s.graph P).maxLayer ⟨(s.graph P).entry, d⟩).length ≤ s.maxLayer := a
      cases he : descend (s.graph P) sched q (s.graph P).maxLayer ⟨(s.graph P).entry, d⟩ with
      | error e =>
        simp only [List.append_nil]
        exact ⟨by omega, b⟩
      | ok ep =>
        simp only [List.length_append, List.length_singleton]
        refine ⟨by omega, ?_⟩
        intro l hl
        rcases List.mem_append.mp hl with hl | hl
        · exact b l hl
        · simp only [List.mem_singleton] at hl
          subst hl
          have hep : ep.id < vs.length := c ep he
          exact ⟨layerAsked_nodup (Nat.lt_of_lt_of_le hep hsz), layerAsked_closed (C := fun i => i < vs.length) (closed_hist hi q allow 0) hep⟩
  obtain ⟨t, ht, h1, h2⟩ := key
  rw [ht]
  have hsum : ∀ (t : List (List Nat)), (∀ l ∈ t, l.Nodup ∧ ∀ x ∈ l, x < vs.length) → (t.map List.length).sum ≤ t.length * vs.length := by
    intro t
    induction t with
    | nil => intro _; simp
    | cons l t ih =>
      intro h
      have h1 := nodup_lt_length (h l (by simp)).1 (h l (by simp)).2
      have h2 := ih (fun l' hl' => h l' (List.mem_cons_of_mem _ hl'))
      simp only [List.map_cons, List.sum_cons, List.length_cons, Nat.succ_mul]
      omega
  refine ⟨by simp only [List.length_cons]; omega, ?_, ?_⟩
  · intro l hl
    rcases List.mem_cons.mp hl with rfl | hl
    · exact ⟨by simp, by simpa using hent, by simp; omega⟩
    · exact ⟨(h2 l hl).1, (h2 l hl).2, nodup_lt_length (h2 l hl).1 (h2 l hl).2⟩
  · simp only [List.map_cons, List.sum_cons, List.length_singleton]
    have := hsum t h2
    have := Nat.mul_le_mul_right vs.length h1
    omega

/-- In a collection an expansion starts at most `maxConn0` (FaVe: 60) goroutines on the base layer and `maxConn` (30) above. -/
theorem most_at_once (hP : P.Ok) (h : Hist P s vs) (sched : Sched D) (q : V) (ep : Item D) (he : ep.id < vs.length)
    (ef : Int) (allow : Option (Nat → Bool)) (level : Nat) :
    ∀ b ∈ layerWork ((s.graph P).senv q allow) sched [ep] ef level, b.asked.length ≤ if level = 0 then P.maxConn0 else P.maxConn := by
  have hi := hist_inv hP h
  intro b hb
  unfold layerWork at hb
  split at hb
  · cases hb
  · rename_i st hs
    obtain ⟨v, links, g1, _, g2, g3, g4⟩ := loopWork_links _ _ b hb
    obtain ⟨c1, _, _⟩ := start_ok hs
    have hbn := (loopWork_closed (C := fun i => i < vs.length) (closed_hist hi q allow level) _ st (by
      intro c hc
      have := c1.mem_iff.mp hc
      simp only [List.mem_singleton] at this
      rw [this]; exact he) b hb).1
    obtain ⟨w, a1, _, _, a4⟩ := hi.wf b.node hbn
    have g1 : s.get b.node = some v := g1
    rw [a1] at g1; cases g1
    exact Nat.le_trans g3 (a4 level links g2).2.2.1

/-- "Once per layer" cannot be "once": the distance of the start is computed by the caller, again at the beginning of each layer search, and
once more on lower layers if the search comes back to it. -/
theorem start_again : ∃ (P : Params (List Nat) Nat) (s : Index (List Nat)) (vs : List (List Nat)) (sched : Scheds Nat) (q : List Nat), P.Ok ∧ Hist P s vs ∧
    ((searchAsked (s.graph P) sched q 4 none).flatten.filter (· == s.entry)).length = s.maxLayer + 2 ∧ s.maxLayer = 2 :=
  ⟨Ex.P, Ex.s4, Ex.vecs.take 4, fun _ => Sched.id, [11, 0], Ex.P_ok, Ex.hist4, by decide +kernel, by decide +kernel⟩

/-! Non-vacuity: a collection of six vectors after a restart. -/
example : Ex.P.Ok ∧ Hist Ex.P Ex.s6 Ex.vecs ∧ Ex.vecs ≠ [] ∧
    searchAsked (Ex.s6.graph Ex.P) Ex.sched [31, 0] 10 none = [[4], [4], [4, 2, 1, 0, 5, 3]] ∧
    searchAsked (Ex.s6.graph Ex.P) Ex.sched [31, 0] 1 none = [[4], [4], [4, 2, 1]] := by
  exact ⟨Ex.P_ok, Ex.hist6, by decide, by decide +kernel, by decide +kernel⟩

example : let env := (Ex.s6.graph Ex.P).senv [31, 0] none
    let eps : List (Item Nat) := [⟨0, 21⟩, ⟨4, 19⟩]
    (eps.map Item.id).Nodup ∧ (∀ e ∈ eps, e.id < env.visitedSize) ∧
    layerWork env Sched.id eps 10 0 = [⟨4, [2]⟩, ⟨2, [1]⟩, ⟨1, [5]⟩, ⟨5, [3]⟩, ⟨0, []⟩, ⟨3, []⟩] ∧
    (∃ r, searchLayer env Sched.id eps 10 0 = .ok r ∧ r.size = 6) := by
  refine ⟨by decide, by decide, by decide +kernel, ?_⟩
  have : (match searchLayer ((Ex.s6.graph Ex.P).senv [31, 0] none) Sched.id [⟨0, 21⟩, ⟨4, 19⟩] 10 0 with | .ok r => decide (r.size = 6) | .error _ => false) = true := by
    decide +kernel
  split at this
  · rename_i r hr; exact ⟨r, hr, by simpa using this⟩
  · cases this

end Fave.C89
