import Verif.Lemmas.LoadRun
import Verif.Props.C54
/-!
# C56 — changes of vertices are not lost when vertices are loaded from the store

False of the code: two threads that need a vertex that is not in the cache each read it from the store and put an object of their own into the cache
(`nodeByID`, index.go:594-623); what one has changed in its object is lost when the other puts its own object there.  A search is enough: it need not
change anything.
-/
namespace Fave.C56
open Load Spec
variable {V : Type}

/-! ## The negation -/

/-- vertices 0 and 1, stored, linked with each other -/
def kv2 : Tab (Vertex (List Nat)) :=
  [(0, { id := 0, level := 0, conns := [[1]], maint := false, vec := [10, 0], committed := false }),
   (1, { id := 1, level := 0, conns := [[0]], maint := false, vec := [12, 0], committed := false })]

/-- the vertex of a vector being added, with its link to 0 -/
def new2 : Vertex (List Nat) := { id := 2, level := 0, conns := [[0]], maint := false, vec := [9, 0], committed := false }

/-- a new link at the end of the list of the base layer — neighbor_connections.go:156-160 -/
def link2 (v : Vertex (List Nat)) : Vertex (List Nat) := { v with conns := v.conns.set 0 (v.conns.getD 0 [] ++ [2]) }

/-- thread 0: a search looks at vertex 0; threads 2 and 1: an addition publishes vertex 2 and links 0 back to it -/
def J : Nat → Use (List Nat)
  | 0 => .look 0
  | 1 => .change 0 link2
  | _ => .create new2

/-- thread 2; threads 0 and 1 miss the cache; both load; 1 puts its object into the cache and changes it; 0 puts its own there; a flush -/
def turns : List Turn :=
  [.go 2, .go 0, .go 1, .go 0, .go 1, .go 1, .go 1, .go 0, .go 0, .save 2, .save 0]
def woven : Option (St (List Nat)) := run J turns (fresh kv2)
/-- a fresh process -/
def again (s : St (List Nat)) : St (List Nat) := { s with heap := [], cache := [] }
/-- the index of that process, with 0 as the search start -/
def index (s : St (List Nat)) : Index (List Nat) := { (Index.init : Index (List Nat)) with kv := s.kv, kvEntry := some 0 }.reopen.loadEntry

def isEnded : Pc → Bool
  | .ended => true
  | _ => false

theorem isEnded_iff {p : Pc} : isEnded p = true ↔ p = .ended := by cases p <;> simp [isEnded]

theorem woven_shape : woven.any (fun s => isEnded (s.pc 0) && isEnded (s.pc 1) && isEnded (s.pc 2) &&
    decide ((s.done 0).length = 1) && decide (s.heap.length = 3 ∧ s.cache = [(2, 0), (0, 1)]) &&
    s.cache.all (fun e => (s.heap[e.2]?).all (fun v => v.committed)) &&
    decide ((List.range 3).map (fun id => ((again s).found id).map Vertex.conns) = [some [[1]], some [[0]], some [[0]]]) &&
    decide (s.kv.keys = [0, 1, 2]) && decide ((s.found 0).map Vertex.conns = some [[1]]) && decide (((index s).get 2).map Vertex.vec = some [9, 0]) && C54.unlinked 2 (index s)) = true := by decide +kernel

theorem woven_done : woven.map (fun s => s.done 0) = some [.change 0 link2] := rfl

/-- Two vectors are stored, nothing is cached.  A vector is added: its vertex 2 is published, and vertex 0 gets a link to it.  At the same time a
search looks at vertex 0.  Everything ends without error, and the flush finds everything to be stored.  But the link from 0 to 2 is lost, before
and after a restart, and with it the vector: no search whatsoever — any query, width, distance limit, filter and schedule — returns it. -/
theorem search_makes_addition_lose_link :
    ∃ s : St (List Nat), Reach J free (fresh kv2) s ∧ (∀ t, s.pc t = .idle ∨ s.pc t = .ended) ∧ s.pc 0 = .ended ∧ s.pc 1 = .ended ∧ s.pc 2 = .ended ∧
      Reach J free (fresh kv2) (again s) ∧ s.done 0 = [.change 0 link2] ∧
      (∃ v, (s.done 0).foldl effect ((fresh kv2).found 0) = some v ∧ v.conns = [[1, 2]]) ∧
      (∃ v, s.found 0 = some v ∧ v.conns = [[1]]) ∧ (∃ v, (again s).found 0 = some v ∧ v.conns = [[1]]) ∧
      (∃ v, (index s).get 2 = some v ∧ v.vec = [9, 0]) ∧ (∀ id, (index s).get id = (again s).found id) ∧
      ∀ (sched : Graph.Scheds Nat) (q : List Nat) (max : Nat) (ef : Int) (allow : Option (Nat → Bool)) (ids : List Nat) (ds : List Nat),
        ((index s).graph Ex.PW).knnMaxDist sched q max ef allow = .ok (ids, ds) → 2 ∉ ids := by
  have h := woven_shape
  have hd := woven_done
  cases hw : woven with
  | none => rw [hw] at h; cases h
  | some s =>
    rw [hw] at h hd
    have hd : s.done 0 = [.change 0 link2] := by
      have hd : some (s.done 0) = some [.change 0 link2] := hd
      exact Option.some.inj hd
    simp only [Option.any_some, Bool.and_eq_true, decide_eq_true_eq] at h
    obtain ⟨⟨⟨⟨⟨⟨⟨⟨⟨⟨h0, h1⟩, h2⟩, _⟩, hh, hc⟩, hall⟩, hf⟩, hk⟩, hf0⟩, hv2⟩, hu⟩ := h
    have hr : Reach J free (fresh kv2) s := run_reach turns .refl hw
    have h0 := isEnded_iff.mp h0
    have h1 := isEnded_iff.mp h1
    have h2 := isEnded_iff.mp h2
    have hpc : ∀ t, s.pc t = .idle ∨ s.pc t = .ended := by
      intro t
      by_cases e0 : t = 0
      · rw [e0]; exact .inr h0
      · by_cases e1 : t = 1
        · rw [e1]; exact .inr h1
        · by_cases e2 : t = 2
          · rw [e2]; exact .inr h2
          · left
            refine run_pc (u := t) turns hw ?_
            intro u hu
            simp only [turns, List.mem_cons, List.not_mem_nil, or_false] at hu
            rcases hu with rfl | rfl | rfl | rfl | rfl | rfl | rfl | rfl | rfl | rfl | rfl <;> first | assumption | trivial
    have hra : Reach J free (fresh kv2) (again s) := by
      refine hr.step (.restart trivial ?_ ?_)
      · intro t
        rcases hpc t with e | e <;> rw [e] <;> rfl
      · intro id p v hg hv
        have := List.all_eq_true.mp hall _ (C54.tab_mem hg)
        dsimp only at this
        rw [hv] at this
        exact this
    have hfa : ((again s).found 0).map Vertex.conns = some [[1]] := by
      have := congrArg (fun l => l[0]?) hf
      exact Option.some.inj this
    have hidx : ∀ id, (index s).get id = (again s).found id := fun id => rfl
    refine ⟨s, hr, hpc, h0, h1, h2, hra, hd, ?_, ?_, ?_, ?_, hidx, ?_⟩
    · rw [hd]; exact ⟨_, rfl, rfl⟩
    · exact Option.map_eq_some_iff.mp hf0
    · exact Option.map_eq_some_iff.mp hfa
    · exact Option.map_eq_some_iff.mp hv2
    · intro sched q max ef allow ids ds hkk
      have hsmall : ((index s).graph Ex.PW).Small := by
        intro id v hv
        refine C54.get_below (ix := index s) (n := 20) ?_ hv
        show (([] : List Nat) ++ s.kv.keys).all _ = true
        rw [hk]; decide
      obtain ⟨ret, hits, hret, rfl, _, _, hmem⟩ := C02.max_dist_hits_sorted_and_in_range _ _ _ _ _ _ _ _ hsmall C54.vmetric_symm hkk
      obtain ⟨d, ep, hd, hep, hr⟩ := Graph.retained_ok hret
      obtain ⟨_, w, hw⟩ := Graph.retained_start hsmall C54.vmetric_symm hd hep allow
      have hml : ((index s).graph Ex.PW).maxLayer = 0 := rfl
      rw [hml] at hep
      cases hep
      have hne : ∀ x ∈ ret.toList, x.id ≠ 2 := by
        refine Search.searchLayer_closed (C := fun i => i ≠ 2) ?_ ?_ (Index.keysOk Ex.PW _ _ allow) (Graph.epsOk_one hsmall _ allow hw) hr
        · intro id v links b _ hg hl hb e
          subst e
          exact C54.unlinked_get hu hg hl hb
        · intro e h0
          simp only [List.mem_singleton] at h0
          subst h0
          show (index s).entry ≠ 2
          show (0 : Nat) ≠ 2
          decide
      intro hmm
      obtain ⟨x, hx, hx3⟩ := List.mem_map.mp hmm
      exact hne x ((hmem x).mp hx).1 hx3

/-! ## One load of a vertex at a time -/

/-- Any number of searches, changes, publications, flushes and restarts (after everything has been stored), in any interleaving in which no two threads
are loading the same vertex at the same time, and none is while that vertex is published: at every moment a look-up of any vertex delivers what all
the changes made so far lead to.

Missing from the full statement: several threads loading the same vertex at the same time; then it is false (`search_makes_addition_lose_link`). -/
theorem changes_kept_partial (J : Nat → Use V) (s0 : St V) (h0 : Clean s0) (s : St V) (h : Reach J (single J) s0 s) (id : Nat) :
    (s.found id).map plain = (s.done id).foldl effect ((s0.found id).map plain) :=
  (Load.inv_reach h0 h).value id

/-- The same if all stored vertices are cached at the beginning, for any interleaving without restart in which vertices that do not exist are not
looked up: then no look-up ever goes to the store. -/
theorem changes_kept_cached_partial (J : Nat → Use V) (s0 : St V) (h0 : Clean s0) (hw : ∀ id, s0.kv.get id ≠ none → s0.cache.get id ≠ none) (s : St V)
    (h : Reach J present s0 s) (id : Nat) :
    (s.found id).map plain = (s.done id).foldl effect ((s0.found id).map plain) ∧ ∀ t, (s.pc t).loading = false := by
  obtain ⟨h1, h2, _⟩ := present_reach h0 hw h
  exact ⟨(Load.inv_reach h0 h1).value id, h2⟩

/-! Non-vacuity: the same threads, but 0 after 1; then a second process in which everything is cached. -/

theorem clean2 : Clean (fresh kv2) := by
  refine ⟨fun _ => rfl, fun _ => rfl, ?_, ?_, ?_⟩
  · intro id p h; cases h
  · intro a b p h; cases h
  · intro id p v h; cases h

def turnsS : List Turn := [.go 2, .go 1, .go 1, .go 1, .go 1, .save 0, .go 0, .go 0, .save 2]
def wovenS : Option (St (List Nat)) := runS J 0 turnsS (fresh kv2)

theorem wovenS_shape : wovenS.any (fun s => decide ((s.found 0).map Vertex.conns = some [[1, 2]] ∧ (s.found 2).map Vertex.vec = some [9, 0])) = true := by
  decide +kernel

theorem wovenS_done : wovenS.map (fun s => s.done 0) = some [.change 0 link2] := rfl

example : ∃ s, wovenS = some s ∧ Clean (fresh kv2) ∧ Reach J (single J) (fresh kv2) s ∧ s.done 0 = [.change 0 link2] ∧
    (s.found 0).map Vertex.conns = some [[1, 2]] ∧ (s.found 2).map Vertex.vec = some [9, 0] := by
  have h := wovenS_shape
  have hd := wovenS_done
  cases hw : wovenS with
  | none => rw [hw] at h; cases h
  | some s =>
    rw [hw] at h hd
    simp only [Option.any_some, decide_eq_true_eq] at h
    exact ⟨s, rfl, clean2, runS_reach turnsS .refl (fun _ _ => rfl) hw, Option.some.inj hd, h.1, h.2⟩

/-- 0 and 1 cached -/
def warm2 : St (List Nat) := ⟨kv2.map (fun e => e.2), [(0, 0), (1, 1)], kv2, fun _ => .idle, fun _ => []⟩

theorem warm2_get {id p : Nat} (h : warm2.cache.get id = some p) : (id = 0 ∧ p = 0) ∨ (id = 1 ∧ p = 1) := by
  have := C54.tab_mem h
  simp only [warm2, List.mem_cons, Prod.mk.injEq, List.not_mem_nil, or_false] at this
  exact this

theorem clean_warm2 : Clean warm2 := by
  refine ⟨fun _ => rfl, fun _ => rfl, ?_, ?_, ?_⟩
  · intro id p h
    rcases warm2_get h with ⟨_, rfl⟩ | ⟨_, rfl⟩ <;> exact ⟨_, rfl⟩
  · intro a b p ha hb
    rcases warm2_get ha with ⟨rfl, rfl⟩ | ⟨rfl, rfl⟩ <;> rcases warm2_get hb with ⟨rfl, h⟩ | ⟨rfl, h⟩ <;> first | rfl | cases h
  · intro id p v h hv hc
    rcases warm2_get h with ⟨rfl, rfl⟩ | ⟨rfl, rfl⟩ <;> (cases hv; cases hc)

def turnsP : List Turn := [.go 0, .go 2, .go 1, .go 1, .go 0, .save 0]
def wovenP : Option (St (List Nat)) := runP J turnsP warm2

theorem wovenP_shape : wovenP.any (fun s => decide ((s.found 0).map Vertex.conns = some [[1, 2]] ∧ (s.found 2).map Vertex.vec = some [9, 0])) = true := by
  decide +kernel

example : ∃ s, wovenP = some s ∧ Clean warm2 ∧ (∀ id, warm2.kv.get id ≠ none → warm2.cache.get id ≠ none) ∧ Reach J present warm2 s ∧
    (s.found 0).map Vertex.conns = some [[1, 2]] ∧ (s.found 2).map Vertex.vec = some [9, 0] := by
  have h := wovenP_shape
  cases hw : wovenP with
  | none => rw [hw] at h; cases h
  | some s =>
    rw [hw] at h
    simp only [Option.any_some, decide_eq_true_eq] at h
    refine ⟨s, rfl, clean_warm2, ?_, runP_reach turnsP .refl hw, h.1, h.2⟩
    intro id hid
    cases hk : warm2.kv.get id with
    | none => exact absurd hk hid
    | some v =>
      have := C54.tab_mem hk
      simp only [warm2, kv2, List.mem_cons, Prod.mk.injEq, List.not_mem_nil, or_false] at this
      rcases this with ⟨rfl, _⟩ | ⟨rfl, _⟩ <;> decide

end Fave.C56
