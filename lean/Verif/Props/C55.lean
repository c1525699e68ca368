import Verif.Lemmas.WeaveCalm
import Verif.Props.C11
import Verif.Props.C54
/-!
# C55 — a flush stores what is in memory

False of the code if a flush runs while a vector is being added: the flush stores the half-built vertex and then marks it as committed
(insert.go:129-138); the addition sets its links and takes it out of maintenance without removing that mark (`setConnectionsAtLevel`, vertex.go:59-80,
`unmarkAsMaintenance`, vertex.go:35-39), so every later flush skips it.  `flush_stores_all_partial` proves the property if no flush runs while a
vector is being added.
-/
namespace Fave.C55
open Index Spec Weave C54
variable {V D : Type} [Dist D]

/-! ## The negation -/

/-- an addition of 2, on level 2 -/
def jobs2 : Nat → Job (List Nat) Nat := fun x => ⟨pts.getD x [], 2, fun _ _ _ id => pts[id]?, Ex.sched⟩
/-- addition 2 until its vertex is in the cache; all of flush 0; the rest of addition 2; then all of flush 1 -/
def turns2 : List Turn := List.replicate 2 (.add 2) ++ List.replicate 11 (.flush 0) ++ List.replicate 11 (.add 2) ++ List.replicate 9 (.flush 1)
def woven2 : Option (St (List Nat)) := run Ex.PW jobs2 3 turns2 (St.begin s2)
/-- the index after a restart -/
def again (s : Index (List Nat)) : Index (List Nat) := s.reopen.loadEntry

def isEnded {V : Type} : Fc V → Bool
  | .ended => true
  | _ => false

theorem isEnded_iff {p : Fc (List Nat)} : isEnded p = true ↔ p = .ended := by cases p <;> simp [isEnded]

theorem woven2_shape : woven2.any (fun s => (s.pc 2).isDone && isEnded (s.fc 0) && isEnded (s.fc 1) &&
    decide ((List.range 3).map (fun id => (s.ix.get id).map (fun v => (v.conns, v.maint))) =
      [some ([[1, 2]], false), some ([[0, 2], [2]], false), some ([[0, 1], [1], []], false)]) &&
    decide ((List.range 3).map (fun id => ((again s.ix).get id).map (fun v => (v.conns, v.maint))) =
      [some ([[1, 2]], false), some ([[0, 2], [2]], false), some ([[], [], []], true)]) &&
    decide ((((s.ix.graph Ex.PW).knnMaxDist Ex.sched [10, 0] 100 20 none).toOption.map Prod.fst) = some [0, 1, 2]) &&
    decide ((again s.ix).maxLayer = 0 ∧ (again s.ix).entry = 2) &&
    ((again s.ix).cache.keys ++ (again s.ix).kv.keys).all (fun i => decide (i < 20))) = true := by decide +kernel

/-- Two vectors are in the collection, a third one is added on level 2 while a flush runs; then, with nothing else under way, a second flush runs
from beginning to end.  The addition succeeds and a search finds all three vectors.  But after a restart

* vertex 2, which is where searches start, has lost all its links and is under maintenance, so that
* no search whatsoever — any query, width, distance limit, filter and schedule — returns any vector but 2. -/
theorem flush_stores_half_built_vertex :
    ∃ s : St (List Nat), Start Ex.PW s2 ∧ Weave.Reach Ex.PW jobs2 (undisturbed Ex.PW jobs2) false s2 s ∧
      s.pc 2 = .ended none ∧ s.fc 0 = .ended ∧ s.fc 1 = .ended ∧
      (∃ v, s.ix.get 2 = some v ∧ v.conns = [[0, 1], [1], []] ∧ v.maint = false) ∧
      (∃ v, (again s.ix).get 2 = some v ∧ v.conns = [[], [], []] ∧ v.maint = true) ∧
      (∃ ds, (s.ix.graph Ex.PW).knnMaxDist Ex.sched [10, 0] 100 20 none = .ok ([0, 1, 2], ds)) ∧
      ∀ (sched : Graph.Scheds Nat) (q : List Nat) (max : Nat) (ef : Int) (allow : Option (Nat → Bool)) (ids : List Nat) (ds : List Nat),
        ((again s.ix).graph Ex.PW).knnMaxDist sched q max ef allow = .ok (ids, ds) → ∀ i ∈ ids, i = 2 := by
  have h := woven2_shape
  cases hw : woven2 with
  | none => rw [hw] at h; cases h
  | some s =>
    rw [hw] at h
    simp only [Option.any_some, Bool.and_eq_true, decide_eq_true_eq] at h
    obtain ⟨⟨⟨⟨⟨⟨⟨h1, h2⟩, h3⟩, h4⟩, h5⟩, h6⟩, hm, he⟩, h7⟩ := h
    have h4' := congrArg (fun l => l[2]?) h4
    have h5' := congrArg (fun l => l[2]?) h5
    have h4' : some ((s.ix.get 2).map (fun v => (v.conns, v.maint))) = some (some ([[0, 1], [1], []], false)) := h4'
    have h5' : some (((again s.ix).get 2).map (fun v => (v.conns, v.maint))) = some (some ([[], [], []], true)) := h5'
    simp only [Option.some.injEq, Option.map_eq_some_iff, Prod.mk.injEq] at h4' h5'
    refine ⟨s, start2, run_reach turns2 .refl hw, Pc.isDone_iff.mp h1, isEnded_iff.mp h2, isEnded_iff.mp h3, h4', h5', ?_, ?_⟩
    · cases hr : (s.ix.graph Ex.PW).knnMaxDist Ex.sched [10, 0] 100 20 none with
      | error e => rw [hr] at h6; cases h6
      | ok r =>
        rw [hr] at h6
        obtain ⟨ids, ds⟩ := r
        have h6 : some ids = some [0, 1, 2] := h6
        cases h6
        exact ⟨ds, rfl⟩
    · intro sched q max ef allow ids ds hk
      have hsmall : ((again s.ix).graph Ex.PW).Small := by
        intro id v hv
        exact get_below h7 hv
      obtain ⟨ret, hits, hret, rfl, _, _, hmem⟩ := C02.max_dist_hits_sorted_and_in_range _ _ _ _ _ _ _ _ hsmall vmetric_symm hk
      obtain ⟨d, ep, hd, hep, hr⟩ := Graph.retained_ok hret
      obtain ⟨_, w, hw⟩ := Graph.retained_start hsmall vmetric_symm hd hep allow
      have hml : ((again s.ix).graph Ex.PW).maxLayer = 0 := hm
      rw [hml] at hep
      cases hep
      have hne : ∀ x ∈ ret.toList, x.id = 2 := by
        refine Search.searchLayer_closed (C := fun i => i = 2) ?_ ?_ (keysOk Ex.PW _ _ allow) (Graph.epsOk_one hsmall _ allow hw) hr
        · intro id v links b hid hg hl hb
          have hid : id = 2 := hid
          subst hid
          obtain ⟨v', hv', hc, _⟩ := h5'
          have hg : (again s.ix).get 2 = some v := hg
          rw [hv'] at hg; cases hg
          rw [hc] at hl
          cases hl
          cases hb
        · intro e h0
          simp only [List.mem_singleton] at h0
          subst h0
          exact he
      intro i hi
      obtain ⟨x, hx, rfl⟩ := List.mem_map.mp hi
      exact hne x ((hmem x).mp hx).1

/-- After the restart searches do succeed, with vector 2 only. -/
example : woven2.any (fun s => decide ((((again s.ix).graph Ex.PW).knnMaxDist Ex.sched [10, 0] 100 20 none).toOption.map Prod.fst = some [2])) = true := by
  decide +kernel

/-! ## Flushes and additions one after the other -/

/-- Any number of additions at the same time, and any number of flushes at the same time, but not additions and flushes: at every moment a vertex
marked as committed is in the store as it is in memory.

Missing from the full statement: flushes while vectors are being added; then it is false (`flush_stores_half_built_vertex`). -/
theorem committed_is_stored_partial (P : Params V D) (J : Nat → Job V D) (ix0 : Index V) (h0 : Start P ix0)
    (hs : ∀ id v, ix0.cache.get id = some v → v.committed = true → ix0.kv.get id = some { v with committed := false })
    (s : St V) (h : Weave.Reach P J (seen P J) true ix0 s) (id : Nat) (v : Vertex V) (hv : s.ix.cache.get id = some v) (hc : v.committed = true) :
    s.ix.kv.get id = some { v with committed := false } :=
  (calm_reach h0 hs h).synced id v hv hc

/-- Under the same conditions, when a flush has gone through its keys and stores the search start and the count `n`, a fresh process finds under every
number what is in memory, and starts its searches at the same vertex.

Missing from the full statement: flushes while vectors are being added; then it is false (`flush_stores_half_built_vertex`). -/
theorem flush_stores_all_partial (P : Params V D) (J : Nat → Job V D) (ix0 : Index V) (h0 : Start P ix0)
    (hs : ∀ id v, ix0.cache.get id = some v → v.committed = true → ix0.kv.get id = some { v with committed := false })
    (s s' : St V) (h : Weave.Reach P J (seen P J) true ix0 s) (f n : Nat) (hf : s.fc f = .keys [])
    (hs' : s' = s.fat f { s.ix with kvEntry := some s.ix.entry, kvCount := some n } .ended) :
    Weave.Reach P J (seen P J) true ix0 s' ∧ (∀ id, SameNode (s'.ix.reopen.loadEntry.get id) (s'.ix.get id)) ∧
    s'.ix.reopen.loadEntry.entry = s'.ix.entry ∧ s'.ix.reopen.loadEntry.docCount = some n := by
  subst hs'
  have hc := calm_reach h0 hs h
  refine ⟨h.step (.flushEnd f n hf), ?_, rfl, rfl⟩
  intro id
  refine C11.sameNode_of_core ?_
  show ((s.ix.kv.get id).map Search.core).map Search.core = (s.ix.get id).map Search.core
  rw [map_core_core]
  unfold Index.get
  cases hg : s.ix.cache.get id with
  | none => cases s.ix.kv.get id <;> rfl
  | some v =>
    have h1 := hc.fc f
    rw [hf] at h1
    rcases h1 id v hg with h2 | h2
    · cases h2
    · rw [hc.synced id v hg h2]; rfl

/-! Non-vacuity: 2 and 3 are added at the same time, then two flushes run at the same time. -/

def adds3 : List Nat := List.replicate 5 2 ++ List.replicate 5 3 ++ [2, 3, 2, 3, 2, 3, 2, 3, 2, 2, 2, 2, 2]
def flushes3 : List Nat := [0, 0, 1, 1, 0, 1, 1, 0] ++ List.replicate 9 0
/-- the additions have ended -/
def added3 : Option (St (List Nat)) := run Ex.PW jobs1 4 (adds3.map .add) (St.begin s2)
/-- one flush has gone through its keys, the other has not -/
def woven3 : Option (St (List Nat)) := added3.bind (run Ex.PW jobs1 4 (flushes3.map .flush))

def atEnd {V : Type} : Fc V → Bool
  | .keys [] => true
  | _ => false

theorem atEnd_iff {p : Fc (List Nat)} (h : atEnd p = true) : p = .keys [] := by
  unfold atEnd at h
  split at h
  · rfl
  · cases h

theorem added3_shape : added3.any (fun s => (s.pc 2).isDone && (s.pc 3).isDone) = true := by decide +kernel

theorem woven3_shape : woven3.any (fun s => atEnd (s.fc 0) && (s.fc 1).active &&
    decide ((List.range 4).map (fun id => (s.ix.kv.get id).map Vertex.conns) =
      [some [[1, 3, 2]], some [[0, 3, 2], [2]], some [[0, 1, 3], [1]], some [[0, 1, 2]]])) = true := by decide +kernel

theorem s2_synced : ∀ id v, s2.cache.get id = some v → v.committed = true → s2.kv.get id = some { v with committed := false } :=
  (any_inv (hist_any hist2)).2

example : ∃ s, woven3 = some s ∧ Weave.Reach Ex.PW jobs1 (seen Ex.PW jobs1) true s2 s ∧ s.fc 0 = .keys [] ∧ (s.fc 1).active = true ∧
    s.pc 2 = .ended none ∧ s.pc 3 = .ended none := by
  have h := woven3_shape
  have ha := added3_shape
  unfold woven3 at h ⊢
  cases ht : added3 with
  | none => rw [ht] at ha; cases ha
  | some t =>
    rw [ht] at h ha
    simp only [Option.any_some, Bool.and_eq_true] at ha
    have ha2 := Pc.isDone_iff.mp ha.1
    have ha3 := Pc.isDone_iff.mp ha.2
    simp only [Option.bind_some] at h ⊢
    cases hw : run Ex.PW jobs1 4 (flushes3.map .flush) t with
    | none => rw [hw] at h; cases h
    | some s =>
      rw [hw] at h
      simp only [Option.any_some, Bool.and_eq_true] at h
      obtain ⟨hr, _⟩ := run_adds (ix0 := s2) adds3 (fun _ => rfl) .refl ht
      have hx : ∀ x, (t.pc x).active = false := by
        intro x
        by_cases hx2 : x = 2
        · rw [hx2, ha2]; rfl
        · by_cases hx3 : x = 3
          · rw [hx3, ha3]; rfl
          · rw [run_pc (y := x) _ ht (by
              intro u hu
              obtain ⟨y, hy, rfl⟩ := List.mem_map.mp hu
              have : y = 2 ∨ y = 3 := by
                have key : ∀ y ∈ adds3, y = 2 ∨ y = 3 := by decide
                exact key y hy
              show x ≠ y
              rcases this with rfl | rfl <;> assumption)]
            rfl
      obtain ⟨hr', hpc⟩ := run_flushes flushes3 hx hr hw
      have hvis : ∀ id v, s2.get id = some v → id < Ex.PW.visitedSize := fun id v hv => Nat.lt_of_lt_of_le (s2_below hv) (by decide)
      exact ⟨s, rfl, (reach_seen start2 (by decide) hvis hr').1, atEnd_iff h.1.1, h.1.2, by rw [hpc]; exact ha2, by rw [hpc]; exact ha3⟩

end Fave.C55
