import Verif.Lemmas.WeaveJoin
import Verif.Lemmas.WeaveRun
import Verif.Props.C53
/-!
# C54 — vectors added at the same time can all be found

The property is false of the code: an addition publishes its vertex before it has links on the base layer, another addition can enter the base layer
there and link itself to that vertex only, and the first addition then overwrites that link (`setConnectionsAtLevel`, neighbor_connections.go:111).
This needs two additions of level 1 or more at the same time; `all_found_partial` proves the property if there is at most one such addition and no
link list of the base layer is full.
-/
namespace Fave.C54
open Index Spec Weave
variable {V D : Type} [Dist D]

/-! ## The negation -/

/-- four points; 2 and 3 are close to each other -/
def pts : List (List Nat) := [[10, 0], [12, 0], [30, 1], [31, 1]]
/-- additions of 2 and 3, both on level 1 -/
def jobs : Nat → Job (List Nat) Nat := fun x => ⟨pts.getD x [], 1, fun _ _ _ id => pts[id]?, Ex.sched⟩
/-- 0 on level 0 and 1 on level 1, added before -/
def s2 : Index (List Nat) := (Ex.addsW Ex.PW init [(0, 0), (1, 1)]).1
/-- addition 2 up to its links on layer 1; all of addition 3; the rest of addition 2 -/
def turns : List Turn := List.replicate 7 (.add 2) ++ List.replicate 13 (.add 3) ++ List.replicate 6 (.add 2)
def woven : Option (St (List Nat)) := run Ex.PW jobs 4 turns (St.begin s2)
/-- the index after a flush and a restart -/
def later (s : Index (List Nat)) : Index (List Nat) := (flush Ex.PW s s.cache.keys 4).1.reopen.loadEntry

theorem hist2 : Hist Ex.PW s2 (Ex.vecs.take 2) :=
  Ex.hist_addsW Ex.PW init [] .init [0, 1] (by decide) s2 (by decide +kernel)

theorem start2 : Start Ex.PW s2 := by
  refine C53.start_of_history Ex.PW Ex.PW_ok s2 _ hist2 (by decide) ?_ ?_
  · intro id hid
    have hk : s2.kv = [] := by decide +kernel
    refine C53.get_keys hk ?_
    have : ∀ i ∈ s2.cache.keys, i < 2 := by decide +kernel
    intro hm
    have h1 := this id hm
    have h2 : (Ex.vecs.take 2).length = 2 := rfl
    omega
  · have : ((s2.get s2.entry).all (fun v => decide (s2.maxLayer ≤ v.level))) = true := by decide +kernel
    intro v hv
    rw [hv] at this
    simpa using this

/-- no vertex in the cache or in the store has a link to `x` on the base layer -/
def unlinked (x : Nat) (ix : Index (List Nat)) : Bool :=
  ix.cache.all (fun e => decide (x ∉ e.2.conns.getD 0 [])) && ix.kv.all (fun e => decide (x ∉ e.2.conns.getD 0 []))

theorem tab_mem {α : Type} {t : Tab α} {k : Nat} {v : α} (h : t.get k = some v) : (k, v) ∈ t := by
  induction t with
  | nil => cases h
  | cons e t ih =>
    obtain ⟨k', v'⟩ := e
    simp only [Tab.get] at h
    split at h
    · rename_i hk; subst hk; cases h; simp
    · exact List.mem_cons_of_mem _ (ih h)

theorem unlinked_get {x : Nat} {ix : Index (List Nat)} (h : unlinked x ix = true) {id : Nat} {v : Vertex (List Nat)} {links : List Nat}
    (hv : ix.get id = some v) (hl : v.conns[0]? = some links) : x ∉ links := by
  unfold unlinked at h
  rw [Bool.and_eq_true] at h
  have key : ∀ w : Vertex (List Nat), w.conns = v.conns → x ∉ w.conns.getD 0 [] → x ∉ links := by
    intro w he hx
    rw [he, List.getD_eq_getElem?_getD, hl] at hx
    exact hx
  unfold Index.get at hv
  split at hv
  · rename_i w hw
    cases hv
    have := List.all_eq_true.mp h.1 _ (tab_mem hw)
    exact key v rfl (by simpa using this)
  · cases hk : ix.kv.get id with
    | none => rw [hk] at hv; cases hv
    | some w =>
      rw [hk] at hv; cases hv
      have := List.all_eq_true.mp h.2 _ (tab_mem hk)
      exact key w rfl (by simpa using this)

theorem woven_shape : woven.any (fun s => (s.pc 2).isDone && (s.pc 3).isDone &&
    decide ((List.range 4).map (fun id => (s.ix.get id).map Vertex.conns) =
      [some [[1, 2]], some [[0, 2], [2, 3]], some [[0, 1], [1, 3]], some [[2], [1, 2]]]) &&
    decide ((((s.ix.graph Ex.PW).knnMaxDist Ex.sched [10, 0] 100 20 none).toOption.map Prod.fst) = some [0, 1, 2]) &&
    decide ((s.ix.get 3).map Vertex.vec = some [31, 1]) &&
    decide ((flush Ex.PW s.ix s.ix.cache.keys 4).2 = none) &&
    decide (((later s.ix).get 3).map Vertex.vec = some [31, 1]) &&
    decide ((later s.ix).maxLayer = 0 ∧ (later s.ix).entry = 1 ∧ (later s.ix).tombs = []) && unlinked 3 (later s.ix) &&
    ((later s.ix).cache.keys ++ (later s.ix).kv.keys).all (fun i => decide (i < 20))) = true := by decide +kernel

theorem vmetric_symm (a b : List Nat) : Ex.PW.metric.dist a b = Ex.PW.metric.dist b a := by
  show (if a.length = b.length then _ else _) = (if b.length = a.length then _ else _)
  by_cases h : a.length = b.length
  · rw [if_pos h, if_pos h.symm, List.zipWith_comm]
    congr 3
    funext x y
    exact Nat.add_comm _ _
  · rw [if_neg h, if_neg (Ne.symm h)]

/-- Two vectors are in the collection; two more are added at the same time, with undisturbed searches and without flushes, and both additions
succeed.  Vector 3 is stored, but

* a search for the first vector with width 20 and distance limit 100 returns 0, 1 and 2 only, though 3 is in range;
* after a (successful) flush and a restart no search whatsoever — any query, width, distance limit, filter and schedule — returns it. -/
theorem added_vector_lost :
    ∃ s : St (List Nat), Start Ex.PW s2 ∧ Weave.Reach Ex.PW jobs (undisturbed Ex.PW jobs) false s2 s ∧
      s.pc 2 = .ended none ∧ s.pc 3 = .ended none ∧
      (∃ v, s.ix.get 3 = some v ∧ v.vec = [31, 1] ∧ Ex.vmetric.dist [10, 0] v.vec = some 22) ∧
      (∃ ds, (s.ix.graph Ex.PW).knnMaxDist Ex.sched [10, 0] 100 20 none = .ok ([0, 1, 2], ds)) ∧
      (flush Ex.PW s.ix s.ix.cache.keys 4).2 = none ∧ (∃ v, (later s.ix).get 3 = some v ∧ v.vec = [31, 1]) ∧
      ∀ (sched : Graph.Scheds Nat) (q : List Nat) (max : Nat) (ef : Int) (allow : Option (Nat → Bool)) (ids : List Nat) (ds : List Nat),
        ((later s.ix).graph Ex.PW).knnMaxDist sched q max ef allow = .ok (ids, ds) → 3 ∉ ids := by
  have h := woven_shape
  cases hw : woven with
  | none => rw [hw] at h; cases h
  | some s =>
    rw [hw] at h
    simp only [Option.any_some, Bool.and_eq_true, decide_eq_true_eq] at h
    obtain ⟨⟨⟨⟨⟨⟨⟨⟨⟨h1, h2⟩, _⟩, h4⟩, h5⟩, h6⟩, h7⟩, hm, he, _⟩, h8⟩, h9⟩ := h
    refine ⟨s, start2, run_reach turns .refl hw, Pc.isDone_iff.mp h1, Pc.isDone_iff.mp h2, ?_, ?_, h6, ?_, ?_⟩
    · obtain ⟨v, hv, hvv⟩ := Option.map_eq_some_iff.mp h5
      exact ⟨v, hv, hvv, by rw [hvv]; decide⟩
    · cases hr : (s.ix.graph Ex.PW).knnMaxDist Ex.sched [10, 0] 100 20 none with
      | error e => rw [hr] at h4; cases h4
      | ok r =>
        rw [hr] at h4
        obtain ⟨ids, ds⟩ := r
        have h4 : some ids = some [0, 1, 2] := h4
        cases h4
        exact ⟨ds, rfl⟩
    · exact Option.map_eq_some_iff.mp h7
    · intro sched q max ef allow ids ds hk
      have hsmall : ((later s.ix).graph Ex.PW).Small := by
        intro id v hv
        have hv : (later s.ix).get id = some v := hv
        show id < 20
        have : id ∈ (later s.ix).cache.keys ++ (later s.ix).kv.keys := by
          rw [List.mem_append]
          unfold Index.get at hv
          split at hv
          · rename_i w hw; exact .inl (C53.keys_get hw)
          · cases hkv : (later s.ix).kv.get id with
            | none => rw [hkv] at hv; cases hv
            | some w => exact .inr (C53.keys_get hkv)
        simpa using List.all_eq_true.mp h9 id this
      obtain ⟨ret, hits, hret, rfl, _, _, hmem⟩ := C02.max_dist_hits_sorted_and_in_range _ _ _ _ _ _ _ _ hsmall vmetric_symm hk
      obtain ⟨d, ep, hd, hep, hr⟩ := Graph.retained_ok hret
      obtain ⟨_, w, hw⟩ := Graph.retained_start hsmall vmetric_symm hd hep allow
      have hml : ((later s.ix).graph Ex.PW).maxLayer = 0 := hm
      rw [hml] at hep
      cases hep
      have hne : ∀ x ∈ ret.toList, x.id ≠ 3 := by
        refine Search.searchLayer_closed (C := fun i => i ≠ 3) ?_ ?_ (keysOk Ex.PW _ _ allow) (Graph.epsOk_one hsmall _ allow hw) hr
        · intro id v links b _ hg hl hb e
          subst e
          exact unlinked_get h8 hg hl hb
        · intro e h0
          simp only [List.mem_singleton] at h0
          subst h0
          show (later s.ix).entry ≠ 3
          rw [he]; decide
      intro hmm
      obtain ⟨x, hx, hx3⟩ := List.mem_map.mp hmm
      exact hne x ((hmem x).mp hx).1 hx3

/-- The lost vector is stored, and searches after the restart do succeed. -/
example : woven.any (fun s => decide ((((later s.ix).graph Ex.PW).knnMaxDist Ex.sched [31, 1] 100 20 none).toOption.map Prod.fst = some [2, 1, 0])) = true := by
  decide +kernel

/-! ## At most one addition above the base layer -/

/-- Any number of additions and flushes at the same time, started on an index whose vertices are all connected with the search start on the base
layer, both ways, and no numbers above the limit of links on the base layer.  If at most one of the additions has level 1 or more and searches find
something, then at every moment each old vertex and each vertex of a finished addition can be reached from the search start by the links of the base
layer, and the other way round.

Missing from the full statement: several additions of level 1 or more (then it is false, `added_vector_lost`) and collections in which link lists of
the base layer get full (then it is false even for one addition after the other, C10). -/
theorem all_connected_partial (P : Params V D) (J : Nat → Job V D) (calm : Bool) (ix0 : Index V) (h0 : Start P ix0)
    (one : ∀ x y, 1 ≤ (J x).level → 1 ≤ (J y).level → x = y) (ht : ix0.tombs = [])
    (hc : ∀ x v, ix0.get x = some v → Conn (Weave.Linked ix0) 0 ix0.entry x ∧ Conn (Weave.Linked ix0) 0 x ix0.entry)
    (s : St V) (h : Weave.Reach P J (eager P J) calm ix0 s) (hsm : ∀ id v, s.ix.get id = some v → id < P.maxConn0) (x : Nat)
    (hx : (∃ v, ix0.get x = some v) ∨ s.pc x = .ended none) :
    Conn (Weave.Linked s.ix) 0 s.ix.entry x ∧ Conn (Weave.Linked s.ix) 0 x s.ix.entry := by
  have hj := joined_reach one h0 ht hc h hsm
  have hx' : Hooked s.ix ix0.entry x := by
    rcases hx with ⟨v, hv⟩ | hx
    · exact hj.base x (by rw [bs, hv]; rfl)
    · have := hj.pc x
      rw [hx] at this
      exact this.2
  have he := hj.entry.2
  exact ⟨he.2.trans hx'.1, hx'.2.trans he.1⟩

/-- The same for undisturbed searches, and what it means for later searches: when every addition has ended and succeeded, a search that succeeds and
whose width is at least the number of vectors returns every vector in range. -/
theorem all_found_partial [LawfulDist D] (P : Params V D) (hP : P.Ok) (hm : 0 < P.maxConn) (hef : 0 < P.efC)
    (hsym : ∀ a b, P.metric.dist a b = P.metric.dist b a) (J : Nat → Job V D) (calm : Bool) (ix0 : Index V) (h0 : Start P ix0)
    (one : ∀ x y, 1 ≤ (J x).level → 1 ≤ (J y).level → x = y) (ht : ix0.tombs = [])
    (hc : ∀ x v, ix0.get x = some v → Conn (Weave.Linked ix0) 0 ix0.entry x ∧ Conn (Weave.Linked ix0) 0 x ix0.entry)
    (hvis : ∀ id v, ix0.get id = some v → id < P.visitedSize)
    (s : St V) (h : Weave.Reach P J (undisturbed P J) calm ix0 s) (hsm : ∀ id v, s.ix.get id = some v → id < P.maxConn0)
    (hdone : ∀ x, s.pc x = .idle ∨ s.pc x = .ended none)
    (sched : Graph.Scheds D) (q : V) (max : D) (ef : Nat) (hd : ∀ id v, s.ix.get id = some v → ∃ d, P.metric.dist (P.norm q) v.vec = some d)
    (all : List Nat) (hall : ∀ id, id ∈ all ↔ ∃ v, s.ix.get id = some v) (hw : all.length ≤ ef)
    (ids : List Nat) (ds : List D) (hk : (s.ix.graph P).knnMaxDist sched q max ef none = .ok (ids, ds))
    (x : Nat) (v : Vertex V) (d : D) (hx : s.ix.get x = some v) (hdx : P.metric.dist (P.norm q) v.vec = some d)
    (hpos : Dist.lt d Dist.zero = false) (hmax : Dist.lt max d = false) : x ∈ ids := by
  obtain ⟨he, htb⟩ := reach_eager h0 hm hef hsym ht hP.sizes hvis h
  obtain ⟨hs, hv⟩ := reach_seen h0 hP.sizes hvis h
  obtain ⟨g, hi⟩ := inv_reach h0 hs
  have hj := joined_reach one h0 ht hc he hsm
  refine found_all (r := ix0.entry) ?_ hi.good htb hv hsym sched q max ef hd all hall hw ids ds hk x v d hx hdx hpos hmax
  intro y w hy
  cases hb : bs ix0 y with
  | true => exact hj.base y hb
  | false =>
    rcases hdone y with h1 | h1
    · have h2 := hi.pc y
      rw [h1] at h2
      rw [h2.2 hb] at hy; cases hy
    · have := hj.pc y
      rw [h1] at this
      exact this.2

/-! Non-vacuity: the same two vectors are added at the same time, but 3 on level 0. -/

def jobs1 : Nat → Job (List Nat) Nat := fun x => ⟨pts.getD x [], if x = 2 then 1 else 0, fun _ _ _ id => pts[id]?, Ex.sched⟩
/-- both until they have chosen their links; a flush; then in turns -/
def turns1 : List Turn := List.replicate 5 (.add 2) ++ List.replicate 5 (.add 3) ++ List.replicate 8 (.flush 0) ++
  [.add 2, .add 3, .add 2, .add 3, .add 2, .add 3, .add 2, .add 3, .add 2, .add 2, .add 2, .add 2, .add 2]
def woven1 : Option (St (List Nat)) := run Ex.PW jobs1 4 turns1 (St.begin s2)

theorem woven1_shape : woven1.any (fun s => (s.pc 2).isDone && (s.pc 3).isDone &&
    decide ((List.range 4).map (fun id => (s.ix.get id).map Vertex.conns) =
      [some [[1, 3, 2]], some [[0, 3, 2], [2]], some [[0, 1, 3], [1]], some [[0, 1, 2]]]) &&
    decide ((((s.ix.graph Ex.PW).knnMaxDist Ex.sched [10, 0] 100 4 none).toOption.map Prod.fst) = some [0, 1, 2, 3]) &&
    (s.ix.cache.keys ++ s.ix.kv.keys).all (fun i => decide (i < 4))) = true := by decide +kernel

theorem get_below {ix : Index (List Nat)} {n : Nat} (h : (ix.cache.keys ++ ix.kv.keys).all (fun i => decide (i < n)) = true) {id : Nat}
    {v : Vertex (List Nat)} (hv : ix.get id = some v) : id < n := by
  have : id ∈ ix.cache.keys ++ ix.kv.keys := by
    rw [List.mem_append]
    unfold Index.get at hv
    split at hv
    · rename_i w hw; exact .inl (C53.keys_get hw)
    · cases hkv : ix.kv.get id with
      | none => rw [hkv] at hv; cases hv
      | some w => exact .inr (C53.keys_get hkv)
  simpa using List.all_eq_true.mp h id this

theorem s2_below {id : Nat} {v : Vertex (List Nat)} (hv : s2.get id = some v) : id < 2 := get_below (by decide +kernel) hv

theorem s2_connected (x : Nat) (v : Vertex (List Nat)) (hx : s2.get x = some v) :
    Conn (Weave.Linked s2) 0 s2.entry x ∧ Conn (Weave.Linked s2) 0 x s2.entry := by
  have he : s2.entry = 1 := by decide +kernel
  have hc : (List.range 2).map (fun id => (s2.get id).map Vertex.conns) = [some [[1]], some [[0], []]] := by decide +kernel
  have h2 := s2_below hx
  rw [he]
  have hl : ∀ a b, (s2.get a).map (fun v => v.conns[0]?) = some (some [b]) → Weave.Linked s2 0 a b := by
    intro a b h
    obtain ⟨w, hw, hl⟩ := Option.map_eq_some_iff.mp h
    exact ⟨w, [b], hw, hl, by simp⟩
  have h01 : Weave.Linked s2 0 0 1 := hl 0 1 (by decide +kernel)
  have h10 : Weave.Linked s2 0 1 0 := hl 1 0 (by decide +kernel)
  have : x = 0 ∨ x = 1 := by omega
  rcases this with rfl | rfl
  · exact ⟨(Conn.refl 1).step h10, (Conn.refl 0).step h01⟩
  · exact ⟨.refl 1, .refl 1⟩

example : ∃ s, woven1 = some s ∧ Weave.Reach Ex.PW jobs1 (undisturbed Ex.PW jobs1) false s2 s ∧ Weave.Reach Ex.PW jobs1 (eager Ex.PW jobs1) false s2 s ∧
    (∀ x y, 1 ≤ (jobs1 x).level → 1 ≤ (jobs1 y).level → x = y) ∧ (∀ id v, s.ix.get id = some v → id < Ex.PW.maxConn0) ∧
    (∀ x, s.pc x = .idle ∨ s.pc x = .ended none) ∧ s.pc 2 = .ended none ∧ s.pc 3 = .ended none ∧
    ((s.ix.graph Ex.PW).knnMaxDist Ex.sched [10, 0] 100 4 none).toOption.map Prod.fst = some [0, 1, 2, 3] := by
  have h := woven1_shape
  cases hw : woven1 with
  | none => rw [hw] at h; cases h
  | some s =>
    rw [hw] at h
    simp only [Option.any_some, Bool.and_eq_true] at h
    obtain ⟨⟨⟨⟨h1, h2⟩, _⟩, h4⟩, h5⟩ := h
    have hr : Weave.Reach Ex.PW jobs1 (undisturbed Ex.PW jobs1) false s2 s := run_reach turns1 .refl hw
    have hvis : ∀ id v, s2.get id = some v → id < Ex.PW.visitedSize := fun id v hv => Nat.lt_of_lt_of_le (s2_below hv) (by decide)
    refine ⟨s, rfl, hr, (reach_eager start2 (by decide) (by decide) vmetric_symm (by decide +kernel) (by decide) hvis hr).1, ?_, ?_, ?_,
      Pc.isDone_iff.mp h1, Pc.isDone_iff.mp h2, by simpa using h4⟩
    · have hl : ∀ x, 1 ≤ (jobs1 x).level → x = 2 := by
        intro x hx
        by_cases h : x = 2
        · exact h
        · simp [jobs1, h] at hx
      intro x y hx hy
      rw [hl x hx, hl y hy]
    · intro id v hv
      have := get_below h5 hv
      exact Nat.lt_of_lt_of_le this (by decide)
    · intro x
      by_cases hx2 : x = 2
      · subst hx2; exact .inr (Pc.isDone_iff.mp h1)
      · by_cases hx3 : x = 3
        · subst hx3; exact .inr (Pc.isDone_iff.mp h2)
        · left
          have := run_pc (y := x) turns1 hw (by
            intro t ht
            simp only [turns1, List.mem_append, List.mem_replicate, List.mem_cons, List.not_mem_nil, or_false] at ht
            rcases ht with ((⟨_, rfl⟩ | ⟨_, rfl⟩) | ⟨_, rfl⟩) | ht
            · exact hx2
            · exact hx3
            · trivial
            · rcases ht with rfl | rfl | rfl | rfl | rfl | rfl | rfl | rfl | rfl | rfl | rfl | rfl | rfl <;> assumption)
          exact this

end Fave.C54
