import Verif.Lemmas.WeaveRun
import Verif.Lemmas.History
import Verif.Spec.ExampleIndex
/-!
# C53 — additions and flushes at the same time keep the link graph well formed
-/
namespace Fave.C53
open Index Spec Weave
variable {V D : Type} [Dist D]

/-- Any number of additions with numbers of their own and any number of flushes, started on a well-formed index, in any interleaving, with searches
that see others' changes half-way (`seen`), failures anywhere, whatever the caches of vectors deliver: at every moment

* every link list of every vertex is without repetition, does not lead back to its vertex, is within the limit and leads to existing vertices of
  that level;
* the search start exists, on the top layer;
* the vectors and levels of older vertices are as before, and a new vertex holds the vector and the level of its addition;
* the vertices of successful additions are there and not under maintenance. -/
theorem links_ok_at_every_moment (P : Params V D) (J : Nat → Job V D) (calm : Bool) (ix0 : Index V) (h0 : Start P ix0) (s : St V)
    (h : Weave.Reach P J (seen P J) calm ix0 s) :
    LinksOk P.maxConn0 P.maxConn s.ix.get ∧
    (∃ v, s.ix.get s.ix.entry = some v ∧ s.ix.maxLayer ≤ v.level) ∧
    (∀ x v0, ix0.get x = some v0 → ∃ v, s.ix.get x = some v ∧ v.vec = v0.vec ∧ v.level = v0.level) ∧
    (∀ x v, ix0.get x = none → s.ix.get x = some v → v.vec = (J x).q ∧ v.level = (J x).level) ∧
    (∀ x, s.pc x = .ended none → ix0.get x = none ∧ ∃ v, s.ix.get x = some v ∧ v.maint = false) := by
  obtain ⟨g, hi⟩ := inv_reach h0 h
  have hf := facts_reach h0 h
  refine ⟨hi.good, hi.entry.2, ?_, ?_, hf.done⟩
  · intro x v0 hv0
    obtain ⟨v, h1, h2, h3, _⟩ := hf.old x v0 hv0
    exact ⟨v, h1, h2, h3⟩
  · intro x v hx hv
    exact ⟨hf.new x v hx hv, hi.lvl x v (by rw [bs, hx]; rfl) hv⟩

/-- The same if the searches run undisturbed, with the functions of the code. -/
theorem links_ok_undisturbed (P : Params V D) (hP : P.Ok) (J : Nat → Job V D) (calm : Bool) (ix0 : Index V) (h0 : Start P ix0)
    (hsm : ∀ id v, ix0.get id = some v → id < P.visitedSize) (s : St V) (h : Weave.Reach P J (undisturbed P J) calm ix0 s) :
    LinksOk P.maxConn0 P.maxConn s.ix.get ∧ (∃ v, s.ix.get s.ix.entry = some v ∧ s.ix.maxLayer ≤ v.level) := by
  have := links_ok_at_every_moment P J calm ix0 h0 s (reach_seen h0 hP.sizes hsm h).1
  exact ⟨this.1, this.2.1⟩

/-- An addition that nobody disturbs does exactly what `connectNew`, the sequential model, does, with the same outcome. -/
theorem alone_as_before (P : Params V D) (J : Nat → Job V D) (calm : Bool) (ix0 : Index V) (s : St V)
    (h : Weave.Reach P J (undisturbed P J) calm ix0 s) (x : Nat) (hp : s.pc x = .idle) (hx : s.ix.get x = none) (hxs : x < P.cacheSize)
    (hc : calm = true → ∀ f, (s.fc f).active = false) (ix' : Index V) (r : Option Err)
    (hr : connectNew P (J x).vo (J x).sched (s.ix.put (newNode x (J x).q (J x).level)) x (J x).q (J x).level = (ix', r)) :
    ∃ t, Weave.Reach P J (undisturbed P J) calm ix0 t ∧ t.ix = ix' ∧ t.pc x = .ended r ∧ (∀ y, y ≠ x → t.pc y = s.pc y) ∧ t.fc = s.fc := by
  obtain ⟨t, h1, h2, h3, h4⟩ := solo hp hx hc hxs hr
  exact ⟨t, h1.reach h, h3, h4, h2.1, h2.2⟩

/-- The states reached by additions, flushes and restarts one after the other are such starting points, if no refused addition has left a vertex
behind and the search start is on the top layer. -/
theorem start_of_history (P : Params V D) (hP : P.Ok) (s : Index V) (vs : List V) (h : Hist P s vs) (hv : vs ≠ [])
    (hclean : ∀ id, vs.length ≤ id → s.get id = none) (htop : ∀ v, s.get s.entry = some v → s.maxLayer ≤ v.level) : Start P s := by
  have hi := hist_inv hP h
  refine ⟨hi.ids, ?_, ?_, hP.conn⟩
  · intro id v hg
    have hid : id < vs.length := by
      by_cases hlt : id < vs.length
      · exact hlt
      · rw [hclean id (by omega)] at hg; cases hg
    obtain ⟨w, hw, h1, h2, h3⟩ := hi.wf id hid
    rw [hg] at hw; cases hw
    refine ⟨h1, h2, ?_⟩
    intro k links hk
    obtain ⟨h4, h5, h6, h7⟩ := h3 k links hk
    exact ⟨h4, h5, h6, fun b hb => (h7 b hb).2⟩
  · obtain ⟨v, hg, _⟩ := hi.wf _ (hi.entry hv)
    exact ⟨v, hg, htop v hg⟩

/-! ## Non-vacuity

Two additions of level 1 run against each other on the sample index with four vectors; the second starts when the first has linked itself on layer 1
only, and finishes first; a flush runs in between. -/

/-- numbers 4 and 5, both on level 1 -/
def jobs : Nat → Job (List Nat) Nat := fun x => ⟨Ex.vecs.getD x [], 1, Ex.vo, Ex.sched⟩

theorem keys_get {α : Type} {t : Tab α} {k : Nat} {v : α} (h : t.get k = some v) : k ∈ t.keys := by
  induction t with
  | nil => cases h
  | cons e t ih =>
    obtain ⟨k', v'⟩ := e
    simp only [Tab.get] at h
    split at h
    · rename_i hk; subst hk; simp [Tab.keys]
    · have := ih h
      simp only [Tab.keys, List.map_cons, List.mem_cons] at this ⊢
      exact .inr this

/-- in an index without a store only the cache counts -/
theorem get_keys {ix : Index V} (hk : ix.kv = []) {id : Nat} (h : id ∉ ix.cache.keys) : ix.get id = none := by
  unfold Index.get
  cases hc : ix.cache.get id with
  | none => rw [hk]; rfl
  | some v => exact absurd (keys_get hc) h

theorem start4 : Start Ex.P Ex.s4 := by
  refine start_of_history Ex.P Ex.P_ok Ex.s4 _ Ex.hist4 (by decide) ?_ ?_
  · intro id hid
    have hk : Ex.s4.kv = [] := by decide +kernel
    refine get_keys hk ?_
    have : ∀ i ∈ Ex.s4.cache.keys, i < 4 := by decide +kernel
    intro hm
    have h1 := this id hm
    have h2 : (Ex.vecs.take 4).length = 4 := rfl
    omega
  · have : ((Ex.s4.get Ex.s4.entry).all (fun v => decide (Ex.s4.maxLayer ≤ v.level))) = true := by decide +kernel
    intro v hv
    rw [hv] at this
    simpa using this

/-- addition 4 up to its links on layer 1, all of a flush, all of addition 5, the rest of addition 4 -/
def turns : List Turn :=
  List.replicate 7 (.add 4) ++ List.replicate 17 (.flush 0) ++ List.replicate 14 (.add 5) ++ List.replicate 5 (.add 4)

/-- where that leads -/
def woven : Option (St (List Nat)) := run Ex.P jobs 5 turns (St.begin Ex.s4)

theorem woven_shape : woven.any (fun s => (s.pc 4).isDone && (s.pc 5).isDone &&
    decide ((List.range 6).map (fun id => (s.ix.get id).map Vertex.conns) =
      [some [[1, 3]], some [[0, 2, 5], [4, 5]], some [[1, 4]], some [[0, 5], [1, 5], []], some [[2], [1]], some [[3, 1], [3, 1]]]) &&
    decide (s.ix.kv.keys.length = 5)) = true := by decide +kernel

example : ∃ s, woven = some s ∧ Weave.Reach Ex.P jobs (seen Ex.P jobs) false Ex.s4 s ∧ s.pc 4 = .ended none ∧ s.pc 5 = .ended none ∧
    LinksOk 3 2 s.ix.get := by
  have h := woven_shape
  cases hw : woven with
  | none => rw [hw] at h; cases h
  | some s =>
    rw [hw] at h
    simp only [Option.any_some, Bool.and_eq_true] at h
    have hr : Weave.Reach Ex.P jobs (undisturbed Ex.P jobs) false Ex.s4 s := run_reach turns .refl hw
    have hs : ∀ id v, Ex.s4.get id = some v → id < Ex.P.visitedSize := by
      intro id v hv
      have h1 := (hist_inv Ex.P_ok Ex.hist4).small
      by_cases hid : id ∈ Ex.s4.cache.keys
      · have : ∀ i ∈ Ex.s4.cache.keys, i < 20 := by decide +kernel
        exact this id hid
      · rw [get_keys (by decide +kernel) hid] at hv; cases hv
    exact ⟨s, rfl, (reach_seen start4 Ex.P_ok.sizes hs hr).1, Pc.isDone_iff.mp h.1.1.1, Pc.isDone_iff.mp h.1.1.2,
      (links_ok_undisturbed Ex.P Ex.P_ok jobs false Ex.s4 start4 hs s hr).1⟩

/-- what `alone_as_before` assumes is met: on its own, addition 4 succeeds -/
example : (connectNew Ex.P Ex.vo Ex.sched (Ex.s4.put (newNode 4 [50, 0] 1)) 4 [50, 0] 1).2 = none := by decide +kernel

end Fave.C53
