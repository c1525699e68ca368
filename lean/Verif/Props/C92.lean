import Verif.Lemmas.Opening
import Verif.Props.C54
/-!
# C92 — all requests for a collection use the same index

The property: at any time the requests that work on a collection work with the same index object, a request is not refused because another
one opens the collection at the same time, and what is added stays.

False of the code.  After a restart two requests at the same time both find the collection closed; both make an index, one is refused
(`refused_beside`), and the one that goes on can be left with an index that the others do not use (`two_in_use`).  A collection that is
created again (which is answered with success, C84) replaces the index under a running addition.  Two index objects over one table
overwrite each other's vertices: `added_vector_lost` and `added_vector_lost_by_create` are executions in which every addition is answered
with success and one of the added vectors is found by no search afterwards, though the additions do not even write at the same time.
A deletion beside a request lets it dereference nil (`panics_beside_deletion`).

What holds: if nobody begins to open the collection while somebody else does, creations and deletions are not done beside other requests
and no look-up is the first to open (C57), then all use the same index and nobody is refused (`one_index_partial`).  And whatever happened
while the collection was opened: once it is open and nobody is opening it any more, the index stays the same (`settles`).
-/
namespace Fave.C92
open Index Opening
variable {V D : Type} [Dist D]

/-- In orderly executions everybody uses the index that is in the map, nobody finds none there, and nobody who opens finds it opened by
another. -/
theorem one_index_partial (P : Params V D) {a : Bool} {store : Index V} {s : Sys V} (h : Steps P true a (start store) s) :
    (∀ t i, s.pc t = .using i ∨ (∃ n, s.pc t = .adding i n) → s.cur = some i) ∧
    (∀ t u i j, (s.pc t = .using i ∨ ∃ n, s.pc t = .adding i n) → (s.pc u = .using j ∨ ∃ n, s.pc u = .adding j n) → i = j) ∧
    (∀ t, s.pc t = .fetch → s.cur.isSome) ∧ (∀ t, s.pc t = .entered → s.dbOpen = false) := by
  have hi := inv_steps (inv_start store) h
  refine ⟨hi.same, ?_, ?_, ?_⟩
  · intro t u i j ht hu
    have a := hi.same t i ht
    have b := hi.same u j hu
    rw [a] at b
    exact Option.some.inj b
  · intro t ht
    have hu : (s.pc t).user = true := by rw [ht]; rfl
    refine hi.has (hi.users t hu) (fun v => ?_)
    cases hv : (s.pc v).admin with
    | false => rfl
    | true =>
      have := hi.admin v t hv (Pc.user_active hu)
      subst this
      rw [ht] at hv; cases hv
  · intro t ht
    exact hi.closed t (by rw [ht]; rfl)

/-- The vertices that a search or an addition reads from the table are kept in the index object as they are read: no later reading gives
anything else, and the table stays as it is. -/
theorem reading_changes_nothing (ids : List Nat) : ∀ (x : Index V), (∀ id v, x.kv.get id = some v → v.id = id) →
    (∀ id, (warm x ids).get id = x.get id) ∧ (warm x ids).kv = x.kv ∧ (warm x ids).kvEntry = x.kvEntry ∧ (warm x ids).kvCount = x.kvCount ∧
    ∀ id v, x.cache.get id = some v → (warm x ids).cache.get id = some v := by
  induction ids with
  | nil => intro x _; exact ⟨fun _ => rfl, rfl, rfl, rfl, fun _ _ h => h⟩
  | cons i ids ih =>
    intro x hx
    unfold warm
    split
    · rename_i v hc hk
      obtain ⟨h1, h2, h3, h4, h5⟩ := ih (x.put { v with committed := false }) hx
      refine ⟨fun id => ?_, h2, h3, h4, fun id u hu => h5 id u ?_⟩
      · rw [h1, get_put]
        split
        · rename_i he
          have he : id = v.id := he
          rw [he]
          unfold Index.get
          rw [show x.cache.get v.id = none by rw [hx i v hk]; exact hc, show x.kv.get v.id = some v by rw [hx i v hk]; exact hk]
          rfl
        · rfl
      · show (x.cache.put v.id _).get id = _
        rw [Tab.get_put, if_neg]
        · exact hu
        · intro he
          rw [he, hx i v hk, hc] at hu
          cases hu
    · exact ih x hx

/-- `reading_changes_nothing` with a vertex in the table that is marked as written: it is read without the mark, so that the next flush
writes what is changed in it -/
example : let x : Index (List Nat) := { Index.init with kv := [(3, ⟨3, 0, [[]], false, [7], true⟩)], kvCount := some 4 }
    (∀ id v, x.kv.get id = some v → v.id = id) ∧ x.cache.get 3 = none ∧ (warm x [3, 5]).cache.get 3 = some ⟨3, 0, [[]], false, [7], false⟩ := by
  refine ⟨fun id v h => ?_, rfl, by decide⟩
  have : id = 3 := by
    refine Classical.byContradiction fun hne => ?_
    simp [Tab.get, Ne.symm hne] at h
  subst this
  cases h; rfl

/-- The collection is open and nobody is opening it: from then on, without creations and deletions, everybody who begins uses the same index
and nobody begins to open it again. -/
theorem settles (P : Params V D) {o : Bool} {s u : Sys V} (hd : s.dbOpen = true)
    (hs : ∀ t, (s.pc t).opener = false ∧ (s.pc t).admin = false ∧ s.pc t ≠ .looking) (h : Steps P o false s u) :
    u.cur = s.cur ∧ u.dbOpen = true ∧ (∀ t, (u.pc t).opener = false) ∧
    ∀ t i v, u.pc t = .fetch → Step P o false u v → v.pc t = .using i → s.cur = some i := by
  obtain ⟨⟨h1, h2⟩, h3⟩ := settled_steps (s := s) ⟨hd, hs⟩ h
  refine ⟨h3, h1, fun t => (h2 t).1, ?_⟩
  intro t i v hf hstep hv
  have hc := (settled_step ⟨h1, h2⟩ hstep).2
  have other : ∀ (w : Sys V) (t' : Nat) (p : Pc), v.pc = (w.at t' p).pc → w.pc = u.pc → u.pc t' ≠ .fetch → False := by
    intro w t' p e e' hne
    rw [e, at_pc] at hv
    split at hv
    · rename_i ht; subst ht; exact hne hf
    · rw [e', hf] at hv; cases hv
  cases hstep with
  | take t' j hp hcur =>
    rw [at_pc] at hv
    split at hv
    · cases hv; rw [← h3]; exact hcur
    · rw [hf] at hv; cases hv
  | takeNil t' hp hcur =>
    rw [at_pc] at hv
    split at hv
    · cases hv
    · rw [hf] at hv; cases hv
  | findOpen t' hp => exact (other u t' _ rfl rfl (by simp [hp])).elim
  | findClosed t' hp => exact (other u t' _ rfl rfl (by simp [hp])).elim
  | new t' hp => exact (other u t' (.holds u.made) rfl rfl (by simp [hp])).elim
  | newFails t' hp => exact (other u t' _ rfl rfl (by simp [hp])).elim
  | enter t' i hp => exact (other u t' .entered rfl rfl (by simp [hp])).elim
  | «open» t' hp => exact (other u t' .fetch rfl rfl (by simp [hp])).elim
  | openRefused t' hp => exact (other u t' _ rfl rfl (by simp [hp])).elim
  | openFails t' hp => exact (other u t' _ rfl rfl (by simp [hp])).elim
  | search t' j ids hp => exact (other u t' (.ended true) rfl rfl (by simp [hp])).elim
  | count t' j hp => exact (other u t' _ rfl rfl (by simp [hp])).elim
  | add t' j n vo sched q level ids x hp => exact (other u t' (.adding j (n + 1)) rfl rfl (by simp [hp])).elim
  | addFails t' j n vo sched q level x e hp => exact (other u t' (.adding j n) rfl rfl (by simp [hp])).elim
  | flush t' j n order x hp => exact (other u t' (.ended true) rfl rfl (by simp [hp])).elim
  | breaksOff t' j n hp => exact (other u t' _ rfl rfl (by simp [hp])).elim
  | create t' ha => cases ha
  | createNew t' hp => exact (other u t' (.created u.made) rfl rfl (by simp [hp])).elim
  | createEnds t' j hp => exact (other u t' (.ended true) rfl rfl (by simp [hp])).elim
  | delete t' ha => cases ha
  | deleteBoth t' hp => exact (other u t' .removing rfl rfl (by simp [hp])).elim
  | deleteEnds t' hp => exact (other u t' (.ended true) rfl rfl (by simp [hp])).elim
  | look t' hp => exact (other u t' _ rfl rfl (by simp [hp])).elim
  | lookClosed t' ha => cases ha
  | lookOpens t' hp => exact (other u t' (.ended true) rfl rfl (by simp [hp])).elim
  | lookRefused t' hp => exact (other u t' _ rfl rfl (by simp [hp])).elim

/-! ## Executions in which it fails -/

/-- the collection of the example: four vectors, written -/
abbrev world : Sys (List Nat) := start Ex.w4f
abbrev go := moves Ex.PW Ex.vo Ex.sched world

/-- two searches after a restart -/
def both : List (Move (List Nat)) :=
  [.find 0, .find 1, .new 0, .enter 0, .openDb 0, .take 0, .search 0 [], .new 1, .enter 1, .openDb 1]
/-- an addition, and a search that opens at the same time; then another search -/
def race : List (Move (List Nat)) :=
  [.find 0, .find 1, .new 0, .enter 0, .openDb 0, .take 0, .new 1, .enter 1, .openDb 1, .count 0, .find 2, .take 2]
/-- … the second search reads all vertices, the addition ends, another addition is made -/
def raceOn : List (Move (List Nat)) :=
  race ++ [.search 2 [0, 1, 2, 3], .add 0 [50, 0] 0 [], .flush 0, .find 3, .take 3, .count 3, .add 3 [13, 2] 0 [], .flush 3]
/-- the same with a creation of the collection, which exists, instead of the search that opens -/
def recreate : List (Move (List Nat)) :=
  [.find 0, .new 0, .enter 0, .openDb 0, .take 0, .count 0, .create 1, .createNew 1, .createEnds 1, .find 2, .take 2, .search 2 [0, 1, 2, 3],
   .add 0 [50, 0] 0 [], .flush 0, .find 3, .take 3, .count 3, .add 3 [13, 2] 0 [], .flush 3]
/-- a search beside a deletion -/
def deletion : List (Move (List Nat)) :=
  [.find 0, .new 0, .enter 0, .openDb 0, .take 0, .search 0 [], .find 1, .delete 2, .deleteBoth 2, .deleteEnds 2, .take 1]

/-- how a request was answered -/
def answer (s : Sys V) (t : Nat) : Option Bool :=
  match s.pc t with
  | .ended b => some b
  | _ => none

/-- the index a request works with -/
def works (s : Sys V) (t : Nat) : Option Nat :=
  match s.pc t with
  | .using i | .adding i _ => some i
  | _ => none

theorem go_steps {ms : List (Move (List Nat))} {f : Sys (List Nat) → Bool} {a : Bool} (h : (go ms).any f = true)
    (ha : a = true ∨ ms.all Move.plain = true) : ∃ s, Steps Ex.PW false a world s ∧ f s = true := by
  cases hs : go ms with
  | none => rw [hs] at h; cases h
  | some s => rw [hs] at h; exact ⟨s, moves_steps hs ha, h⟩

/-- Two searches at the same time after a restart, nothing fails: one is answered with an error. -/
theorem refused_beside : ∃ s : Sys (List Nat), Steps Ex.PW false false world s ∧ answer s 0 = some true ∧ answer s 1 = some false := by
  obtain ⟨s, h, hf⟩ := go_steps (ms := both) (f := fun s => decide (answer s 0 = some true ∧ answer s 1 = some false)) (a := false)
    (by decide +kernel) (.inr (by decide))
  exact ⟨s, h, of_decide_eq_true hf⟩

/-- An addition and a search work with different index objects at the same time; the addition is with the one that nobody else will get. -/
theorem two_in_use : ∃ s : Sys (List Nat), Steps Ex.PW false false world s ∧ works s 0 = some 0 ∧ works s 2 = some 1 ∧ s.cur = some 1 ∧
    ∀ u, Steps Ex.PW false false s u → u.cur = some 1 := by
  have hf : (go race).any (fun s => decide (works s 0 = some 0 ∧ works s 2 = some 1 ∧ s.cur = some 1 ∧ s.dbOpen = true ∧ answer s 1 = some false)) = true := by
    decide +kernel
  cases hs : go race with
  | none => rw [hs] at hf; cases hf
  | some s =>
    rw [hs] at hf
    obtain ⟨h0, h2, hc, hd, h1⟩ := of_decide_eq_true hf
    refine ⟨s, moves_steps hs (.inr (by decide)), h0, h2, hc, fun u hu => ?_⟩
    rw [(settled_steps (s := s) ⟨hd, fun t => ?_⟩ hu).2, hc]
    match t with
    | 0 => unfold works at h0; cases hp : s.pc 0 <;> rw [hp] at h0 <;> simp [Pc.opener, Pc.admin] at h0 ⊢
    | 1 => unfold answer at h1; cases hp : s.pc 1 <;> rw [hp] at h1 <;> simp [Pc.opener, Pc.admin] at h1 ⊢
    | 2 => unfold works at h2; cases hp : s.pc 2 <;> rw [hp] at h2 <;> simp [Pc.opener, Pc.admin] at h2 ⊢
    | t + 3 =>
      have : s.pc (t + 3) = .idle := by
        refine moves_other hs ?_
        simp [race, Move.who]
      rw [this]; exact ⟨rfl, rfl, by simp⟩

/-- What is left of the table when the process is started again. -/
def later (s : Sys (List Nat)) : Index (List Nat) := s.store.reopen.loadEntry

/-- no search returns `x` -/
def NeverFound (x : Nat) (ix : Index (List Nat)) : Prop :=
  ∀ (sched : Graph.Scheds Nat) (q : List Nat) (max : Nat) (ef : Int) (allow : Option (Nat → Bool)) (ids : List Nat) (ds : List Nat),
    (ix.graph Ex.PW).knnMaxDist sched q max ef allow = .ok (ids, ds) → x ∉ ids

theorem never {x : Nat} {ix : Index (List Nat)} (hm : ix.maxLayer = 0) (he : ix.entry ≠ x) (hu : C54.unlinked x ix = true)
    (hk : (ix.cache.keys ++ ix.kv.keys).all (fun i => decide (i < 20)) = true) : NeverFound x ix := by
  intro sched q max ef allow ids ds hq
  have hsmall : (ix.graph Ex.PW).Small := by
    intro id v hv
    have hv : ix.get id = some v := hv
    show id < 20
    have : id ∈ ix.cache.keys ++ ix.kv.keys := by
      rw [List.mem_append]
      unfold Index.get at hv
      split at hv
      · rename_i w hw; exact .inl (C53.keys_get hw)
      · cases hkv : ix.kv.get id with
        | none => rw [hkv] at hv; cases hv
        | some w => exact .inr (C53.keys_get hkv)
    simpa using List.all_eq_true.mp hk id this
  obtain ⟨ret, hits, hret, rfl, _, _, hmem⟩ := C02.max_dist_hits_sorted_and_in_range _ _ _ _ _ _ _ _ hsmall C54.vmetric_symm hq
  obtain ⟨d, ep, hd, hep, hr⟩ := Graph.retained_ok hret
  obtain ⟨_, w, hw⟩ := Graph.retained_start hsmall C54.vmetric_symm hd hep allow
  have hml : (ix.graph Ex.PW).maxLayer = 0 := hm
  rw [hml] at hep
  cases hep
  have hne : ∀ y ∈ ret.toList, y.id ≠ x := by
    refine Search.searchLayer_closed (C := fun i => i ≠ x) ?_ ?_ (keysOk Ex.PW _ _ allow) (Graph.epsOk_one hsmall _ allow hw) hr
    · intro id v links b _ hg hl hb e
      subst e
      exact C54.unlinked_get hu hg hl hb
    · intro e h0
      simp only [List.mem_singleton] at h0
      subst h0
      exact he
  intro hmm
  obtain ⟨y, hy, hyx⟩ := List.mem_map.mp hmm
  exact hne y ((hmem y).mp hy).1 hyx

/-- the outcome of the two executions below, as far as it is computed -/
def outcome (s : Sys (List Nat)) : Bool :=
  decide (answer s 0 = some true ∧ answer s 2 = some true ∧ answer s 3 = some true ∧ (later s).maxLayer = 0 ∧ (later s).entry ≠ 4 ∧
    ((later s).get 4).map Vertex.vec = some [50, 0] ∧ s.store.kvCount = some 6 ∧
    (((later s).graph Ex.PW).knnMaxDist Ex.sched [50, 0] 100 20 none).toOption.map Prod.fst = some [2, 1, 5, 0, 3]) &&
  C54.unlinked 4 (later s) && ((later s).cache.keys ++ (later s).kv.keys).all (fun i => decide (i < 20))

theorem lost_of {s : Sys (List Nat)} (h : outcome s = true) : (later s).get 4 ≠ none ∧ NeverFound 4 (later s) := by
  unfold outcome at h
  simp only [Bool.and_eq_true, decide_eq_true_eq] at h
  obtain ⟨⟨⟨_, _, _, hm, he, hv, _, _⟩, hu⟩, hk⟩ := h
  refine ⟨fun e => ?_, never hm he hu hk⟩
  rw [e] at hv; cases hv

/-- After a restart an addition (0) and a search (1) open the collection at the same time; another search (2) reads, the addition ends, a second
addition (3) is made after it.  Both additions are answered with success; the vector of the first is stored but no search finds it after the next
restart. -/
theorem added_vector_lost : ∃ s : Sys (List Nat), Steps Ex.PW false false world s ∧ answer s 0 = some true ∧ answer s 3 = some true ∧
    ((later s).get 4).map Vertex.vec = some [50, 0] ∧ NeverFound 4 (later s) := by
  obtain ⟨s, h, hf⟩ := go_steps (ms := raceOn) (f := outcome) (a := false) (by decide +kernel) (.inr (by decide))
  have hn := (lost_of hf).2
  unfold outcome at hf
  simp only [Bool.and_eq_true, decide_eq_true_eq] at hf
  obtain ⟨⟨⟨h0, _, h3, _, _, hv, _, _⟩, _⟩, _⟩ := hf
  exact ⟨s, h, h0, h3, hv, hn⟩

/-- The same if the collection is created again while the first addition is running: every request is answered with success. -/
theorem added_vector_lost_by_create : ∃ s : Sys (List Nat), Steps Ex.PW false true world s ∧ (∀ t < 4, answer s t = some true) ∧
    ((later s).get 4).map Vertex.vec = some [50, 0] ∧ NeverFound 4 (later s) := by
  obtain ⟨s, h, hf⟩ := go_steps (ms := recreate) (f := fun s => outcome s && decide (answer s 1 = some true)) (a := true) (by decide +kernel) (.inl rfl)
  simp only [Bool.and_eq_true, decide_eq_true_eq] at hf
  obtain ⟨hf, h1⟩ := hf
  have hn := (lost_of hf).2
  unfold outcome at hf
  simp only [Bool.and_eq_true, decide_eq_true_eq] at hf
  obtain ⟨⟨⟨h0, h2, h3, _, _, hv, _, _⟩, _⟩, _⟩ := hf
  refine ⟨s, h, ?_, hv, hn⟩
  intro t ht
  match t, ht with
  | 0, _ => exact h0
  | 1, _ => exact h1
  | 2, _ => exact h2
  | 3, _ => exact h3

/-- A search has found the collection open; then it is deleted; the search finds no index and panics. -/
theorem panics_beside_deletion : ∃ s u : Sys (List Nat), Steps Ex.PW false true world s ∧ s.pc 1 = .fetch ∧ s.cur = none ∧
    Step Ex.PW false true s u ∧ answer u 1 = some false ∧ answer u 2 = some true := by
  cases hs : go (deletion.take 10) with
  | none => exact absurd hs (by decide +kernel)
  | some s =>
    have hf : (go (deletion.take 10)).any (fun s => decide (s.cur = none ∧ answer s 2 = some true) && (match s.pc 1 with | .fetch => true | _ => false)) = true := by
      decide +kernel
    rw [hs] at hf
    simp only [Option.any_some, Bool.and_eq_true, decide_eq_true_eq] at hf
    obtain ⟨⟨hc, h2⟩, h1⟩ := hf
    have hp : s.pc 1 = .fetch := by
      cases hx : s.pc 1 <;> rw [hx] at h1 <;> first | rfl | cases h1
    refine ⟨s, s.at 1 (.ended false), moves_steps hs (.inl rfl), hp, hc, .takeNil 1 hp hc, ?_, ?_⟩
    · simp [answer]
    · unfold answer at h2 ⊢
      simpa using h2

/-! The hypotheses are met: in order, an addition opens the collection, and while it is running a search uses the same index.  The state is
settled. -/
example : ∃ s : Sys (List Nat), Steps Ex.PW true true world s ∧ s.pc 0 = .adding 0 4 ∧ s.pc 1 = .using 0 ∧ s.dbOpen = true ∧
    ∀ t, (s.pc t).opener = false ∧ (s.pc t).admin = false ∧ s.pc t ≠ .looking := by
  have h1 : Steps Ex.PW true true world _ := (Steps.refl world).step (.findClosed 0 rfl rfl (fun _ _ => ⟨rfl, rfl⟩))
  have h2 := h1.step (.new 0 rfl)
  have h3 := h2.step (.enter 0 0 rfl)
  have h4 := h3.step (.open 0 rfl rfl)
  have h5 := h4.step (.take 0 0 rfl rfl)
  have h6 := h5.step (.count 0 0 rfl)
  have h7 := h6.step (.findOpen 1 rfl rfl (fun _ u => by
    by_cases e : u = 0 <;> simp [e, start, Pc.admin]))
  have h8 := h7.step (.take 1 0 rfl rfl)
  refine ⟨_, h8, ?_, rfl, rfl, fun t => ?_⟩
  · have : (Ex.w4f.kvCount).getD 0 = 4 := by decide +kernel
    show Pc.adding 0 ((Ex.w4f.kvCount).getD 0) = _
    rw [this]
  · by_cases e : t = 0 <;> by_cases e' : t = 1 <;> simp [e, e', start, Pc.opener, Pc.admin]

end Fave.C92
