import Verif.Lemmas.MemRun
/-!
# The list an addition goes through
-/
namespace Fave.Mem

/-- the link limit — neighbor_connections.go:238-244; also the room a new vertex gets — insert.go:236-243 -/
def limit (M level : Nat) : Nat := if level = 0 then 2 * M else M

/-- Additions running at the same time, as far as memory is concerned: `made i` is the level of vertex `i` if an addition has made it; `done` are
the (vertex, level) pairs whose chosen links have been set.  Vertices not made by these additions may be read from storage.  An addition chooses at
most `M` links per level (neighbor_connections.go:90-92), sets each level once, from its level downwards (neighbor_connections.go:60-66), and goes
through the list while other additions connect to the same vertex. -/
inductive Adds (F : Floats) (M : Nat) : St → (Nat → Option Nat) → List (Nat × Nat) → Prop where
  | empty : Adds F M St.empty (fun _ => none) []
  | create {s s' made done} (i lev : Nat) : Adds F M s made done → s.verts i = none → run F s (.create i lev (limit M)) = some s' →
      Adds F M s' (fun j => if j = i then some lev else made j) done
  | load {s s' made done} (i lev : Nat) (ls : List (List Nat)) (spare : Nat → Nat) : Adds F M s made done → s.verts i = none →
      run F s (.load i lev ls spare) = some s' → Adds F M s' made done
  | set {s s' made done} (i l lev : Nat) (c : List Nat) : Adds F M s made done → made i = some lev → l ≤ lev → (i, l) ∉ done → c.length ≤ M →
      run F s (.set i l c) = some s' → Adds F M s' made ((i, l) :: done)
  | connect {s s' made done} (i l x : Nat) (sel : List Nat → List Nat) : Adds F M s made done → (∀ xs, (sel xs).length ≤ limit M l) →
      run F s (.connect i l x (limit M l) sel) = some s' → Adds F M s' made done
  | done {s s' made done} (w : Slice × List Nat) : Adds F M s made done → run F s (.done w) = some s' → Adds F M s' made done

/-- invariant: lists not set yet have the room they were given; lists gone through are reached by at most one link list, which is full -/
structure Walk (M : Nat) (s : St) (made : Nat → Option Nat) (done : List (Nat × Nat)) : Prop where
  dis : Disjoint s
  room : ∀ i lev, made i = some lev → ∃ v, s.verts i = some v ∧ lev ≤ v.level ∧
    ∀ l, l ≤ lev → ∃ a, v.conns[l]? = some a ∧ ((i, l) ∉ done → s.heap.cap a = limit M l)
  bound : ∀ w ∈ s.walks, w.1.arr < s.heap.next ∧ w.1.len = w.2.length
  cells : ∀ w ∈ s.walks, s.heap.cells w.1.arr = w.2
  shared : ∀ w ∈ s.walks, ∀ i v (l : Nat) a, s.verts i = some v → v.conns[l]? = some a → a.arr = w.1.arr →
    w.2 = [] ∨ (a.len = w.2.length ∧ a.len < limit M l ∧ (i, l) ∈ done)

/-- appending without growing stays in the array -/
theorem appendConn_same (F : Floats) (h : Heap) (v : Vert) (level x max : Nat) (s : Slice) (hs : v.conns[level]? = some s)
    (hlt : s.len < h.cap s) : appendConn F h v level x max =
      some (h.write s.arr s.len [x], { v with conns := v.conns.set level ⟨s.arr, s.len + 1⟩ }) := by
  unfold appendConn
  rw [hs]
  simp only
  rw [if_neg (by omega)]

theorem appendAll_same (F : Floats) (level max : Nat) : ∀ (xs : List Nat) (h : Heap) (v : Vert) (s : Slice), v.conns[level]? = some s →
    s.len + xs.length ≤ h.cap s → ∀ h' v', appendAll F level max h v xs = some (h', v') →
    ∃ s', v'.conns[level]? = some s' ∧ s'.arr = s.arr ∧ h'.cap s' = h.cap s := by
  intro xs
  induction xs with
  | nil =>
    intro h v s hs _ h' v' he
    cases he
    exact ⟨s, hs, rfl, rfl⟩
  | cons x xs ih =>
    intro h v s hs hle h' v' he
    unfold appendAll at he
    rw [List.length_cons] at hle
    rw [appendConn_same F h v level x max s hs (by omega)] at he
    simp only at he
    have hcap : (h.write s.arr s.len [x]).cap ⟨s.arr, s.len + 1⟩ = h.cap s := write_length _ _ _ _ _
    obtain ⟨s', h1, h2, h3⟩ := ih _ _ ⟨s.arr, s.len + 1⟩ (getElem?_set_self' _ _ _ _ hs) (by rw [hcap]; simp only; omega) h' v' he
    exact ⟨s', h1, h2, h3.trans hcap⟩

theorem upgraded_get (v : Vert) (level l : Nat) (a : Slice) (hl : l ≤ v.level) (ha : v.conns[l]? = some a) :
    (upgraded v level).conns[l]? = some a := by
  unfold upgraded
  split
  · simp only [upgrade]
    rw [List.getElem?_take, if_pos (by omega), List.getElem?_append_left (List.getElem?_eq_some_iff.mp ha).1]
    exact ha
  · exact ha

/-- connecting: a list with room for the limit keeps its room; a list that is full but below the limit gets a new array -/
theorem connect_room (F : Floats) (h : Heap) (v : Vert) (level x max : Nat) (sel : List Nat → List Nat)
    (hsel : ∀ xs, (sel xs).length ≤ max) (a : Slice) (ha : (upgraded v level).conns[level]? = some a) (h' : Heap) (v' : Vert)
    (he : Mem.connect F h v level x max sel = some (h', v')) :
    (h.cap a = max → ∃ a', v'.conns[level]? = some a' ∧ h'.cap a' = max) ∧
    (a.len = h.cap a → a.len < max → h'.cells a.arr = h.cells a.arr ∨ h.next ≤ a.arr) := by
  unfold Mem.connect at he
  rw [show (if v.level < level then upgrade v level else v) = upgraded v level from rfl] at he
  generalize upgraded v level = u at ha he
  simp only [ha] at he
  refine ⟨fun hcap => ?_, fun hfull hmax => ?_⟩
  · split at he
    · rename_i hlt
      rw [appendConn_same F h u level x max a ha (by omega)] at he
      simp only [Option.some.injEq, Prod.mk.injEq] at he
      obtain ⟨rfl, rfl⟩ := he
      refine ⟨⟨a.arr, a.len + 1⟩, getElem?_set_self' _ _ _ _ ha, ?_⟩
      rw [← hcap]
      exact write_length _ _ _ _ _
    · rename_i hlt
      have hr : resetConn u level = some { u with conns := u.conns.set level ⟨a.arr, 0⟩ } := by
        unfold resetConn; rw [ha]
      rw [hr] at he
      simp only at he
      have hs := hsel (h.read a)
      obtain ⟨s', h1, _, h3⟩ := appendAll_same F level max (sel (h.read a)) h { u with conns := u.conns.set level ⟨a.arr, 0⟩ } ⟨a.arr, 0⟩
        (getElem?_set_self' _ _ _ _ ha) (by show 0 + _ ≤ h.cap a; omega) h' v' he
      exact ⟨s', h1, by rw [h3]; exact hcap⟩
  · rw [if_pos hmax] at he
    unfold appendConn at he
    simp only [ha, hfull, if_true] at he
    simp only [Option.some.injEq, Prod.mk.injEq] at he
    obtain ⟨rfl, rfl⟩ := he
    by_cases hb : a.arr < h.next
    · left
      rw [write_other _ _ _ _ _ (by show a.arr ≠ h.next; omega), alloc_cells _ _ _ hb]
    · right; omega

/-- the slices after an upgrade are the old ones and empty ones -/
theorem upgraded_old (v : Vert) (level m : Nat) (b : Slice) (h : (upgraded v level).conns[m]? = some b) :
    b = ⟨0, 0⟩ ∨ v.conns[m]? = some b := by
  unfold upgraded at h
  split at h
  · simp only [upgrade] at h
    rw [List.getElem?_take] at h
    split at h
    · rw [List.getElem?_append] at h
      split at h
      · exact .inr h
      · rw [List.getElem?_replicate] at h
        split at h
        · cases h; exact .inl rfl
        · cases h
    · cases h
  · exact .inr h

theorem mkAll_get (capOf : Nat → Nat) : ∀ (n : Nat) (h : Heap), (∀ a, h.next ≤ a → h.cells a = []) → ∀ l, l ≤ n →
    ∃ a, (mkAll capOf n h).2[l]? = some a ∧ (mkAll capOf n h).1.cap a = capOf l := by
  intro n
  induction n with
  | zero =>
    intro h _ l hl
    obtain rfl : l = 0 := by omega
    refine ⟨⟨h.next, 0⟩, rfl, ?_⟩
    show ((h.alloc (List.replicate (capOf 0) 0)).1.cells (h.alloc (List.replicate (capOf 0) 0)).2).length = _
    rw [alloc_new, List.length_replicate]
  | succ n ih =>
    intro h hu l hl
    have hlen : (mkAll capOf n h).2.length = n + 1 := by
      have := congrArg List.length (mkAll_fresh capOf n h hu).reads
      simpa using this
    have hs' : (mkAll capOf (n + 1) h).2 = (mkAll capOf n h).2 ++ [⟨(mkAll capOf n h).1.next, 0⟩] := rfl
    by_cases he : l = n + 1
    · subst he
      refine ⟨⟨(mkAll capOf n h).1.next, 0⟩, ?_, ?_⟩
      · rw [hs', List.getElem?_append_right (by omega), hlen, Nat.sub_self]; rfl
      · show (((mkAll capOf n h).1.alloc (List.replicate (capOf (n + 1)) 0)).1.cells ((mkAll capOf n h).1.alloc (List.replicate (capOf (n + 1)) 0)).2).length = _
        rw [alloc_new, List.length_replicate]
    · obtain ⟨a, ha, hc⟩ := ih h hu l (by omega)
      refine ⟨a, ?_, ?_⟩
      · rw [hs', List.getElem?_append_left (by omega)]; exact ha
      · have hm := ((mkAll_fresh capOf n h hu).arr a (List.mem_of_getElem? ha)).2
        show (((mkAll capOf n h).1.alloc (List.replicate (capOf (n + 1)) 0)).1.cells a.arr).length = _
        rw [alloc_cells _ _ _ hm]; exact hc

/-- a new vertex -/
theorem Walk.fresh {M : Nat} {s : St} {made : Nat → Option Nat} {done : List (Nat × Nat)} (hw : Walk M s made done) (i level : Nat) (h' : Heap)
    (conns : List Slice) (ls : List (List Nat)) (hf : Fresh s.heap h' conns ls) (hnone : s.verts i = none) :
    Walk M (s.put i h' ⟨level, conns⟩) made done := by
  have hget : ∀ j, (s.put i h' ⟨level, conns⟩).verts j = if j = i then some ⟨level, conns⟩ else s.verts j := fun _ => rfl
  refine ⟨(hw.dis.fresh i level h' conns ls hf).1, ?_, ?_, ?_, ?_⟩
  · intro j lev hj
    obtain ⟨v, hv, hlev, hall⟩ := hw.room j lev hj
    have hne : j ≠ i := by rintro rfl; rw [hnone] at hv; cases hv
    refine ⟨v, by rw [hget, if_neg hne]; exact hv, hlev, fun l hl => ?_⟩
    obtain ⟨a, ha, hc⟩ := hall l hl
    refine ⟨a, ha, fun hn => ?_⟩
    rw [← hc hn]
    show (h'.cells a.arr).length = _
    rw [hf.same _ ((hw.dis.fits j v hv).made a (List.mem_of_getElem? ha))]; rfl
  · intro w hm
    have := hw.bound w hm
    exact ⟨Nat.lt_of_lt_of_le this.1 hf.next, this.2⟩
  · intro w hm
    show h'.cells w.1.arr = _
    rw [hf.same _ (hw.bound w hm).1]
    exact hw.cells w hm
  · intro w hm j v l a hv ha he
    rw [hget] at hv
    split at hv
    · cases hv
      have h1 := (hf.arr a (List.mem_of_getElem? ha)).1
      have h2 := (hw.bound w hm).1
      omega
    · exact hw.shared w hm j v l a hv ha he

theorem le_limit (M l : Nat) : M ≤ limit M l := by unfold limit; split <;> omega

/-- chosen links are set -/
theorem Walk.set {F : Floats} (hF : ∀ n c, F.shrink n c = true → n < c) {M : Nat} {s s' : St} {made : Nat → Option Nat} {done : List (Nat × Nat)}
    (hw : Walk M s made done) (i l lev : Nat) (c : List Nat) (hm : made i = some lev) (hl : l ≤ lev) (hd : (i, l) ∉ done) (hc : c.length ≤ M)
    (he : run F s (.set i l c) = some s') : Walk M s' made ((i, l) :: done) := by
  have hdis := (run_lists F s hw.dis (.set i l c)).2 s' he
  obtain ⟨v, hv, hlev, hall⟩ := hw.room i lev hm
  obtain ⟨old, hold, hcap⟩ := hall l hl
  have hcap := hcap hd
  have hfit := hw.dis.fits i v hv
  have hom := hfit.made old (List.mem_of_getElem? hold)
  have hcap1 : (mkList s.heap c).1.cap old = limit M l := by
    rw [← hcap]
    show ((s.heap.alloc c).1.cells old.arr).length = _
    rw [alloc_cells _ _ _ hom]; rfl
  have hnil : ∀ w ∈ s.walks, old.arr = w.1.arr → w.2 = [] := by
    intro w hwm hx
    rcases hw.shared w hwm i v l old hv hold hx with h | h
    · exact h
    · exact absurd h.2.2 hd
  unfold run at he
  simp only [hv] at he
  cases hs : setConns F (mkList s.heap c).1 v l (mkList s.heap c).2 with
  | none => rw [hs] at he; cases he
  | some r =>
    obtain ⟨h', v'⟩ := r
    have hloc := setConns_local F s.heap v l c hfit h' v' hs
    rw [hs] at he
    simp only [Option.some.injEq] at he
    subst he
    -- what is left of the definition: where the list goes, and that the array gone through holds the list
    have key : h'.cells s.heap.next = c ∧ h'.next = s.heap.next + 1 ∧ ∃ t, v'.conns = v.conns.set l t ∧ v'.level = v.level ∧
        ((t = ⟨s.heap.next, c.length⟩ ∧ c.length < limit M l ∧ ∀ a, a < s.heap.next → h'.cells a = s.heap.cells a) ∨ t = ⟨old.arr, c.length⟩) := by
      unfold setConns at hs
      rw [hold] at hs
      simp only at hs
      split at hs
      · rename_i hcond
        simp only [Option.some.injEq, Prod.mk.injEq] at hs
        obtain ⟨rfl, rfl⟩ := hs
        refine ⟨alloc_new s.heap c, rfl, _, rfl, rfl, .inl ⟨rfl, ?_, fun a ha => alloc_cells _ _ _ ha⟩⟩
        rw [hcap1, Bool.or_eq_true] at hcond
        rcases hcond with h | h
        · exact hF _ _ h
        · have h := of_decide_eq_true h
          have h1 : limit M l < c.length := h
          have := le_limit M l
          omega
      · simp only [Option.some.injEq, Prod.mk.injEq] at hs
        obtain ⟨rfl, rfl⟩ := hs
        refine ⟨?_, rfl, _, rfl, rfl, .inr rfl⟩
        rw [write_other _ _ _ _ _ (by omega)]
        exact alloc_new s.heap c
    obtain ⟨hcell, hnext, t, hset, hlev', ht⟩ := key
    have hget : ∀ j, (s.put i h' v').verts j = if j = i then some v' else s.verts j := fun _ => rfl
    have hslice : ∀ (m : Nat) b, v'.conns[m]? = some b → (m = l ∧ b = t) ∨ (m ≠ l ∧ v.conns[m]? = some b) := by
      intro m b hb
      rw [hset] at hb
      by_cases hx : m = l
      · subst hx
        rw [getElem?_set_self' _ _ _ _ hold] at hb
        cases hb; exact .inl ⟨rfl, rfl⟩
      · rw [List.getElem?_set_ne (fun e => hx e.symm)] at hb
        exact .inr ⟨hx, hb⟩
    have hlens : ∀ a, a < s.heap.next → (h'.cells a).length = (s.heap.cells a).length := hloc.lengths
    refine ⟨hdis, ?_, ?_, ?_, ?_⟩
    · intro j lv hj
      obtain ⟨x, hx, hxl, hxa⟩ := hw.room j lv hj
      by_cases hji : j = i
      · subst hji
        rw [hv] at hx; cases hx
        refine ⟨v', by show (s.put j h' v').verts j = _; rw [hget, if_pos rfl], by omega, fun m hml => ?_⟩
        obtain ⟨a, ha, hca⟩ := hxa m hml
        by_cases hmx : m = l
        · subst hmx
          exact ⟨t, by rw [hset]; exact getElem?_set_self' _ _ _ _ hold, fun hn => absurd (List.mem_cons_self ..) hn⟩
        · refine ⟨a, by rw [hset, List.getElem?_set_ne (fun e => hmx e.symm)]; exact ha, fun hn => ?_⟩
          rw [← hca (fun h => hn (List.mem_cons_of_mem _ h))]
          show (h'.cells a.arr).length = _
          rw [hlens _ (hfit.made a (List.mem_of_getElem? ha))]; rfl
      · refine ⟨x, by show (s.put i h' v').verts j = _; rw [hget, if_neg hji]; exact hx, hxl, fun m hml => ?_⟩
        obtain ⟨a, ha, hca⟩ := hxa m hml
        refine ⟨a, ha, fun hn => ?_⟩
        rw [← hca (fun h => hn (List.mem_cons_of_mem _ h))]
        show (h'.cells a.arr).length = _
        rw [hlens _ ((hw.dis.fits j x hx).made a (List.mem_of_getElem? ha))]; rfl
    · intro w hwm
      show w.1.arr < h'.next ∧ _
      rcases List.mem_cons.mp hwm with rfl | hwm
      · exact ⟨by rw [hnext]; exact Nat.lt_succ_self _, rfl⟩
      · have := hw.bound w hwm
        exact ⟨by omega, this.2⟩
    · intro w hwm
      show h'.cells w.1.arr = w.2
      rcases List.mem_cons.mp hwm with rfl | hwm
      · exact hcell
      · have hb := (hw.bound w hwm).1
        by_cases hx : old.arr = w.1.arr
        · have h0 := hnil w hwm hx
          have h1 := hw.cells w hwm
          rw [h0] at h1
          rw [h0]
          apply List.eq_nil_of_length_eq_zero
          rw [hlens _ hb, h1]; rfl
        · rw [hloc.other _ hb (by intro o ho; rw [hold] at ho; cases ho; exact hx)]
          exact hw.cells w hwm
    · intro w hwm j x m a hx ha hxa
      have hx : (s.put i h' v').verts j = some x := hx
      rw [hget] at hx
      rcases List.mem_cons.mp hwm with rfl | hwm
      · -- the list just set
        have hxa : a.arr = s.heap.next := hxa
        split at hx
        · rename_i hji
          cases hx
          rcases hslice m a ha with ⟨rfl, rfl⟩ | ⟨_, hva⟩
          · rcases ht with ⟨rfl, hlt, _⟩ | rfl
            · right; exact ⟨rfl, hlt, by rw [hji]; exact List.mem_cons_self ..⟩
            · simp only at hxa; omega
          · have := hfit.made a (List.mem_of_getElem? hva); omega
        · have := (hw.dis.fits j x hx).made a (List.mem_of_getElem? ha); omega
      · have hb := (hw.bound w hwm).1
        have lift : (w.2 = [] ∨ a.len = w.2.length ∧ a.len < limit M m ∧ (j, m) ∈ done) →
            (w.2 = [] ∨ a.len = w.2.length ∧ a.len < limit M m ∧ (j, m) ∈ (i, l) :: done) := by
          rintro (h | ⟨h1, h2, h3⟩)
          · exact .inl h
          · exact .inr ⟨h1, h2, List.mem_cons_of_mem _ h3⟩
        split at hx
        · rename_i hji
          cases hx
          rcases hslice m a ha with ⟨rfl, rfl⟩ | ⟨_, hva⟩
          · rcases ht with ⟨rfl, _, _⟩ | rfl
            · simp only at hxa; omega
            · exact .inl (hnil w hwm hxa)
          · exact lift (by rw [hji]; exact hw.shared w hwm i v m a hv hva hxa)
        · exact lift (hw.shared w hwm j x m a hx ha hxa)

/-- a list that is full but below the limit is moved when a link is added -/
theorem connect_moves (F : Floats) (h : Heap) (v : Vert) (level x max : Nat) (sel : List Nat → List Nat) (a : Slice)
    (ha : (upgraded v level).conns[level]? = some a) (h' : Heap) (v' : Vert)
    (he : Mem.connect F h v level x max sel = some (h', v')) (hfull : a.len = h.cap a) (hmax : a.len < max) :
    ∃ a', v'.conns[level]? = some a' ∧ a'.arr = h.next := by
  unfold Mem.connect at he
  rw [show (if v.level < level then upgrade v level else v) = upgraded v level from rfl] at he
  generalize upgraded v level = u at ha he
  simp only [ha] at he
  rw [if_pos hmax] at he
  unfold appendConn at he
  simp only [ha, hfull, if_true] at he
  simp only [Option.some.injEq, Prod.mk.injEq] at he
  obtain ⟨rfl, rfl⟩ := he
  exact ⟨_, getElem?_set_self' _ _ _ _ ha, rfl⟩

/-- a link is made -/
theorem Walk.connect {F : Floats} {M : Nat} {s s' : St} {made : Nat → Option Nat} {done : List (Nat × Nat)} (hw : Walk M s made done)
    (i l x : Nat) (sel : List Nat → List Nat) (hsel : ∀ xs, (sel xs).length ≤ limit M l)
    (he : run F s (.connect i l x (limit M l) sel) = some s') : Walk M s' made done := by
  have hdis := (run_lists F s hw.dis (.connect i l x (limit M l) sel)).2 s' he
  unfold run at he
  simp only at he
  cases hv : s.verts i with
  | none => rw [hv] at he; cases he
  | some v =>
    rw [hv] at he
    simp only at he
    have hu := hw.dis.headers i v (upgraded v l) hv (upgraded_sub v l)
    have hfu : Fits s.heap (upgraded v l) := hu.1.fits i (upgraded v l) (by simp [St.put])
    have hconn := connect_local F s.heap v l x (limit M l) sel hfu
    cases hs : (upgraded v l).conns[l]? with
    | none =>
      rw [hs] at hconn
      simp only at hconn
      rw [hconn] at he; cases he
    | some a =>
      rw [hs] at hconn
      simp only at hconn
      obtain ⟨h', v', hce, hloc⟩ := hconn
      rw [hce] at he
      simp only [Option.some.injEq] at he
      subst he
      have hroom := connect_room F s.heap v l x (limit M l) sel hsel a hs h' v' hce
      have hmoves := connect_moves F s.heap v l x (limit M l) sel a hs h' v' hce
      obtain ⟨o, t, ho, hset, harr, _, _, _⟩ := hloc.slice
      rw [hs] at ho; cases ho
      have hget : ∀ j, (s.put i h' v').verts j = if j = i then some v' else s.verts j := fun _ => rfl
      have ham := hfu.made a (List.mem_of_getElem? hs)
      have hlev' : v'.level = (upgraded v l).level := hloc.lev
      have hlevu : v.level ≤ (upgraded v l).level := by
        unfold upgraded; split
        · simp only [upgrade]; omega
        · exact Nat.le_refl _
      have hnilCells : ∀ b, b < s.heap.next → s.heap.cells b = [] → h'.cells b = [] := by
        intro b hb h0
        apply List.eq_nil_of_length_eq_zero
        rw [hloc.lengths b hb, h0]; rfl
      -- the list written to, against a list gone through
      have hagainst : ∀ w ∈ s.walks, a.arr = w.1.arr → w.2 = [] ∨ (a.len = s.heap.cap a ∧ a.len < limit M l) := by
        intro w hwm hx
        rcases upgraded_old v l l a hs with rfl | hva
        · left
          have := hw.cells w hwm
          rw [← hx] at this
          rw [← this]
          exact hw.dis.zero
        · rcases hw.shared w hwm i v l a hv hva hx with h | ⟨h1, h2, _⟩
          · exact .inl h
          · refine .inr ⟨?_, h2⟩
            unfold Heap.cap
            rw [hx, hw.cells w hwm]; exact h1
      have hslice : ∀ (m : Nat) b, v'.conns[m]? = some b → (m = l ∧ b = t) ∨ (m ≠ l ∧ (upgraded v l).conns[m]? = some b) := by
        intro m b hb
        rw [hset] at hb
        by_cases hx : m = l
        · subst hx
          rw [getElem?_set_self' _ _ _ _ hs] at hb
          cases hb; exact .inl ⟨rfl, rfl⟩
        · rw [List.getElem?_set_ne (fun e => hx e.symm)] at hb
          exact .inr ⟨hx, hb⟩
      refine ⟨hdis, ?_, ?_, ?_, ?_⟩
      · intro j lv hj
        obtain ⟨y, hy, hyl, hya⟩ := hw.room j lv hj
        by_cases hji : j = i
        · subst hji
          rw [hv] at hy; cases hy
          refine ⟨v', by rw [hget, if_pos rfl], by omega, fun m hml => ?_⟩
          obtain ⟨b, hb, hcb⟩ := hya m hml
          have hbu := upgraded_get v l m b (by omega) hb
          by_cases hmx : m = l
          · subst hmx
            rw [hs] at hbu; cases hbu
            refine ⟨t, by rw [hset]; exact getElem?_set_self' _ _ _ _ hs, fun hn => ?_⟩
            obtain ⟨a', ha', hca'⟩ := hroom.1 (hcb hn)
            rw [hset, getElem?_set_self' _ _ _ _ hs] at ha'
            cases ha'
            exact hca'
          · refine ⟨b, by rw [hset, List.getElem?_set_ne (fun e => hmx e.symm)]; exact hbu, fun hn => ?_⟩
            rw [← hcb hn]
            show (h'.cells b.arr).length = _
            rw [hloc.lengths _ (hfu.made b (List.mem_of_getElem? hbu))]; rfl
        · refine ⟨y, by rw [hget, if_neg hji]; exact hy, hyl, fun m hml => ?_⟩
          obtain ⟨b, hb, hcb⟩ := hya m hml
          refine ⟨b, hb, fun hn => ?_⟩
          rw [← hcb hn]
          show (h'.cells b.arr).length = _
          rw [hloc.lengths _ ((hw.dis.fits j y hy).made b (List.mem_of_getElem? hb))]; rfl
      · intro w hwm
        have := hw.bound w hwm
        exact ⟨Nat.lt_of_lt_of_le this.1 hloc.next, this.2⟩
      · intro w hwm
        show h'.cells w.1.arr = w.2
        have hb := (hw.bound w hwm).1
        by_cases hx : a.arr = w.1.arr
        · rcases hagainst w hwm hx with h0 | ⟨h1, h2⟩
          · have hc := hw.cells w hwm
            rw [h0] at hc ⊢
            exact hnilCells _ hb hc
          · rcases hroom.2 h1 h2 with h3 | h3
            · rw [← hx, h3, hx]; exact hw.cells w hwm
            · omega
        · rw [hloc.other _ hb (by intro o ho; rw [hs] at ho; cases ho; exact hx)]
          exact hw.cells w hwm
      · intro w hwm j y m b hy hb hxb
        rw [hget] at hy
        have hwb := (hw.bound w hwm).1
        split at hy
        · rename_i hji
          cases hy
          subst hji
          rcases hslice m b hb with ⟨rfl, rfl⟩ | ⟨hml, hub⟩
          · rcases harr with harr | harr
            · rcases hagainst w hwm (by rw [← harr]; exact hxb) with h0 | ⟨h1, h2⟩
              · exact .inl h0
              · obtain ⟨a', ha', hna'⟩ := hmoves h1 h2
                rw [hset, getElem?_set_self' _ _ _ _ hs] at ha'
                cases ha'
                omega
            · omega
          · rcases upgraded_old v l m b hub with rfl | hvb
            · left
              have := hw.cells w hwm
              rw [← hxb] at this
              rw [← this]
              exact hw.dis.zero
            · exact hw.shared w hwm j v m b hv hvb hxb
        · exact hw.shared w hwm j y m b hy hb hxb

theorem adds_walk {F : Floats} (hF : ∀ n c, F.shrink n c = true → n < c) {M : Nat} {s : St} {made : Nat → Option Nat} {done : List (Nat × Nat)}
    (h : Adds F M s made done) : Walk M s made done := by
  induction h with
  | empty => exact ⟨empty_disjoint, nofun, nofun, nofun, nofun⟩
  | @create s s' made done i lev _ hn he ih =>
    cases he
    have hf := mkAll_fresh (limit M) lev s.heap ih.dis.unmade
    have hw := ih.fresh i lev _ _ _ hf hn
    refine ⟨hw.dis, ?_, hw.bound, hw.cells, hw.shared⟩
    intro j lv hj
    by_cases hji : j = i
    · subst hji
      rw [if_pos rfl] at hj
      cases hj
      refine ⟨_, by simp [St.put]; rfl, Nat.le_refl _, fun l hl => ?_⟩
      obtain ⟨a, ha, hc⟩ := mkAll_get (limit M) lev s.heap ih.dis.unmade l hl
      exact ⟨a, ha, fun _ => hc⟩
    · rw [if_neg hji] at hj
      exact hw.room j lv hj
  | load i lev ls spare _ hn he ih =>
    cases he
    exact ih.fresh i lev _ _ _ (loadAll_fresh spare ls 0 _ ih.dis.unmade) hn
  | set i l lev c _ hm hl hd hc he ih => exact ih.set hF i l lev c hm hl hd hc he
  | connect i l x sel _ hsel he ih => exact ih.connect i l x sel hsel he
  | done w _ he ih =>
    cases he
    exact ⟨disjoint_walks ih.dis _, ih.room, fun w' h => ih.bound w' (List.mem_of_mem_erase h),
      fun w' h => ih.cells w' (List.mem_of_mem_erase h), fun w' h => ih.shared w' (List.mem_of_mem_erase h)⟩

end Fave.Mem
