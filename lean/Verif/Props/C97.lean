import Verif.Lemmas.Fetch
import Verif.Props.C89
import Verif.Spec.ExampleIndex
/-!
# C97 — each vector is fetched from the storage once

The property: after an index has been opened, however many searches run, each vector is fetched from the (slow, distributed) storage at most
once; a search whose vertices were looked at before fetches nothing.

True while all vertices used fit into the node cache (FaVe: 10000).  False beyond: if the vertices looked up in turn are one more than the
cache holds, every single look-up goes to the storage (`every_read_fetches`), and whatever the order, a further round fetches at least what the
cache can not hold (`fetches_at_least`).  A node that is not stored is asked for again every time (`absent_every_time`); in a collection this
does not happen, since links lead to stored vectors only.
-/
namespace Fave.C97
open Lru
variable {α : Type}

/-! ## The cache -/

/-- **At most once**: reads, writes and flushes of nodes that fit into the cache fetch each stored node at most once, and none that is cached. -/
theorem each_once_partial (cap : Nat) (U : List Nat) (hU : U.length ≤ cap) (s : Store α) (hok : Ok cap s) (hs : ∀ k ∈ ckeys s, k ∈ U)
    (ops : List (Op α)) (ho : ∀ o ∈ ops, ∀ j, o.key = some j → j ∈ U) :
    ((fetches cap s ops).filter (fun k => (s.kv.get k).isSome)).Nodup ∧
    ∀ k ∈ (fetches cap s ops).filter (fun k => (s.kv.get k).isSome), k ∈ U ∧ k ∉ ckeys s := by
  induction ops generalizing s with
  | nil => exact ⟨List.nodup_nil, nofun⟩
  | cons o ops ih =>
    obtain ⟨h1, h2, h3, h4, h5, _⟩ := step_fits hU hok hs (ho o (by simp))
    obtain ⟨i1, i2⟩ := ih (step cap s o) h1 h2 (fun o' ho' => ho o' (List.mem_cons_of_mem _ ho'))
    have hsub : ∀ k ∈ (fetches cap (step cap s o) ops).filter (fun k => (s.kv.get k).isSome),
        k ∈ (fetches cap (step cap s o) ops).filter (fun k => ((step cap s o).kv.get k).isSome) := by
      intro k hk
      obtain ⟨a, b⟩ := List.mem_filter.mp hk
      exact List.mem_filter.mpr ⟨a, h4 k b⟩
    have hnd : ((fetches cap (step cap s o) ops).filter (fun k => (s.kv.get k).isSome)).Nodup := by
      have : (fetches cap (step cap s o) ops).filter (fun k => (s.kv.get k).isSome) =
          ((fetches cap (step cap s o) ops).filter (fun k => ((step cap s o).kv.get k).isSome)).filter (fun k => (s.kv.get k).isSome) := by
        rw [List.filter_filter]
        apply List.filter_congr
        intro k _
        have := h4 k
        cases hk : (s.kv.get k).isSome <;> simp_all
      rw [this]
      exact i1.filter _
    show ((fetchOf s o ++ fetches cap (step cap s o) ops).filter _).Nodup ∧ _
    rw [show fetches cap s (o :: ops) = fetchOf s o ++ fetches cap (step cap s o) ops from rfl, List.filter_append]
    have key : (fetchOf s o).filter (fun k => (s.kv.get k).isSome) = [] ∨
        ∃ k, o = .read k ∧ (fetchOf s o).filter (fun k => (s.kv.get k).isSome) = [k] ∧ k ∉ ckeys s ∧ (s.kv.get k).isSome := by
      cases o with
      | read k =>
        cases hl : lookup s k with
        | some e => left; simp [fetchOf, hl]
        | none =>
          by_cases hk : (s.kv.get k).isSome
          · right; exact ⟨k, rfl, by simp [fetchOf, hl, hk], lookup_none hl, hk⟩
          · left; simp [fetchOf, hl, hk]
      | write k a => left; rfl
      | flush => left; rfl
    rcases key with hk | ⟨k, rfl, hk, hn, hst⟩
    · rw [hk]
      refine ⟨hnd, fun k hk => ?_⟩
      obtain ⟨a, b⟩ := i2 k (hsub k hk)
      exact ⟨a, fun hc => b (h3 k hc)⟩
    · rw [hk]
      have hin := h5 k rfl hst
      refine ⟨?_, ?_⟩
      · show (k :: _).Nodup
        rw [List.nodup_cons]
        exact ⟨fun hc => (i2 k (hsub k hc)).2 hin, hnd⟩
      · intro j hj
        rcases List.mem_cons.mp hj with rfl | hj
        · exact ⟨ho (.read j) (by simp) j rfl, hn⟩
        · obtain ⟨a, b⟩ := i2 j (hsub j hj)
          exact ⟨a, fun hc => b (h3 j hc)⟩

/-- The fetches of stored nodes and the nodes cached before are together at most as many as the nodes in use. -/
theorem fetches_few_partial (cap : Nat) (U : List Nat) (hU : U.length ≤ cap) (s : Store α) (hok : Ok cap s) (hs : ∀ k ∈ ckeys s, k ∈ U)
    (ops : List (Op α)) (ho : ∀ o ∈ ops, ∀ j, o.key = some j → j ∈ U) :
    ((fetches cap s ops).filter (fun k => (s.kv.get k).isSome)).length + s.ents.length ≤ U.length := by
  obtain ⟨h1, h2⟩ := each_once_partial cap U hU s hok hs ops ho
  have hnd : ((fetches cap s ops).filter (fun k => (s.kv.get k).isSome) ++ ckeys s).Nodup := by
    rw [List.nodup_append]
    exact ⟨h1, hok.nodup, fun a ha b hb hab => (h2 a ha).2 (hab ▸ hb)⟩
  have := hnd.length_le_of_subset (l₂ := U) (by
    intro k hk
    rcases List.mem_append.mp hk with hk | hk
    · exact (h2 k hk).1
    · exact hs k hk)
  rw [List.length_append] at this
  unfold ckeys at this
  rwa [List.length_map] at this

theorem run_fits (cap : Nat) (U : List Nat) (hU : U.length ≤ cap) (ops : List (Op α)) (s : Store α) (hok : Ok cap s) (hs : ∀ k ∈ ckeys s, k ∈ U)
    (ho : ∀ o ∈ ops, ∀ j, o.key = some j → j ∈ U) :
    Ok cap (run cap s ops) ∧ (∀ k ∈ ckeys (run cap s ops), k ∈ U) ∧ (∀ k ∈ ckeys s, k ∈ ckeys (run cap s ops)) ∧
    ∀ k, (.read k ∈ ops → (s.kv.get k).isSome → k ∈ ckeys (run cap s ops)) ∧ (∀ a, .write k a ∈ ops → k ∈ ckeys (run cap s ops)) := by
  induction ops generalizing s with
  | nil => exact ⟨hok, hs, fun k hk => hk, fun k => ⟨nofun, nofun⟩⟩
  | cons o ops ih =>
    obtain ⟨h1, h2, h3, h4, h5, h6⟩ := step_fits hU hok hs (ho o (by simp))
    obtain ⟨i1, i2, i3, i4⟩ := ih (step cap s o) h1 h2 (fun o' ho' => ho o' (List.mem_cons_of_mem _ ho'))
    refine ⟨i1, i2, fun k hk => i3 k (h3 k hk), fun k => ⟨fun hr hst => ?_, fun a hw => ?_⟩⟩
    · rcases List.mem_cons.mp hr with hr | hr
      · exact i3 k (h5 k hr.symm hst)
      · exact (i4 k).1 hr (h4 k hst)
    · rcases List.mem_cons.mp hw with hw | hw
      · exact i3 k (h6 k a hw.symm)
      · exact (i4 k).2 a hw

/-- **The second time nothing is fetched**: after any operations, further ones that look up only stored nodes read or written before (and
whatever else they write and flush) ask the storage for nothing. -/
theorem again_for_free_partial (cap : Nat) (U : List Nat) (hU : U.length ≤ cap) (s : Store α) (hok : Ok cap s) (hs : ∀ k ∈ ckeys s, k ∈ U)
    (ops more : List (Op α)) (ho : ∀ o ∈ ops, ∀ j, o.key = some j → j ∈ U) (hm : ∀ o ∈ more, ∀ j, o.key = some j → j ∈ U)
    (hk : ∀ k, .read k ∈ more → (.read k ∈ ops ∧ (s.kv.get k).isSome) ∨ ∃ a, .write k a ∈ ops) : fetches cap (run cap s ops) more = [] := by
  obtain ⟨h1, h2, _, h4⟩ := run_fits cap U hU ops s hok hs ho
  have hc : ∀ k, .read k ∈ more → k ∈ ckeys (run cap s ops) := by
    intro k hr
    rcases hk k hr with ⟨a, b⟩ | ⟨a, b⟩
    · exact (h4 k).1 a b
    · exact (h4 k).2 a b
  clear hk h4
  generalize run cap s ops = s at h1 h2 hc
  induction more generalizing s with
  | nil => rfl
  | cons o more ih =>
    obtain ⟨g1, g2, g3, _, _, _⟩ := step_fits hU h1 h2 (hm o (by simp))
    show fetchOf s o ++ fetches cap (step cap s o) more = []
    rw [ih (fun o' ho' => hm o' (List.mem_cons_of_mem _ ho')) (step cap s o) ⟨g1.nodup, g1.2⟩ g2 (fun k hk => g3 k (hc k (List.mem_cons_of_mem _ hk)))]
    cases o with
    | read k =>
      have : k ∈ ckeys s := hc k (by simp)
      cases hl : lookup s k with
      | some e => simp [fetchOf, hl]
      | none => exact absurd this (lookup_none hl)
    | write k a => rfl
    | flush => rfl

/-! ## What does not fit -/

theorem fetched_unless_cached (cap : Nat) (ks : List Nat) (s : Store α) (k : Nat) (hk : k ∈ ks) (hn : k ∉ ckeys s) :
    k ∈ fetches cap s (ks.map .read) := by
  induction ks generalizing s with
  | nil => cases hk
  | cons j ks ih =>
    show k ∈ fetchOf s (.read j) ++ fetches cap (step cap s (.read j)) (ks.map .read)
    by_cases hj : k = j
    · subst hj
      cases hl : lookup s k with
      | some e => exact absurd ((lookup_some hl).2 ▸ List.mem_map_of_mem (lookup_some hl).1) hn
      | none => simp [fetchOf, hl]
    · refine List.mem_append_right _ (ih _ ?_ ?_)
      · rcases List.mem_cons.mp hk with h | h
        · exact absurd h hj
        · exact h
      · show k ∉ ckeys (Lru.read cap s j).1
        have hp : ∀ e : Ent α, e.key = j → k ∉ ckeys (push cap s e) := by
          intro e he hc
          unfold ckeys push at hc
          obtain ⟨x, hx, hxk⟩ := List.mem_map.mp hc
          rcases List.mem_cons.mp (List.mem_of_mem_take hx) with rfl | hx
          · exact hj (hxk.symm.trans he)
          · exact hn (hxk ▸ List.mem_map_of_mem (List.mem_filter.mp hx).1)
        unfold Lru.read
        split
        · rename_i e he; exact hp e (lookup_some he).2
        · split
          · exact hn
          · exact hp _ rfl

/-- **What does not fit is fetched again**: whatever is cached and in whatever order nodes are looked up, at least as many are fetched as the
look-ups concern different nodes beyond the capacity. -/
theorem fetches_at_least (cap : Nat) (s : Store α) (hok : Ok cap s) (ks different : List Nat) (hnd : different.Nodup) (hd : ∀ k ∈ different, k ∈ ks) :
    different.length ≤ (fetches cap s (ks.map .read)).length + cap := by
  have h1 : (different.filter (fun k => decide (k ∉ ckeys s))).length ≤ (fetches cap s (ks.map .read)).length := by
    refine List.Nodup.length_le_of_subset (hnd.filter _) ?_
    intro k hk
    obtain ⟨a, b⟩ := List.mem_filter.mp hk
    exact fetched_unless_cached cap ks s k (hd k a) (by simpa using b)
  have h2 : (different.filter (fun k => decide (k ∈ ckeys s))).length ≤ cap := by
    have := List.Nodup.length_le_of_subset (hnd.filter (fun k => decide (k ∈ ckeys s))) (l₂ := ckeys s) (by
      intro k hk; simpa using (List.mem_filter.mp hk).2)
    have h3 := hok.2
    unfold ckeys at this
    rw [List.length_map] at this
    exact Nat.le_trans this h3
  have h3 : ∀ l : List Nat, l.length = (l.filter (fun k => decide (k ∈ ckeys s))).length + (l.filter (fun k => decide (k ∉ ckeys s))).length := by
    intro l
    induction l with
    | nil => rfl
    | cons a l ih => by_cases h : a ∈ ckeys s <;> simp [h] at ih ⊢ <;> omega
  have := h3 different
  omega

/-- A node that is not stored is asked for at every look-up: "not there" is not remembered. -/
theorem absent_every_time (cap : Nat) (s : Store α) (k : Nat) (hk : s.kv.get k = none) (hc : k ∉ ckeys s) (times : Nat) :
    fetches cap s (List.replicate times (.read k)) = List.replicate times k := by
  induction times with
  | zero => rfl
  | succ times ih =>
    have hl : lookup s k = none := by
      cases h : lookup s k with
      | none => rfl
      | some e => exact absurd ((lookup_some h).2 ▸ List.mem_map_of_mem (lookup_some h).1) hc
    have hs : step cap s (.read k) = s := by show (Lru.read cap s k).1 = s; unfold Lru.read; rw [hl]; simp [hk]
    show fetchOf s (.read k) ++ fetches cap (step cap s (.read k)) (List.replicate times (.read k)) = _
    rw [hs, ih]
    simp [fetchOf, hl, List.replicate_succ]

/-- the look-ups `0, 1, …, cap, 0, 1, …`, from the `t`-th on -/
def inTurn (cap : Nat) : Nat → Nat → List Nat
  | _, 0 => []
  | t, m + 1 => t % (cap + 1) :: inTurn cap (t + 1) m

/-- the keys of the cache after `t` look-ups in turn -/
def lastRead (cap t : Nat) : List Nat := (List.range (Nat.min t cap)).map (fun i => (t - 1 - i) % (cap + 1))

/-- **Every look-up goes to the storage** if as many nodes are looked up in turn as the cache can hold, and one more: for every capacity, the
n-th look-up is a fetch, for every n. -/
theorem every_read_fetches (cap : Nat) (kv : Tab α) (hkv : ∀ k ≤ cap, (kv.get k).isSome) (m : Nat) :
    fetches cap ⟨[], kv⟩ ((inTurn cap 0 m).map .read) = inTurn cap 0 m := by
  have key : ∀ (m t : Nat) (s : Store α), s.kv = kv → ckeys s = lastRead cap t →
      fetches cap s ((inTurn cap t m).map .read) = inTurn cap t m := by
    intro m
    induction m with
    | zero => intro _ _ _ _; rfl
    | succ m ih =>
      intro t s hs hc
      have hnot : t % (cap + 1) ∉ ckeys s := by
        rw [hc]
        unfold lastRead
        intro hm
        obtain ⟨i, hi, he⟩ := List.mem_map.mp hm
        have hi : i < Nat.min t cap := List.mem_range.mp hi
        have hi1 : i < t := Nat.lt_of_lt_of_le hi (Nat.min_le_left _ _)
        have hi2 : i < cap := Nat.lt_of_lt_of_le hi (Nat.min_le_right _ _)
        have hsum : t = (t - 1 - i) + (i + 1) := by omega
        generalize t - 1 - i = u at he hsum
        subst hsum
        have h1 := Nat.div_add_mod u (cap + 1)
        have h2 := Nat.div_add_mod (u + (i + 1)) (cap + 1)
        rw [← he] at h2
        have h3 : (cap + 1) * ((u + (i + 1)) / (cap + 1)) = (cap + 1) * (u / (cap + 1)) + (i + 1) := by omega
        have h4 : (i + 1) % (cap + 1) = 0 := by
          have : i + 1 = (cap + 1) * ((u + (i + 1)) / (cap + 1)) - (cap + 1) * (u / (cap + 1)) := by omega
          rw [this, ← Nat.mul_sub]
          exact Nat.mul_mod_right _ _
        rw [Nat.mod_eq_of_lt (by omega)] at h4
        omega
      have hl : lookup s (t % (cap + 1)) = none := by
        cases h : lookup s (t % (cap + 1)) with
        | none => rfl
        | some e => exact absurd ((lookup_some h).2 ▸ List.mem_map_of_mem (lookup_some h).1) hnot
      have hlt : t % (cap + 1) ≤ cap := Nat.le_of_lt_succ (Nat.mod_lt _ (Nat.succ_pos _))
      obtain ⟨a, ha⟩ := Option.isSome_iff_exists.mp (hkv _ hlt)
      have hstep : step cap s (.read (t % (cap + 1))) = push cap s ⟨t % (cap + 1), a, false⟩ := by
        show (Lru.read cap s _).1 = _
        unfold Lru.read
        rw [hl]
        simp only
        rw [hs, ha]
      show fetchOf s (.read (t % (cap + 1))) ++ fetches cap (step cap s (.read (t % (cap + 1)))) ((inTurn cap (t + 1) m).map .read) = _
      rw [hstep, ih (t + 1) (push cap s ⟨t % (cap + 1), a, false⟩) hs ?_]
      · simp [fetchOf, hl, inTurn]
      · unfold ckeys push
        simp only
        rw [filter_ne_self (show t % (cap + 1) ∉ s.ents.map Ent.key from hnot), List.map_take, List.map_cons]
        have hc : s.ents.map Ent.key = lastRead cap t := hc
        rw [hc]
        show (t % (cap + 1) :: lastRead cap t).take cap = lastRead cap (t + 1)
        unfold lastRead
        apply List.ext_getElem
        · simp only [List.length_take, List.length_cons, List.length_map, List.length_range, Nat.min_def]
          repeat' split
          all_goals omega
        · intro i h1 h2
          rw [List.getElem_take]
          cases i with
          | zero => simp
          | succ i =>
            simp only [List.getElem_cons_succ, List.getElem_map, List.getElem_range]
            congr 1; omega
  exact key m 0 ⟨[], kv⟩ rfl (by simp [ckeys, lastRead])

/-! ## Searches -/
section Searches
open Index Graph Queue Search
variable {V D : Type} [Dist D] {P : Params V D} {s : Index V} {vs : List V}

/-- The outcome of a search depends on the nodes it looks up only (`searchReads` leaves none out). -/
theorem search_depends_on_reads (g : Graph V D) (f : Nat → Option (Vertex V)) (sched : Scheds D) (q : V) (max : D) (ef : Int)
    (allow : Option (Nat → Bool)) (h : ∀ x ∈ searchReads g sched (g.norm q) ef allow, g.get x = f x) :
    knnMaxDist { g with get := f } sched q max ef allow = knnMaxDist g sched q max ef allow := by
  unfold knnMaxDist
  rw [show ({ g with get := f } : Graph V D).norm q = g.norm q from rfl, (search_congr g f sched (g.norm q) ef allow h).1]

/-- A search looks up vectors of the collection only. -/
theorem search_reads_stored (hP : P.Ok) (h : Hist P s vs) (hn : vs ≠ []) (sched : Scheds D) (q : V) (ef : Int) (allow : Option (Nat → Bool)) :
    ∀ x ∈ searchReads (s.graph P) sched q ef allow, x < vs.length := by
  have hi := hist_inv hP h
  have hent : s.entry < vs.length := hi.entry hn
  have hd : ∀ (level : Nat) (ep : Item D), ep.id < vs.length → ∀ x ∈ descendReads (s.graph P) sched q level ep, x < vs.length := by
    intro level
    induction level with
    | zero => intro _ _ x hx; cases hx
    | succ level ih =>
      intro ep hep x hx
      unfold descendReads at hx
      rcases List.mem_append.mp hx with hx | hx
      · exact layerReads_closed (C := fun i => i < vs.length) (C89.closed_hist hi q none (level + 1)) hep x hx
      · split at hx
        · cases hx
        · rename_i res hs
          have hres : ∀ x ∈ res.toList, x.id < vs.length :=
            searchLayer_closed (C := fun i => i < vs.length) (C89.closed_hist hi q none (level + 1)) (by simpa using hep) (keysOk P s q none)
              ⟨by simp, by
                intro e he; simp only [List.mem_singleton] at he; subst he
                exact Nat.lt_of_lt_of_le hep (Nat.le_trans hi.small hP.sizes)⟩ hs
          split at hx
          · rename_i best _ hp
            exact ih best (hres best ((pop_perm lessMax hp).mem_iff.mpr (by simp))) x hx
          · exact ih ep hep x hx
  intro x hx
  unfold searchReads at hx
  rcases List.mem_cons.mp hx with rfl | hx
  · exact hent
  · split at hx
    · cases hx
    · rename_i d _
      rcases List.mem_append.mp hx with hx | hx
      · exact hd _ _ hent x hx
      · split at hx
        · cases hx
        · rename_i ep he
          have hep := (C89.descend_asked hP hi sched q s.maxLayer ⟨s.entry, d⟩ hent).2.2 ep he
          exact layerReads_closed (C := fun i => i < vs.length) (C89.closed_hist hi q allow 0) hep x hx

/-- a search: its order of goroutines, query (normalised), width, filter -/
structure Searching (V D : Type) where
  sched : Scheds D
  q : V
  ef : Int
  allow : Option (Nat → Bool)

/-- **Searches fetch each vector at most once**: a collection of at most `cap` vectors has just been opened; any number of searches run, their
look-ups in any order and in any interleaving (one look-up at a time).  Then no vector is fetched twice, and at most n fetches are made in all. -/
theorem searches_fetch_once_partial (hP : P.Ok) (h : Hist P s vs) (hn : vs ≠ []) (hc : s.cache = []) (cap : Nat) (hcap : vs.length ≤ cap)
    (all : List (Searching V D)) (reads : List Nat)
    (hr : ∀ x ∈ reads, ∃ c ∈ all, x ∈ searchReads (s.graph P) c.sched c.q c.ef c.allow) :
    (fetches cap ⟨[], s.kv⟩ (reads.map .read)).Nodup ∧ (fetches cap ⟨[], s.kv⟩ (reads.map .read)).length ≤ vs.length ∧
    ∀ more : List Nat, (∀ x ∈ more, x ∈ reads) → fetches cap (run cap ⟨[], s.kv⟩ (reads.map .read)) (more.map .read) = [] := by
  have hi := hist_inv hP h
  have hlt : ∀ x ∈ reads, x < vs.length := by
    intro x hx
    obtain ⟨c, _, hc⟩ := hr x hx
    exact search_reads_stored hP h hn c.sched c.q c.ef c.allow x hc
  have hst : ∀ x, x < vs.length → (s.kv.get x).isSome := by
    intro x hx
    obtain ⟨w, a1, _⟩ := hi.wf x hx
    unfold Index.get at a1
    rw [hc] at a1
    simp only [Tab.get_nil] at a1
    cases hk : s.kv.get x with
    | none => rw [hk] at a1; cases a1
    | some v => rfl
  have hU : (List.range vs.length).length ≤ cap := by rw [List.length_range]; exact hcap
  have hok : Ok cap (⟨[], s.kv⟩ : Store (Vertex V)) := ⟨List.nodup_nil, Nat.zero_le _⟩
  have ho : ∀ o ∈ (reads.map .read : List (Op (Vertex V))), ∀ j, o.key = some j → j ∈ List.range vs.length := by
    intro o ho j hj
    obtain ⟨x, hx, rfl⟩ := List.mem_map.mp ho
    have hj : some x = some j := hj
    rw [← Option.some.inj hj]
    exact List.mem_range.mpr (hlt x hx)
  have hall : (fetches cap ⟨[], s.kv⟩ (reads.map .read)).filter (fun k => (s.kv.get k).isSome) = fetches cap ⟨[], s.kv⟩ (reads.map .read) := by
    apply List.filter_eq_self.mpr
    have hmem : ∀ (ops : List (Op (Vertex V))) (t : Store (Vertex V)) (k : Nat), k ∈ fetches cap t ops → .read k ∈ ops := by
      intro ops
      induction ops with
      | nil => intro _ _ hk; cases hk
      | cons o ops ih =>
        intro t k hk
        rcases List.mem_append.mp (show k ∈ fetchOf t o ++ fetches cap (step cap t o) ops from hk) with hk | hk
        · cases o with
          | read j =>
            cases hl : lookup t j with
            | some e => simp [fetchOf, hl] at hk
            | none =>
              simp only [fetchOf, hl, List.mem_singleton] at hk
              rw [hk]; simp
          | write j a => cases hk
          | flush => cases hk
        · exact List.mem_cons_of_mem _ (ih _ k hk)
    intro k hk
    obtain ⟨x, hx, he⟩ := List.mem_map.mp (hmem _ _ k hk)
    cases he
    exact hst k (hlt k hx)
  have h1 := each_once_partial cap _ hU (⟨[], s.kv⟩ : Store (Vertex V)) hok nofun _ ho
  have h2 := fetches_few_partial cap _ hU (⟨[], s.kv⟩ : Store (Vertex V)) hok nofun _ ho
  simp only at h1 h2
  rw [hall] at h1 h2
  rw [List.length_range] at h2
  refine ⟨h1.1, by simpa using h2, ?_⟩
  intro more hm
  refine again_for_free_partial cap _ hU _ hok nofun _ _ ho ?_ ?_
  · intro o ho' j hj
    obtain ⟨x, hx, rfl⟩ := List.mem_map.mp ho'
    have hj : some x = some j := hj
    rw [← Option.some.inj hj]
    exact List.mem_range.mpr (hlt x (hm x hx))
  · intro k hk
    obtain ⟨x, hx, he⟩ := List.mem_map.mp hk
    cases he
    exact .inl ⟨List.mem_map_of_mem (hm k hx), hst k (hlt k (hm k hx))⟩

end Searches

/-! ## Concrete cases -/

-- three nodes used in turn: with room for three, three fetches; with room for two, every look-up is a fetch
example : fetches 3 (⟨[], [(0, "a"), (1, "b"), (2, "c")]⟩ : Store String) ((inTurn 2 0 9).map .read) = [0, 1, 2] := by decide +kernel
example : fetches 2 (⟨[], [(0, "a"), (1, "b"), (2, "c")]⟩ : Store String) ((inTurn 2 0 9).map .read) = [0, 1, 2, 0, 1, 2, 0, 1, 2] := by decide +kernel
example := every_read_fetches 2 [(0, "a"), (1, "b"), (2, "c")] (by decide) 9
example := fetches_at_least 2 (⟨[], [(0, "a"), (1, "b"), (2, "c")]⟩ : Store String) ⟨List.nodup_nil, Nat.zero_le _⟩ [0, 2, 1, 0, 2] [0, 1, 2] (by decide) (by decide)
-- an index with a node in the cache, one stored, one absent
example : fetches 4 (⟨[⟨7, "x", true⟩], [(7, "x"), (8, "y")]⟩ : Store String) [.read 8, .read 7, .read 9, .write 5 "z", .flush, .read 8, .read 5, .read 9] =
    [8, 9, 9] := by decide +kernel
example := each_once_partial 4 [7, 8, 9, 5] (by decide) (⟨[⟨7, "x", true⟩], [(7, "x"), (8, "y")]⟩ : Store String) ⟨by decide, by decide⟩ (by decide)
  [.read 8, .read 7, .read 9, .write 5 "z", .flush, .read 8, .read 5, .read 9] (by decide)
example := absent_every_time 4 (⟨[⟨7, "x", true⟩], [(7, "x"), (8, "y")]⟩ : Store String) 9 rfl (by decide) 1000
-- the index of four vectors, opened again: the look-ups of a search, and the fetches of two searches one after the other
theorem hist4r : Index.Hist Ex.P Ex.s4f.reopen.loadEntry (Ex.vecs.take 4) := by
  have h0 : Index.Hist Ex.P Ex.s4f.reopen ((Ex.vecs.take 4).take (Ex.s4f.kvCount.getD 0)) := .restart Ex.hist4f
  have e : (Ex.vecs.take 4).take (Ex.s4f.kvCount.getD 0) = Ex.vecs.take 4 := by decide +kernel
  rw [e] at h0
  exact .load h0
example : Graph.searchReads (Ex.s4f.reopen.loadEntry.graph Ex.P) Ex.sched [12, 1] 3 none = [3, 3, 3, 0, 0, 1, 1, 2] := by decide +kernel
example : fetches 4 (⟨[], Ex.s4f.kv⟩ : Store (Vertex (List Nat))) ((Graph.searchReads (Ex.s4f.reopen.loadEntry.graph Ex.P) Ex.sched [12, 1] 3 none ++
    Graph.searchReads (Ex.s4f.reopen.loadEntry.graph Ex.P) Ex.sched [29, 2] 3 none).map .read) = [3, 0, 1, 2] := by decide +kernel
example := searches_fetch_once_partial Ex.P_ok hist4r (by decide) rfl 4 (by decide) [⟨Ex.sched, [12, 1], 3, none⟩, ⟨Ex.sched, [29, 2], 3, none⟩]
  (Graph.searchReads (Ex.s4f.reopen.loadEntry.graph Ex.P) Ex.sched [12, 1] 3 none ++
    Graph.searchReads (Ex.s4f.reopen.loadEntry.graph Ex.P) Ex.sched [29, 2] 3 none)
  (by
    intro x hx
    rcases List.mem_append.mp hx with hx | hx
    · exact ⟨⟨Ex.sched, [12, 1], 3, none⟩, List.mem_cons_self, hx⟩
    · exact ⟨⟨Ex.sched, [29, 2], 3, none⟩, List.mem_cons_of_mem _ List.mem_cons_self, hx⟩)

end Fave.C97
