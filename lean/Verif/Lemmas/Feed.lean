import Verif.Model.Feed
import Verif.Lemmas.ClientRun
/-! # What feeds the vector caches -/
namespace Fave.Feed
open Fave.Client (Str ns cacheKey)
variable {V : Type}

theorem key_inj {pod a b : Str} {i j : Nat} (h : cacheKey pod (ns ++ a) i = cacheKey pod (ns ++ b) j) : a = b ∧ i = j := by
  unfold cacheKey at h
  obtain ⟨h1, h2⟩ := Client.last_slash (Client.digits_no_slash i) (Client.digits_no_slash j) h
  refine ⟨?_, Client.digits_inj h2⟩
  have := List.append_cancel_left h1
  exact Client.ns_inj (List.cons.inj this).2

/-! ## the kept vectors -/

theorem get_mem {d : Docs V} {k : Str} {v : V} (h : d.get k = some v) : (k, v) ∈ d := by
  unfold Docs.get at h
  cases hf : d.find? fun e => e.1 = k with
  | none => rw [hf] at h; cases h
  | some e =>
    rw [hf] at h
    obtain ⟨k', v'⟩ := e
    have h1 := List.mem_of_find?_eq_some hf
    have h2 := List.find?_some hf
    simp only [decide_eq_true_eq] at h2
    simp only [Option.map_some, Option.some.injEq] at h
    subst h2; subst h
    exact h1

theorem mem_use {d : Docs V} {k : Str} {e : Str × V} (h : e ∈ d.use k) : e ∈ d := by
  unfold Docs.use at h
  split at h
  · rename_i e' hf
    rcases List.mem_cons.mp h with rfl | h
    · exact List.mem_of_find?_eq_some hf
    · exact (List.mem_filter.mp h).1
  · exact h

theorem mem_add {cap : Nat} {d : Docs V} {k : Str} {v : V} {e : Str × V} (h : e ∈ d.add cap k v) : e = (k, v) ∨ e ∈ d := by
  unfold Docs.add at h
  rcases List.mem_cons.mp (List.mem_of_mem_take h) with h | h
  · exact .inl h
  · exact .inr (List.mem_filter.mp h).1

/-! ## everything delivered was given or kept -/

/-- where a vector delivered by index `i`, made for `name`, under a number comes from -/
def Source (norm : V → V) (log : List (Ev V)) (i : Nat) (name : Str) (id : Nat) (u : V) : Prop :=
  (∃ w, lastGiven i id log = some w ∧ .gave i name id w ∈ current log ∧ u = norm w) ∨ ∃ w, .kept name id w ∈ current log ∧ u = norm w

/-- an event that is neither a start nor an addition to index `i` under number `id` -/
def Ev.Other (i id : Nat) (e : Ev V) : Prop := e ≠ .started ∧ ∀ name v, e ≠ .gave i name id v

theorem current_cons {e : Ev V} (he : e ≠ .started) (l : List (Ev V)) : current (e :: l) = e :: current l := by
  cases e <;> first | rfl | exact absurd rfl he

theorem lastGiven_cons {e : Ev V} {i id : Nat} (he : e.Other i id) (l : List (Ev V)) : lastGiven i id (e :: l) = lastGiven i id l := by
  cases e with
  | gave j nm n v =>
    show (if j = i ∧ n = id then some v else lastGiven i id l) = lastGiven i id l
    rw [if_neg]
    rintro ⟨rfl, rfl⟩
    exact he.2 _ _ rfl
  | started => exact absurd rfl he.1
  | kept | returned | fetched | failed | deleted => rfl

theorem Source.cons {norm : V → V} {log : List (Ev V)} {i : Nat} {name : Str} {id : Nat} {u : V} {e : Ev V} (he : e.Other i id)
    (h : Source norm log i name id u) : Source norm (e :: log) i name id u := by
  rcases h with ⟨w, h1, h3, h2⟩ | ⟨w, h1, h2⟩
  · exact .inl ⟨w, by rw [lastGiven_cons he]; exact h1, by rw [current_cons he.1]; exact List.mem_cons_of_mem _ h3, h2⟩
  · exact .inr ⟨w, by rw [current_cons he.1]; exact List.mem_cons_of_mem _ h1, h2⟩

/-- what holds at every moment: every vector in a slot was given last or kept, every vector on its way into a slot was kept, every
vector in `documentCache` was kept, additions under way gave their vector, indices are numbered within the list, and every answer in the
history is explained by what precedes it -/
structure Sound (norm : V → V) (pod : Str) (s : Sys V) : Prop where
  slot : ∀ i x id u, s.insts[i]? = some x → x.cache.slots[id]? = some (some u) → Source norm s.log i x.name id u
  way : ∀ t i id u, (s.pc t = .count i id u ∨ s.pc t = .fill i id u) → ∃ x, s.insts[i]? = some x ∧ ∃ w, .kept x.name id w ∈ current s.log ∧ u = norm w
  docs : ∀ k v, (k, v) ∈ s.docs → ∃ name id, k = cacheKey pod (ns ++ name) id ∧ .kept name id v ∈ current s.log
  add : ∀ t i id v, s.adding t = some (i, id, v) → ∃ x, s.insts[i]? = some x ∧ .gave i x.name id v ∈ current s.log
  kept : ∀ name id v, .kept name id v ∈ current s.log → ∃ i, .gave i name id v ∈ current s.log
  named : ∀ i name id v, .gave i name id v ∈ current s.log → ∃ x, s.insts[i]? = some x ∧ x.name = name
  log : ∀ later before i name id u, s.log = later ++ .returned i name id u :: before → Source norm before i name id u

theorem sound_start (norm : V → V) (pod : Str) : Sound norm pod (start : Sys V) := by
  constructor
  · intro i x id u h; simp [start] at h
  · intro t i id u h; simp [start] at h
  · intro k v h; simp [start] at h
  · intro t i id v h; simp [start] at h
  · intro name id v h; simp [start, current] at h
  · intro i name id v h; simp [start, current] at h
  · intro later before i name id u h
    cases later with
    | nil => cases h
    | cons e l =>
      simp only [start, List.cons_append, List.cons.injEq] at h
      exact absurd h.2 (by simp)

/-- the history grows by an answer that is explained, or by another event -/
theorem log_cons {norm : V → V} {log : List (Ev V)} {e : Ev V}
    (h : ∀ later before i name id u, log = later ++ .returned i name id u :: before → Source norm before i name id u)
    (he : ∀ i name id u, e = .returned i name id u → Source norm log i name id u) :
    ∀ later before i name id u, e :: log = later ++ .returned i name id u :: before → Source norm before i name id u := by
  intro later before i name id u hl
  cases later with
  | nil =>
    simp only [List.nil_append, List.cons.injEq] at hl
    obtain ⟨h1, rfl⟩ := hl
    exact he _ _ _ _ h1
  | cons e' l =>
    simp only [List.cons_append, List.cons.injEq] at hl
    exact h _ _ _ _ _ _ hl.2

/-- replacing the cache of an index keeps the indices and their names -/
theorem set_name {l : List (Inst V)} {i : Nat} {x : Inst V} (hx : l[i]? = some x) (c : VecCache.Cache V) {j : Nat} {y : Inst V} (hy : l[j]? = some y) :
    ∃ y', (l.set i { x with cache := c })[j]? = some y' ∧ y'.name = y.name := by
  by_cases h : i = j
  · subst h
    rw [hx] at hy
    cases hy
    have : i < l.length := by
      rcases Nat.lt_or_ge i l.length with h | h
      · exact h
      · rw [List.getElem?_eq_none h] at hx; cases hx
    exact ⟨{ x with cache := c }, by rw [List.getElem?_set_self this], rfl⟩
  · exact ⟨y, by rw [List.getElem?_set_ne h]; exact hy, rfl⟩

theorem get_set {l : List (Inst V)} {i : Nat} {x : Inst V} {c : VecCache.Cache V} {j : Nat} {y : Inst V}
    (hy : (l.set i { x with cache := c })[j]? = some y) : (j = i ∧ y = { x with cache := c }) ∨ (j ≠ i ∧ l[j]? = some y) := by
  by_cases h : i = j
  · subst h
    rcases Nat.lt_or_ge i l.length with hl | hl
    · rw [List.getElem?_set_self hl] at hy
      cases hy
      exact .inl ⟨rfl, rfl⟩
    · rw [List.getElem?_eq_none (by simpa using hl)] at hy
      cases hy
  · rw [List.getElem?_set_ne h] at hy
    exact .inr ⟨Ne.symm h, hy⟩

/-- the part of `Sound` that does not depend on slots, when the cache of one index changes -/
theorem sound_setCache {norm : V → V} {pod : Str} {s : Sys V} (h : Sound norm pod s) {i : Nat} {x : Inst V} (hx : s.insts[i]? = some x)
    {c : VecCache.Cache V} (hc : ∀ id u, c.slots[id]? = some (some u) → Source norm s.log i x.name id u) : Sound norm pod (s.setCache i x c) := by
  constructor
  · intro j y id u hy hu
    rcases get_set hy with ⟨rfl, rfl⟩ | ⟨-, hy⟩
    · exact hc id u hu
    · exact h.slot j y id u hy hu
  · intro t j id u hp
    obtain ⟨y, hy, w, hw⟩ := h.way t j id u hp
    obtain ⟨y', hy', hn⟩ := set_name hx c hy
    exact ⟨y', hy', w, by rw [hn]; exact hw⟩
  · exact h.docs
  · intro t j id v ha
    obtain ⟨y, hy, hg⟩ := h.add t j id v ha
    obtain ⟨y', hy', hn⟩ := set_name hx c hy
    exact ⟨y', hy', by rw [hn]; exact hg⟩
  · exact h.kept
  · intro j name id v hg
    obtain ⟨y, hy, hn⟩ := h.named j name id v hg
    obtain ⟨y', hy', hn'⟩ := set_name hx c hy
    exact ⟨y', hy', hn'.trans hn⟩
  · exact h.log

/-- an event that is neither a start, an addition nor an answer -/
theorem sound_note {norm : V → V} {pod : Str} {s : Sys V} (h : Sound norm pod s) {e : Ev V} (he : ∀ i id, e.Other i id)
    (hk : ∀ name id v, e ≠ .kept name id v) (hr : ∀ i name id u, e = .returned i name id u → Source norm s.log i name id u) : Sound norm pod (s.note e) := by
  have hne : e ≠ .started := (he 0 0).1
  have hcur : current (e :: s.log) = e :: current s.log := current_cons hne _
  constructor
  · intro i x id u hx hu
    exact (h.slot i x id u hx hu).cons (he i id)
  · intro t i id u hp
    obtain ⟨x, hx, w, hw, hu⟩ := h.way t i id u hp
    exact ⟨x, hx, w, by show _ ∈ current (e :: s.log); rw [hcur]; exact List.mem_cons_of_mem _ hw, hu⟩
  · intro k v hm
    obtain ⟨name, id, h1, h2⟩ := h.docs k v hm
    exact ⟨name, id, h1, by show _ ∈ current (e :: s.log); rw [hcur]; exact List.mem_cons_of_mem _ h2⟩
  · intro t i id v ha
    obtain ⟨x, hx, hg⟩ := h.add t i id v ha
    exact ⟨x, hx, by show _ ∈ current (e :: s.log); rw [hcur]; exact List.mem_cons_of_mem _ hg⟩
  · intro name id v hm
    have hm : _ ∈ current (e :: s.log) := hm
    rw [hcur] at hm
    rcases List.mem_cons.mp hm with hm | hm
    · exact absurd hm.symm (hk _ _ _)
    · obtain ⟨i, hi⟩ := h.kept name id v hm
      exact ⟨i, by show _ ∈ current (e :: s.log); rw [hcur]; exact List.mem_cons_of_mem _ hi⟩
  · intro i name id v hm
    have hm : _ ∈ current (e :: s.log) := hm
    rw [hcur] at hm
    rcases List.mem_cons.mp hm with hm | hm
    · exact absurd hm.symm ((he i id).2 _ _)
    · exact h.named i name id v hm
  · exact log_cons h.log hr

/-- a look-up moves to a place that carries no vector -/
theorem sound_goto {norm : V → V} {pod : Str} {s : Sys V} (h : Sound norm pod s) (t : Nat) {p : Pc V}
    (hp : ∀ i id u, (p = .count i id u ∨ p = .fill i id u) → ∃ x, s.insts[i]? = some x ∧ ∃ w, .kept x.name id w ∈ current s.log ∧ u = norm w) :
    Sound norm pod (s.goto t p) := by
  refine ⟨h.slot, ?_, h.docs, h.add, h.kept, h.named, h.log⟩
  intro t' i id u hq
  simp only [Sys.goto] at hq
  by_cases ht : t' = t
  · rw [if_pos ht] at hq
    exact hp i id u hq
  · rw [if_neg ht] at hq
    exact h.way t' i id u hq

theorem write_slots {c c' : VecCache.Cache V} {id : Nat} {v : Option V} (h : c.write id v = some c') : c'.slots = c.slots.set id v ∧ id < c.slots.length := by
  unfold VecCache.Cache.write at h
  split at h
  · cases h; exact ⟨rfl, by assumption⟩
  · cases h

theorem slot_set {l : List (Option V)} {id j : Nat} {v : Option V} {u : V} (h : (l.set id v)[j]? = some (some u)) : (j = id ∧ v = some u) ∨ (j ≠ id ∧ l[j]? = some (some u)) := by
  by_cases hj : id = j
  · subst hj
    rcases Nat.lt_or_ge id l.length with hl | hl
    · rw [List.getElem?_set_self hl] at h
      exact .inl ⟨rfl, by simpa using h⟩
    · rw [List.getElem?_eq_none (by simpa using hl)] at h
      cases h
  · rw [List.getElem?_set_ne hj] at h
    exact .inr ⟨Ne.symm hj, h⟩

theorem tick_slots {c : VecCache.Cache V} {id : Nat} {u : V} (h : c.tick.slots[id]? = some (some u)) : c.slots[id]? = some (some u) := by
  unfold VecCache.Cache.tick at h
  split at h
  · simp [VecCache.Cache.clear] at h
  · exact h

theorem sound_step {norm : V → V} {pod : Str} {size cap : Nat} {s s' : Sys V} (h : Sound norm pod s) (hs : Step norm pod size cap s s') :
    Sound norm pod s' := by
  cases hs with
  | make name =>
    have ext : ∀ {j : Nat} {y : Inst V}, s.insts[j]? = some y → (s.insts ++ [⟨name, VecCache.new V size 0⟩])[j]? = some y := by
      intro j y hy
      rw [List.getElem?_append_left]
      · exact hy
      · rcases Nat.lt_or_ge j s.insts.length with h | h
        · exact h
        · rw [List.getElem?_eq_none h] at hy; cases hy
    constructor
    · intro j y id u hy hu
      have hy : (s.insts ++ [⟨name, VecCache.new V size 0⟩])[j]? = some y := hy
      rcases Nat.lt_or_ge j s.insts.length with hj | hj
      · rw [List.getElem?_append_left hj] at hy
        exact h.slot j y id u hy hu
      · rw [List.getElem?_append_right hj] at hy
        have : y = ⟨name, VecCache.new V size 0⟩ := by
          cases hk : j - s.insts.length with
          | zero => rw [hk] at hy; simpa using hy.symm
          | succ k => rw [hk] at hy; simp at hy
        subst this
        simp only [VecCache.new] at hu
        rw [List.getElem?_replicate] at hu
        split at hu <;> simp at hu
    · intro t j id u hp
      obtain ⟨y, hy, w⟩ := h.way t j id u hp
      exact ⟨y, ext hy, w⟩
    · exact h.docs
    · intro t j id v ha
      obtain ⟨y, hy, w⟩ := h.add t j id v ha
      exact ⟨y, ext hy, w⟩
    · exact h.kept
    · intro j nm id v hg
      obtain ⟨y, hy, w⟩ := h.named j nm id v hg
      exact ⟨y, ext hy, w⟩
    · exact h.log
  | give t i x id v c ht hx hc =>
    obtain ⟨hsl, hlt⟩ := write_slots hc
    have hcur : ∀ l : List (Ev V), current (.gave i x.name id v :: l) = .gave i x.name id v :: current l := fun _ => rfl
    have hset := @set_name V s.insts i x hx c
    constructor
    · intro j y n u hy hu
      rcases get_set hy with ⟨rfl, rfl⟩ | ⟨hj, hy⟩
      · rw [show ({ x with cache := c } : Inst V).cache.slots = x.cache.slots.set id (some (norm v)) from hsl] at hu
        rcases slot_set hu with ⟨rfl, hv⟩ | ⟨hn, hu⟩
        · cases hv
          exact .inl ⟨v, by simp [Sys.note, lastGiven], List.mem_cons_self, rfl⟩
        · refine (h.slot j x n u hx hu).cons ⟨by simp, ?_⟩
          intro nm w he
          cases he
          exact hn rfl
      · refine (h.slot j y n u hy hu).cons ⟨by simp, ?_⟩
        intro nm w he
        cases he
        exact hj rfl
    · intro u j n w hp
      obtain ⟨y, hy, q, hq, hu⟩ := h.way u j n w hp
      obtain ⟨y', hy', hn⟩ := hset hy
      exact ⟨y', hy', q, by rw [hn]; exact List.mem_cons_of_mem _ hq, hu⟩
    · intro k w hm
      obtain ⟨nm, n, h1, h2⟩ := h.docs k w hm
      exact ⟨nm, n, h1, List.mem_cons_of_mem _ h2⟩
    · intro u j n w ha
      simp only [Sys.note, Sys.setAdding] at ha
      by_cases hu : u = t
      · rw [if_pos hu] at ha
        cases ha
        obtain ⟨y', hy', hn⟩ := hset hx
        exact ⟨y', hy', by rw [hn]; exact List.mem_cons_self⟩
      · rw [if_neg hu] at ha
        obtain ⟨y, hy, hg⟩ := h.add u j n w ha
        obtain ⟨y', hy', hn⟩ := hset hy
        exact ⟨y', hy', by rw [hn]; exact List.mem_cons_of_mem _ hg⟩
    · intro nm n w hm
      rcases List.mem_cons.mp (show _ ∈ Ev.gave i x.name id v :: current s.log from hm) with hm | hm
      · cases hm
      · obtain ⟨j, hj⟩ := h.kept nm n w hm
        exact ⟨j, List.mem_cons_of_mem _ hj⟩
    · intro j nm n w hm
      rcases List.mem_cons.mp (show _ ∈ Ev.gave i x.name id v :: current s.log from hm) with hm | hm
      · cases hm
        obtain ⟨y', hy', hn⟩ := hset hx
        exact ⟨y', hy', hn⟩
      · obtain ⟨y, hy, hn⟩ := h.named j nm n w hm
        obtain ⟨y', hy', hn'⟩ := hset hy
        exact ⟨y', hy', hn'.trans hn⟩
    · exact log_cons h.log (by intro _ _ _ _ he; cases he)
  | keep t i x id v ht hx =>
    obtain ⟨y, hy, hg⟩ := h.add t i id v ht
    rw [hx] at hy
    cases hy
    constructor
    · intro j y n u hy hu
      exact (h.slot j y n u hy hu).cons ⟨by simp, by intro _ _ he; cases he⟩
    · intro u j n w hp
      obtain ⟨y, hy, q, hq, hu⟩ := h.way u j n w hp
      exact ⟨y, hy, q, List.mem_cons_of_mem _ hq, hu⟩
    · intro k w hm
      rcases mem_add (show (k, w) ∈ s.docs.add cap _ v from hm) with hm | hm
      · cases hm
        exact ⟨x.name, id, rfl, List.mem_cons_self⟩
      · obtain ⟨nm, n, h1, h2⟩ := h.docs k w hm
        exact ⟨nm, n, h1, List.mem_cons_of_mem _ h2⟩
    · intro u j n w ha
      simp only [Sys.note, Sys.setAdding] at ha
      by_cases hu : u = t
      · rw [if_pos hu] at ha; cases ha
      · rw [if_neg hu] at ha
        obtain ⟨y, hy, hg⟩ := h.add u j n w ha
        exact ⟨y, hy, List.mem_cons_of_mem _ hg⟩
    · intro nm n w hm
      rcases List.mem_cons.mp (show _ ∈ Ev.kept x.name id v :: current s.log from hm) with hm | hm
      · cases hm
        exact ⟨i, List.mem_cons_of_mem _ hg⟩
      · obtain ⟨j, hj⟩ := h.kept nm n w hm
        exact ⟨j, List.mem_cons_of_mem _ hj⟩
    · intro j nm n w hm
      rcases List.mem_cons.mp (show _ ∈ Ev.kept x.name id v :: current s.log from hm) with hm | hm
      · cases hm
      · exact h.named j nm n w hm
    · exact log_cons h.log (by intro _ _ _ _ he; cases he)
  | giveUp t =>
    refine ⟨h.slot, h.way, h.docs, ?_, h.kept, h.named, h.log⟩
    intro u j n w ha
    simp only [Sys.setAdding] at ha
    by_cases hu : u = t
    · rw [if_pos hu] at ha; cases ha
    · rw [if_neg hu] at ha; exact h.add u j n w ha
  | call t i id ht => exact sound_goto h t (by rintro _ _ _ (he | he) <;> cases he)
  | hit t i x id v ht hx hv =>
    refine sound_note (sound_goto h t (by rintro _ _ _ (he | he) <;> cases he)) (fun _ _ => ⟨by simp, by intro _ _ he; cases he⟩) (by intro _ _ _ he; cases he) ?_
    intro _ _ _ _ he
    cases he
    exact h.slot i x id v hx hv
  | missed t i x id ht hx hv => exact sound_goto h t (by rintro _ _ _ (he | he) <;> cases he)
  | fetch t i x id v ht hx hv =>
    obtain ⟨nm, n, h1, h2⟩ := h.docs _ _ (get_mem hv)
    obtain ⟨rfl, rfl⟩ := key_inj h1
    have hg := sound_goto (p := .count i id (norm v)) h t (by
      rintro _ _ _ (he | he) <;> cases he
      exact ⟨x, hx, v, h2, rfl⟩)
    have hd : Sound norm pod { s.goto t (.count i id (norm v)) with docs := s.docs.use (cacheKey pod (ns ++ x.name) id) } :=
      ⟨hg.slot, hg.way, fun k w hm => hg.docs k w (mem_use hm), hg.add, hg.kept, hg.named, hg.log⟩
    exact sound_note hd (fun _ _ => ⟨by simp, by intro _ _ he; cases he⟩) (by intro _ _ _ he; cases he) (by intro _ _ _ _ he; cases he)
  | fetchFail t i x id ht hx hv =>
    exact sound_note (sound_goto h t (by rintro _ _ _ (he | he) <;> cases he)) (fun _ _ => ⟨by simp, by intro _ _ he; cases he⟩) (by intro _ _ _ he; cases he)
      (by intro _ _ _ _ he; cases he)
  | bump t i x id v ht hx =>
    have hg := sound_goto (p := .fill i id v) h t (by
      rintro _ _ _ (he | he) <;> cases he
      exact h.way t i id v (.inl ht))
    exact sound_setCache hg hx (fun n u hu => h.slot i x n u hx hu)
  | fill t i x id v c ht hx hc =>
    obtain ⟨hsl, hlt⟩ := write_slots hc
    obtain ⟨y, hy, w, hw, hv⟩ := h.way t i id v (.inr ht)
    rw [hx] at hy
    cases hy
    have hsrc : Source norm s.log i x.name id v := .inr ⟨w, hw, hv⟩
    have hg := sound_goto (p := .idle) h t (by rintro _ _ _ (he | he) <;> cases he)
    refine sound_note (sound_setCache hg hx ?_) (fun _ _ => ⟨by simp, by intro _ _ he; cases he⟩) (by intro _ _ _ he; cases he) ?_
    · intro n u hu
      rw [hsl] at hu
      rcases slot_set hu with ⟨rfl, hv'⟩ | ⟨-, hu⟩
      · cases hv'; exact hsrc
      · exact h.slot i x n u hx hu
    · intro _ _ _ _ he
      cases he
      exact hsrc
  | tick i x hx => exact sound_setCache h hx fun n u hu => h.slot i x n u hx (tick_slots hu)
  | delete name => exact sound_note h (fun _ _ => ⟨by simp, by intro _ _ he; cases he⟩) (by intro _ _ _ he; cases he) (by intro _ _ _ _ he; cases he)
  | restart =>
    constructor
    · intro i x id u hx; simp [start] at hx
    · intro t i id u hp; simp [start] at hp
    · intro k v hm; simp [start] at hm
    · intro t i id v ha; simp [start] at ha
    · intro nm id v hm; simp [current] at hm
    · intro i nm id v hm; simp [current] at hm
    · exact log_cons h.log (by intro _ _ _ _ he; cases he)

theorem sound_steps {norm : V → V} {pod : Str} {size cap : Nat} {s s' : Sys V} (h : Sound norm pod s) (hs : Steps norm pod size cap s s') :
    Sound norm pod s' := by
  induction hs with
  | refl => exact h
  | step _ h2 ih => exact sound_step ih h2

theorem lastGiven_mem {l : List (Ev V)} {i id : Nat} {w : V} (h : lastGiven i id l = some w) : ∃ name, .gave i name id w ∈ current l := by
  induction l with
  | nil => cases h
  | cons e l ih =>
    cases e with
    | gave j nm n v =>
      unfold lastGiven at h
      split at h
      · rename_i hc
        obtain ⟨rfl, rfl⟩ := hc
        cases h
        exact ⟨nm, List.mem_cons_self⟩
      · obtain ⟨nm, hm⟩ := ih h
        exact ⟨nm, List.mem_cons_of_mem _ hm⟩
    | started => cases h
    | kept | returned | fetched | failed | deleted =>
      obtain ⟨nm, hm⟩ := ih h
      exact ⟨nm, List.mem_cons_of_mem _ hm⟩

end Fave.Feed
