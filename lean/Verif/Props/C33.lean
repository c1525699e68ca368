import Verif.Lemmas.VecCache
/-!
# C33 — The vector cache never returns a wrong vector

Full statement: a look-up in the vector cache returns the vector last loaded for that id, or the (normalised) vector of the backing
source, whatever clearing, growing, deletion and look-up operations happened before; never the vector of another id.

Proved for operations one after the other (`lookup_exact`, against a specification that is a function from ids to vectors;
`lookup_many` for `multiGet`; `holds_few` for the size), and for goroutines running at the same time (`genuine`: every vector
returned for an id was loaded for that id or fetched from the source for that id before).  Two things that do go wrong at the same
time are shown with executions: an older answer of the source can replace a newer vector (`stale_answer_wins`), and of two
goroutines growing the cache one can undo the other's work (`racing_grow_shrinks`).
-/
namespace Fave.C33
open Fave.VecCache

variable {α ε : Type}

/-- After any operations that do not panic there is a memory, built up from these operations alone, such that every look-up inside the
table answers from it.  Look-ups outside panic; the table never shrinks and contains every id it was grown for. -/
theorem lookup_exact (norm : Option α → Option α) (n : Nat) (maxSize : Int) (ops : List (Op α ε)) (c : Cache α)
    (h : applyAll norm (new α n maxSize) ops = some c) :
    (∃ m, RemembersAll norm (fun _ => none) ops m ∧
      ∀ (id : Nat) (src : Nat → Except ε (Option α)), id < c.slots.length → (c.get norm src id).2 = answer norm src m id) ∧
    (∀ (id : Nat) (src : Nat → Except ε (Option α)), c.slots.length ≤ id → (c.get norm src id).2 = .panic) ∧
    n ≤ c.slots.length ∧ ∀ k, .grow k ∈ ops → k < c.slots.length := by
  obtain ⟨⟨m, h1, h2⟩, h3, h4⟩ := applyAll_spec norm ops (holds_new n maxSize) h
  have hl : (new α n maxSize).slots.length = n := by simp [new]
  exact ⟨⟨m, h1, fun id src hid => (get_spec norm src h2 hid).1⟩, fun id src hid => get_outside norm src hid, by omega, h4⟩

/-- `multiGet` answers every id as a look-up of its own would, each at its place, also if ids repeat. -/
theorem lookup_many (norm : Option α → Option α) (n : Nat) (maxSize : Int) (ops : List (Op α ε)) (c : Cache α)
    (h : applyAll norm (new α n maxSize) ops = some c) (src : Nat → Except ε (Option α)) (ids : List Nat)
    (hid : ∀ i ∈ ids, i < c.slots.length) :
    (c.multiGet norm src ids).2 = some (ids.map fun i => (c.get norm src i).2.pair) := by
  obtain ⟨⟨m, -, h2⟩, -, -⟩ := applyAll_spec norm ops (holds_new n maxSize) h
  rw [multiGet_spec norm src ids h2 hid]
  congr 1
  refine List.map_congr_left fun i hi => ?_
  rw [(get_spec norm src h2 (hid i hi)).1]

/-- The counter is never below the number of vectors held, so after a tick the cache is empty or holds fewer than the maximum. -/
theorem holds_few (norm : Option α → Option α) (n : Nat) (maxSize : Int) (ops : List (Op α ε)) (c : Cache α)
    (h : applyAll norm (new α n maxSize) (ops ++ [.tick]) = some c) : filled c = 0 ∨ (filled c : Int) < c.maxSize := by
  rw [applyAll_append] at h
  cases h1 : applyAll norm (new α n maxSize) ops with
  | none => rw [h1] at h; cases h
  | some c1 =>
    rw [h1] at h
    have hf := applyAll_filled norm ops h1 (by
      unfold filled new
      dsimp only
      rw [List.countP_replicate]
      simp)
    have h : some c1.tick = some c := h
    cases h
    unfold Cache.tick
    by_cases hx : c1.maxSize ≤ c1.count
    · rw [if_pos hx]
      left
      unfold filled Cache.clear
      dsimp only
      rw [List.countP_map]
      simp [Function.comp_def]
    · rw [if_neg hx]; right; omega

/-- At the same time: whenever a look-up returns a vector for an id, that vector was loaded for this very id or fetched for this very
id before, whatever the other goroutines, the clock and the source do. -/
theorem genuine (norm : Option α → Option α) (n : Nat) (maxSize : Int) (s : Sys α) (h : Steps norm (start α n maxSize) s)
    (later before : List (Ev α)) (id : Nat) (v : Option α) (hl : s.log = later ++ .returned id v :: before) :
    Explained norm before id v :=
  (sound_steps (sound_start norm n maxSize) h).log later before id v hl

/-! ## what goes wrong at the same time -/

/-- A look-up asks the source, gets vector 1, and is overtaken: vector 2 is loaded for the same id, a second look-up returns 2.  Then
the first look-up stores its older answer, and from then on look-ups return 1 again. -/
theorem stale_answer_wins : ∃ s : Sys Nat, Steps id (start Nat 10 100) s ∧
    s.log = [.returned 7 (some 1), .returned 7 (some 1), .returned 7 (some 2), .loaded 7 (some 2), .fetched 7 (some 1)] := by
  have s1 := Steps.step (.refl (start Nat 10 100)) (Step.call (norm := id) _ 1 7 rfl)
  have s2 := Steps.step s1 (.missed _ 1 7 rfl rfl)
  have s3 := Steps.step s2 (.fetch _ 1 7 (some 1) rfl)
  have s4 := Steps.step s3 (.preload _ 7 (some 2) _ rfl)
  have s5 := Steps.step s4 (.call _ 2 7 rfl)
  have s6 := Steps.step s5 (.hit _ 2 7 2 rfl rfl)
  have s7 := Steps.step s6 (.bump _ 1 7 (some 1) rfl)
  have s8 := Steps.step s7 (.fill _ 1 7 (some 1) _ rfl rfl)
  have s9 := Steps.step s8 (.call _ 2 7 rfl)
  have s10 := Steps.step s9 (.hit _ 2 7 1 rfl rfl)
  exact ⟨_, s10, rfl⟩

/-- Goroutine 1 wants room for 30000, goroutine 2 for 60000; both see a table of 25000.  Goroutine 2 grows first, to 85000; when
goroutine 1 is done the table has 55000 places, and looking up 60000 panics. -/
theorem racing_grow_shrinks : ∃ s u : Sys Nat, Steps id (start Nat 25000 100) s ∧ s.cache.slots.length = 85000 ∧
    Steps id s u ∧ u.cache.slots.length = 55000 ∧ u.log = [.panicked 60000] := by
  have key : ∀ s0 : Sys Nat, s0.cache.slots.length = 25000 → (∀ t, s0.pc t = .idle) → s0.log = [] →
      ∃ s u : Sys Nat, Steps id s0 s ∧ s.cache.slots.length = 85000 ∧ Steps id s u ∧ u.cache.slots.length = 55000 ∧
        u.log = [.panicked 60000] := by
    intro s0 hlen hpc hlog
    have h3 : (s0.cache.growLocked 60000).slots.length = 85000 := growLocked_length s0.cache (by omega) (by omega)
    have h4 : ((s0.cache.growLocked 60000).growLocked 30000).slots.length = 55000 := by
      generalize s0.cache.growLocked 60000 = c at h3
      unfold Cache.growLocked
      dsimp only
      rw [List.length_append, List.length_take, List.length_replicate, h3]
      decide
    have s1 := Steps.step (.refl s0) (Step.growCheck (norm := id) _ 1 30000 (hpc 1) (by omega))
    have s2 := Steps.step s1 (.growCheck _ 2 60000 (hpc 2) (by show s0.cache.slots.length ≤ _; omega))
    have s3 := Steps.step s2 (.grow _ 2 60000 rfl)
    have t1 := Steps.step (.refl { ((s0.goto 1 (.grow 30000)).goto 2 (.grow 60000)).goto 2 .idle with
      cache := s0.cache.growLocked 60000 }) (Step.grow (norm := id) _ 1 30000 rfl)
    have t2 := Steps.step t1 (.call _ 2 60000 rfl)
    have t3 := Steps.step t2 (.outside _ 2 60000 rfl (List.getElem?_eq_none (Nat.le_trans (Nat.le_of_eq h4) (by omega))))
    exact ⟨_, _, s3, h3, t3, h4, congrArg (List.cons _) hlog⟩
  exact key _ List.length_replicate (fun _ => rfl) rfl

/-! ## examples -/

/-- load, look up, delete, look up again (from the source), a failing source, a look-up after the tick -/
example : applyAll (ε := String) id (new Nat 8 3) [.preload 4 (some 10), .get 4 fun _ => .error "not asked", .delete 4,
    .get 4 fun _ => .ok (some 11), .get 5 fun _ => .error "no vector", .get 6 fun _ => .ok (some 12)] =
    some ⟨[none, none, none, none, some 11, none, some 12, none], 2, 3⟩ := by decide

/-- with `maxSize` 2 this is cleared at the next tick -/
example : applyAll (ε := String) id (new Nat 8 2) [.preload 4 (some 10), .get 6 fun _ => .ok (some 12), .tick] =
    some (new Nat 8 2) := by decide

/-- looking up many, with a repeated id, a failing one and one that is held -/
example : ((new Nat 8 3).multiGet id (fun i => if i = 5 then .error "no vector" else .ok (some (10 * i))) [4, 5, 4, 1]).2 =
    some [(some 40, none), (none, some "no vector"), (some 40, none), (some 10, none)] := by decide

/-- growing keeps what is held -/
example (c : Cache Nat) (h : c.slots = [some 1, none]) : (c.grow 5).slots[0]? = some (some 1) ∧ (c.grow 5).slots.length = 25005 := by
  have hl : c.slots.length = 2 := by rw [h]; rfl
  have hg : c.grow 5 = c.growLocked 5 := by unfold Cache.grow; rw [if_neg (by omega)]
  rw [hg]
  refine ⟨?_, growLocked_length c (by omega) (by omega)⟩
  unfold Cache.growLocked
  rw [h]
  rfl

end Fave.C33
