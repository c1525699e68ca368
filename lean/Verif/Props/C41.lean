import Verif.Lemmas.Conc
/-!
# C41 — concurrent additions agree on the search start
-/
namespace Fave.C41
open Conc

/-- **The first element is initialised at most once**, in every interleaving of any number of additions, also with searches under way. -/
theorem initialised_at_most_once (J : Job) (loads : Bool) (e0 m0 : Nat) (once empty : Bool) (s : St)
    (h : Reach J loads (St.begin e0 m0 once empty) s) (t u : Nat) (a b : Bool) (ht : s.pc t = .ret true a) (hu : s.pc u = .ret true b) : t = u := by
  have hf := first_reach h
  have h1 := (hf.mem t).mp (by rw [ht]; rfl)
  have h2 := (hf.mem u).mp (by rw [hu]; rfl)
  have hl := hf.le
  match hi : s.inits, h1, h2, hl with
  | [x], h1, h2, _ =>
    rw [List.mem_singleton] at h1 h2
    rw [h1, h2]
  | x :: y :: l, _, _, hl => simp at hl

/-- **…and exactly once** if the collection is new (nothing stored, "once" never called): as soon as any addition has returned, one and only one
of them was the first. -/
theorem initialised_exactly_once (J : Job) (loads : Bool) (e0 m0 : Nat) (s : St) (h : Reach J loads (St.begin e0 m0 false true) s)
    (he : s.empty = true) (t : Nat) (f a : Bool) (ht : s.pc t = .ret f a) :
    ∃ u, s.pc u = .ret true true ∨ s.pc u = .ret true false := by
  have hl := locks_reach h
  have hf := first_reach h
  have hover := hl.beyond t (by rw [ht]; rfl)
  have hn := some_first h he hover
  cases hi : s.inits with
  | nil => exact absurd hi hn
  | cons u l =>
    refine ⟨u, ?_⟩
    have hu := (hf.mem u).mpr (by rw [hi]; simp)
    have hnot : (s.pc u).inside = false := by
      cases hx : (s.pc u).inside with
      | false => rfl
      | true => have := (hl.once u).mp hx; rw [hover] at this; cases this
    cases hp : s.pc u with
    | ret f' ok =>
      rw [hp] at hu
      cases f' with
      | false => cases hu
      | true => cases ok <;> simp
    | _ => rw [hp] at hu hnot; first | (cases hu; done) | (cases hnot; done)

/-- a first element that succeeded has set the start -/
theorem first_sets {J : Job} {loads : Bool} {e0 m0 : Nat} {once empty : Bool} {s : St} (h : Reach J loads (St.begin e0 m0 once empty) s) :
    ∀ t, s.pc t = .initLayer ∨ s.pc t = .initOut true ∨ s.pc t = .ret true true → s.set = true := by
  induction h with
  | refl => intro t h; rcases h with h | h | h <;> cases h
  | step hr h ih => cases h <;> grind [St.at]

/-- **The start at the end.**  All additions that were begun have returned.  Then every addition that succeeded has a level that is at most the
highest layer, and the search start is
* one of these additions, whose level is the highest layer, or
* the first element, and the highest layer is 0, or
* what it was before, together with the layer of before, and no first element has been added successfully. -/
theorem start_is_highest (J : Job) (e0 m0 : Nat) (once empty : Bool) (s : St) (h : Reach J false (St.begin e0 m0 once empty) s)
    (hend : ∀ t, s.pc t = .idle ∨ ∃ f ok, s.pc t = .ret f ok) :
    (∀ t, s.pc t = .ret false true → J.lev t ≤ s.maxLayer) ∧
    ((∃ t, s.pc t = .ret false true ∧ s.entry = J.id t ∧ s.maxLayer = J.lev t) ∨
     (∃ t ok, s.pc t = .ret true ok ∧ s.entry = J.id t ∧ s.maxLayer = 0) ∨
     (s.entry = e0 ∧ s.maxLayer = m0 ∧ ∀ t, s.pc t ≠ .ret true true)) := by
  have hs := start_reach h
  have hf := first_reach h
  refine ⟨fun t ht => hs.counted t (by rw [ht]; rfl), ?_⟩
  have hp := hs.pair (fun t => by
    rcases hend t with h | ⟨f, ok, h⟩ <;> rw [h] <;> exact ⟨nofun, nofun⟩)
  rcases hp with ⟨h1, h2, h3⟩ | ⟨h1, h2, f, h3, h4⟩ | ⟨t, h1, h2, h3⟩
  · refine .inr (.inr ⟨h2, h3, fun t ht => ?_⟩)
    rw [first_sets h t (.inr (.inr ht))] at h1; cases h1
  · refine .inr (.inl ?_)
    have hi := (hf.mem f).mpr h3
    rcases hend f with hx | ⟨a, ok, hx⟩
    · rw [hx] at hi; cases hi
    · cases a with
      | false => rw [hx] at hi; cases hi
      | true => exact ⟨f, ok, hx, h4, h2⟩
  · refine .inl ⟨t, ?_, h2, h3⟩
    rcases hend t with hx | ⟨a, ok, hx⟩
    · rw [hx] at h1; cases h1
    · rw [hx] at h1 ⊢
      cases a <;> cases ok <;> first | rfl | cases h1

/-- **What each addition starts from belongs together**: the start and the layer an addition reads are those set by one addition (or by the first
element, or those of before), however the reading is interleaved with updates. -/
theorem start_read_is_consistent (J : Job) (e0 m0 : Nat) (once empty : Bool) (s : St) (h : Reach J false (St.begin e0 m0 once empty) s)
    (t e m : Nat) (ht : s.pc t = .linking e m) :
    (e = e0 ∧ m = m0) ∨ (m = 0 ∧ ∃ f, (s.pc f).initial = true ∧ e = J.id f) ∨ ∃ u, u ≠ t ∧ e = J.id u ∧ m = J.lev u := by
  rcases (start_reach h).snap t e m (.inr (.inr ht)) with ⟨_, h2, h3⟩ | ⟨_, h2, f, h3, h4⟩ | ⟨u, h1, h2, h3⟩
  · exact .inl ⟨h2, h3⟩
  · exact .inr (.inl ⟨h2, f, ((first_reach h).mem f).mpr h3, h4⟩)
  · refine .inr (.inr ⟨u, ?_, h2, h3⟩)
    intro e
    rw [e, ht] at h1; cases h1

/-! ## A run of three additions -/

/-- numbers 10, 11, 12 with levels 5 (not used, it is the first), 1, 2 -/
def J : Job := ⟨fun t => 10 + t, fun t => if t = 0 then 5 else t⟩

/-- Thread 0 is first; threads 1 and 2 read the start at the same time and then finish in the order 2, 1. -/
theorem run (loads : Bool) : ∃ s, Reach J loads (St.begin 0 0 false true) s ∧ (∀ t, s.pc t = .idle ∨ ∃ f ok, s.pc t = .ret f ok) ∧
    s.pc 0 = .ret true true ∧ s.pc 1 = .ret false true ∧ s.pc 2 = .ret false true ∧ s.entry = 12 ∧ s.maxLayer = 2 := by
  refine ⟨_, .step (.step (.step (.step (.step (.step (.step (.step (.step (.step (.step (.step (.step (.step (.step (.step (.step (.step
    (.step (.step (.step (.step (.step (.step (.step (.step
    .refl (.enter 0 rfl rfl)) (.probe 0 rfl rfl)) (.first 0 rfl rfl)) (.initLock 0 rfl ⟨rfl, rfl⟩)) (.initSetEntry 0 rfl)) (.initSetLayer 0 rfl))
    (.initUnlock 0 true rfl)) (.initReturn 0 true rfl))
    (.skip 1 rfl rfl)) (.skip 2 rfl rfl)) (.rlock 1 rfl rfl)) (.rlock 2 rfl rfl)) (.readEntry 1 rfl)) (.readEntry 2 rfl)) (.readLayer 1 10 rfl))
    (.readLayer 2 10 rfl)) (.growLock 1 10 0 rfl ⟨rfl, rfl⟩)) (.growUnlock 1 10 0 rfl)) (.growLock 2 10 0 rfl ⟨rfl, rfl⟩)) (.growUnlock 2 10 0 rfl))
    (.finLock 2 10 0 rfl ⟨rfl, rfl⟩)) (.finSetEntry 2 rfl (by decide))) (.finSetLayer 2 rfl)) (.finUnlock 2 rfl))
    (.finLock 1 10 0 rfl ⟨rfl, rfl⟩)) (.finLow 1 rfl (by decide)), ?_, rfl, rfl, rfl, rfl, rfl⟩
  intro t
  match t with
  | 0 => exact .inr ⟨true, true, rfl⟩
  | 1 => exact .inr ⟨false, true, rfl⟩
  | 2 => exact .inr ⟨false, true, rfl⟩
  | t + 3 => left; simp [St.at, St.begin]

/-- **With a search under way this is lost**: `LoadEntrypoint` sets the start to the stored one, while the highest layer stays.  In the
run of the example, a search finding nothing stored sets the start to 0, which is none of the additions. -/
theorem search_breaks_start : ∃ s, Reach J true (St.begin 0 0 false true) s ∧ (∀ t, s.pc t = .idle ∨ ∃ f ok, s.pc t = .ret f ok) ∧
    s.pc 2 = .ret false true ∧ s.maxLayer = 2 ∧ ∀ t, s.entry ≠ J.id t := by
  obtain ⟨s, h1, h2, h3, h4, h5, h6, h7⟩ := run true
  have hw : s.writer = none := by
    cases hw : s.writer with
    | none => rfl
    | some t =>
      have := ((locks_reach h1).writer t).mpr hw
      rcases h2 t with h | ⟨f, ok, h⟩ <;> rw [h] at this <;> cases this
  refine ⟨{ s with entry := 0 }, .step h1 (.load 0 rfl hw), h2, h5, h7, fun t ht => ?_⟩
  have : (0 : Nat) = 10 + t := ht
  omega

example : ∃ (s : St) (t : Nat), Reach J false (St.begin 0 0 false true) s ∧ s.pc t = .ret false true ∧ J.lev t = s.maxLayer := by
  obtain ⟨s, h1, _, _, _, h5, _, h7⟩ := run false
  exact ⟨s, 2, h1, h5, by rw [h7]; rfl⟩

/-- an addition that works from the first element while a higher one is added -/
example : ∃ s, Reach J false (St.begin 0 0 true false) s ∧ s.pc 1 = .linking 0 0 ∧ s.pc 2 = .linking 0 0 ∧ s.entry = 0 := by
  refine ⟨_, .step (.step (.step (.step (.step (.step (.step (.step (.step (.step (.step (.step
    .refl (.skip 1 rfl rfl)) (.skip 2 rfl rfl)) (.rlock 1 rfl rfl)) (.rlock 2 rfl rfl)) (.readEntry 1 rfl)) (.readEntry 2 rfl)) (.readLayer 1 0 rfl))
    (.readLayer 2 0 rfl)) (.growLock 1 0 0 rfl ⟨rfl, rfl⟩)) (.growUnlock 1 0 0 rfl)) (.growLock 2 0 0 rfl ⟨rfl, rfl⟩)) (.growUnlock 2 0 0 rfl),
    rfl, rfl, rfl⟩

end Fave.C41
