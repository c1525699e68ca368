import Verif.Model.Conc
/-! Invariants of concurrent additions. -/
namespace Fave.Conc

/-- holds the write lock -/
def Pc.writes : Pc → Bool
  | .initHeld | .initEntry | .initLayer | .growHeld .. | .finHeld | .finEntry | .finLayer => true
  | _ => false

/-- holds the read lock -/
def Pc.reads : Pc → Bool
  | .probing | .rd0 | .rd1 _ => true
  | _ => false

/-- inside the "once" -/
def Pc.inside : Pc → Bool
  | .inOnce | .probing | .initWant | .initHeld | .initEntry | .initLayer | .initOut _ => true
  | _ => false

/-- found itself first -/
def Pc.initial : Pc → Bool
  | .initWant | .initHeld | .initEntry | .initLayer | .initOut _ | .ret true _ => true
  | _ => false

/-- past the "once" -/
def Pc.beyond : Pc → Bool
  | .go | .rd0 | .rd1 _ | .snap .. | .growHeld .. | .linking .. | .finHeld | .finEntry | .finLayer | .ret .. => true
  | _ => false

/-- has compared its level with the highest and set the start if it is higher -/
def Pc.counted : Pc → Bool
  | .finLayer | .ret false true => true
  | _ => false

theorem at_pc (s : St) (t : Nat) (p : Pc) (u : Nat) : (s.at t p).pc u = if u = t then p else s.pc u := rfl

/-- the locks and the "once" do what they are for -/
structure Locks (s : St) : Prop where
  writer : ∀ t, (s.pc t).writes = true ↔ s.writer = some t
  readers : ∀ t, (s.pc t).reads = true ↔ t ∈ s.readers
  nodup : s.readers.Nodup
  excl : s.writer ≠ none → s.readers = []
  once : ∀ t, (s.pc t).inside = true ↔ s.once = .running t
  beyond : ∀ t, (s.pc t).beyond = true → s.once = .over

theorem writer_step {J : Job} {l : Bool} {s s' : St} (h : Step J l s s') (h1 : ∀ t, (s.pc t).writes = true ↔ s.writer = some t) (t : Nat) :
    (s'.pc t).writes = true ↔ s'.writer = some t := by
  cases h <;> grind [Pc.writes, St.at, St.idle]

theorem once_step {J : Job} {l : Bool} {s s' : St} (h : Step J l s s') (h1 : ∀ t, (s.pc t).inside = true ↔ s.once = .running t) (t : Nat) :
    (s'.pc t).inside = true ↔ s'.once = .running t := by
  cases h <;> grind [Pc.inside, St.at]

theorem readers_step {J : Job} {l : Bool} {s s' : St} (h : Step J l s s') (h1 : ∀ t, (s.pc t).reads = true ↔ t ∈ s.readers) (hn : s.readers.Nodup) (t : Nat) :
    (s'.pc t).reads = true ↔ t ∈ s'.readers := by
  cases h <;> grind [Pc.reads, St.at, List.Nodup.mem_erase_iff]

theorem nodup_step {J : Job} {l : Bool} {s s' : St} (h : Step J l s s') (h1 : ∀ t, (s.pc t).reads = true ↔ t ∈ s.readers) (hn : s.readers.Nodup) :
    s'.readers.Nodup := by
  cases h <;> grind [Pc.reads, St.at, List.Nodup.erase]

theorem excl_step {J : Job} {l : Bool} {s s' : St} (h : Step J l s s') (h1 : ∀ t, (s.pc t).writes = true ↔ s.writer = some t)
    (he : s.writer ≠ none → s.readers = []) : s'.writer ≠ none → s'.readers = [] := by
  cases h <;> grind [Pc.writes, St.at, St.idle, St.free]

theorem beyond_step {J : Job} {l : Bool} {s s' : St} (h : Step J l s s') (h1 : ∀ t, (s.pc t).beyond = true → s.once = .over)
    (ho : ∀ t, (s.pc t).inside = true ↔ s.once = .running t) (t : Nat) : (s'.pc t).beyond = true → s'.once = .over := by
  cases h <;> grind [Pc.beyond, Pc.inside, St.at]

theorem locks_step {J : Job} {l : Bool} {s s' : St} (h : Step J l s s') (hi : Locks s) : Locks s' :=
  ⟨writer_step h hi.writer, readers_step h hi.readers hi.nodup, nodup_step h hi.readers hi.nodup, excl_step h hi.writer hi.excl,
    once_step h hi.once, beyond_step h hi.beyond hi.once⟩

theorem locks_begin (e0 m0 : Nat) (o e : Bool) : Locks (St.begin e0 m0 o e) :=
  ⟨fun t => by simp [St.begin, Pc.writes], fun t => by simp [St.begin, Pc.reads], List.nodup_nil, fun h => absurd rfl h,
    fun t => by cases o <;> simp [St.begin, Pc.inside], fun t => by simp [St.begin, Pc.beyond]⟩

theorem locks_reach {J : Job} {l : Bool} {e0 m0 : Nat} {o e : Bool} {s : St} (h : Reach J l (St.begin e0 m0 o e) s) : Locks s := by
  induction h with
  | refl => exact locks_begin ..
  | step _ h ih => exact locks_step h ih

/-- at most one thread finds itself first -/
structure First (s : St) : Prop where
  mem : ∀ t, (s.pc t).initial = true ↔ t ∈ s.inits
  le : s.inits.length ≤ 1
  fresh : s.once = .fresh → s.inits = []
  running : ∀ t, s.once = .running t → ∀ u ∈ s.inits, u = t
  probing : ∀ t, s.pc t = .inOnce ∨ s.pc t = .probing → s.inits = []

theorem first_step {J : Job} {l : Bool} {s s' : St} (h : Step J l s s') (hl : Locks s) (hi : First s) : First s' := by
  obtain ⟨h1, h2, h3, h4, h5⟩ := hi
  have ho := hl.once
  have hb := hl.beyond
  refine ⟨?_, ?_, ?_, ?_, ?_⟩
  · clear h2 hb
    cases h <;> grind [Pc.initial, St.at, Pc.inside]
  · clear hb
    cases h <;> grind [Pc.initial, St.at, Pc.inside]
  · clear h2 hb
    cases h <;> grind [St.at, Pc.inside]
  · clear h2 hb
    cases h <;> grind [St.at, Pc.inside]
  · clear h2 hb
    cases h <;> grind [St.at, Pc.inside]

theorem first_reach {J : Job} {l : Bool} {e0 m0 : Nat} {o e : Bool} {s : St} (h : Reach J l (St.begin e0 m0 o e) s) : First s := by
  induction h with
  | refl =>
    refine ⟨fun t => by simp [St.begin, Pc.initial], Nat.zero_le _, fun _ => rfl, fun t _ u hu => ?_, fun t _ => rfl⟩
    simp [St.begin] at hu
  | step hr h ih => exact first_step h (locks_reach hr) ih

/-- if the "once" was not over at the beginning and the table is still empty, the "once" ends only after a thread has found itself first -/
theorem some_first {J : Job} {l : Bool} {e0 m0 : Nat} {s : St} (h : Reach J l (St.begin e0 m0 false true) s) :
    s.empty = true → s.once = .over → s.inits ≠ [] := by
  induction h with
  | refl => intro _ h; cases h
  | @step s s' hr h ih =>
    have hf := first_reach hr
    have h1 := hf.mem
    clear hf
    cases h <;> grind [St.at, Pc.initial]

/-- the pair of start and highest layer is one that belongs together -/
def Pair (J : Job) (e0 m0 : Nat) (s : St) (e m : Nat) : Prop :=
  (s.set = false ∧ e = e0 ∧ m = m0) ∨ (s.set = true ∧ m = 0 ∧ ∃ f ∈ s.inits, e = J.id f) ∨ ∃ t, (s.pc t).counted = true ∧ e = J.id t ∧ m = J.lev t

/-- the search start -/
structure Start (J : Job) (e0 m0 : Nat) (s : St) : Prop where
  /-- outside the two half-done updates start and layer belong together -/
  pair : (∀ t, s.pc t ≠ .initEntry ∧ s.pc t ≠ .finEntry) → Pair J e0 m0 s s.entry s.maxLayer
  initEntry : ∀ t, s.pc t = .initEntry → s.entry = J.id t
  finEntry : ∀ t, s.pc t = .finEntry → s.entry = J.id t ∧ s.maxLayer < J.lev t
  counted : ∀ t, (s.pc t).counted = true → J.lev t ≤ s.maxLayer
  base : s.set = false → m0 ≤ s.maxLayer
  rd1 : ∀ t e, s.pc t = .rd1 e → e = s.entry
  snap : ∀ t e m, s.pc t = .snap e m ∨ s.pc t = .growHeld e m ∨ s.pc t = .linking e m → Pair J e0 m0 s e m

theorem pair_mono {J : Job} {e0 m0 : Nat} {s s' : St} {e m : Nat} (h : Pair J e0 m0 s e m) (hset : s'.set = s.set)
    (hin : ∀ t ∈ s.inits, t ∈ s'.inits) (hc : ∀ t, (s.pc t).counted = true → (s'.pc t).counted = true) : Pair J e0 m0 s' e m := by
  rcases h with h | ⟨h1, h2, f, h3, h4⟩ | ⟨t, h1, h2⟩
  · exact .inl (by rw [hset]; exact h)
  · exact .inr (.inl ⟨by rw [hset]; exact h1, h2, f, hin f h3, h4⟩)
  · exact .inr (.inr ⟨t, hc t h1, h2⟩)

theorem step_counted {J : Job} {l : Bool} {s s' : St} (h : Step J l s s') (t : Nat) : (s.pc t).counted = true → (s'.pc t).counted = true := by
  cases h <;> grind [St.at, Pc.counted]

theorem step_inits {J : Job} {l : Bool} {s s' : St} (h : Step J l s s') (t : Nat) : t ∈ s.inits → t ∈ s'.inits := by
  cases h <;> grind [St.at]

theorem step_set {J : Job} {l : Bool} {s s' : St} (h : Step J l s s') (ho : ∀ t, (s.pc t).inside = true ↔ s.once = .running t)
    (hover : s.once = .over) : s'.set = s.set := by
  cases h <;> grind [St.at, Pc.inside]

theorem counted_beyond {p : Pc} (h : p.counted = true) : p.beyond = true := by
  cases p with
  | ret f ok => rfl
  | finLayer => rfl
  | _ => cases h

theorem initEntry_step {J : Job} {s s' : St} (h : Step J false s s') (hw : ∀ t, (s.pc t).writes = true ↔ s.writer = some t)
    (p : ∀ t, s.pc t = .initEntry → s.entry = J.id t) (t : Nat) : s'.pc t = .initEntry → s'.entry = J.id t := by
  cases h <;> grind [St.at, Pc.writes]

theorem finEntry_step {J : Job} {s s' : St} (h : Step J false s s') (hw : ∀ t, (s.pc t).writes = true ↔ s.writer = some t)
    (p : ∀ t, s.pc t = .finEntry → s.entry = J.id t ∧ s.maxLayer < J.lev t) (t : Nat) :
    s'.pc t = .finEntry → s'.entry = J.id t ∧ s'.maxLayer < J.lev t := by
  cases h <;> grind [St.at, Pc.writes]

theorem countedLe_step {J : Job} {s s' : St} (h : Step J false s s') (ho : ∀ t, (s.pc t).inside = true ↔ s.once = .running t)
    (hcb : ∀ t, (s.pc t).counted = true → s.once = .over) (p3 : ∀ t, s.pc t = .finEntry → s.entry = J.id t ∧ s.maxLayer < J.lev t)
    (p4 : ∀ t, (s.pc t).counted = true → J.lev t ≤ s.maxLayer) (t : Nat) : (s'.pc t).counted = true → J.lev t ≤ s'.maxLayer := by
  cases h <;> grind [St.at, Pc.counted, Pc.inside]

theorem base_step {J : Job} {m0 : Nat} {s s' : St} (h : Step J false s s') (p3 : ∀ t, s.pc t = .finEntry → s.entry = J.id t ∧ s.maxLayer < J.lev t)
    (p5 : s.set = false → m0 ≤ s.maxLayer) : s'.set = false → m0 ≤ s'.maxLayer := by
  cases h <;> grind [St.at]

theorem rd1_step {J : Job} {s s' : St} (h : Step J false s s') (hw : ∀ t, (s.pc t).writes = true ↔ s.writer = some t)
    (hr : ∀ t, (s.pc t).reads = true ↔ t ∈ s.readers) (hx : s.writer ≠ none → s.readers = [])
    (p : ∀ t e, s.pc t = .rd1 e → e = s.entry) (t e : Nat) : s'.pc t = .rd1 e → e = s'.entry := by
  cases h <;> grind [St.at, Pc.writes, Pc.reads]

theorem taken_step {J : Job} {s s' : St} (h : Step J false s s') (t e m : Nat)
    (hn : ¬ (s.pc t = .snap e m ∨ s.pc t = .growHeld e m ∨ s.pc t = .linking e m))
    (hs : s'.pc t = .snap e m ∨ s'.pc t = .growHeld e m ∨ s'.pc t = .linking e m) : s.pc t = .rd1 e ∧ s.maxLayer = m := by
  cases h <;> grind [St.at]

theorem start_step {J : Job} {e0 m0 : Nat} {s s' : St} (h : Step J false s s') (hl : Locks s) (hf : First s) (hi : Start J e0 m0 s) :
    Start J e0 m0 s' := by
  have hw := hl.writer
  have hr := hl.readers
  have hx := hl.excl
  have ho := hl.once
  have hb := hl.beyond
  have hm := hf.mem
  have hcb : ∀ t, (s.pc t).counted = true → s.once = .over := fun t ht => hb t (counted_beyond ht)
  have hsc := step_counted h
  have hsi := step_inits h
  have hss := step_set h ho
  obtain ⟨p1, p2, p3, p4, p5, p6, p7⟩ := hi
  -- a step that changes neither of the three
  have keep : s'.entry = s.entry → s'.maxLayer = s.maxLayer → s'.set = s.set →
      (∀ t, (s'.pc t ≠ .initEntry ∧ s'.pc t ≠ .finEntry) → (s.pc t ≠ .initEntry ∧ s.pc t ≠ .finEntry)) →
      ((∀ t, s'.pc t ≠ .initEntry ∧ s'.pc t ≠ .finEntry) → Pair J e0 m0 s' s'.entry s'.maxLayer) := by
    intro e1 e2 e3 e4 h5
    rw [e1, e2]
    exact pair_mono (p1 fun t => e4 t (h5 t)) e3 hsi hsc
  have back : ∀ (t : Nat) (q : Pc), s.pc t ≠ .initEntry → s.pc t ≠ .finEntry → ∀ u, ((s.at t q).pc u ≠ .initEntry ∧ (s.at t q).pc u ≠ .finEntry) →
      (s.pc u ≠ .initEntry ∧ s.pc u ≠ .finEntry) := by
    intro t q h1 h2 u hu
    by_cases e : u = t
    · subst e; exact ⟨h1, h2⟩
    · rw [at_pc, if_neg e] at hu; exact hu
  refine ⟨?_, ?_, ?_, ?_, ?_, ?_, ?_⟩
  · clear p4 p5 p6 p7 hw hr hx ho hb hcb
    cases h
    case initSetEntry t hp =>
      intro h1
      have := (h1 t).1
      simp [at_pc] at this
    case finSetEntry t hp _ =>
      intro h1
      have := (h1 t).2
      simp [at_pc] at this
    case initSetLayer t hp =>
      intro _
      refine .inr (.inl ⟨rfl, rfl, t, ?_, p2 t hp⟩)
      exact (hm t).mp (by rw [hp]; rfl)
    case finSetLayer t hp =>
      intro _
      refine .inr (.inr ⟨t, ?_, (p3 t hp).1, rfl⟩)
      show ((s.at t .finLayer).pc t).counted = true
      rw [at_pc, if_pos rfl]; rfl
    case load e he _ => cases he
    case stored => exact keep rfl rfl rfl fun _ h => h
    all_goals
      refine keep rfl rfl rfl (back _ _ ?_ ?_) <;> simp_all
  · exact initEntry_step h hw p2
  · exact finEntry_step h hw p3
  · exact countedLe_step h ho hcb p3 p4
  · exact base_step h p3 p5
  · exact rd1_step h hw hr hx p6
  · -- a snapshot is kept
    intro t e m hsnap
    have hold : (s.pc t = .snap e m ∨ s.pc t = .growHeld e m ∨ s.pc t = .linking e m) → Pair J e0 m0 s' e m := by
      intro ht
      refine pair_mono (p7 t e m ht) (hss ?_) hsi hsc
      apply hb t
      rcases ht with ht | ht | ht <;> rw [ht] <;> rfl
    by_cases ht : s.pc t = .snap e m ∨ s.pc t = .growHeld e m ∨ s.pc t = .linking e m
    · exact hold ht
    -- it has just been taken
    have htaken := taken_step h t e m ht hsnap
    obtain ⟨h1, h2⟩ := htaken
    have he := p6 t e h1
    subst he h2
    refine pair_mono (p1 fun u => ?_) (hss (hb t (by rw [h1]; rfl))) hsi hsc
    have hrd : t ∈ s.readers := (hr t).mp (by rw [h1]; rfl)
    have hnw : s.writer = none := by
      cases hwr : s.writer with
      | none => rfl
      | some u => rw [hx (by rw [hwr]; nofun)] at hrd; cases hrd
    have hnu : (s.pc u).writes = false := by
      cases hu : (s.pc u).writes with
      | false => rfl
      | true => rw [(hw u).mp hu] at hnw; cases hnw
    constructor
    · intro hu; rw [hu] at hnu; cases hnu
    · intro hu; rw [hu] at hnu; cases hnu

theorem start_reach {J : Job} {e0 m0 : Nat} {o e : Bool} {s : St} (h : Reach J false (St.begin e0 m0 o e) s) : Start J e0 m0 s := by
  induction h with
  | refl =>
    refine ⟨fun _ => .inl ⟨rfl, rfl, rfl⟩, nofun, nofun, nofun, fun _ => Nat.le_refl _, nofun, fun t e m h => ?_⟩
    rcases h with h | h | h <;> cases h
  | step hr h ih => exact start_step h (locks_reach hr) (first_reach hr) ih

end Fave.Conc
