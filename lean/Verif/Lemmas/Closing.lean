import Verif.Model.Closing
namespace Fave.Closing

theorem Steps.trans {a b c : Sys} (h : Steps a b) (k : Steps b c) : Steps a c := by
  induction k with
  | refl => exact h
  | step _ s ih => exact .step ih s

/-- holds in every state of an index -/
structure Inv (s : Sys) : Prop where
  /-- a watcher is stopped exactly if one `drop` has returned -/
  count : ∀ x, s.dropped x = if s.watch x = .stopped then 1 else 0
  writer : ∀ t, (s.pc t).locked = true ↔ s.writer = some t
  readers : ∀ t, s.pc t = .using ↔ t ∈ s.readers
  nodup : s.readers.Nodup
  apart : s.writer ≠ none → s.readers = []
  active : ∀ t, (s.pc t).inRun = true ↔ t ∈ s.active
  actNodup : s.active.Nodup
  /-- `Compress` drops the plain cache, after setting the mark -/
  plain : ∀ t x, s.pc t = .clear x .compress ∨ s.pc t = .send x .compress → x = .plain ∧ s.compressed = true
  doneC : ∀ t, s.pc t = .done .compress → s.compressed = true ∧ s.watch .plain = .stopped
  coded : ∀ t c, s.pc t = .clear .coded c ∨ s.pc t = .send .coded c → s.compressed = true
  /-- not compressed: the other watcher is running -/
  other : s.compressed = false → s.watch .coded ≠ .stopped
  closing : ∀ t, (s.pc t).inClose = true → s.closes ≠ 0
  ended : s.closed ≠ 0 → s.closes ≠ 0

theorem inv_fresh : Inv fresh := by
  constructor <;> simp [fresh, Pc.locked, Pc.inRun, Pc.inClose]

set_option maxHeartbeats 1000000 in
theorem inv_step {s u : Sys} (h : Inv s) (k : Step s u) : Inv u := by
  obtain ⟨h1, h2, h3, h4, h5, h6, h7, h8, h9, h10, h11, h12, h13⟩ := h
  cases k with
  | clear t x c hp => cases c <;> cases x <;> (constructor <;> simp only [Sys.goto, Sys.setWatch, Sys.used] <;> grind [Pc.locked, Pc.inRun, Pc.inClose])
  | send t x c hp hw =>
    have a := h10 t c
    have b := h8 t x
    cases c <;> cases x <;> (constructor <;> simp only [Sys.goto, Sys.setWatch, Sys.used] <;> grind [Pc.locked, Pc.inRun, Pc.inClose])
  | _ => constructor <;> simp only [Sys.goto, Sys.setWatch, Sys.used] <;> grind [Pc.locked, Pc.inRun, Pc.inClose]

theorem inv_steps {s u : Sys} (h : Inv s) (k : Steps s u) : Inv u := by
  induction k with
  | refl => exact h
  | step _ e ih => exact inv_step ih e

theorem mixed_step {s u : Sys} (k : Step s u) (h : u.mixed = false) : s.mixed = false := by
  cases k <;> simp_all [Sys.goto, Sys.setWatch]

/-- not in `Drop`, `Shutdown` or `Compress` -/
def Pc.free : Pc → Bool
  | .idle | .wanting | .using => true
  | _ => false

/-- what has been done with an index that is used in order -/
inductive Phase where
  | new | fitting | marked | moved | compressed | closing | dropped | closed | closingC | droppedC | closedC

/-- where the one goroutine is that closes or compresses -/
def Phase.at : Phase → Pc → Bool
  | .new, p | .compressed, p | .closed, p | .closedC, p => p.free
  | .fitting, p => p = .fitting || p = .storing
  | .marked, p => p = .clear .plain .compress || p = .send .plain .compress
  | .moved, p => p = .done .compress
  | .closing, p => p = .closing || p = .clear .plain .close || p = .send .plain .close
  | .closingC, p => p = .closing || p = .clear .coded .close || p = .send .coded .close
  | .dropped, p | .droppedC, p => p = .done .close

/-- the mark, whether the watchers have gone, the number of closings begun and returned -/
def Phase.facts : Phase → Bool × Bool × Bool × Nat × Nat
  | .new | .fitting => (false, false, false, 0, 0)
  | .marked => (true, false, false, 0, 0)
  | .moved | .compressed => (true, true, false, 0, 0)
  | .closing => (false, false, false, 1, 0)
  | .dropped => (false, true, false, 1, 0)
  | .closed => (false, true, false, 1, 1)
  | .closingC => (true, true, false, 1, 0)
  | .droppedC => (true, true, true, 1, 0)
  | .closedC => (true, true, true, 1, 1)

/-- what a state says about the same -/
def Sys.facts (s : Sys) : Bool × Bool × Bool × Nat × Nat :=
  (s.compressed, decide (s.watch .plain = .stopped), decide (s.watch .coded = .stopped), s.closes, s.closed)

/-- holds as long as no call came at a wrong time -/
def Orderly (s : Sys) (ph : Phase) (t : Nat) : Prop := (∀ u, u ≠ t → (s.pc u).free = true) ∧ ph.at (s.pc t) = true ∧ s.facts = ph.facts

theorem orderly_fresh : Orderly fresh .new 0 := ⟨fun _ _ => rfl, rfl, rfl⟩

theorem free_run {p : Pc} (h : p.free = true) : p.inRun = false := by cases p <;> simp_all [Pc.free, Pc.inRun]

theorem free_locked {p : Pc} (h : p.free = true) (k : p.locked = true) : False := by cases p <;> simp_all [Pc.free, Pc.locked]

theorem active_empty {s : Sys} {ph : Phase} {t : Nat} (hi : Inv s) (h : Orderly s ph t) (he : s.active = []) : (s.pc t).inRun = false := by
  have := hi.active t
  rw [he] at this
  simpa using this

theorem facts_goto (s : Sys) (t : Nat) (p : Pc) : (s.goto t p).facts = s.facts := rfl

/-- a call begins in order only if nothing is going on and the index has not been closed -/
theorem begins {s : Sys} {ph : Phase} {t : Nat} (hi : Inv s) (h : Orderly s ph t) (h0 : s.closes = 0) (ha : s.active = []) :
    ph = .new ∨ ph = .compressed := by
  have hr := active_empty hi h ha
  obtain ⟨_, h2, h3⟩ := h
  have h4 : ph.facts.2.2.2.1 = 0 := by rw [← h3]; exact h0
  cases ph <;> simp_all [Phase.facts, Phase.at]
  · rcases h2 with h2 | h2 <;> rw [h2] at hr <;> cases hr
  · rcases h2 with h2 | h2 <;> rw [h2] at hr <;> cases hr
  · cases hr

theorem only {s : Sys} {ph : Phase} {t u : Nat} (h : Orderly s ph t) (hu : (s.pc u).free = false) : u = t := by
  by_cases e : u = t
  · exact e
  · rw [h.1 u e] at hu; cases hu

theorem still {s : Sys} {ph : Phase} {t u : Nat} {p : Pc} (h : Orderly s ph t) (hu : (s.pc u).free = true) (hp : p.free = true) :
    Orderly (s.goto u p) ph t := by
  obtain ⟨h1, h2, h3⟩ := h
  refine ⟨?_, ?_, h3⟩
  · intro v hv
    show (if v = u then p else s.pc v).free = true
    split
    · exact hp
    · exact h1 v hv
  · show ph.at (if t = u then p else s.pc t) = true
    split
    · rename_i e
      subst e
      cases ph <;> simp only [Phase.at] at h2 ⊢ <;> first | exact hp | (cases hq : s.pc t <;> simp_all [Pc.free])
    · exact h2

theorem others {s : Sys} {ph : Phase} {t u : Nat} (h : Orderly s ph t) (hf : u = t ∨ (s.pc t).free = true) (p : Pc) :
    ∀ v, v ≠ u → ((s.goto u p).pc v).free = true := by
  intro v hv
  show (if v = u then p else s.pc v).free = true
  rw [if_neg hv]
  by_cases e : v = t
  · subst e
    rcases hf with rfl | hf
    · exact absurd rfl hv
    · exact hf
  · exact h.1 v e

theorem here (s : Sys) (t : Nat) (p : Pc) : (s.goto t p).pc t = p := by simp [Sys.goto]

theorem orderly_step {s u : Sys} {ph : Phase} {t : Nat} (hi : Inv s) (h : Orderly s ph t) (k : Step s u) (hm : u.mixed = false) :
    ∃ ph' t', Orderly u ph' t' := by
  have h3 := h.2.2
  cases k with
  | close v hp =>
    simp only [Bool.or_eq_false_iff, decide_eq_false_iff_not, Decidable.not_not, Bool.not_eq_false', List.isEmpty_iff] at hm
    obtain ⟨⟨_, h0⟩, ha⟩ := hm
    rcases begins hi h h0 ha with rfl | rfl
    · exact ⟨.closing, v, others h (.inr h.2.1) _, by simp [here, Phase.at], by simp_all [Sys.facts, Phase.facts, Sys.goto]⟩
    · exact ⟨.closingC, v, others h (.inr h.2.1) _, by simp [here, Phase.at], by simp_all [Sys.facts, Phase.facts, Sys.goto]⟩
  | begin v hp hc =>
    simp only [Bool.or_eq_false_iff, decide_eq_false_iff_not, Decidable.not_not, Bool.not_eq_false', List.isEmpty_iff] at hm
    obtain ⟨⟨_, h0⟩, ha⟩ := hm
    rcases begins hi h h0 ha with rfl | rfl
    · exact ⟨.fitting, v, others h (.inr h.2.1) _, by simp [here, Phase.at], by simp_all [Sys.facts, Phase.facts, Sys.goto]⟩
    · simp [Sys.facts, Phase.facts, hc] at h3
  | want v hp => exact ⟨ph, t, still h (by rw [hp]; rfl) rfl⟩
  | enter v hp => exact ⟨ph, t, still h (by rw [hp]; rfl) rfl⟩
  | leave v hp => exact ⟨ph, t, still h (by rw [hp]; rfl) rfl⟩
  | tick x hw =>
    refine ⟨ph, t, h.1, h.2.1, ?_⟩
    rw [← h3]
    cases x <;> simp [Sys.facts, Sys.setWatch, hw]
  | back x hw =>
    refine ⟨ph, t, h.1, h.2.1, ?_⟩
    rw [← h3]
    cases x <;> simp [Sys.facts, Sys.setWatch, hw]
  | choose v hp =>
    obtain rfl := only h (u := v) (by rw [hp]; rfl)
    have h2 := h.2.1
    cases ph <;> simp [Phase.at, hp, Pc.free] at h2
    · exact ⟨.closing, v, others h (.inl rfl) _, by simp_all [here, Phase.at, Sys.facts, Phase.facts, Sys.used], h3⟩
    · exact ⟨.closingC, v, others h (.inl rfl) _, by simp_all [here, Phase.at, Sys.facts, Phase.facts, Sys.used], h3⟩
  | clear v x c hp =>
    obtain rfl := only h (u := v) (by rw [hp]; rfl)
    have h2 := h.2.1
    refine ⟨ph, v, others h (.inl rfl) _, ?_, h3⟩
    cases ph <;> simp [Phase.at, hp, Pc.free] at h2 <;> simp [here, Phase.at, h2]
  | send v x c hp hw =>
    obtain rfl := only h (u := v) (by rw [hp]; rfl)
    have h2 := h.2.1
    cases ph <;> simp [Phase.at, hp, Pc.free] at h2 <;> obtain ⟨rfl, rfl⟩ := h2
    · exact ⟨.moved, v, others h (.inl rfl) _, by simp [Sys.setWatch, here, Phase.at], by simp_all [Sys.facts, Phase.facts, Sys.goto, Sys.setWatch]⟩
    · exact ⟨.dropped, v, others h (.inl rfl) _, by simp [Sys.setWatch, here, Phase.at], by simp_all [Sys.facts, Phase.facts, Sys.goto, Sys.setWatch]⟩
    · exact ⟨.droppedC, v, others h (.inl rfl) _, by simp [Sys.setWatch, here, Phase.at], by simp_all [Sys.facts, Phase.facts, Sys.goto, Sys.setWatch]⟩
  | closed v hp =>
    obtain rfl := only h (u := v) (by rw [hp]; rfl)
    have h2 := h.2.1
    cases ph <;> simp [Phase.at, hp, Pc.free] at h2
    · exact ⟨.closed, v, others h (.inl rfl) _, by simp [here, Phase.at, Pc.free], by simp_all [Sys.facts, Phase.facts, Sys.goto]⟩
    · exact ⟨.closedC, v, others h (.inl rfl) _, by simp [here, Phase.at, Pc.free], by simp_all [Sys.facts, Phase.facts, Sys.goto]⟩
  | fail v hp =>
    obtain rfl := only h (u := v) (by rw [hp]; rfl)
    have h2 := h.2.1
    cases ph <;> simp [Phase.at, hp, Pc.free] at h2
    exact ⟨.new, v, others h (.inl rfl) _, by simp [here, Phase.at, Pc.free], h3⟩
  | lock v hp =>
    obtain rfl := only h (u := v) (by rw [hp]; rfl)
    have h2 := h.2.1
    cases ph <;> simp [Phase.at, hp, Pc.free] at h2
    exact ⟨.fitting, v, others h (.inl rfl) _, by simp [here, Phase.at], h3⟩
  | logFail v hp =>
    obtain rfl := only h (u := v) (by rw [hp]; rfl)
    have h2 := h.2.1
    cases ph <;> simp [Phase.at, hp, Pc.free] at h2
    exact ⟨.new, v, others h (.inl rfl) _, by simp [here, Phase.at, Pc.free], h3⟩
  | mark v hp =>
    obtain rfl := only h (u := v) (by rw [hp]; rfl)
    have h2 := h.2.1
    cases ph <;> simp [Phase.at, hp, Pc.free] at h2
    exact ⟨.marked, v, others h (.inl rfl) _, by simp [here, Phase.at], by simp_all [Sys.facts, Phase.facts, Sys.goto]⟩
  | unlock v hp =>
    obtain rfl := only h (u := v) (by rw [hp]; rfl)
    have h2 := h.2.1
    cases ph <;> simp [Phase.at, hp, Pc.free] at h2
    exact ⟨.compressed, v, others h (.inl rfl) _, by simp [here, Phase.at, Pc.free], h3⟩

theorem orderly {s : Sys} (k : Steps fresh s) (hm : s.mixed = false) : ∃ ph t, Orderly s ph t := by
  induction k with
  | refl => exact ⟨_, _, orderly_fresh⟩
  | step k e ih =>
    obtain ⟨ph, t, h⟩ := ih (mixed_step e hm)
    exact orderly_step (inv_steps inv_fresh k) h e hm

/-- goroutine `t` goes on, the others stay where they are; no new calls, no failures -/
structure Quiet (t : Nat) (s u : Sys) : Prop where
  steps : Steps s u
  pcs : ∀ v, v ≠ t → u.pc v = s.pc v
  calls : u.calls = s.calls
  failed : u.failed = s.failed

theorem Quiet.trans {t : Nat} {a b c : Sys} (h : Quiet t a b) (k : Quiet t b c) : Quiet t a c :=
  ⟨h.steps.trans k.steps, fun v hv => (k.pcs v hv).trans (h.pcs v hv), k.calls.trans h.calls, k.failed.trans h.failed⟩

theorem Quiet.refl (t : Nat) (s : Sys) : Quiet t s s := ⟨.refl _, fun _ _ => rfl, rfl, rfl⟩

theorem goto_ne (s : Sys) {t v : Nat} (p : Pc) (h : v ≠ t) : (s.goto t p).pc v = s.pc v := by simp [Sys.goto, h]

theorem fin_done {s : Sys} {t : Nat} {c : Caller} (h : s.pc t = .done c) : ∃ u, Quiet t s u ∧ u.pc t = .idle := by
  cases c
  · exact ⟨_, ⟨.step (.refl _) (.closed s t h), fun v hv => goto_ne s _ hv, rfl, rfl⟩, here s t _⟩
  · exact ⟨_, ⟨.step (.refl _) (.unlock s t h), fun v hv => goto_ne s _ hv, rfl, rfl⟩, here s t _⟩

theorem fin_send {s : Sys} {t : Nat} {x : Which} {c : Caller} (h : s.pc t = .send x c) (hw : s.watch x ≠ .stopped) :
    ∃ u, Quiet t s u ∧ u.pc t = .idle := by
  have key : ∀ s : Sys, s.pc t = .send x c → s.watch x = .waiting → ∃ u, Quiet t s u ∧ u.pc t = .idle := by
    intro s h hw
    obtain ⟨u, a, b⟩ := fin_done (s := { (s.goto t (.done c)).setWatch x .stopped with
      dropped := fun y => if y = x then s.dropped x + 1 else s.dropped y }) (t := t) (c := c) (here s t _)
    exact ⟨u, Quiet.trans ⟨.step (.refl _) (.send s t x c h hw), fun v hv => goto_ne s _ hv, rfl, rfl⟩ a, b⟩
  cases hx : s.watch x with
  | waiting => exact key s h hx
  | stopped => exact absurd hx hw
  | replacing =>
    obtain ⟨u, a, b⟩ := key (s.setWatch x .waiting) h (by simp [Sys.setWatch])
    exact ⟨u, Quiet.trans ⟨.step (.refl _) (.back s x hx), fun _ _ => rfl, rfl, rfl⟩ a, b⟩

theorem fin_clear {s : Sys} {t : Nat} {x : Which} {c : Caller} (h : s.pc t = .clear x c) (hw : s.watch x ≠ .stopped) :
    ∃ u, Quiet t s u ∧ u.pc t = .idle := by
  obtain ⟨u, a, b⟩ := fin_send (s := s.goto t (.send x c)) (here s t _) hw
  exact ⟨u, Quiet.trans ⟨.step (.refl _) (.clear s t x c h), fun v hv => goto_ne s _ hv, rfl, rfl⟩ a, b⟩

theorem fin_closing {s : Sys} {t : Nat} (h : s.pc t = .closing) (hw : s.watch s.used ≠ .stopped) : ∃ u, Quiet t s u ∧ u.pc t = .idle := by
  obtain ⟨u, a, b⟩ := fin_clear (s := s.goto t (.clear s.used .close)) (here s t _) hw
  exact ⟨u, Quiet.trans ⟨.step (.refl _) (.choose s t h), fun v hv => goto_ne s _ hv, rfl, rfl⟩ a, b⟩

theorem fin_storing {s : Sys} {t : Nat} (h : s.pc t = .storing) (hw : s.watch .plain ≠ .stopped) : ∃ u, Quiet t s u ∧ u.pc t = .idle := by
  obtain ⟨u, a, b⟩ := fin_clear (s := { s.goto t (.clear .plain .compress) with compressed := true }) (here s t _) hw
  exact ⟨u, Quiet.trans ⟨.step (.refl _) (.mark s t h), fun v hv => goto_ne s _ hv, rfl, rfl⟩ a, b⟩

/-- those who hold the lock for reading return -/
theorem drain (n : Nat) : ∀ s : Sys, Inv s → s.readers.length = n → ∃ u, Steps s u ∧ u.readers = [] ∧
    (∀ v, s.pc v ≠ .using → u.pc v = s.pc v) ∧ u.watch = s.watch ∧ u.writer = s.writer ∧ u.calls = s.calls ∧ u.failed = s.failed := by
  induction n with
  | zero => intro s _ h; exact ⟨s, .refl _, List.length_eq_zero_iff.mp h, fun _ _ => rfl, rfl, rfl, rfl, rfl⟩
  | succ n ih =>
    intro s hi h
    cases hr : s.readers with
    | nil => rw [hr] at h; cases h
    | cons t l =>
      have ht : s.pc t = .using := (hi.readers t).mpr (by rw [hr]; simp)
      have k := Step.leave s t ht
      obtain ⟨u, a1, a2, a3, a4, a5, a6, a7⟩ := ih _ (inv_step hi k) (by
        show (s.readers.erase t).length = n
        rw [List.length_erase_of_mem (by rw [hr]; simp)]; omega)
      refine ⟨u, Steps.trans (.step (.refl _) k) a1, a2, ?_, a4, a5, a6, a7⟩
      intro v hv
      have hvt : v ≠ t := by rintro rfl; exact hv ht
      have e : (s.goto t .idle).pc v = s.pc v := goto_ne s _ hvt
      exact (a3 v (by show (s.goto t .idle).pc v ≠ _; rw [e]; exact hv)).trans e

end Fave.Closing
