import Verif.Model.BufWriter
/-!
# The buffered writer: one call at a time
-/
namespace Fave
namespace BufW
open Log (Bytes)

/-- everything accepted so far -/
def Writer.total (w : Writer) : Bytes := w.file ++ w.buf

structure Writer.Ok (w : Writer) : Prop where
  pos : 0 < w.cap
  fits : w.buf.length ≤ w.cap

/-- one step from `w` to `w'` that accepts `p` -/
structure Step (w w' : Writer) (p : Bytes) : Prop where
  total : w'.total = w.total ++ p
  ok : w.Ok → w'.Ok
  cap : w'.cap = w.cap
  /-- the file only grows -/
  file : ∃ x, w'.file = w.file ++ x

theorem Step.refl (w : Writer) : Step w w [] := ⟨by simp, fun h => h, rfl, [], by simp⟩

theorem Step.trans {a b c : Writer} {p q : Bytes} (h1 : Step a b p) (h2 : Step b c q) : Step a c (p ++ q) := by
  obtain ⟨x, hx⟩ := h1.file
  obtain ⟨y, hy⟩ := h2.file
  exact ⟨by rw [h2.total, h1.total, List.append_assoc], fun h => h2.ok (h1.ok h), by rw [h2.cap, h1.cap],
    x ++ y, by rw [hy, hx, List.append_assoc]⟩

/-- appending to the buffer -/
theorem Step.buffer (w : Writer) (p : Bytes) (h : p.length ≤ w.available) : Step w { w with buf := w.buf ++ p } p := by
  refine ⟨by simp [Writer.total], fun ho => ⟨ho.pos, ?_⟩, rfl, [], by simp⟩
  have := ho.fits
  unfold Writer.available at h
  simp only [List.length_append]; omega

theorem fileWrite_le (ans : Answers) (w : Writer) (p : Bytes) : (fileWrite ans w p).1 ≤ p.length := by
  show min _ _ ≤ _; omega

theorem fileWrite_full {ans : Answers} {w : Writer} {p : Bytes} (h : (fileWrite ans w p).2.1 = none) :
    (fileWrite ans w p).1 = p.length := by
  have hle := fileWrite_le ans w p
  unfold fileWrite at h hle ⊢
  dsimp only at h hle ⊢
  cases ha : (ans w.calls).2 with
  | some e => rw [ha] at h; cases h
  | none =>
    rw [ha] at h
    dsimp only at h
    by_cases hl : min (ans w.calls).1 p.length < p.length
    · rw [if_pos hl] at h; cases h
    · omega

theorem fileWrite_state (ans : Answers) (w : Writer) (p : Bytes) : (fileWrite ans w p).2.2 =
    { w with file := w.file ++ p.take (fileWrite ans w p).1, calls := w.calls + 1 } := rfl

theorem flush_spec (ans : Answers) (w : Writer) :
    Step w (flush ans w).1 [] ∧ (flush ans w).2 = (flush ans w).1.err ∧
    ((flush ans w).1.err = none → (flush ans w).1.buf = []) ∧
    (w.err ≠ none → (flush ans w).1 = w ∧ (flush ans w).2 = w.err) := by
  unfold flush
  by_cases he : w.err = none
  · rw [if_neg (by simp [he])]
    by_cases hb : w.buf.length = 0
    · rw [if_pos hb]
      exact ⟨Step.refl w, he.symm, fun _ => by simpa using hb, fun h => absurd he h⟩
    · rw [if_neg hb]
      have hle := fileWrite_le ans w w.buf
      have hfull := @fileWrite_full ans w w.buf
      have hst := fileWrite_state ans w w.buf
      generalize fileWrite ans w w.buf = z at hle hfull hst
      obtain ⟨n, e, w1⟩ := z
      dsimp only at hle hfull hst ⊢
      subst hst
      have hstep : ∀ e', Step w { w with file := w.file ++ w.buf.take n, calls := w.calls + 1, buf := w.buf.drop n, err := e' } [] := by
        intro e'
        refine ⟨?_, fun ho => ⟨ho.pos, ?_⟩, rfl, _, rfl⟩
        · simp [Writer.total]
        · have := ho.fits
          simp only [List.length_drop]; omega
      cases e with
      | some e =>
        rw [show (if n < w.buf.length ∧ some e = none then some WErr.short else some e) = some e from if_neg (by simp),
          if_pos (by simp)]
        exact ⟨hstep _, rfl, by simp, fun h => absurd he h⟩
      | none =>
        have hn := hfull rfl
        rw [show (if n < w.buf.length ∧ (none : Option WErr) = none then some WErr.short else none) = none from if_neg (by omega),
          if_neg (by simp)]
        subst hn
        refine ⟨?_, he.symm, fun _ => rfl, fun h => absurd he h⟩
        have := hstep w.err
        rwa [List.drop_length] at this
  · rw [if_pos he]
    exact ⟨Step.refl w, rfl, fun h => absurd h he, fun _ => ⟨rfl, rfl⟩⟩

/-- what a loop does -/
structure LoopSpec (w : Writer) (p : Bytes) (nn : Nat) (r : Writer × Bytes × Nat) : Prop where
  le : nn ≤ r.2.2
  bound : r.2.2 - nn ≤ p.length
  rest : r.2.1 = p.drop (r.2.2 - nn)
  step : Step w r.1 (p.take (r.2.2 - nn))
  stuck : w.err ≠ none → r = (w, p, nn)

theorem LoopSpec.stop (w : Writer) (p : Bytes) (nn : Nat) : LoopSpec w p nn (w, p, nn) :=
  ⟨Nat.le_refl _, by simp, by simp, by simpa using Step.refl w, fun _ => rfl⟩

theorem LoopSpec.next {w w1 : Writer} {p : Bytes} {nn n : Nat} {r : Writer × Bytes × Nat} (he : w.err = none) (hn : n ≤ p.length)
    (h1 : Step w w1 (p.take n)) (h2 : LoopSpec w1 (p.drop n) (nn + n) r) : LoopSpec w p nn r := by
  have hle := h2.le
  have hb := h2.bound
  rw [List.length_drop] at hb
  refine ⟨by omega, by omega, ?_, ?_, fun h => absurd he h⟩
  · rw [h2.rest, List.drop_drop]; congr 1; omega
  · have := h1.trans h2.step
    have e : p.take (r.2.2 - nn) = p.take n ++ (p.drop n).take (r.2.2 - (nn + n)) := by
      have : r.2.2 - nn = n + (r.2.2 - (nn + n)) := by omega
      rw [this, List.take_add]
    rw [e]; exact this

theorem writeLoop_spec (ans : Answers) (fuel : Nat) (w : Writer) (p : Bytes) (nn : Nat) :
    LoopSpec w p nn (writeLoop ans fuel w p nn) := by
  induction fuel generalizing w p nn with
  | zero => exact LoopSpec.stop w p nn
  | succ fuel ih =>
    unfold writeLoop
    by_cases hc : p.length > w.available ∧ w.err = none
    · rw [if_pos hc]
      by_cases hb : w.buf.length = 0
      · rw [if_pos hb]
        have hle := fileWrite_le ans w p
        have hst := fileWrite_state ans w p
        generalize fileWrite ans w p = z at hle hst
        obtain ⟨n, e, w1⟩ := z
        dsimp only at hle hst ⊢
        subst hst
        refine LoopSpec.next hc.2 hle ?_ (ih _ _ _)
        have hnil : w.buf = [] := by simpa using hb
        refine ⟨?_, fun ho => ⟨ho.pos, ho.fits⟩, rfl, _, rfl⟩
        simp [Writer.total, hnil]
      · rw [if_neg hb]
        refine LoopSpec.next hc.2 (Nat.min_le_right _ _) ?_ (ih _ _ _)
        have h1 := Step.buffer w (p.take (min w.available p.length)) (by simp; omega)
        have h2 := h1.trans (flush_spec ans { w with buf := w.buf ++ p.take (min w.available p.length) }).1
        rwa [List.append_nil] at h2
    · rw [if_neg hc]; exact LoopSpec.stop w p nn

theorem stringLoop_spec (ans : Answers) (fuel : Nat) (w : Writer) (p : Bytes) (nn : Nat) :
    LoopSpec w p nn (stringLoop ans fuel w p nn) := by
  induction fuel generalizing w p nn with
  | zero => exact LoopSpec.stop w p nn
  | succ fuel ih =>
    unfold stringLoop
    by_cases hc : p.length > w.available ∧ w.err = none
    · rw [if_pos hc]
      refine LoopSpec.next hc.2 (Nat.min_le_right _ _) ?_ (ih _ _ _)
      have h1 := Step.buffer w (p.take (min w.available p.length)) (by simp; omega)
      have h2 := h1.trans (flush_spec ans { w with buf := w.buf ++ p.take (min w.available p.length) }).1
      rwa [List.append_nil] at h2
    · rw [if_neg hc]; exact LoopSpec.stop w p nn

/-- the loops end because their condition fails, not because of the fuel -/
def Done (r : Writer × Bytes × Nat) : Prop := r.1.err = none → r.2.1.length ≤ r.1.available

theorem done_stop {w : Writer} {p : Bytes} {nn : Nat} (h : ¬ (p.length > w.available ∧ w.err = none)) : Done (w, p, nn) := by
  intro he
  dsimp only at he ⊢
  by_cases hp : p.length > w.available
  · exact absurd ⟨hp, he⟩ h
  · omega

theorem writeLoop_done1 {ans : Answers} {w : Writer} {p : Bytes} {nn fuel : Nat} (hb : w.buf = []) :
    Done (writeLoop ans (fuel + 1) w p nn) := by
  unfold writeLoop
  by_cases hc : p.length > w.available ∧ w.err = none
  · rw [if_pos hc, if_pos (by simp [hb])]
    have hle := fileWrite_le ans w p
    have hfull := @fileWrite_full ans w p
    generalize fileWrite ans w p = z at hle hfull
    obtain ⟨n, e, w1⟩ := z
    dsimp only at hle hfull ⊢
    have hst := (writeLoop_spec ans fuel { w1 with err := e } (p.drop n) (nn + n))
    by_cases he : e = none
    · intro _
      rw [hst.rest, List.drop_drop]
      have := hfull he
      simp only [List.length_drop]; omega
    · rw [hst.stuck he]
      intro h; exact absurd h he
  · rw [if_neg hc]; exact done_stop hc

theorem writeLoop_done {ans : Answers} {w : Writer} {p : Bytes} {nn fuel : Nat} : Done (writeLoop ans (fuel + 2) w p nn) := by
  by_cases hb : w.buf = []
  · exact writeLoop_done1 hb
  · unfold writeLoop
    by_cases hc : p.length > w.available ∧ w.err = none
    · rw [if_pos hc, if_neg (by simpa using hb)]
      dsimp only
      have hf := flush_spec ans { w with buf := w.buf ++ p.take (min w.available p.length) }
      generalize (flush ans { w with buf := w.buf ++ p.take (min w.available p.length) }) = z at hf
      by_cases he : z.1.err = none
      · exact writeLoop_done1 (hf.2.2.1 he)
      · have := (writeLoop_spec ans (fuel + 1) z.1 (p.drop (min w.available p.length)) (nn + min w.available p.length)).stuck he
        rw [this]
        intro h; exact absurd h he
    · rw [if_neg hc]; exact done_stop hc

theorem stringLoop_done1 {ans : Answers} {fuel : Nat} {w : Writer} {p : Bytes} {nn : Nat} (ho : w.Ok) (hb : w.err = none → w.buf = [])
    (hf : p.length ≤ fuel) : Done (stringLoop ans (fuel + 1) w p nn) := by
  induction fuel generalizing w p nn with
  | zero =>
    unfold stringLoop
    rw [if_neg (by omega)]
    exact done_stop (by omega)
  | succ fuel ih =>
    unfold stringLoop
    by_cases hc : p.length > w.available ∧ w.err = none
    · rw [if_pos hc]
      have hs := Step.buffer w (p.take (min w.available p.length)) (by simp; omega)
      have hfl := flush_spec ans { w with buf := w.buf ++ p.take (min w.available p.length) }
      have ho' := (hs.trans hfl.1).ok ho
      refine ih ho' hfl.2.2.1 ?_
      have h0 := hb hc.2
      have hp := ho.pos
      have : w.available = w.cap := by simp [Writer.available, h0]
      rw [List.length_drop]; omega
    · rw [if_neg hc]; exact done_stop hc

theorem stringLoop_done {ans : Answers} {w : Writer} {p : Bytes} {nn : Nat} (ho : w.Ok) :
    Done (stringLoop ans (p.length + 2) w p nn) := by
  unfold stringLoop
  by_cases hc : p.length > w.available ∧ w.err = none
  · rw [if_pos hc]
    have hs := Step.buffer w (p.take (min w.available p.length)) (by simp; omega)
    have hfl := flush_spec ans { w with buf := w.buf ++ p.take (min w.available p.length) }
    exact stringLoop_done1 ((hs.trans hfl.1).ok ho) hfl.2.2.1 (by rw [List.length_drop]; omega)
  · rw [if_neg hc]; exact done_stop hc

/-- what one call does: it accepts the first `r.2.1` bytes of `p` -/
structure CallSpec (w : Writer) (p : Bytes) (r : Writer × Nat × Option WErr) : Prop where
  bound : r.2.1 ≤ p.length
  step : Step w r.1 (p.take r.2.1)
  err : r.2.2 = r.1.err
  all : r.2.2 = none → r.2.1 = p.length
  stuck : w.err ≠ none → r = (w, 0, w.err)

theorem finish_spec {w : Writer} {p : Bytes} {r : Writer × Bytes × Nat} (h : LoopSpec w p 0 r) (hd : Done r) :
    CallSpec w p (finish r) := by
  obtain ⟨w1, q, nn⟩ := r
  have h1 := h.bound
  have h2 := h.rest
  have h3 := h.step
  have h4 := h.stuck
  dsimp only [Nat.sub_zero] at h1 h2 h3 h4
  unfold finish
  dsimp only
  by_cases he : w1.err = none
  · rw [if_neg (by simp [he])]
    have h5 := hd he
    dsimp only at h5
    have hmin : min w1.available q.length = q.length := by omega
    rw [hmin]
    have hql : q.length = p.length - nn := by rw [h2, List.length_drop]
    refine ⟨by dsimp only; omega, ?_, he.symm, fun _ => by dsimp only; omega, fun hw => ?_⟩
    · have := h3.trans (Step.buffer w1 (q.take q.length) (by simp; omega))
      have e : p.take (nn + q.length) = p.take nn ++ q.take q.length := by
        rw [List.take_add, ← h2]
      dsimp only
      rw [e]; exact this
    · have := h4 hw
      cases this
      exact absurd he hw
  · rw [if_pos he]
    refine ⟨h1, h3, rfl, fun h => absurd h he, fun hw => ?_⟩
    have := h4 hw
    cases this; rfl

theorem write_spec (ans : Answers) (w : Writer) (p : Bytes) : CallSpec w p (write ans w p) :=
  finish_spec (writeLoop_spec ans 3 w p 0) writeLoop_done

theorem writeString_spec (ans : Answers) (w : Writer) (ho : w.Ok) (p : Bytes) : CallSpec w p (writeString ans w p) :=
  finish_spec (stringLoop_spec ans _ w p 0) (stringLoop_done ho)

theorem CallSpec.mkStuck {w : Writer} {p : Bytes} {w1 : Writer} (h : Step w w1 []) (he : w1.err ≠ none)
    (hs : w.err ≠ none → w1 = w) : CallSpec w p (w1, 0, w1.err) := by
  refine ⟨Nat.zero_le _, by simpa using h, rfl, fun h => absurd h he, fun hw => ?_⟩
  have := hs hw; subst this; rfl

theorem CallSpec.mkBuffer {w w1 : Writer} {p : Bytes} (hw : w.err = none) (h : Step w w1 []) (he : w1.err = none)
    (hp : p.length ≤ w1.available) : CallSpec w p ({ w1 with buf := w1.buf ++ p }, p.length, none) := by
  refine ⟨Nat.le_refl _, ?_, he.symm, fun _ => rfl, fun h => absurd hw h⟩
  have := h.trans (Step.buffer w1 p hp)
  dsimp only
  rw [List.take_length]; exact this

theorem writeByte_spec (ans : Answers) (w : Writer) (ho : w.Ok) (c : UInt8) : CallSpec w [c] (step ans w (.byte c)) := by
  simp only [step]
  unfold writeByte
  by_cases he : w.err = none
  · rw [if_neg (by simp [he])]
    by_cases ha : w.available ≤ 0
    · rw [if_pos ha]
      have hf := flush_spec ans w
      generalize flush ans w = z at hf
      obtain ⟨w1, e⟩ := z
      dsimp only at hf ⊢
      obtain ⟨h1, h2, h3, -⟩ := hf
      subst h2
      cases h5 : w1.err with
      | none =>
        rw [if_neg (by simp)]
        have hav : 1 ≤ w1.available := by
          have := h1.cap; have := ho.pos
          simp [Writer.available, h3 h5]; omega
        have := CallSpec.mkBuffer (p := [c]) he h1 h5 hav
        rw [h5] at this
        exact this
      | some e =>
        rw [if_pos (by simp)]
        dsimp only
        have := CallSpec.mkStuck (p := [c]) h1 (by rw [h5]; simp) fun h => absurd he h
        rwa [h5] at this
    · rw [if_neg ha]
      exact CallSpec.mkBuffer (p := [c]) he (Step.refl w) he (by simp; omega)
  · rw [if_pos he]
    cases h5 : w.err with
    | none => exact absurd h5 he
    | some e =>
      dsimp only
      have := CallSpec.mkStuck (p := [c]) (Step.refl w) he fun _ => rfl
      rwa [h5] at this

/-- the bytes of a code point -/
def runeBytes (r : Int) : Bytes := if r < 128 then [UInt8.ofNat (r % 256).toNat] else utf8 r.toNat

theorem utf8_length (r : Nat) : (utf8 r).length ≤ 4 := by
  unfold utf8
  repeat' split
  all_goals simp

theorem writeRune_spec (ans : Answers) (w : Writer) (ho : w.Ok) (r : Int) : CallSpec w (runeBytes r) (writeRune ans w r) := by
  unfold writeRune runeBytes
  by_cases hr : r < 128
  · rw [if_pos hr, if_pos hr]
    exact writeByte_spec ans w ho (UInt8.ofNat (r % 256).toNat)
  · rw [if_neg hr, if_neg hr]
    have h4 := utf8_length r.toNat
    by_cases he : w.err = none
    · rw [if_neg (by simp [he])]
      by_cases ha : w.available < 4
      · rw [if_pos ha]
        have hf := flush_spec ans w
        generalize flush ans w = z at hf
        obtain ⟨w1, e⟩ := z
        dsimp only at hf ⊢
        obtain ⟨h1, h2, h3, -⟩ := hf
        by_cases h5 : w1.err = none
        · rw [if_neg (by simp [h5])]
          by_cases hb : w1.available < 4
          · rw [if_pos hb]
            have hs := writeString_spec ans w1 (h1.ok ho) (utf8 r.toNat)
            refine ⟨hs.bound, ?_, hs.err, hs.all, fun h => absurd he h⟩
            have := h1.trans hs.step
            rwa [List.nil_append] at this
          · rw [if_neg hb]
            exact CallSpec.mkBuffer he h1 h5 (by omega)
        · rw [if_pos h5]
          exact CallSpec.mkStuck h1 h5 fun h => absurd he h
      · rw [if_neg ha]
        exact CallSpec.mkBuffer he (Step.refl w) he (by omega)
    · rw [if_pos he]
      exact CallSpec.mkStuck (Step.refl w) he fun _ => rfl

end BufW
end Fave
