import Verif.Lemmas.BufWriter
/-!
# C30 — Buffered log writer writes the bytes in order

Full statement: for every sequence of writes and flushes, the bytes in the file followed by the buffered bytes are exactly the bytes
accepted so far, in order; after a write error nothing more is accepted and every later call reports the error.

Proved as stated, for every size of the buffer and every behaviour of the file: `bytes_in_order`, `error_sticks`; a reported
success means the call's bytes were all accepted, and a successful flush that they are all in the file (`success_means_all`,
`flushed`).
-/
namespace Fave.C30
open Fave.BufW
open Fave.Log (Bytes)

/-- the bytes a caller hands over -/
def payload : Call → Bytes
  | .write p => p
  | .byte c => [c]
  | .rune r => runeBytes r
  | .str s => s
  | .flush => []

/-- the bytes the calls reported as written, in order -/
def accepted (calls : List Call) (reports : List (Nat × Option WErr)) : Bytes :=
  (calls.zip reports).flatMap fun x => (payload x.1).take x.2.1

theorem step_spec (ans : Answers) (w : Writer) (ho : w.Ok) (c : Call) : CallSpec w (payload c) (step ans w c) := by
  cases c with
  | write p => exact write_spec ans w p
  | byte c => exact writeByte_spec ans w ho c
  | rune r => exact writeRune_spec ans w ho r
  | str s => exact writeString_spec ans w ho s
  | flush =>
    have hf := flush_spec ans w
    simp only [step]
    generalize flush ans w = z at hf
    obtain ⟨w1, e⟩ := z
    dsimp only at hf ⊢
    obtain ⟨h1, h2, -, h4⟩ := hf
    exact ⟨Nat.le_refl _, h1, h2, fun _ => rfl, fun hw => by obtain ⟨a, b⟩ := h4 hw; rw [a, b]⟩

/-- a writer that has been created and used -/
inductive Reached (ans : Answers) : Writer → Prop where
  | new (size : Int) : Reached ans (newWriterSize size)
  | call {w : Writer} (c : Call) : Reached ans w → Reached ans (step ans w c).1

theorem Reached.ok {ans : Answers} {w : Writer} (h : Reached ans w) : w.Ok := by
  induction h with
  | new size =>
    refine ⟨?_, by simp [newWriterSize]⟩
    simp only [newWriterSize]
    split <;> omega
  | call c _ ih => exact (step_spec ans _ ih c).step.ok ih

theorem run_spec (ans : Answers) {w : Writer} (ho : w.Ok) (calls : List Call) :
    (run ans w calls).1.total = w.total ++ accepted calls (run ans w calls).2 ∧ (run ans w calls).2.length = calls.length := by
  induction calls generalizing w with
  | nil => simp [run, accepted]
  | cons c cs ih =>
    have hs := step_spec ans w ho c
    obtain ⟨h1, h2⟩ := ih (hs.step.ok ho)
    simp only [run]
    refine ⟨?_, by simp [h2]⟩
    rw [h1, hs.step.total, List.append_assoc]
    rfl

/-- A new writer of any size, any calls, any behaviour of the file: file and buffer together are what was accepted, in order; so
the file always holds a beginning of it. -/
theorem bytes_in_order (ans : Answers) (size : Int) (calls : List Call) :
    (run ans (newWriterSize size) calls).1.file ++ (run ans (newWriterSize size) calls).1.buf =
      accepted calls (run ans (newWriterSize size) calls).2 := by
  have := (run_spec ans (Reached.new (ans := ans) size).ok calls).1
  simpa [Writer.total, newWriterSize] using this

/-- A call that reports no error has accepted all its bytes; no call reports more bytes than it was given; the file only grows. -/
theorem success_means_all {ans : Answers} {w : Writer} (h : Reached ans w) (c : Call) :
    ((step ans w c).2.2 = none → (step ans w c).2.1 = (payload c).length) ∧ (step ans w c).2.1 ≤ (payload c).length ∧
    ∃ x, (step ans w c).1.file = w.file ++ x := by
  have hs := step_spec ans w h.ok c
  exact ⟨hs.all, hs.bound, hs.step.file⟩

/-- After an error: every later call, of whatever kind, accepts nothing, changes nothing and reports that same error. -/
theorem error_sticks {ans : Answers} {w : Writer} (h : Reached ans w) (c : Call) {e : WErr} (he : (step ans w c).2.2 = some e)
    (later : List Call) :
    run ans (step ans w c).1 later = ((step ans w c).1, later.map fun _ => (0, some e)) := by
  have h1 := (step_spec ans w h.ok c).err
  rw [he] at h1
  have h2 : Reached ans (step ans w c).1 := h.call c
  generalize (step ans w c).1 = w' at h1 h2
  induction later with
  | nil => rfl
  | cons d ds ih =>
    have := (step_spec ans w' h2.ok d).stuck (by rw [← h1]; simp)
    simp only [run]
    rw [this]
    dsimp only
    rw [ih, ← h1]
    rfl

/-- A flush that reports no error leaves nothing in the buffer: all accepted bytes are in the file. -/
theorem flushed (ans : Answers) (size : Int) (calls : List Call)
    (h : (step ans (run ans (newWriterSize size) calls).1 .flush).2.2 = none) :
    (step ans (run ans (newWriterSize size) calls).1 .flush).1.file = accepted calls (run ans (newWriterSize size) calls).2 := by
  have hb := bytes_in_order ans size calls
  generalize (run ans (newWriterSize size) calls).1 = w at h hb
  have hf := flush_spec ans w
  simp only [step] at h ⊢
  generalize flush ans w = z at h hf
  obtain ⟨w1, e⟩ := z
  dsimp only at h hf ⊢
  obtain ⟨h1, h2, h3, -⟩ := hf
  rw [h] at h2
  have ht := h1.total
  rw [List.append_nil] at ht
  unfold Writer.total at ht
  rw [h3 h2.symm, List.append_nil] at ht
  rw [ht, hb]

/-! ## examples -/

/-- a file that takes everything -/
def good : Answers := fun _ => (1000, none)

/-- a file that fails at its second write after one byte -/
def full : Answers := fun k => if k = 1 then (1, some (.os 28)) else (1000, none)

/-- buffer of 4: small writes, a write larger than the buffer, a string, characters of one to four bytes -/
example :
    let r := run good (newWriterSize 4) [.write [1, 2, 3], .byte 4, .write [5, 6, 7, 8, 9, 10, 11], .str [12, 13, 14, 15, 16, 17],
      .rune 233, .rune 8364, .rune 128512, .flush]
    r.1.buf = [] ∧ r.1.file = [1, 2, 3, 4, 5, 6, 7, 8, 9, 10, 11, 12, 13, 14, 15, 16, 17, 195, 169, 226, 130, 172, 240, 159, 152, 128] ∧
    r.1.calls = 7 := by decide +kernel

/-- the disk fills up: the error sticks, and file and buffer are what was reported -/
example :
    let r := run full (newWriterSize 4) [.write [1, 2, 3], .write [4, 5, 6], .write [7, 8, 9], .byte 10, .flush]
    r.1.file = [1, 2, 3, 4, 5] ∧ r.1.buf = [6, 7, 8] ∧
    r.2 = [(3, none), (3, none), (2, some (.os 28)), (0, some (.os 28)), (0, some (.os 28))] := by decide +kernel

/-- the size of the buffer of the condensor, and the default -/
example : (newWriterSize 0).cap = 4096 ∧ (newWriterSize (-5)).cap = 4096 ∧ (newWriterSize (1024 * 1024)).cap = 1048576 := by decide

/-- the encoding of characters agrees with Lean's -/
example : ['é', '€', '😀', '�', '߿', 'ࠀ'].map (fun c => runeBytes c.toNat) =
    ['é', '€', '😀', '�', '߿', 'ࠀ'].map String.utf8EncodeChar := by decide

end Fave.C30
