import Verif.Model.CommitLog
/-!
# The buffered writer of the commit log

Model of pkg/hnsw/bufiowriter.go.  The file under the writer is an oracle: for each call it says how many bytes it takes and
whether it reports an error; as `os.File` does, it reports an error whenever it takes less than everything.  `Reset` and
`ReadFrom`-like functions are not used by the condensor and not modelled.
-/
namespace Fave
namespace BufW
open Log (Bytes)

/-- errors: `io.ErrShortWrite`, or an error of the operating system -/
inductive WErr where
  | short
  | os (code : Nat)
  deriving DecidableEq, Repr

/-- `bufWriter` — bufiowriter.go:30-35: `buf` is `b.buf[0:b.n]`, `cap` is `len(b.buf)`; `file` is what reached the file, `calls`
counts the writes to it. -/
structure Writer where
  err : Option WErr
  buf : Bytes
  cap : Nat
  file : Bytes
  calls : Nat
  deriving DecidableEq, Repr

/-- answer of the file to its `k`-th write: how many bytes it is willing to take, and an error of its own -/
abbrev Answers := Nat → Nat × Option WErr

/-- `NewWriterSize` — bufiowriter.go:40-48 -/
def newWriterSize (size : Int) : Writer := ⟨none, [], if size ≤ 0 then 4096 else size.toNat, [], 0⟩

/-- `(*os.File).Write` (Go standard library) — called at bufiowriter.go:74, 106: an incomplete write is always an error -/
def fileWrite (ans : Answers) (w : Writer) (p : Bytes) : Nat × Option WErr × Writer :=
  let n := min (ans w.calls).1 p.length
  let e := match (ans w.calls).2 with
    | some e => some e
    | none => if n < p.length then some .short else none
  (n, e, { w with file := w.file ++ p.take n, calls := w.calls + 1 })

/-- `Available` — bufiowriter.go:91 -/
def Writer.available (w : Writer) : Nat := w.cap - w.buf.length

/-- `Flush` — bufiowriter.go:67-88 -/
def flush (ans : Answers) (w : Writer) : Writer × Option WErr :=
  if w.err ≠ none then (w, w.err)
  else if w.buf.length = 0 then (w, none)
  else
    let (n, e, w1) := fileWrite ans w w.buf
    let e := if n < w.buf.length ∧ e = none then some .short else e
    if e ≠ none then ({ w1 with buf := w.buf.drop n, err := e }, e)
    else ({ w1 with buf := [] }, none)

/-- the loop of `Write` — bufiowriter.go:101-114; at most two rounds are needed (`Lemmas.BufWriter`), `fuel` bounds them -/
def writeLoop (ans : Answers) : Nat → Writer → Bytes → Nat → Writer × Bytes × Nat
  | 0, w, p, nn => (w, p, nn)
  | fuel + 1, w, p, nn =>
    if p.length > w.available ∧ w.err = none then
      if w.buf.length = 0 then
        let (n, e, w1) := fileWrite ans w p
        writeLoop ans fuel { w1 with err := e } (p.drop n) (nn + n)
      else
        let n := min w.available p.length
        writeLoop ans fuel (flush ans { w with buf := w.buf ++ p.take n }).1 (p.drop n) (nn + n)
    else (w, p, nn)

/-- the end of `Write` and `WriteString` — bufiowriter.go:115-121, 179-185 -/
def finish (r : Writer × Bytes × Nat) : Writer × Nat × Option WErr :=
  let (w, p, nn) := r
  if w.err ≠ none then (w, nn, w.err)
  else
    let n := min w.available p.length
    ({ w with buf := w.buf ++ p.take n }, nn + n, none)

/-- `Write` — bufiowriter.go:100-122 -/
def write (ans : Answers) (w : Writer) (p : Bytes) : Writer × Nat × Option WErr := finish (writeLoop ans 3 w p 0)

/-- `WriteByte` — bufiowriter.go:125-135 -/
def writeByte (ans : Answers) (w : Writer) (c : UInt8) : Writer × Option WErr :=
  if w.err ≠ none then (w, w.err)
  else if w.available ≤ 0 then
    let (w1, e) := flush ans w
    if e ≠ none then (w1, w1.err) else ({ w1 with buf := w1.buf ++ [c] }, none)
  else ({ w with buf := w.buf ++ [c] }, none)

/-- the loop of `WriteString` — bufiowriter.go:172-178: always through the buffer -/
def stringLoop (ans : Answers) : Nat → Writer → Bytes → Nat → Writer × Bytes × Nat
  | 0, w, s, nn => (w, s, nn)
  | fuel + 1, w, s, nn =>
    if s.length > w.available ∧ w.err = none then
      let n := min w.available s.length
      stringLoop ans fuel (flush ans { w with buf := w.buf ++ s.take n }).1 (s.drop n) (nn + n)
    else (w, s, nn)

/-- `WriteString` — bufiowriter.go:170-186; a buffer of at least one byte makes `s.length + 2` rounds enough -/
def writeString (ans : Answers) (w : Writer) (s : Bytes) : Writer × Nat × Option WErr := finish (stringLoop ans (s.length + 2) w s 0)

/-- `utf8.EncodeRune` and `string(r)` for `r` ≥ 128 (Go standard library) — called at bufiowriter.go:158, 161; surrogates and
numbers beyond Unicode become U+FFFD -/
def utf8 (r : Nat) : Bytes :=
  if r < 0x800 then [0xC0 + r / 64, 0x80 + r % 64].map UInt8.ofNat
  else if 0xD800 ≤ r ∧ r ≤ 0xDFFF ∨ r > 0x10FFFF then [0xEF, 0xBF, 0xBD]
  else if r < 0x10000 then [0xE0 + r / 4096, 0x80 + r / 64 % 64, 0x80 + r % 64].map UInt8.ofNat
  else [0xF0 + r / 262144, 0x80 + r / 4096 % 64, 0x80 + r / 64 % 64, 0x80 + r % 64].map UInt8.ofNat

/-- `WriteRune` — bufiowriter.go:139-164: code points below 128 (also negative ones) are written as one byte, the lowest of the
number -/
def writeRune (ans : Answers) (w : Writer) (r : Int) : Writer × Nat × Option WErr :=
  if r < 128 then
    match writeByte ans w (UInt8.ofNat (r % 256).toNat) with
    | (w, some e) => (w, 0, some e)
    | (w, none) => (w, 1, none)
  else if w.err ≠ none then (w, 0, w.err)
  else if w.available < 4 then
    let w1 := (flush ans w).1
    if w1.err ≠ none then (w1, 0, w1.err)
    else if w1.available < 4 then writeString ans w1 (utf8 r.toNat)
    else ({ w1 with buf := w1.buf ++ utf8 r.toNat }, (utf8 r.toNat).length, none)
  else ({ w with buf := w.buf ++ utf8 r.toNat }, (utf8 r.toNat).length, none)

/-- a call of one of the functions -/
inductive Call where
  | write (p : Bytes)
  | byte (c : UInt8)
  | rune (r : Int)
  | str (s : Bytes)
  | flush
  deriving DecidableEq, Repr

/-- one call: the new state, how many bytes it reports as written, the error it reports — bufiowriter.go:67, 100, 125, 139, 170 -/
def step (ans : Answers) (w : Writer) : Call → Writer × Nat × Option WErr
  | .write p => write ans w p
  | .byte c => match writeByte ans w c with
    | (w, some e) => (w, 0, some e)
    | (w, none) => (w, 1, none)
  | .rune r => writeRune ans w r
  | .str s => writeString ans w s
  | .flush => match flush ans w with
    | (w, e) => (w, 0, e)

/-- a sequence of calls with the reports — bufiowriter.go:67-186 -/
def run (ans : Answers) (w : Writer) : List Call → Writer × List (Nat × Option WErr)
  | [] => (w, [])
  | c :: cs =>
    let (w1, r) := step ans w c
    let (w2, rs) := run ans w1 cs
    (w2, r :: rs)

end BufW
end Fave
