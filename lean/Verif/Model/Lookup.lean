/-!
# Parallel look-up of the documents of a hit list

Model of pkg/document/document.go:522-554 and :618-650 (the same code twice): one goroutine per hit, a wait group, a goroutine that
closes the error channel when all are done, and the caller that ranges over the channel.  Every interleaving is a sequence of `Step`s.
-/
namespace Fave
namespace Lookup

/-- a look-up goroutine: not started; before `DocFind`; about to send an error; before `wg.Done` (deferred); finished —
document.go:527-542, 623-637 -/
inductive G (E : Type) where
  | unborn
  | looking
  | sending (e : E)
  | finishing
  | done
  deriving DecidableEq, Repr

/-- the caller: in the loop that starts goroutine `k`; in `for err := range errCh`; returned an error; returned the documents
(`none` is a nil entry of the slice `documents`) — document.go:525-554 -/
inductive Main (E Doc : Type) where
  | launching (k : Nat)
  | ranging
  | failed (e : E)
  | answered (docs : List (Option Doc))
  deriving DecidableEq, Repr

/-- the goroutine that closes the channel — document.go:544-547, 639-642 -/
inductive Closer where
  | unborn
  | waiting
  | done
  deriving DecidableEq, Repr

/-- everything the goroutines share -/
structure St (E Doc : Type) where
  main : Main E Doc
  gs : Nat → G E
  closer : Closer
  /-- the counter of the wait group -/
  wg : Nat
  /-- what is in the channel, oldest first -/
  chan : List E
  closed : Bool
  /-- the slice `documents` -/
  docs : List (Option Doc)
  /-- a run-time panic: sending on or closing a closed channel, negative wait-group counter -/
  panicked : Bool

variable {E Doc : Type}

/-- the goroutine `i` changes to `g` -/
def St.setG (s : St E Doc) (i : Nat) (g : G E) : St E Doc := { s with gs := fun j => if j = i then g else s.gs j }

/-- before the loop: `documents` is a slice of `n` nil entries, the channel has room for `n` errors — document.go:522-524, 618-620 -/
def start (n : Nat) : St E Doc :=
  { main := .launching 0, gs := fun _ => .unborn, closer := .unborn, wg := 0, chan := [], closed := false,
    docs := List.replicate n none, panicked := false }

/-- one step of one of the goroutines; `n` hits, `out i` is what `DocFind` gives goroutine `i`, `notFound i` is the error
"document not found" -/
inductive Step (n : Nat) (out : Nat → Except E (List Doc)) (notFound : Nat → E) : St E Doc → St E Doc → Prop where
  /-- `wg.Add(1)` and `go func` — document.go:526-527 -/
  | launch (s k) : s.main = .launching k → k < n → Step n out notFound s { s.setG k .looking with main := .launching (k + 1), wg := s.wg + 1 }
  /-- start of the closing goroutine — document.go:544 -/
  | spawn (s) : s.main = .launching n → Step n out notFound s { s with main := .ranging, closer := .waiting }
  /-- document.go:530, 540: found; the first document is kept -/
  | found (s i d rest) : s.gs i = .looking → out i = .ok (d :: rest) →
      Step n out notFound s { s.setG i .finishing with docs := s.docs.set i (some d) }
  /-- document.go:536-538: nothing found -/
  | empty (s i) : s.gs i = .looking → out i = .ok [] → Step n out notFound s (s.setG i (.sending (notFound i)))
  /-- document.go:531-533: the look-up failed -/
  | failed (s i e) : s.gs i = .looking → out i = .error e → Step n out notFound s (s.setG i (.sending e))
  /-- `errCh <- err` with room in the channel — document.go:533, 537 -/
  | send (s i e) : s.gs i = .sending e → s.closed = false → s.chan.length < n →
      Step n out notFound s { s.setG i .finishing with chan := s.chan ++ [e] }
  /-- sending on a closed channel panics -/
  | sendClosed (s i e) : s.gs i = .sending e → s.closed = true → Step n out notFound s { s.setG i .done with panicked := true }
  /-- `wg.Done()`; a negative counter panics — document.go:528 -/
  | wgDone (s i) : s.gs i = .finishing →
      Step n out notFound s { s.setG i .done with wg := s.wg - 1, panicked := s.panicked || s.wg == 0 }
  /-- `wg.Wait(); close(errCh)`; closing twice panics — document.go:545-546 -/
  | close (s) : s.closer = .waiting → s.wg = 0 →
      Step n out notFound s { s with closer := .done, closed := true, panicked := s.panicked || s.closed }
  /-- the caller receives an error and returns it — document.go:549-551 -/
  | recv (s e rest) : s.main = .ranging → s.chan = e :: rest → Step n out notFound s { s with main := .failed e, chan := rest }
  /-- the channel is closed and empty: the loop ends, the documents are returned — document.go:549, 553 -/
  | finish (s) : s.main = .ranging → s.chan = [] → s.closed = true → Step n out notFound s { s with main := .answered s.docs }

/-- the states some interleaving reaches — document.go:522-554 -/
inductive Reach (n : Nat) (out : Nat → Except E (List Doc)) (notFound : Nat → E) : St E Doc → Prop where
  | start : Reach n out notFound (start n)
  | step (s s') : Reach n out notFound s → Step n out notFound s s' → Reach n out notFound s'

end Lookup
end Fave
