import Verif.Model.Basic
/-!
# Add requests running at the same time

`AddDocuments` (pkg/document/document.go:287-455) takes no lock while it works: it reads the stored number of vectors, gives numbers from there on,
and stores the new number at the end.  Each request is a thread; reading the number, adding to the index, storing the document and the final flush
are steps of their own.  The index is reduced to the vector each number stands for (the work of `index.Add` is that of `Model/Insert` and
`Model/Conc`), documents to their id, their number and their vector.
-/
namespace Fave.Requests

/-- a document of a request: id and vector; `none`: nothing to vectorise -/
abbrev Doc := Nat × Option Nat

/-- where a request is -/
inductive Pc where
  /-- not begun — document.go:287 -/
  | idle
  /-- about to handle the first of `todo`, next number `n` — document.go:345 -/
  | busy (n : Nat) (todo : List Doc)
  /-- has added the vector `v` of document `d` as number `n` — document.go:376, 386, 419 -/
  | added (n d v : Nat) (todo : List Doc)
  /-- has returned, without or with error -/
  | ended (ok : Bool)

/-- the request is under way -/
def Pc.active : Pc → Bool
  | .busy .. => true
  | .added .. => true
  | _ => false

/-- one collection and the requests -/
structure St where
  /-- the stored number of vectors — insert.go:149-160 -/
  count : Nat
  /-- the vector each number stands for in the index -/
  node : Nat → Option Nat
  /-- the stored documents: number (`none`: -1) and the vector the request had for it (ghost) -/
  doc : Nat → Option (Option (Nat × Nat))
  pc : Nat → Pc

/-- request `t` moves on -/
def St.at (s : St) (t : Nat) (p : Pc) : St := { s with pc := fun u => if u = t then p else s.pc u }

/-- number `n` now stands for `v` -/
def St.setNode (s : St) (n v : Nat) : St := { s with node := fun m => if m = n then some v else s.node m }

/-- document `d` is stored -/
def St.setDoc (s : St) (d : Nat) (x : Option (Nat × Nat)) : St := { s with doc := fun e => if e = d then some x else s.doc e }

/-- no request is under way -/
def St.quiet (s : St) : Prop := ∀ t, (s.pc t).active = false

/-- one step of one request; `serial`: a request begins only while no other is under way; `faults`: storing a document or the flush may fail -/
inductive Step (docs : Nat → List Doc) (serial faults : Bool) : St → St → Prop where
  /-- `count, err := index.GetDocCount()`; `indexId := count` — document.go:339-344 -/
  | start {s : St} (t : Nat) : s.pc t = .idle → (serial = true → s.quiet) → Step docs serial faults s (s.at t (.busy s.count (docs t)))
  /-- `index.Add` succeeds — document.go:376-383, 386-393, 419-426 -/
  | add {s : St} (t n d v : Nat) (r : List Doc) : s.pc t = .busy n ((d, some v) :: r) →
      Step docs serial faults s ((s.setNode n v).at t (.added n d v r))
  /-- `index.Add` (or the vectoriser) fails: the document is skipped; the half-added vector may stay — document.go:377-380, 413-416 -/
  | addFails {s : St} (t n d v : Nat) (r : List Doc) (stays : Bool) : s.pc t = .busy n ((d, some v) :: r) →
      Step docs serial faults s ((if stays then s.setNode n v else s).at t (.busy n r))
  /-- `DocPut` — document.go:438 -/
  | put {s : St} (t n d v : Nat) (r : List Doc) : s.pc t = .added n d v r →
      Step docs serial faults s ((s.setDoc d (some (n, v))).at t (.busy (n + 1) r))
  /-- the document cannot be encoded: skipped, its number is used up — document.go:433-436 -/
  | marshalFails {s : St} (t n d v : Nat) (r : List Doc) : s.pc t = .added n d v r → Step docs serial faults s (s.at t (.busy (n + 1) r))
  /-- a document without text to vectorise is stored with number -1 — document.go:428, 438 -/
  | plain {s : St} (t n d : Nat) (r : List Doc) : s.pc t = .busy n ((d, none) :: r) →
      Step docs serial faults s ((s.setDoc d none).at t (.busy n r))
  /-- a vector that cannot be read, or no vectoriser: the request ends there, without flush — document.go:362, 371, 395, 410 -/
  | refuses {s : St} (t n : Nat) (d : Doc) (r : List Doc) : faults = true → s.pc t = .busy n (d :: r) →
      Step docs serial faults s (s.at t (.ended false))
  /-- `DocPut` fails: the request ends there, without flush — document.go:439-442 -/
  | putFails {s : St} (t n d v : Nat) (r : List Doc) : faults = true → s.pc t = .added n d v r → Step docs serial faults s (s.at t (.ended false))
  /-- `index.Flush(indexId)` — document.go:445 -/
  | flush {s : St} (t n : Nat) : s.pc t = .busy n [] → Step docs serial faults s ({ s with count := n }.at t (.ended true))
  /-- the flush fails — document.go:446-448 -/
  | flushFails {s : St} (t n : Nat) : faults = true → s.pc t = .busy n [] → Step docs serial faults s (s.at t (.ended false))

/-- an empty collection -/
def St.begin : St := ⟨0, fun _ => none, fun _ => none, fun _ => .idle⟩

/-- any interleaving -/
inductive Reach (docs : Nat → List Doc) (serial faults : Bool) : St → Prop where
  | refl : Reach docs serial faults St.begin
  | step {s s' : St} : Reach docs serial faults s → Step docs serial faults s s' → Reach docs serial faults s'

end Fave.Requests
