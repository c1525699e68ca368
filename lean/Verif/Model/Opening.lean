import Verif.Model.Insert
/-!
# Requests that open a collection at the same time

`AddDocuments` and the searches look whether the document database is open; if not they make an index object, put it into the map of the
client and open the database; then they take the index from the map and work with it (document.go:290-339, 458-513, 560-609).  None of this
is guarded: only the reading and writing of the map is.  `CreateCollection` and `DeleteCollection` hold `c.lock`, which the others do not
take (document.go:146-246).  A look-up opens the database without making an index (document.go:653-664).

One collection, any number of requests (threads).  The index objects have their own memory and share the key-value table; what they do is
that of Model/Insert, except that vertices read from the table are kept in the memory of the object (index.go:594-623), which is left out
there because it can not be noticed with one object.  An addition of a vector, a flush and a search are one step each.  The table is there
and open (C91 has the failures).
-/
namespace Fave.Opening
variable {V D : Type} [Dist D]

/-- where a request is -/
inductive Pc where
  | idle
  /-- found the database closed — document.go:303, 470, 572 -/
  | closed
  /-- has made index object `i` — document.go:312-325, 479-492, 581-594 -/
  | holds (i : Nat)
  /-- has put it into the map; `DocOpen` is next — document.go:327-329, 494-496, 596-598 -/
  | entered
  /-- about to take the index from the map — document.go:336-338, 509-511, 605-607 -/
  | fetch
  /-- has taken index `i` -/
  | using (i : Nat)
  /-- an addition with index `i`, the next number is `n` — document.go:339-344 -/
  | adding (i n : Nat)
  /-- `CreateCollection` has `c.lock` — document.go:147 -/
  | creating
  /-- … and has made index object `i` — document.go:189-201 -/
  | created (i : Nat)
  /-- `DeleteCollection` has `c.lock` — document.go:211 -/
  | deleting
  /-- … and has deleted database and table — document.go:224-241 -/
  | removing
  /-- a look-up that found the database closed — document.go:659-663 -/
  | looking
  /-- has been answered, with success or with an error or panic -/
  | ended (ok : Bool)

/-- between finding the database closed and opening it -/
def Pc.opener : Pc → Bool
  | .closed | .holds _ | .entered => true
  | _ => false

/-- has found the database open or has opened it, and is not yet answered -/
def Pc.user : Pc → Bool
  | .fetch | .using _ | .adding .. => true
  | _ => false

/-- a creation or deletion under way -/
def Pc.admin : Pc → Bool
  | .creating | .created _ | .deleting | .removing => true
  | _ => false

/-- under way -/
def Pc.active : Pc → Bool
  | .idle | .ended _ => false
  | _ => true

/-- one collection -/
structure Sys (V : Type) where
  /-- is the document database open? -/
  dbOpen : Bool
  /-- `c.indices[namespacedCollection]` — document.go:331 -/
  cur : Option Nat
  /-- number of index objects made so far -/
  made : Nat
  /-- the memory of the index objects (the stored part is not used) — index.go:49-190 -/
  mem : Nat → Index V
  /-- the key-value table (the part in memory is not used) — insert.go:118-164 -/
  store : Index V
  /-- who has `c.lock` — document.go:147, 211 -/
  lock : Option Nat
  pc : Nat → Pc

/-- request `t` moves on -/
def Sys.at (s : Sys V) (t : Nat) (p : Pc) : Sys V := { s with pc := fun u => if u = t then p else s.pc u }

/-- index object `i` with the table — index.go:49-190 -/
def Sys.view (s : Sys V) (i : Nat) : Index V :=
  { s.mem i with kv := s.store.kv, kvEntry := s.store.kvEntry, kvCount := s.store.kvCount }

/-- the outcome of an operation of index object `i` — insert.go:118-164 -/
def Sys.absorb (s : Sys V) (i : Nat) (x : Index V) : Sys V :=
  { s with mem := fun j => if j = i then x else s.mem j, store := x }

/-- `nodeByID` keeps the vertices it has read from the table — index.go:594-623 -/
def warm (x : Index V) : List Nat → Index V
  | [] => x
  | id :: ids =>
    match x.cache.get id, x.kv.get id with
    | none, some v => warm (x.put { v with committed := false }) ids
    | _, _ => warm x ids

/-- nobody is under way -/
def Sys.quiet (s : Sys V) : Prop := ∀ t, (s.pc t).active = false

/-- One step of one request.  `orderly`: nobody begins to open the collection while somebody else is opening it, creations and deletions are
not done beside other requests, and no look-up is the first to open.  `admin`: are there creations, deletions and such look-ups? -/
inductive Step (P : Params V D) (orderly admin : Bool) : Sys V → Sys V → Prop where
  /-- `IsDBOpened` says yes — document.go:299-303 -/
  | findOpen {s : Sys V} (t : Nat) : s.pc t = .idle → s.dbOpen = true → (orderly = true → ∀ u, (s.pc u).admin = false) →
      Step P orderly admin s (s.at t .fetch)
  /-- `IsDBOpened` says no — document.go:299-303 -/
  | findClosed {s : Sys V} (t : Nat) : s.pc t = .idle → s.dbOpen = false →
      (orderly = true → ∀ u, (s.pc u).admin = false ∧ (s.pc u).opener = false) → Step P orderly admin s (s.at t .closed)
  /-- `h.New` — document.go:312-325 -/
  | new {s : Sys V} (t : Nat) : s.pc t = .closed →
      Step P orderly admin s ({ s with made := s.made + 1, mem := fun j => if j = s.made then s.store.reopen else s.mem j }.at t (.holds s.made))
  /-- `h.New` fails — document.go:323-325 -/
  | newFails {s : Sys V} (t : Nat) : s.pc t = .closed → Step P orderly admin s (s.at t (.ended false))
  /-- `c.indices[namespacedCollection] = index` — document.go:327-329 -/
  | enter {s : Sys V} (t i : Nat) : s.pc t = .holds i → Step P orderly admin s ({ s with cur := some i }.at t .entered)
  /-- `DocOpen` — document.go:330 -/
  | open {s : Sys V} (t : Nat) : s.pc t = .entered → s.dbOpen = false → Step P orderly admin s ({ s with dbOpen := true }.at t .fetch)
  /-- `DocOpen` of an open database is refused with `ErrDocumentDBAlreadyOpened`, which is tolerated only in `CreateCollection` —
  document.go:178-181, 330-333 -/
  | openRefused {s : Sys V} (t : Nat) : s.pc t = .entered → s.dbOpen = true → Step P orderly admin s (s.at t (.ended false))
  /-- `DocOpen` fails otherwise — document.go:330-333 -/
  | openFails {s : Sys V} (t : Nat) : s.pc t = .entered → s.dbOpen = false → Step P orderly admin s (s.at t (.ended false))
  /-- `index := c.indices[namespacedCollection]` — document.go:336-338 -/
  | take {s : Sys V} (t i : Nat) : s.pc t = .fetch → s.cur = some i → Step P orderly admin s (s.at t (.using i))
  /-- … if there is none, the next call dereferences nil — document.go:337-339 -/
  | takeNil {s : Sys V} (t : Nat) : s.pc t = .fetch → s.cur = none → Step P orderly admin s (s.at t (.ended false))
  /-- a search that reads the vertices `ids` (whatever it answers) — document.go:509-516, 605-612 -/
  | search {s : Sys V} (t i : Nat) (ids : List Nat) : s.pc t = .using i →
      Step P orderly admin s ((s.absorb i (warm (s.view i).loadEntry ids)).at t (.ended true))
  /-- `index.GetDocCount` — document.go:339-344 -/
  | count {s : Sys V} (t i : Nat) : s.pc t = .using i → Step P orderly admin s (s.at t (.adding i ((s.view i).docCount.getD 0)))
  /-- `index.Add` — document.go:376-383 -/
  | add {s : Sys V} (t i n : Nat) (vo : Index.VecOracle V) (sched : Graph.Scheds D) (q : V) (level : Nat) (ids : List Nat) (x : Index V) :
      s.pc t = .adding i n → Index.add P vo sched (warm (s.view i) ids) n q level = (x, none) →
      Step P orderly admin s ((s.absorb i x).at t (.adding i (n + 1)))
  /-- `index.Add` fails, the document is passed over — document.go:377-380 -/
  | addFails {s : Sys V} (t i n : Nat) (vo : Index.VecOracle V) (sched : Graph.Scheds D) (q : V) (level : Nat) (x : Index V) (e : Err) :
      s.pc t = .adding i n → Index.add P vo sched (s.view i) n q level = (x, some e) →
      Step P orderly admin s ((s.absorb i x).at t (.adding i n))
  /-- `index.Flush` — document.go:445-453 -/
  | flush {s : Sys V} (t i n : Nat) (order : List Nat) (x : Index V) :
      s.pc t = .adding i n → order.Perm (s.view i).cache.keys → Index.flush P (s.view i) order n = (x, none) →
      Step P orderly admin s ((s.absorb i x).at t (.ended true))
  /-- an error ends the addition without flush — document.go:362, 371, 395, 410, 441, 447 -/
  | breaksOff {s : Sys V} (t i n : Nat) : s.pc t = .adding i n → Step P orderly admin s (s.at t (.ended false))
  /-- `CreateCollection` gets `c.lock` — document.go:147 -/
  | create {s : Sys V} (t : Nat) : admin = true → s.pc t = .idle → s.lock = none → (orderly = true → s.quiet) →
      Step P orderly admin s ({ s with lock := some t }.at t .creating)
  /-- `DocCreate`, `CreateKVTable` (both may be there already), `DocOpen`, `OpenKVTable`, `h.New` — document.go:168-202 -/
  | createNew {s : Sys V} (t : Nat) : s.pc t = .creating →
      Step P orderly admin s ({ s with dbOpen := true, made := s.made + 1, mem := fun j => if j = s.made then s.store.reopen else s.mem j }.at t (.created s.made))
  /-- the index is put into the map — document.go:204-206 -/
  | createEnds {s : Sys V} (t i : Nat) : s.pc t = .created i →
      Step P orderly admin s ({ s with cur := some i, lock := none }.at t (.ended true))
  /-- `DeleteCollection` gets `c.lock` — document.go:211 -/
  | delete {s : Sys V} (t : Nat) : admin = true → s.pc t = .idle → s.lock = none → (orderly = true → s.quiet) →
      Step P orderly admin s ({ s with lock := some t }.at t .deleting)
  /-- `DocDelete`, `DeleteKVTable` — document.go:224-241 -/
  | deleteBoth {s : Sys V} (t : Nat) : s.pc t = .deleting → Step P orderly admin s ({ s with dbOpen := false, store := Index.init }.at t .removing)
  /-- the index is taken out of the map — document.go:242-244 -/
  | deleteEnds {s : Sys V} (t : Nat) : s.pc t = .removing → Step P orderly admin s ({ s with cur := none, lock := none }.at t (.ended true))
  /-- a look-up finds the database open — document.go:655-659 -/
  | look {s : Sys V} (t : Nat) : s.pc t = .idle → s.dbOpen = true → Step P orderly admin s (s.at t (.ended true))
  /-- … or closed — document.go:655-659 -/
  | lookClosed {s : Sys V} (t : Nat) : admin = true → orderly = false → s.pc t = .idle → s.dbOpen = false → Step P orderly admin s (s.at t .looking)
  /-- … and opens it — document.go:660-663 -/
  | lookOpens {s : Sys V} (t : Nat) : s.pc t = .looking → s.dbOpen = false → Step P orderly admin s ({ s with dbOpen := true }.at t (.ended true))
  /-- … unless somebody else has — document.go:660-663 -/
  | lookRefused {s : Sys V} (t : Nat) : s.pc t = .looking → s.dbOpen = true → Step P orderly admin s (s.at t (.ended false))

/-- a process has just been started over a table: nothing is open, the client has no index — document.go:63-97 -/
def start (store : Index V) : Sys V := ⟨false, none, 0, fun _ => Index.init, store, none, fun _ => .idle⟩

/-- any interleaving -/
inductive Steps (P : Params V D) (orderly admin : Bool) : Sys V → Sys V → Prop where
  | refl (s : Sys V) : Steps P orderly admin s s
  | step {s u v : Sys V} : Steps P orderly admin s u → Step P orderly admin u v → Steps P orderly admin s v

end Fave.Opening
