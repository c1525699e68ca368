import Verif.Model.VecCache
/-!
# What the vector cache should do
-/
namespace Fave.VecCache

variable {α ε : Type}

/-- an operation; the source is given with the look-up since it may change over time -/
inductive Op (α ε : Type) where
  | get (id : Nat) (src : Nat → Except ε (Option α))
  | preload (id : Nat) (v : Option α)
  | delete (id : Nat)
  | grow (node : Nat)
  | tick
  | setMax (m : Int)

/-- the cache after an operation, if it does not panic (growing by an id near 2^64 counts as a panic here) -/
def apply (norm : Option α → Option α) (c : Cache α) : Op α ε → Option (Cache α)
  | .get id src => match c.get norm src id with
    | (_, .panic) => none
    | (c, _) => some c
  | .preload id v => c.preload id v
  | .delete id => c.delete id
  | .grow node => if node + 25000 < 2 ^ 64 then some (c.grow node) else none
  | .tick => some c.tick
  | .setMax m => some { c with maxSize := m }

/-- the cache after operations, first one first -/
def applyAll (norm : Option α → Option α) : Cache α → List (Op α ε) → Option (Cache α)
  | c, [] => some c
  | c, op :: ops => match apply norm c op with
    | none => none
    | some c => applyAll norm c ops

/-- change a function at one place -/
def put (m : Nat → Option α) (id : Nat) (v : Option α) : Nat → Option α := fun i => if i = id then v else m i

/-- what a look-up has to answer when `m` is what is remembered -/
def answer (norm : Option α → Option α) (src : Nat → Except ε (Option α)) (m : Nat → Option α) (id : Nat) : Got α ε :=
  match m id with
  | some v => .ok (some v)
  | none => match src id with
    | .ok v => .ok (norm v)
    | .error e => .fail e

/-- what is remembered after one operation: a look-up remembers its answer, loading replaces, deletion forgets one id, a tick may
forget everything, nothing else changes anything -/
inductive Remembers (norm : Option α → Option α) : (Nat → Option α) → Op α ε → (Nat → Option α) → Prop
  | answered {m id src v} : answer norm src m id = .ok v → Remembers norm m (.get id src) (put m id v)
  | failed {m id src e} : answer norm src m id = .fail e → Remembers norm m (.get id src) m
  | preload {m id v} : Remembers norm m (.preload id v) (put m id v)
  | delete {m id} : Remembers norm m (.delete id) (put m id none)
  | grow {m n} : Remembers norm m (.grow n) m
  | kept {m} : Remembers norm m .tick m
  | wiped {m} : Remembers norm m .tick (fun _ => none)
  | setMax {m k} : Remembers norm m (.setMax k) m

/-- what is remembered after operations -/
inductive RemembersAll (norm : Option α → Option α) : (Nat → Option α) → List (Op α ε) → (Nat → Option α) → Prop
  | nil {m} : RemembersAll norm m [] m
  | cons {m m' m'' op ops} : Remembers norm m op m' → RemembersAll norm m' ops m'' → RemembersAll norm m (op :: ops) m''

/-- number of vectors held -/
def filled (c : Cache α) : Nat := c.slots.countP Option.isSome

/-- the vector returned for `id` is explained by what happened before: it was loaded for `id` or fetched for `id` -/
def Explained (norm : Option α → Option α) (before : List (Ev α)) (id : Nat) (v : Option α) : Prop :=
  .loaded id v ∈ before ∨ ∃ w, .fetched id w ∈ before ∧ v = norm w

end Fave.VecCache
