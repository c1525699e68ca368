import Verif.Model.CacheLocks
/-!
# Words for the claims about the locks of a vector cache
-/
namespace Fave.CacheLocks

/-- the agent has nothing more to do; the watcher may wait for its next tick -/
def Agent.idle : Agent → Bool
  | .small _ _ .over | .grow .over | .drop .over | .watcher .rest | .watcher .over => true
  | _ => false

/-- nobody has anything more to do -/
def quiet (s : List Agent) : Prop := ∀ a ∈ s, a.idle = true

/-- a step that does not come from outside -/
def Ev.inner : Ev → Bool
  | .tick _ _ => false
  | _ => true

/-- a tick that finds the cache full -/
def Ev.full : Ev → Bool
  | .tick _ f => f
  | _ => false

/-- somebody holds lock `k` for writing -/
def Agent.has (a : Agent) (k : Nat) : Bool := a.stage k == .held

/-- the state after a schedule, empty if the schedule is impossible -/
def reached (n : Nat) (s : List Agent) (es : List Ev) : List Agent := (run n s es).getD []

/-- what can be asked: there is no `drop`, or one and neither `grow` nor a tick that finds the cache full -/
def Apart (jobs : List Job) (es : List Ev) : Prop :=
  Job.drop ∉ jobs ∨ (jobs.count .drop ≤ 1 ∧ Job.grow ∉ jobs ∧ ∀ e ∈ es, e.full = false)

/-- from here on `p` and `q` never end, and no access of `rest` does that has not begun -/
def Hangs (n : Nat) (s : List Agent) (p q : Nat) (from_ : Nat) (rest : List Job) : Prop :=
  ∀ es s', run n s es = some s' → (∃ a, s'[p]? = some a ∧ a.idle = false) ∧ (∃ a, s'[q]? = some a ∧ a.idle = false) ∧
    ∀ (m k : Nat) (w : Bool), rest[m]? = some (.small k w) → k < n → s'[m + from_]? = some (.small k w .idle)

end Fave.CacheLocks
