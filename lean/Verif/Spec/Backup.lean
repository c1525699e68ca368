import Verif.Model.Backup
/-!
# What pausing and backups have to achieve
-/
namespace Fave
namespace Log

/-- calls that pause and resume background work -/
inductive MEv where
  | pause (o : Attempt)
  | resume

/-- the calls one after the other, with the errors they return -/
def Cycles.calls (c : Cycles) : List MEv → Cycles × List Bool
  | [] => (c, [])
  | .pause o :: es => let r := c.pause o; let q := r.1.calls es; (q.1, r.2 :: q.2)
  | .resume :: es => let r := c.resume; let q := r.1.calls es; (q.1, r.2 :: q.2)

/-- what the caller believes from the answers: paused after a `pause` without error, running after `resume` or an error -/
def believed : Bool → List MEv → List Bool → Bool
  | _, .pause _ :: es, e :: rs => believed e es rs
  | _, .resume :: es, _ :: rs => believed true es rs
  | b, _, _ => b

/-- the context is what makes stopping fail: if a cycle of the commit log cannot be stopped, the context has expired -/
def Attempt.Timely (o : Attempt) : Prop := o.switch = true ∨ o.condense = true → o.expired = true

/-- copies of some files of a directory, as a directory -/
def Dir.only (d : Dir) (files : List FName) : Dir := ⟨files, d.content⟩

/-- events while background work is paused: operations are written and flushed, and time passes -/
def KEv.Quiet : KEv → Prop
  | .write _ => True
  | .spill _ => True
  | .flush => True
  | .clock _ => True
  | _ => False

end Log
end Fave
