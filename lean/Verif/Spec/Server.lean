import Verif.Model.Server
/-!
# Notions for the properties of the server: steps of the process itself, wanting to stop, what is cut off
-/
namespace Fave.Server

/-- is it a step of the process (and not one of the outside: signals, calls of `Shutdown` from elsewhere, requests and answers, a listener that
fails)? -/
def Ev.own : Ev → Bool
  | .signal | .ask _ | .accept _ | .finish _ | .fail _ => false
  | _ => true

/-- the number of steps of the process -/
def ownSteps (tr : List Ev) : Nat := (tr.filter Ev.own).length

/-- the number of signals -/
def signals (tr : List Ev) : Nat := (tr.filter (· == .signal)).length

/-- the number of calls of `Shutdown` from elsewhere -/
def asks (tr : List Ev) : Nat := (tr.filter (fun e => match e with | .ask _ => true | _ => false)).length

/-- someone wants the process to stop: a signal waits or `Shutdown` was called -/
def Wanted (s : St) : Prop := s.pending = true ∨ ∃ i, i < s.m ∧ s.call i ≠ .idle

/-- a state that occurs -/
def Occurs (n m : Nat) (s : St) : Prop := ∃ tr, run tr (St.begin n m) = some s

/-- the schemes that are started, from the words given -/
def wanted (words : List String) : List Scheme :=
  if words = [] then [.http] else [Scheme.unix, .http, .https].filter (fun x => words.contains x.word)

end Fave.Server
