import Verif.Model.Start
/-!
# What the theorems about the start speak of (C71)
-/
namespace Fave.Start
open Client Rest

/-- the value of a variable, or another one if it is not set -/
def orElse (v d : Str) : Str := if v = [] then d else v

/-- everything the start needs works: the storage library with the given addresses, the vectoriser if there is to be one, the login, and
the pod, which is there or can be made, and opens -/
structure Works (env : Environment) (out : Outside) : Prop where
  dfs : out (.dfs (orElse (env .beeApi) defaultBee) (orElse (env .stampId) (List.replicate 64 '0')) (env .rpcApi)) = true
  health : env .vectorizerUrl = [] ∨ out (.health (env .vectorizerUrl)) = true
  login : out (.login (env .user) (env .password)) = true
  pod : out (.podExists (env .pod)) = true ∨ out (.createPod (env .pod)) = true
  opens : out (.openPod (env .pod)) = true

/-- the calls of a start in which nothing fails -/
def plan (env : Environment) (out : Outside) : List Call :=
  [.dfs (orElse (env .beeApi) defaultBee) (orElse (env .stampId) (List.replicate 64 '0')) (env .rpcApi)] ++
  (if env .vectorizerUrl = [] then [] else [.health (env .vectorizerUrl)]) ++
  [.login (env .user) (env .password), .podExists (env .pod)] ++
  (if out (.podExists (env .pod)) then [] else [.createPod (env .pod)]) ++ [.openPod (env .pod)]

/-- the call is not what the start fails of: it succeeds, or it asks whether the pod is there -/
def fine (out : Outside) : Call → Bool
  | .podExists _ => true
  | c => out c

/-- a list up to and with the first element that does not satisfy `p` -/
def upTo {α : Type} (p : α → Bool) : List α → List α
  | [] => []
  | x :: l => if p x then x :: upTo p l else [x]

/-- a pod after any number of processes that have worked on it, with whatever environments and requests -/
inductive Past {F D : Type} [Dist D] [DecidableEq F] (E : Env F D) (uuid : Str → Bool) : World F → Prop where
  | empty (dbs : Map (Db F)) : Past E uuid (World.fresh false dbs)
  | life {w w' : World F} (env : Environment) (out : Outside) (rs : List (HReq F D)) :
      Past E uuid w → (configure env out w).after E uuid rs = .serving w' → Past E uuid w'

end Fave.Start
