import Verif.Model.Api
/-!
# What the registry should hold

The operation behind a method and a path is read off the description of the interface; which handler serves it is read off the sequence of
calls, without the maps of the registry.
-/
namespace Fave.Api
open Client
variable {H B C : Type}

/-- the operation id of the description -/
def Name.id : Name → String
  | .add => "fave.addDocuments"
  | .create => "fave.createCollection"
  | .delete => "fave.deleteCollection"
  | .collections => "fave.getCollections"
  | .documents => "fave.getDocuments"
  | .nearest => "fave.getNearestDocuments"
  | .nearestByVector => "fave.getNearestDocumentsByVector"
  | .root => "fave.root"

/-- the operations, in the order of `Validate` -/
def Name.all : List Name := [.add, .create, .delete, .collections, .documents, .nearest, .nearestByVector, .root]

/-- the method of the handler that is meant for an operation -/
def Name.meant : Name → Method
  | .add => .addDocuments
  | .create => .createCollection
  | .delete => .deleteCollection
  | .collections => .getCollections
  | .documents => .getDocuments
  | .nearest => .nearestDocuments
  | .nearestByVector => .nearestByVector
  | .root => .rootHandler

/-- a path as the description has it: the root is "/" -/
def long (p : Str) : Str := if p = [] then ['/'] else p

/-- the operation that is described for a method in capitals and a path -/
def describedAt (m p : Str) : Option Name :=
  match described.find? (fun r => r.method = m ∧ r.path = long p) with
  | none => none
  | some r => Name.all.find? (fun n => n.id = r.id)

/-- the call makes the registry -/
def Call.makes : Call H B C → Bool
  | .init | .serve | .addMiddleware _ _ _ => true
  | _ => false

/-- some call makes the registry -/
def made (cs : List (Call H B C)) : Bool := cs.any Call.makes

/-- the handler of an operation when the registry is made: the last one set before -/
def bound (n : Name) (h : Option H) : List (Call H B C) → Option H
  | [] => h
  | .setHandler x k :: cs => bound n (if x = n then k else h) cs
  | .init :: _ | .serve :: _ | .addMiddleware _ _ _ :: _ => h
  | _ :: cs => bound n h cs

/-- the builders added for an operation, the last one first -/
def builders (up : Str → Str) (n : Name) : List (Call H B C) → List B
  | [] => []
  | .addMiddleware m p b :: cs => builders up n cs ++ (if describedAt (up m) p = some n then [b] else [])
  | _ :: cs => builders up n cs

/-- a handler with builders around it, the first of the list outermost -/
def wrap (x : Http H B) : List B → Http H B
  | [] => x
  | b :: l => .wrapped b (wrap x l)

/-- the call puts middleware around a described operation, with the method not written in capitals -/
def Call.misspelt (up : Str → Str) : Call H B C → Prop
  | .addMiddleware m p _ => (∃ n, describedAt (up m) p = some n) ∧ m ≠ up m
  | _ => False

/-- `up` behaves like `strings.ToUpper` on the three methods -/
structure Upper (up : Str → Str) : Prop where
  post : up post = post
  get : up get = get
  delete : up delete = delete

/-- the status of an answer; `none`: the connection is closed without one -/
def status {F D : Type} : Rest.Resp F D → Option Nat
  | .crash => none
  | .bad _ => some 400
  | .unprocessable => some 422
  | _ => some 200

/-- the operation a request belongs to -/
def nameOf {F D : Type} : Rest.HReq F D → Name
  | .create .. => .create
  | .delete .. => .delete
  | .list .. => .collections
  | .add .. => .add
  | .nearText .. => .nearest
  | .nearVector .. => .nearestByVector
  | .get .. => .documents

/-- the operation declares the status -/
def declares (n : Name) (s : Nat) : Prop := ∃ r ∈ described, r.id = n.id ∧ s ∈ r.statuses

instance (n : Name) (s : Nat) : Decidable (declares n s) := by unfold declares; infer_instance

end Fave.Api
