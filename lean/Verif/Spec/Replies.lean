import Verif.Model.Replies
import Verif.Spec.Numbers
/-!
# What the list of collections should show
-/
namespace Fave.Replies
open Json F32 Docs Bodies Client Texts

/-- the type a field is to be indexed with: the last one the request names for it, where "bytes" does not count -/
def asked (l : List (Option IndexB)) (f : Text) : Option Text :=
  ((l.filterMap id).filter fun i => i.fieldName = f && i.fieldType ≠ "bytes".toList).getLast?.map IndexB.fieldType

/-- the indexes of a new collection: those asked for, and "hnswId" is a number -/
def indexes (l : List (Option IndexB)) (f : Text) : Option Text := if f = "hnswId".toList then some "number".toList else asked l f

/-- collections by name, the type of each field -/
abbrev Shown := Text → Option (Text → Option Text)

/-- The list that is kept by someone who sees requests and answers only: a creation that is answered with 200 adds the collection unless it is there, a deletion
that is answered with 200 removes it. -/
def noted (r : TReq) (a : Out) (s : Shown) : Shown :=
  match r, a with
  | .create _ body, .sent 200 _ =>
    match Bodies.bind collOf body with
    | .ok b => fun n => if n = b.name then some ((s n).getD (indexes (b.indexes.getD []))) else s n
    | _ => s
  | .delete _ name, .sent 200 _ => fun n => if n = name then none else s n
  | _, _ => s

/-- that list along requests -/
def notes [Dist Num] (E : Env Num Num) (uuid : Str → Bool) (odd : Option G → Text) (err : Text) : World Num → Shown → List TReq → Shown
  | _, s, [] => s
  | w, s, r :: rs => notes E uuid odd err (Texts.serve E uuid odd w r).1 (noted r (answer E uuid odd err w r) s) rs

/-- storage does not fail half-way: a creation fails at most in its first step, the deletion of the database does not fail -/
def Steady : TReq → Prop
  | .create o _ => o.docCreate = true ∨ (o.createTable = false ∧ o.docOpen = false ∧ o.openTable = false ∧ o.newIndex = false)
  | .delete o _ => o.docDelete = false
  | _ => True

/-- what a text shows as list of collections: each entry is a collection as the requests write it, no name occurs twice, and the entries are exactly those kept,
with exactly the indexes kept -/
def Lists (t : Text) (s : Shown) : Prop :=
  ∃ (js : List J) (bs : List (Text × List IndexB)), parse t = some (.arr js) ∧ js.map collOf = bs.map (fun b => some ⟨some (b.2.map some), b.1⟩) ∧
    (bs.map Prod.fst).Nodup ∧ (∀ n, (∃ b ∈ bs, b.1 = n) ↔ s n ≠ none) ∧
    ∀ b ∈ bs, ∀ g, s b.1 = some g → (b.2.map IndexB.fieldName).Nodup ∧ ∀ f ty, ⟨f, ty⟩ ∈ b.2 ↔ g f = some ty

end Fave.Replies
