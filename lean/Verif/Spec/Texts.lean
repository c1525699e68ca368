import Verif.Model.Texts
import Verif.Spec.Docs
/-!
# The server on texts: what is claimed
-/
namespace Fave.Texts
open Json F32 Docs Bodies Client

/-- an addition whose body contains the document `d` for the collection, with the object `l` as properties -/
def Says (r : TReq) (name : Text) (d : DocB) (l : List (Text × J)) : Prop :=
  ∃ o body b ds, r = .add o body ∧ Bodies.bind addOf body = .ok b ∧ b.name = name ∧ b.docs = some ds ∧ some d ∈ ds ∧ d.props = some (.obj l)

/-- a deletion of the collection that gets as far as the database and succeeds there -/
def Wipes (w : World Num) (r : TReq) (name : Text) : Prop := ∃ o, r = .delete o name ∧ w.session = true ∧ w.pod = true ∧ o.docDelete = false

/-- the document is in the body of one of the requests, and the collection has not been deleted since -/
def Told [Dist Num] (E : Env Num Num) (uuid : Str → Bool) (odd : Option G → Text) (w : World Num) (rs : List TReq) (name : Text) (d : DocB)
    (l : List (Text × J)) : Prop :=
  ∃ before r since, rs = before ++ r :: since ∧ Says r name d l ∧
    ∀ a x b, since = a ++ x :: b → ¬ Wipes (run E uuid odd w (before ++ r :: a)) x name

/-- the answer shows the document: its id, and its properties with the same meaning; the names FaVe uses itself are `id`, `vector`, `hnswId`, and those in
`more` -/
def Shows (more : List Text) (d : DocB) (l : List (Text × J)) (w : List (Text × J)) (j : J) : Prop :=
  j = answerJ d.id w ∧ ∀ k, k ∉ kId :: kVector :: kIndex :: more → (last w k).isSome = (last l k).isSome ∧
    ∀ v u, last l k = some v → last w k = some u → Same v u

/-- the collection a search or look-up is about, as it stands in its body or path -/
def Asks (r : TReq) (name : Text) : Prop :=
  (∃ o body b, r = .nearText o body ∧ Bodies.bind nearOf body = .ok b ∧ b.name = name) ∨
  (∃ o body b, r = .nearVector o body ∧ Bodies.bind vecOf body = .ok b ∧ b.name = name) ∨ ∃ o sat p v, r = .get o sat name p v

end Fave.Texts
