import Verif.Model.Texts
import Verif.Model.Collection32
/-!
# Requests without infinities, and what a text asks of the client
-/
namespace Fave.Client
variable {F D : Type}

/-- the vectors of an addition have the property -/
def DocsAre (Q : List F → Prop) (docs : List (Option (Doc F))) : Prop :=
  ∀ d, some d ∈ docs → (∀ (l : List (Elem F)) (v : List F), d.props.get vectorName = some (.list l) → l.map Elem.value = v.map some → Q v) ∧
    ∀ v, d.props.get vectorName = some (.floats v) → Q v

/-- the vectors the vectoriser and the vector cache deliver have the properties -/
structure Oracle.Are (G Q : List F → Prop) (o : Oracle F D) : Prop where
  vo : ∀ i l a n id v, o.vo i l a n id = some v → G v
  corpi : ∀ i t v, o.corpi i t = .vec v → Q v

/-- the vectors of a request have the properties -/
def Req.Are (G Q : List F → Prop) : Req F D → Prop
  | .add o _ _ docs => o.Are G Q ∧ DocsAre Q docs
  | .nearVector _ _ q _ _ => Q q
  | .nearText o _ _ _ _ => o.Are G Q
  | _ => True

end Fave.Client

namespace Fave.F32
open Distance Client

/-- a vector of numbers, not of infinities, of at most 2^22 entries -/
def Numbers (v : List Num) : Prop := v.length ≤ 2 ^ 22 ∧ ∀ x ∈ v, ∃ a, x = .fin a

/-- FaVe's server, with all values of `float32` — pkg/document/document.go:189-199 -/
def envNum (avx : Bool) (junk : ℕ → ℕ → Num) : Env Num Num := ⟨paramsNum avx junk, false⟩

/-- such a vector as the index keeps it -/
def Kept (u : List Num) : Prop := ∃ v, Numbers v ∧ u = normalize ops v

/-- only such vectors occur in a request, and the caches deliver only such vectors -/
def Plain (r : Req Num Num) : Prop := r.Are Kept Numbers

end Fave.F32

namespace Fave.Texts
open Json F32 Docs Bodies Client

/-- a document of an addition as the client gets it; `none`: it has no properties -/
def docOf (d : DocB) : Option (Doc Num) := match d.props with | some (.obj p) => some ⟨d.id, props p⟩ | _ => none

/-- `null` in place of a document, or an id that is neither empty nor a UUID -/
def unfit (uuid : Str → Bool) : Option DocB → Bool
  | some d => d.id ≠ [] && !uuid d.id
  | none => true

/-- What a request asks of the client, if it gets as far as that: the body can be read, the name of the collection is not empty, a new collection has a list of
known index types, documents have ids that are empty or UUIDs and the request says which properties are to be vectorised, a search has a text or a vector. -/
def meant (uuid : Str → Bool) : TReq → Option (Req Num Num)
  | .login ok => some (.login ok)
  | .openPod ok => some (.openPod ok)
  | .restart => some .restart
  | .create o body =>
    match Bodies.bind collOf body with
    | .ok b =>
      if b.name = [] then none
      else b.indexes.bind fun l =>
        match (Rest.readIndexes (l.map fun i => i.map fun i => (i.fieldName, i.fieldType)) [] : Except (Rest.Resp Num Num) _) with
        | .ok m => some (.create o b.name m)
        | .error _ => none
    | _ => none
  | .delete o name => some (.delete o name)
  | .list o => some (.list o)
  | .add o body =>
    match Bodies.bind addOf body with
    | .ok b =>
      if b.name = [] then none
      else b.docs.bind fun l =>
        if l.any (unfit uuid) then none else b.toVec.map fun ti => .add o b.name ti (l.map fun d => d.bind docOf)
    | _ => none
  | .nearText o body =>
    match Bodies.bind nearOf body with
    | .ok b => if b.name = [] ∨ b.text = [] then none else some (.nearText o b.name b.text b.dist b.limit)
    | _ => none
  | .nearVector o body =>
    match Bodies.bind vecOf body with
    | .ok b => if b.name = [] then none else b.vec.map fun q => .nearVector o b.name q b.dist b.limit
    | _ => none
  | .get o sat name property value => if name = [] ∨ property = [] ∨ value = [] then none else some (.get o sat name property value)

end Fave.Texts
