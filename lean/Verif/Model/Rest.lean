import Verif.Model.Client
/-!
# The REST handlers

Model of adapters/handlers/collections.go and documents.go with the checks made while a request is bound
(restapi/operations/*_parameters.go, models/*.go).  The HTTP transport, routing and JSON syntax are not in the repository; a request body
arrives here as the Go structure it is decoded into, with `none` for JSON `null` or an absent list.  A panic in a handler ends the
connection without answer (`crash`); net/http keeps the process alive.
-/
namespace Fave.Rest
open Client
variable {F D : Type} [Dist D]

/-- the property "distance" — documents.go:69,109 -/
def distanceName : Str := ['d', 'i', 's', 't', 'a', 'n', 'c', 'e']

/-- the index types a request can name — collections.go:21-33 -/
def tString : Str := ['s', 't', 'r', 'i', 'n', 'g']
/-- see `tString` -/
def tNumber : Str := ['n', 'u', 'm', 'b', 'e', 'r']
/-- see `tString` -/
def tMap : Str := ['m', 'a', 'p']
/-- see `tString` -/
def tList : Str := ['l', 'i', 's', 't']
/-- see `tString` -/
def tBytes : Str := ['b', 'y', 't', 'e', 's']

/-- `models.Document` as it arrives; `props = none`: "properties" is not an object — models/document.go:20-28, documents.go:27-30 -/
structure RawDoc (F : Type) where
  id : Str
  props : Option (Props F)
  deriving DecidableEq

/-- a request at the REST interface, with what it does not determine (`Oracle`, `sat`).  The elements of a search vector are already
converted to 32 bits (documents.go:88-91).  An absent name or text is the empty string, an absent limit or distance 0. -/
inductive HReq (F D : Type) where
  | create (o : Oracle F D) (name : Str) (indexes : Option (List (Option (Str × Str))))
  | delete (o : Oracle F D) (name : Str)
  | list (o : Oracle F D)
  | add (o : Oracle F D) (name : Str) (toIndex : Option (List Str)) (docs : Option (List (Option (RawDoc F))))
  | nearText (o : Oracle F D) (name text : Str) (max : D) (limit : Int)
  | nearVector (o : Oracle F D) (name : Str) (q : Option (List F)) (max : D) (limit : Int)
  | get (o : Oracle F D) (sat : Str → Props F → Bool) (name property value : Str)

/-- a property value in an answer -/
inductive RVal (F D : Type) where
  | val (v : Val F)
  | dist (d : D)
  deriving DecidableEq

/-- a document in an answer — documents.go:64-71 -/
structure RDoc (F D : Type) where
  id : Str
  props : Map (RVal F D)
  deriving DecidableEq

/-- why a request is refused (the messages in collections.go and documents.go) -/
inductive Why where
  | name | indexes | indexType | documents | toVectorize | text | vector | failed
  deriving DecidableEq

/-- an answer; `bad`: status 400, `unprocessable`: status 422 -/
inductive Resp (F D : Type) where
  | ok
  | added (n : Nat)
  | listed (l : List (Str × List (Str × Str)))
  | near (name : Str) (docs : List (RDoc F D))
  | doc (d : RDoc F D)
  | bad (why : Why)
  | unprocessable
  | crash
  deriving DecidableEq

/-- the index type of a name; `none`: the type is refused, `some none`: it is passed over — collections.go:21-33 -/
def ixType (t : Str) : Option (Option IxType) :=
  if t = tString then some (some .string)
  else if t = tNumber then some (some .number)
  else if t = tMap then some (some .map)
  else if t = tList then some (some .list)
  else if t = tBytes then some none
  else none

/-- the loop over the indexes — collections.go:19-34; a null entry is dereferenced -/
def readIndexes : List (Option (Str × Str)) → Map IxType → Except (Resp F D) (Map IxType)
  | [], m => .ok m
  | none :: _, _ => .error .crash
  | some (f, t) :: l, m =>
    match ixType t with
    | none => .error (.bad .indexType)
    | some none => readIndexes l m
    | some (some x) => readIndexes l (m.set f x)

/-- the documents handed to the client — documents.go:24-36; a null document is dereferenced, one whose properties are no object leaves a
nil pointer -/
def readDocs : List (Option (RawDoc F)) → Option (List (Option (Doc F)))
  | [] => some []
  | none :: _ => none
  | some d :: l => (readDocs l).map (fun r => (d.props.map (fun p => (⟨d.id, p⟩ : Doc F))) :: r)

/-- the name of an index type in a list of collections; other types are left out — collections.go:66-89 -/
def typeName : IxType → Option Str
  | .string => some tString
  | .number => some tNumber
  | .map => some tMap
  | .list => some tList
  | .bytes | .vector => none

/-- the nearest 64-bit float of a natural number (ties to even): 53 significant bits -/
def float64Nat (n : Nat) : Nat :=
  if n < 2 ^ 53 then n
  else
    let e := n.log2 - 52
    let q := n / 2 ^ e
    let r := n % 2 ^ e
    (if 2 ^ e < 2 * r ∨ (2 * r = 2 ^ e ∧ q % 2 = 1) then q + 1 else q) * 2 ^ e

/-- an integer read by `json.Unmarshal` into an `interface{}`; `none`: out of the range of 64-bit floats -/
def float64Int (n : Int) : Option Int :=
  let m := float64Nat n.natAbs
  if 2 ^ 1024 ≤ m then none else some (if n < 0 then -(m : Int) else m)

/-- an element of a list after marshalling and unmarshalling: every number is a 64-bit float (its value is kept here only to 32 bits) -/
def decodeElem : Elem F → Option (Elem F)
  | .number none => none
  | .number (some v) | .f32 v | .f64 v => some (.f64 v)
  | .other => some .other

/-- the elements of a list -/
def decodeElems : List (Elem F) → Option (List (Elem F))
  | [] => some []
  | e :: es =>
    match decodeElem e, decodeElems es with
    | some x, some xs => some (x :: xs)
    | _, _ => none

/-- a property value after `json.Marshal` (document.go:432) and `json.Unmarshal` (documents.go:60); `none`: it cannot be unmarshalled.
Values of other kinds (`other`) are assumed to survive. -/
def decode : Val F → Option (Val F)
  | .int n => (float64Int n).map .int
  | .list l => (decodeElems l).map .list
  | .floats l => some (.list (l.map .f64))
  | .null => some .null
  | .str s => some (.str s)
  | .other t => some (.other t)

/-- `json.Unmarshal(v, &props)` — documents.go:59-63 -/
def decodeProps : Props F → Option (Props F)
  | [] => some []
  | (k, v) :: l =>
    match decode v, decodeProps l with
    | some v', some l' => some ((k, v') :: l')
    | _, _ => none

/-- `fmt.Sprintf("%s", props["id"])` — documents.go:65,105,135; what is printed for a list or other value is simplified -/
def idOf : Option (Val F) → Str
  | some (.str s) => s
  | none | some .null => ['%', '!', 's', '(', '<', 'n', 'i', 'l', '>', ')']
  | some (.int n) => ['%', '!', 's', '(', 'f', 'l', 'o', 'a', 't', '6', '4', '='] ++ (if n < 0 then ['-'] else []) ++ digits n.natAbs ++ [')']
  | some (.list _) | some (.floats _) | some (.other _) => ['%', '!', 's', '(', '.', '.', '.', ')']

/-- the document of a look-up answer — documents.go:134-141 -/
def showDoc (p : Props F) : RDoc F D := ⟨idOf (p.get idName), (((p.del idName).del vectorName).map (fun e => (e.1, RVal.val e.2)))⟩

/-- a document of a search answer — documents.go:64-71, 104-111 -/
def showHit (p : Props F) (d : D) : RDoc F D :=
  let r := showDoc p
  { r with props := r.props.set distanceName (.dist d) }

/-- the loop over the hits — documents.go:57-72, 97-112; `dists[i]` is out of range if there are fewer distances than documents -/
def showHits : List (Props F) → List D → Except (Resp F D) (List (RDoc F D))
  | [], _ => .ok []
  | p :: ps, ds =>
    match decodeProps p with
    | none => .error (.bad .failed)
    | some p' =>
      match ds with
      | [] => .error .crash
      | d :: ds =>
        match showHits ps ds with
        | .error e => .error e
        | .ok l => .ok (showHit p' d :: l)

/-- the answer to a request that failed in the client -/
def refusal : Err → Resp F D
  | .panic => .crash
  | _ => .bad .failed

/-- the answer of a search — documents.go:52-77, 92-117 -/
def nearResp (name : Str) : Ans F D → Resp F D
  | .near docs ds => match showHits docs ds with
    | .ok l => .near name l
    | .error e => e
  | .failed e => refusal e
  | _ => .bad .failed

/-- the answer of a request without content -/
def okResp (r : Resp F D) : Ans F D → Resp F D
  | .failed e => refusal e
  | _ => r

/-- the id of a document is neither empty nor a UUID — models/document.go:43-54 -/
def badId (uuid : Str → Bool) : Option (RawDoc F) → Bool
  | some d => d.id ≠ [] && !uuid d.id
  | none => false

/-- the handlers — collections.go:11-92, documents.go:13-142 — behind the binding of the request: the id of a document must be empty or a
UUID (models/document.go:43-54, `uuid`), and the three parameters of a look-up must not be empty
(restapi/operations/fave_get_documents_parameters.go:53-144) -/
def handle [DecidableEq F] (E : Env F D) (uuid : Str → Bool) (w : World F) : HReq F D → World F × Resp F D
  | .create o name indexes =>
    if name = [] then (w, .bad .name)
    else
      match indexes with
      | none => (w, .bad .indexes)
      | some l =>
        match readIndexes l [] with
        | .error e => (w, e)
        | .ok m => let r := serve E w (.create o name m); (r.1, okResp .ok r.2)
  | .delete o name => let r := serve E w (.delete o name); (r.1, okResp .ok r.2)
  | .list o =>
    let r := serve E w (.list o)
    (r.1, match r.2 with
      | .names l => .listed (l.map (fun c => (c.1, c.2.filterMap (fun e => (typeName e.2).map (fun t => (e.1, t))))))
      | .failed e => refusal e
      | _ => .bad .failed)
  | .add o name toIndex docs =>
    if (docs.getD []).any (badId uuid) then (w, .unprocessable)
    else if name = [] then (w, .bad .name)
    else
      match docs with
      | none => (w, .bad .documents)
      | some l =>
        match toIndex with
        | none => (w, .bad .toVectorize)
        | some ti =>
          match readDocs l with
          | none => (w, .crash)
          | some ds => let r := serve E w (.add o name ti ds); (r.1, okResp (.added l.length) r.2)
  | .nearText o name text max limit =>
    if name = [] then (w, .bad .name)
    else if text = [] then (w, .bad .text)
    else let r := serve E w (.nearText o name text max limit); (r.1, nearResp name r.2)
  | .nearVector o name q max limit =>
    if name = [] then (w, .bad .name)
    else
      match q with
      | none => (w, .bad .vector)
      | some q => let r := serve E w (.nearVector o name q max limit); (r.1, nearResp name r.2)
  | .get o sat name property value =>
    if name = [] ∨ property = [] ∨ value = [] then (w, .unprocessable)
    else
      let r := serve E w (.get o sat name property value)
      (r.1, match r.2 with
        | .doc p => match decodeProps p with
          | none => .bad .failed
          | some p' => .doc (showDoc p')
        | .failed e => refusal e
        | _ => .bad .failed)

end Fave.Rest
