import Verif.Model.Bodies
import Verif.Model.Rest
/-!
# The server on texts

The parts put together: a body is read (Model/Bodies), checked and handed on (Model/Rest), served by the client (Model/Client) with numbers as 32-bit
floats, documents are stored as texts and read back from them (Model/Docs), and the answer is a text.

A value the client does not look into is there a number (`Client.Val.other`); here it is the code of its text.  A document in the pod is a table of such
values; `docText` is the text that is kept for it.  Simplified: only the answers of searches and look-ups are texts; the other answers are taken from
Model/Rest.
-/
namespace Fave.Texts
open Json F32 Docs Stored Bodies Client

/-- a text as a number; no counterpart in the code (see document.go:432-438: the text itself is stored) -/
def code : Text → Nat
  | [] => 0
  | c :: t => code t * 1114112 + c.toNat + 1

/-- the text of a number, of at most so many characters; see `code` (document.go:432-438) -/
def uncode : Nat → Nat → Text
  | 0, _ => []
  | _ + 1, 0 => []
  | f + 1, n + 1 => Char.ofNat (n % 1114112) :: uncode f (n / 1114112)

/-- an element of a list as the type switch sees it: numbers are `json.Number` — document.go:356-371 -/
def elem : J → Elem Num
  | .num l => .number (VecText.docComp (.num l))
  | _ => .other

/-- a property as the client sees it: only strings, null, and the list at "vector" are looked into — document.go:349-371, 401-407 -/
def val (k : Text) : J → Val Num
  | .null => .null
  | .str s => .str s
  | .arr l => if k = kVector then .list (l.map elem) else .other (code (render false (.arr l)))
  | v => .other (code (render false v))

/-- the value that is written for a property — document.go:432; lists and slices of floats occur only as vectors, which are removed before -/
def unval : Val Num → J
  | .null => .null
  | .str s => .str s
  | .int n => intJ n
  | .other n => (parse (uncode n n)).getD .null
  | .list _ | .floats _ => .null

/-- the properties of a document — documents.go:26-36 -/
def props (l : List (Text × J)) : Props Num := l.map fun m => (m.1, val m.1 m.2)

/-- a document of a body as the handler sees it; properties that are no object are refused by the type assertion — documents.go:26-36 -/
def rawDoc (d : DocB) : Rest.RawDoc Num :=
  ⟨d.id, match d.props with
    | some (.obj l) => some (props l)
    | _ => none⟩

/-- the members in the order in which `json.Marshal` writes them — document.go:432 -/
def table (p : Props Num) : List (Text × J) := p.foldl (fun t m => put m.1 (unval m.2) t) []

/-- the text kept for a document — document.go:432-438 -/
def docText (p : Props Num) : Text := Docs.stored (table p)

/-- a request: the bodies are texts — restapi/operations/*_parameters.go:53-83; log-in, opening of the pod and restarts as in Model/Client
(document.go:99-144) -/
inductive TReq where
  | login (ok : Bool)
  | openPod (ok : Bool)
  | restart
  | create (o : Oracle Num Num) (body : Text)
  | delete (o : Oracle Num Num) (name : Text)
  | list (o : Oracle Num Num)
  | add (o : Oracle Num Num) (body : Text)
  | nearText (o : Oracle Num Num) (body : Text)
  | nearVector (o : Oracle Num Num) (body : Text)
  | get (o : Oracle Num Num) (sat : Str → Props Num → Bool) (name property value : Text)

/-- an answer: the body is missing or cannot be read (restapi/operations/*_parameters.go:57-64), an answer without text (Model/Rest:
adapters/handlers/collections.go:11-92, documents.go:13-36), or the answer of a search or look-up (documents.go:57-77, 129-142) -/
inductive Reply where
  | missing
  | unreadable
  | plain (r : Rest.Resp Num Num)
  | text (a : Docs.Answer)

/-- a request of the REST interface with the body that was read — restapi/operations/*_parameters.go:53-83 -/
def read : TReq → Except Reply (Rest.HReq Num Num)
  | .login _ | .openPod _ | .restart => .error (.plain .ok)
  | .create o body =>
    match Bodies.bind collOf body with
    | .missing => .error .missing
    | .unreadable => .error .unreadable
    | .ok b => .ok (.create o b.name (b.indexes.map fun l => l.map fun i => i.map fun i => (i.fieldName, i.fieldType)))
  | .delete o name => .ok (.delete o name)
  | .list o => .ok (.list o)
  | .add o body =>
    match Bodies.bind addOf body with
    | .missing => .error .missing
    | .unreadable => .error .unreadable
    | .ok b => .ok (.add o b.name b.toVec (b.docs.map fun l => l.map fun d => d.map rawDoc))
  | .nearText o body =>
    match Bodies.bind nearOf body with
    | .missing => .error .missing
    | .unreadable => .error .unreadable
    | .ok b => .ok (.nearText o b.name b.text b.dist b.limit)
  | .nearVector o body =>
    match Bodies.bind vecOf body with
    | .missing => .error .missing
    | .unreadable => .error .unreadable
    | .ok b => .ok (.nearVector o b.name b.vec b.dist b.limit)
  | .get o sat name property value => .ok (.get o sat name property value)

/-- the answer of a search — documents.go:52-77, 92-117 -/
def searched (odd : Option G → Text) (name : Text) : Ans Num Num → Reply
  | .near docs ds => .text (found odd name (docs.map docText) ds)
  | a => .plain (Rest.nearResp name a)

/-- the answer of a look-up — documents.go:125-142 -/
def looked (odd : Option G → Text) : Ans Num Num → Reply
  | .doc p => .text (lookedUp odd (docText p))
  | .failed e => .plain (Rest.refusal e)
  | _ => .plain (.bad .failed)

/-- the handlers behind the binding: as `Rest.handle`, but documents are read back from their texts — adapters/handlers/collections.go:11-92,
documents.go:13-142 -/
def handled [Dist Num] (E : Env Num Num) (uuid : Str → Bool) (odd : Option G → Text) (w : World Num) : Rest.HReq Num Num → World Num × Reply
  | .nearText o name text max limit =>
    if name = [] then (w, .plain (.bad .name))
    else if text = [] then (w, .plain (.bad .text))
    else let r := Client.serve E w (.nearText o name text max limit); (r.1, searched odd name r.2)
  | .nearVector o name q max limit =>
    if name = [] then (w, .plain (.bad .name))
    else
      match q with
      | none => (w, .plain (.bad .vector))
      | some q => let r := Client.serve E w (.nearVector o name q max limit); (r.1, searched odd name r.2)
  | .get o sat name property value =>
    if name = [] ∨ property = [] ∨ value = [] then (w, .plain .unprocessable)
    else let r := Client.serve E w (.get o sat name property value); (r.1, looked odd r.2)
  | r => let a := Rest.handle E uuid w r; (a.1, .plain a.2)

/-- the server — restapi/operations/*.go `ServeHTTP`: bind the request, then handle it -/
def serve [Dist Num] (E : Env Num Num) (uuid : Str → Bool) (odd : Option G → Text) (w : World Num) (r : TReq) : World Num × Reply :=
  match r with
  | .login ok => ((Client.login ok w).1, .plain .ok)
  | .openPod ok => ((Client.openPod ok w).1, .plain .ok)
  | .restart => (Client.restart w, .plain .ok)
  | r =>
    match read r with
    | .error e => (w, e)
    | .ok h => handled E uuid odd w h

/-- one request after the other — restapi/operations/*.go -/
def run [Dist Num] (E : Env Num Num) (uuid : Str → Bool) (odd : Option G → Text) (w : World Num) (rs : List TReq) : World Num :=
  rs.foldl (fun w r => (serve E uuid odd w r).1) w

end Fave.Texts
