import Verif.Model.Rest
/-!
# The registry of operations

Model of restapi/operations/fave_api.go, of restapi/configure_fave.go and of the description of the interface in
restapi/embedded_spec.go:22-390.  `H` are the operation handlers, `B` the middleware builders, `C` the consumers and producers of media
types.  `strings.ToUpper` is the parameter `up`.  The middleware context (routing, content negotiation, authentication) belongs to
go-openapi and is not in the repository; authenticators, formats and the defaults for media types (fave_api.go:27-39, 151-184, 231-245) are
left out, as nothing in the repository changes them.
-/
namespace Fave.Api
open Client

/-- the operations — fave_api.go:46-69 -/
inductive Name where
  | add | create | delete | collections | documents | nearest | nearestByVector | root
  deriving DecidableEq, Repr

/-- what is stored for a method and a path: the operation with its handler (`none`: a nil handler), or a handler wrapped by a builder —
fave_api.go:304-342, 376-385 -/
inductive Http (H B : Type) where
  | op (n : Name) (h : Option H)
  | wrapped (b : B) (x : Http H B)
  deriving DecidableEq

/-- `FaveAPI` — fave_api.go:73-139; `none`: nil.  The handlers are a map of maps -/
structure Api (H B C : Type) where
  fields : Name → Option H
  json : Option C
  jsonOut : Option C
  consumers : Map C
  producers : Map C
  handlers : Option (Map (Map (Http H B)))

variable {H B C : Type}

/-- "POST" — fave_api.go:310-337 -/
def post : Str := ['P', 'O', 'S', 'T']
/-- "GET" — fave_api.go:322-341 -/
def get : Str := ['G', 'E', 'T']
/-- "DELETE" — fave_api.go:318-321 -/
def delete : Str := ['D', 'E', 'L', 'E', 'T', 'E']
/-- the media type of all operations — fave_api.go:251, 268 -/
def jsonType : Str := "application/json".toList

/-- `NewFaveAPI`: every operation answers "not implemented" — fave_api.go:24-71 -/
def new (notImplemented : Name → H) (json jsonOut : C) : Api H B C :=
  ⟨fun n => some (notImplemented n), some json, some jsonOut, [], [], some []⟩

/-- `o.handlers[m][p] = x`, with the inner map made if there is none — fave_api.go:310-341 -/
def put (t : Map (Map (Http H B))) (m p : Str) (x : Http H B) : Map (Map (Http H B)) :=
  t.set m (((t.get m).getD []).set p x)

/-- `initHandlerCache` — fave_api.go:304-342 -/
def initCache (a : Api H B C) : Api H B C :=
  let t := a.handlers.getD []
  let t := put t post "/documents".toList (.op .add (a.fields .add))
  let t := put t post "/collections".toList (.op .create (a.fields .create))
  let t := put t delete "/collections/{collection}".toList (.op .delete (a.fields .delete))
  let t := put t get "/collections".toList (.op .collections (a.fields .collections))
  let t := put t get "/documents".toList (.op .documents (a.fields .documents))
  let t := put t post "/nearest-documents".toList (.op .nearest (a.fields .nearest))
  let t := put t post "/nearest-documents-by-vector".toList (.op .nearestByVector (a.fields .nearestByVector))
  let t := put t get [] (.op .root (a.fields .root))
  { a with handlers := some t }

/-- `Init` — fave_api.go:359-363 -/
def init (a : Api H B C) : Api H B C := if a.handlers.getD [] = [] then initCache a else a

/-- "/" is stored as the empty path — fave_api.go:288-290, 378-380 -/
def short (p : Str) : Str := if p = ['/'] then [] else p

/-- `HandlerFor` — fave_api.go:280-293 -/
def handlerFor (up : Str → Str) (a : Api H B C) (method path : Str) : Option (Http H B) :=
  match a.handlers with
  | none => none
  | some t =>
    match t.get (up method) with
    | none => none
    | some r => r.get (short path)

/-- `AddMiddlewareFor`; `none`: panic, as there is no map for the method as it is written — fave_api.go:376-385 -/
def addMiddleware (up : Str → Str) (a : Api H B C) (method path : Str) (b : B) : Option (Api H B C) :=
  let a := init a
  let t := a.handlers.getD []
  match ((t.get (up method)).getD []).get (short path) with
  | none => some a
  | some x =>
    match t.get method with
    | none => none
    | some r => some { a with handlers := some (t.set method (r.set (short path) (.wrapped b x))) }

/-- what `Validate` looks at, in its order — fave_api.go:190-221 -/
inductive Part where
  | consumer
  | producer
  | handler (n : Name)
  deriving DecidableEq, Repr

/-- the names that `Validate` puts into its error; `[]`: no error — fave_api.go:187-228 -/
def validate (a : Api H B C) : List Part :=
  (if a.json.isNone then [.consumer] else []) ++
  (if a.jsonOut.isNone then [.producer] else []) ++
  (if (a.fields .add).isNone then [.handler .add] else []) ++
  (if (a.fields .create).isNone then [.handler .create] else []) ++
  (if (a.fields .delete).isNone then [.handler .delete] else []) ++
  (if (a.fields .collections).isNone then [.handler .collections] else []) ++
  (if (a.fields .documents).isNone then [.handler .documents] else []) ++
  (if (a.fields .nearest).isNone then [.handler .nearest] else []) ++
  (if (a.fields .nearestByVector).isNone then [.handler .nearestByVector] else []) ++
  (if (a.fields .root).isNone then [.handler .root] else [])

/-- the loop of `ConsumersFor` and `ProducersFor`: the map of the registered ones; a nil consumer is entered as it is —
fave_api.go:247-277 -/
def mediaFor (json : Option C) (custom : Map C) : List Str → Map (Option C) → Map (Option C)
  | [], r => r
  | mt :: l, r =>
    let r := if mt = jsonType then r.set jsonType json else r
    let r := match custom.get mt with
      | some c => r.set mt (some c)
      | none => r
    mediaFor json custom l r

/-- `ConsumersFor` — fave_api.go:247-261 -/
def consumersFor (a : Api H B C) (l : List Str) : Map (Option C) := mediaFor a.json a.consumers l []

/-- `ProducersFor` — fave_api.go:264-277 -/
def producersFor (a : Api H B C) (l : List Str) : Map (Option C) := mediaFor a.jsonOut a.producers l []

/-- a call of the interface — fave_api.go:93-122 (assignments), 345-385 -/
inductive Call (H B C : Type) where
  | setHandler (n : Name) (h : Option H)
  | setJson (c : Option C)
  | setJsonOut (c : Option C)
  | registerConsumer (mt : Str) (c : C)
  | registerProducer (mt : Str) (c : C)
  | init
  | serve
  | addMiddleware (method path : Str) (b : B)

/-- one call; `none`: panic — fave_api.go:345-385 -/
def step (up : Str → Str) (a : Api H B C) : Call H B C → Option (Api H B C)
  | .setHandler n h => some { a with fields := fun x => if x = n then h else a.fields x }
  | .setJson c => some { a with json := c }
  | .setJsonOut c => some { a with jsonOut := c }
  | .registerConsumer mt c => some { a with consumers := a.consumers.set mt c }
  | .registerProducer mt c => some { a with producers := a.producers.set mt c }
  | .init | .serve => some (init a)
  | .addMiddleware m p b => addMiddleware up a m p b

/-- a sequence of calls; `none`: one of them panics — fave_api.go:345-385 -/
def run (up : Str → Str) (a : Api H B C) : List (Call H B C) → Option (Api H B C)
  | [] => some a
  | c :: l =>
    match step up a c with
    | none => none
    | some a => run up a l

/-- the methods of `handlers.Handler` — adapters/handlers/handler.go:81, collections.go:11,47,55, documents.go:13,44,80,120 -/
inductive Method where
  | rootHandler | createCollection | getCollections | deleteCollection | addDocuments | getDocuments | nearestDocuments | nearestByVector
  deriving DecidableEq, Repr

/-- what `configureAPI` does with the API once the handler is there — configure_fave.go:43-45, 53-66 -/
def configureCalls (json jsonOut : C) : List (Call Method B C) :=
  [.setJson (some json), .setJsonOut (some jsonOut),
   .setHandler .root (some .rootHandler), .setHandler .create (some .createCollection),
   .setHandler .collections (some .getCollections), .setHandler .delete (some .deleteCollection),
   .setHandler .add (some .addDocuments), .setHandler .documents (some .getDocuments),
   .setHandler .nearest (some .nearestDocuments), .setHandler .nearestByVector (some .nearestByVector), .serve]

/-- where a parameter is taken from — embedded_spec.go:87-318 -/
inductive Place where
  | body | path | query
  deriving DecidableEq, Repr

/-- an operation in the description of the interface: method, path, operation id, required parameters and declared statuses —
embedded_spec.go:38-390 -/
structure Row where
  method : Str
  path : Str
  id : String
  params : List (String × Place)
  statuses : List Nat
  deriving DecidableEq, Repr

/-- the statuses that most operations declare — embedded_spec.go:53-83 -/
def usual : List Nat := [200, 400, 401, 403, 422, 500]

/-- the description — embedded_spec.go:38-390 -/
def described : List Row :=
  [⟨get, ['/'], "fave.root", [], [200]⟩,
   ⟨get, "/collections".toList, "fave.getCollections", [], usual⟩,
   ⟨post, "/collections".toList, "fave.createCollection", [("body", .body)], usual⟩,
   ⟨delete, "/collections/{collection}".toList, "fave.deleteCollection", [("collection", .path)], usual⟩,
   ⟨get, "/documents".toList, "fave.getDocuments", [("property", .query), ("value", .query), ("collection", .query)], [200, 400, 404]⟩,
   ⟨post, "/documents".toList, "fave.addDocuments", [("body", .body)], usual⟩,
   ⟨post, "/nearest-documents".toList, "fave.getNearestDocuments", [("body", .body)], usual⟩,
   ⟨post, "/nearest-documents-by-vector".toList, "fave.getNearestDocumentsByVector", [("body", .body)], usual⟩]

/-- a request body as it comes — fave_create_collection_parameters.go:53-79 (the same in the other operations with a body) -/
inductive Body (α : Type) where
  /-- no body at all -/
  | absent
  /-- a body without content (`io.EOF`) -/
  | blank
  /-- not JSON, or JSON of other types -/
  | broken
  | value (a : α)

/-- `BindRequest` for a body; an error carries the status it is answered with (a required parameter 422, a body that cannot be parsed 400 —
go-openapi/errors, assumed) — fave_create_collection_parameters.go:48-84 -/
def bindBody {α : Type} (valid : α → Bool) : Body α → Except Nat α
  | .absent | .blank => .error 422
  | .broken => .error 400
  | .value a => if valid a then .ok a else .error 422

end Fave.Api
