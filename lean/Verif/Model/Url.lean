/-!
# Addresses of requests

The URL builders and the reading of path and query parameters (restapi/operations/*_urlbuilder.go, *_parameters.go, fave_api.go).  Strings are
byte lists.  `net/url`, `path` and the router of go-openapi are not in the repository; what is used of them is modelled after their
documentation.
-/
namespace Fave.Url

/-- a Go string (fave_delete_collection_urlbuilder.go:45) -/
abbrev Bytes := List UInt8

/-- a byte written as a character (fave_delete_collection_urlbuilder.go:43 and other string constants) -/
def b (c : Char) : UInt8 := c.toNat.toUInt8

/-- a constant string (fave_delete_collection_urlbuilder.go:43) -/
def str (l : List Char) : Bytes := l.map b

/-- `net/url`, `shouldEscape`: letters, digits, `-`, `_`, `.`, `~` are never escaped (used by fave_get_documents_urlbuilder.go:69) -/
def unreserved (c : UInt8) : Bool :=
  (b 'a' ≤ c && c ≤ b 'z') || (b 'A' ≤ c && c ≤ b 'Z') || (b '0' ≤ c && c ≤ b '9') || (str ['-', '_', '.', '~']).contains c

/-- what is left as it is in a path: mode `encodePath` (used by fave_delete_collection_urlbuilder.go:74, `url.URL.String`) -/
def pathOk (c : UInt8) : Bool := unreserved c || (str ['$', '&', '+', ',', '/', ':', ';', '=', '@']).contains c

/-- what a client leaves as it is with `url.PathEscape`: mode `encodePathSegment` (the reader is fave_delete_collection_parameters.go:49) -/
def segmentOk (c : UInt8) : Bool := unreserved c || (str ['$', '&', '+', ':', '=', '@']).contains c

/-- `net/url`, `validEncoded`: the bytes that may stand in a path that is taken as it is (fave_delete_collection_parameters.go:49) -/
def validByte (c : UInt8) : Bool :=
  pathOk c || (str ['!', '$', '&', '\'', '(', ')', '*', '+', ',', ';', '=', ':', '@', '[', ']', '%']).contains c

/-- a hexadecimal digit, upper case (used by fave_get_documents_urlbuilder.go:69) -/
def hex (n : UInt8) : UInt8 := if n < 10 then b '0' + n else b 'A' + (n - 10)

/-- the value of a hexadecimal digit (fave_delete_collection_parameters.go:49) -/
def unhex (c : UInt8) : Option UInt8 :=
  if b '0' ≤ c && c ≤ b '9' then some (c - b '0')
  else if b 'a' ≤ c && c ≤ b 'f' then some (c - b 'a' + 10)
  else if b 'A' ≤ c && c ≤ b 'F' then some (c - b 'A' + 10)
  else none

/-- one byte escaped (used by fave_get_documents_urlbuilder.go:69) -/
def percent (c : UInt8) : Bytes := [b '%', hex (c / 16), hex (c % 16)]

/-- escaping of everything but `ok` (used by fave_delete_collection_urlbuilder.go:74) -/
def escape (ok : UInt8 → Bool) : Bytes → Bytes
  | [] => []
  | c :: s => (if ok c then [c] else percent c) ++ escape ok s

/-- `url.QueryEscape`: a blank becomes `+` (fave_get_documents_urlbuilder.go:69) -/
def queryEscape : Bytes → Bytes
  | [] => []
  | c :: s => (if c = b ' ' then [b '+'] else if unreserved c then [c] else percent c) ++ queryEscape s

/-- `unescape`: in a query `+` is a blank; `none`: malformed (fave_get_documents_parameters.go:61, fave_delete_collection_parameters.go:49) -/
def unescape (query : Bool) : Bytes → Option Bytes
  | [] => some []
  | c :: s =>
    if c = b '%' then
      match s with
      | x :: y :: s' =>
        match unhex x, unhex y with
        | some p, some q => (unescape query s').map ((p * 16 + q) :: ·)
        | _, _ => none
      | _ => none
    else (unescape query s).map ((if query && c = b '+' then b ' ' else c) :: ·)

/-- the pieces between the bytes `c` (fave_get_documents_parameters.go:61) -/
def split (c : UInt8) : Bytes → List Bytes
  | [] => [[]]
  | x :: s =>
    if x = c then [] :: split c s
    else
      match split c s with
      | [] => [[x]]
      | p :: ps => (x :: p) :: ps

/-- `strings.Cut`: what stands before and after the first `c` (fave_get_documents_parameters.go:61) -/
def cut (c : UInt8) : Bytes → Bytes × Bytes
  | [] => ([], [])
  | x :: s => if x = c then ([], s) else let r := cut c s; (x :: r.1, r.2)

/-- pieces with slashes between them (`path.Join`, fave_delete_collection_urlbuilder.go:56) -/
def slashed : List Bytes → Bytes
  | [] => []
  | [p] => p
  | p :: ps => p ++ b '/' :: slashed ps

/-- `path.Clean` on the pieces of a path: `.` and empty pieces are left out, `..` removes the piece before it; `out` is what has been kept,
last first (fave_delete_collection_urlbuilder.go:56) -/
def cleanPieces (rooted : Bool) (out : List Bytes) : List Bytes → List Bytes
  | [] => out.reverse
  | p :: ps =>
    if p = [] ∨ p = str ['.'] then cleanPieces rooted out ps
    else if p = str ['.', '.'] then
      match out with
      | [] => cleanPieces rooted (if rooted then [] else [p]) ps
      | q :: qs => cleanPieces rooted (if q = str ['.', '.'] then p :: q :: qs else qs) ps
    else cleanPieces rooted (p :: out) ps

/-- `path.Clean` (fave_delete_collection_urlbuilder.go:56) -/
def clean (p : Bytes) : Bytes :=
  if p.head? = some (b '/') then b '/' :: slashed (cleanPieces true [] (split (b '/') p))
  else
    match cleanPieces false [] (split (b '/') p) with
    | [] => str ['.']
    | l => slashed l

/-- `path.Join` of two paths, the second not empty (fave_delete_collection_urlbuilder.go:56) -/
def join (p q : Bytes) : Bytes := if p = [] then clean q else clean (p ++ b '/' :: q)

/-- the methods that operations are registered for — fave_api.go:304-342 -/
inductive Method where
  | get
  | post
  | delete
deriving DecidableEq, Repr

/-- the operations with the parameters that are in the address — fave_api.go:304-342 -/
inductive Op where
  | root
  | collections
  | create
  | delete (collection : Bytes)
  | add
  | documents (collection property value : Bytes)
  | nearest
  | nearestByVector
deriving DecidableEq, Repr

/-- fave_api.go:304-342 -/
def Op.method : Op → Method
  | .root | .collections | .documents _ _ _ => .get
  | .create | .add | .nearest | .nearestByVector => .post
  | .delete _ => .delete

/-- `_path` of the builders; `none`: "collection is required" — fave_delete_collection_urlbuilder.go:43-50, fave_root_urlbuilder.go:38,
fave_get_collections_urlbuilder.go:38, fave_create_collection_urlbuilder.go:38, fave_add_documents_urlbuilder.go:38,
fave_get_documents_urlbuilder.go:44, fave_get_nearest_documents_urlbuilder.go:38, fave_get_nearest_documents_by_vector_urlbuilder.go:38 -/
def Op.path : Op → Option Bytes
  | .root => some (str ['/'])
  | .collections | .create => some (b '/' :: str "collections".toList)
  | .delete n => if n = [] then none else some (b '/' :: (str "collections".toList ++ b '/' :: n))
  | .add | .documents _ _ _ => some (b '/' :: str "documents".toList)
  | .nearest => some (b '/' :: str "nearest-documents".toList)
  | .nearestByVector => some (b '/' :: str "nearest-documents-by-vector".toList)

/-- `qs.Set` and `qs.Encode`, which sorts by key — fave_get_documents_urlbuilder.go:52-69 -/
def pairs : List (Bytes × Bytes) → Bytes
  | [] => []
  | (k, v) :: l =>
    if v = [] then pairs l
    else
      match pairs l with
      | [] => queryEscape k ++ b '=' :: queryEscape v
      | r => queryEscape k ++ b '=' :: queryEscape v ++ b '&' :: r

/-- the query of an address — fave_get_documents_urlbuilder.go:52-69 -/
def Op.query : Op → Bytes
  | .documents c p v => pairs [(str "collection".toList, c), (str "property".toList, p), (str "value".toList, v)]
  | _ => []

/-- `Build` and `url.URL.String`: `base` is the base path set with `SetBasePath`; an empty query is left out —
fave_delete_collection_urlbuilder.go:40-59, 73-75, fave_get_documents_urlbuilder.go:41-72 -/
def build (base : Bytes) (o : Op) : Option Bytes :=
  o.path.map (fun p =>
    escape pathOk (join (if base = [] then str ['/', 'v', '1'] else base) p) ++ (if o.query = [] then [] else b '?' :: o.query))

/-- why a request is not handed to an operation — fave_get_documents_parameters.go:84-144, fave_api.go:346-356 -/
inductive Bad where
  /-- the address cannot be read -/
  | malformed
  /-- no operation at this address -/
  | notFound
  /-- a parameter is missing or empty -/
  | unprocessable
deriving DecidableEq, Repr

/-- what becomes of a request: it is handed to an operation or refused — fave_api.go:346-356 -/
inductive Served where
  | ok (o : Op)
  | error (e : Bad)
deriving DecidableEq, Repr

/-- `URL.EscapedPath` of the received path: the path as it came if that is a valid encoding, else encoded anew
(used for routing, fave_api.go:346-356) -/
def escapedPath (p : Bytes) : Option Bytes :=
  (unescape false p).map (fun q => if escape pathOk q = p ∨ p.all validByte then p else escape pathOk q)

/-- `url.ParseQuery` as `URL.Query` uses it: malformed pairs are left out — fave_get_documents_parameters.go:61 -/
def parseQuery (q : Bytes) : List (Bytes × Bytes) :=
  (split (b '&') q).filterMap (fun kv =>
    if kv = [] ∨ (kv.contains (b ';')) then none
    else
      let r := cut (b '=') kv
      match unescape true r.1, unescape true r.2 with
      | some k, some v => some (k, v)
      | _, _ => none)

/-- the last value given for a parameter; missing or empty is refused — fave_get_documents_parameters.go:84-144 -/
def bind (q : List (Bytes × Bytes)) (key : Bytes) : Option Bytes :=
  match (q.filter (fun e => e.1 = key)).getLast? with
  | none => none
  | some e => if e.2 = [] then none else some e.2

/-- the router: the operation registered for a method and a path, with the path parameter; a parameter that cannot be decoded is taken as
it is — fave_api.go:304-342, embedded_spec.go:37-339 -/
def route (m : Method) (pieces : List Bytes) (query : Bytes) : Served :=
  match m with
  | .get =>
    if pieces = [[], str ['v', '1']] then .ok .root
    else if pieces = [[], str ['v', '1'], str "collections".toList] then .ok .collections
    else if pieces = [[], str ['v', '1'], str "documents".toList] then
      match bind (parseQuery query) (str "collection".toList), bind (parseQuery query) (str "property".toList),
          bind (parseQuery query) (str "value".toList) with
      | some c, some p, some v => .ok (.documents c p v)
      | _, _, _ => .error .unprocessable
    else .error .notFound
  | .post =>
    if pieces = [[], str ['v', '1'], str "collections".toList] then .ok .create
    else if pieces = [[], str ['v', '1'], str "documents".toList] then .ok .add
    else if pieces = [[], str ['v', '1'], str "nearest-documents".toList] then .ok .nearest
    else if pieces = [[], str ['v', '1'], str "nearest-documents-by-vector".toList] then .ok .nearestByVector
    else .error .notFound
  | .delete =>
    match pieces with
    | [r, v, c, n] =>
      if r = [] ∧ v = str ['v', '1'] ∧ c = str "collections".toList then .ok (.delete ((unescape false n).getD n))
      else .error .notFound
    | _ => .error .notFound

/-- a request as the server reads it: the address is cut at the first `?`, the cleaned path is looked up —
fave_api.go:346-356, fave_delete_collection_parameters.go:44-71, fave_get_documents_parameters.go:56-81 -/
def serve (m : Method) (address : Bytes) : Served :=
  let a := cut (b '?') address
  match escapedPath a.1 with
  | none => .error .malformed
  | some p => route m (split (b '/') (clean p)) a.2

end Fave.Url
