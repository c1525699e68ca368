import Verif.Model.Basic
/-!
# JSON texts

What `encoding/json` of Go 1.21 (go.mod:3) writes and reads, as far as the values that FaVe stores need it: the vertices, the entry point and the
counter of an index (pkg/hnsw/insert.go:117-199, index.go:594-623) and the properties of documents (pkg/document/document.go:432,
adapters/handlers/documents.go:60, 100, 130).  The package itself is not in /repo.

Simplified: a text is a list of characters, not of bytes, so that texts that are not UTF-8 are not represented; the limit on the depth of nesting
(10000) is left out.
-/
namespace Fave.Json

/-- a text — insert.go:129, index.go:610 -/
abbrev Text := List Char

/-- a number as it is written: sign, whole part, fraction, exponent with its sign — encoding/json, used at insert.go:129, index.go:615 -/
structure Lit where
  neg : Bool
  int : Text
  frac : Option Text
  exp : Option (Bool × Text)
  deriving DecidableEq, Repr

/-- a JSON value; the members of an object in their order — encoding/json, used at insert.go:129, index.go:615, document.go:432 -/
inductive J where
  | null
  | bool (b : Bool)
  | num (l : Lit)
  | str (s : Text)
  | arr (l : List J)
  | obj (l : List (Text × J))
  deriving Repr

/-! ## Writing -/

/-- one of the sixteen digits of a `\u` escape — encoding/json `hex` -/
def hexChar (n : Nat) : Char :=
  if n < 10 then Char.ofNat (48 + n) else Char.ofNat (87 + n)

/-- the `\u` escape of a character below 2^16 — encoding/json `appendString` -/
def escape (n : Nat) : Text :=
  ['\\', 'u', hexChar (n / 4096 % 16), hexChar (n / 256 % 16), hexChar (n / 16 % 16), hexChar (n % 16)]

/-- one character of a string; `html`: the characters of HTML are escaped, as `json.Marshal` does (insert.go:129, document.go:432) but not the
producer of go-openapi for answers (restapi/configure_fave.go:45) — encoding/json `appendString` -/
def quoteChar (html : Bool) (c : Char) : Text :=
  if c = '"' then ['\\', '"']
  else if c = '\\' then ['\\', '\\']
  else if c = '\n' then ['\\', 'n']
  else if c = '\r' then ['\\', 'r']
  else if c = '\t' then ['\\', 't']
  else if c.toNat < 32 || html && (c = '<' || c = '>' || c = '&') || c.toNat = 0x2028 || c.toNat = 0x2029 then escape c.toNat
  else [c]

/-- the rest of a string after its first quote — encoding/json `appendString` -/
def quote (html : Bool) : Text → Text
  | [] => ['"']
  | c :: s => quoteChar html c ++ quote html s

/-- the fraction of a number — encoding/json `floatEncoder` -/
def fracText : Option Text → Text
  | some f => '.' :: f
  | none => []

/-- the exponent of a number — encoding/json `floatEncoder` -/
def expText : Option (Bool × Text) → Text
  | some (n, e) => 'e' :: (if n then '-' else '+') :: e
  | none => []

/-- a number — encoding/json `floatEncoder`, `uintEncoder`, `intEncoder` -/
def Lit.text (l : Lit) : Text :=
  (if l.neg then ['-'] else []) ++ (l.int ++ (fracText l.frac ++ expText l.exp))

mutual
/-- a value, without spaces — encoding/json `Marshal`, used at insert.go:129, 143, 155, document.go:432 -/
def render (html : Bool) : J → Text
  | .null => ['n', 'u', 'l', 'l']
  | .bool b => if b then ['t', 'r', 'u', 'e'] else ['f', 'a', 'l', 's', 'e']
  | .num l => l.text
  | .str s => '"' :: quote html s
  | .arr [] => ['[', ']']
  | .arr (v :: l) => '[' :: (render html v ++ renderElems html l)
  | .obj [] => ['{', '}']
  | .obj ((k, v) :: l) => '{' :: '"' :: (quote html k ++ ':' :: (render html v ++ renderMembers html l))
/-- the elements of an array from the second on — encoding/json `arrayEncoder` -/
def renderElems (html : Bool) : List J → Text
  | [] => [']']
  | v :: l => ',' :: (render html v ++ renderElems html l)
/-- the members of an object from the second on — encoding/json `structEncoder`, `mapEncoder` -/
def renderMembers (html : Bool) : List (Text × J) → Text
  | [] => ['}']
  | (k, v) :: l => ',' :: '"' :: (quote html k ++ ':' :: (render html v ++ renderMembers html l))
end

/-! ## Reading -/

/-- spaces between the parts are skipped — encoding/json `isSpace` -/
def skip : Text → Text
  | [] => []
  | c :: t => if c = ' ' ∨ c = '\t' ∨ c = '\r' ∨ c = '\n' then skip t else c :: t

/-- the value of a digit of a `\u` escape — encoding/json `getu4` -/
def hexVal (c : Char) : Option Nat :=
  if '0' ≤ c ∧ c ≤ '9' then some (c.toNat - 48)
  else if 'a' ≤ c ∧ c ≤ 'f' then some (c.toNat - 87)
  else if 'A' ≤ c ∧ c ≤ 'F' then some (c.toNat - 55)
  else none

/-- four digits of a `\u` escape — encoding/json `getu4` -/
def hex4 : Text → Option (Nat × Text)
  | a :: b :: c :: d :: t => do
    let a ← hexVal a
    let b ← hexVal b
    let c ← hexVal c
    let d ← hexVal d
    return (a * 4096 + b * 256 + c * 16 + d, t)
  | _ => none

/-- the number is one half of a pair — unicode/utf16 `IsSurrogate` -/
def surrogate (n : Nat) : Bool := decide (0xd800 ≤ n) && decide (n < 0xe000)

/-- the `\u` escape at the start — encoding/json `getu4` -/
def ahead : Text → Option (Nat × Text)
  | '\\' :: 'u' :: t => hex4 t
  | _ => none

/-- what a `\u` escape of `n` means, with what follows it: two halves make one character, a half alone is replaced — encoding/json `unquoteBytes`,
unicode/utf16 `DecodeRune` -/
def unescape (n : Nat) (t : Text) : Char × Text :=
  if surrogate n then
    match ahead t with
    | some (m, t') =>
      if decide (n < 0xdc00) && decide (0xdc00 ≤ m) && decide (m < 0xe000) then (Char.ofNat (0x10000 + (n - 0xd800) * 1024 + (m - 0xdc00)), t')
      else (Char.ofNat 0xfffd, t)
    | none => (Char.ofNat 0xfffd, t)
  else (Char.ofNat n, t)

/-- the rest of a string after its first quote; every step reads at least one character, so its length bounds their number — encoding/json
`stateInString`, `unquoteBytes` -/
def unquote : Nat → Text → Option (Text × Text)
  | 0, _ => none
  | fuel + 1, t =>
    match t with
    | [] => none
    | '"' :: t => some ([], t)
    | '\\' :: c :: t =>
      if c = 'u' then
        match hex4 t with
        | none => none
        | some (n, t) => let (x, t) := unescape n t
                         (unquote fuel t).map fun r => (x :: r.1, r.2)
      else
        match [('"', '"'), ('\\', '\\'), ('/', '/'), ('b', Char.ofNat 8), ('f', Char.ofNat 12), ('n', '\n'), ('r', '\r'), ('t', '\t')].lookup c with
        | none => none
        | some x => (unquote fuel t).map fun r => (x :: r.1, r.2)
    | c :: t => if c.toNat < 32 ∨ c = '\\' then none else (unquote fuel t).map fun r => (c :: r.1, r.2)

/-- the digits at the start — encoding/json `state1` -/
def digits (t : Text) : Text × Text := (t.takeWhile Char.isDigit, t.dropWhile Char.isDigit)

/-- an optional fraction — encoding/json `stateDot`, `stateDot0` -/
def readFrac : Text → Option (Option Text × Text)
  | '.' :: t => match digits t with
    | ([], _) => none
    | (f, t) => some (some f, t)
  | t => some (none, t)

/-- an optional sign — encoding/json `stateESign` -/
def readSign : Text → Bool × Text
  | '-' :: t => (true, t)
  | '+' :: t => (false, t)
  | t => (false, t)

/-- an optional exponent — encoding/json `stateE`, `stateESign`, `stateE0` -/
def readExp : Text → Option (Option (Bool × Text) × Text)
  | [] => some (none, [])
  | c :: t =>
    if c = 'e' ∨ c = 'E' then
      match digits (readSign t).2 with
      | ([], _) => none
      | (e, r) => some (some ((readSign t).1, e), r)
    else some (none, c :: t)

/-- a number without its sign; a zero at the start stands alone — encoding/json `stateNeg`, `state0`, `state1` -/
def readBody (neg : Bool) (t : Text) : Option (Lit × Text) :=
  if (digits t).1 = [] ∨ ((digits t).1.head? = some '0' ∧ (digits t).1 ≠ ['0']) then none
  else
    match readFrac (digits t).2 with
    | none => none
    | some (frac, r) => (readExp r).map fun x => (⟨neg, (digits t).1, frac, x.1⟩, x.2)

/-- a number — encoding/json `stateBeginValue`, `stateNeg` -/
def readNum : Text → Option (Lit × Text)
  | '-' :: t => readBody true t
  | t => readBody false t

mutual
/-- a value at the start of a text, and the rest; the fuel bounds the nesting and the length of arrays and objects — encoding/json
`stateBeginValue` -/
def value : Nat → Text → Option (J × Text)
  | 0, _ => none
  | fuel + 1, t =>
    match skip t with
    | '"' :: t => (unquote (t.length + 1) t).map fun r => (.str r.1, r.2)
    | '[' :: t => match skip t with
      | ']' :: t => some (.arr [], t)
      | t => (elems fuel t).map fun r => (.arr r.1, r.2)
    | '{' :: t => match skip t with
      | '}' :: t => some (.obj [], t)
      | t => (members fuel t).map fun r => (.obj r.1, r.2)
    | 'n' :: 'u' :: 'l' :: 'l' :: t => some (.null, t)
    | 't' :: 'r' :: 'u' :: 'e' :: t => some (.bool true, t)
    | 'f' :: 'a' :: 'l' :: 's' :: 'e' :: t => some (.bool false, t)
    | t => (readNum t).map fun r => (.num r.1, r.2)
/-- the elements of an array that is not empty — encoding/json `stateEndValue`, `parseArrayValue` -/
def elems : Nat → Text → Option (List J × Text)
  | 0, _ => none
  | fuel + 1, t =>
    match value fuel t with
    | none => none
    | some (v, t) => match skip t with
      | ',' :: t => (elems fuel t).map fun r => (v :: r.1, r.2)
      | ']' :: t => some ([v], t)
      | _ => none
/-- the members of an object that is not empty — encoding/json `stateBeginString`, `stateEndValue`, `parseObjectKey`, `parseObjectValue` -/
def members : Nat → Text → Option (List (Text × J) × Text)
  | 0, _ => none
  | fuel + 1, t =>
    match skip t with
    | '"' :: t => match unquote (t.length + 1) t with
      | none => none
      | some (k, t) => match skip t with
        | ':' :: t => match value fuel t with
          | none => none
          | some (v, t) => match skip t with
            | ',' :: t => (members fuel t).map fun r => ((k, v) :: r.1, r.2)
            | '}' :: t => some ([(k, v)], t)
            | _ => none
        | _ => none
    | _ => none
end

/-- a whole text: a value and nothing but spaces after it — encoding/json `checkValid`, used at index.go:615, insert.go:173, 191,
adapters/handlers/documents.go:60, 100, 130 -/
def parse (t : Text) : Option J :=
  match value (t.length + 1) t with
  | some (v, t) => if skip t = [] then some v else none
  | none => none

end Fave.Json
