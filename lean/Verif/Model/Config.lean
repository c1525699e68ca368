import Verif.Model.Client
/-!
# Index configuration

Model of pkg/hnsw/user_config.go and pq_config.go (parsing) and config_update.go (updating).
-/
namespace Fave.Config
open Client (Str Map)

/-- a configuration value (`interface{}`).  `number`: a `json.Number` with its text; `float m e`: the float64 `m·2^e` (JSON has no
NaN or infinity); `other`: lists, nil maps and values of other Go types. -/
inductive JVal where
  | null
  | bool (b : Bool)
  | str (s : Str)
  | number (text : Str)
  | float (m e : Int)
  | map (l : List (Str × JVal))
  | other

/-- result of `strconv.ParseInt` -/
inductive Parsed where
  | ok (n : Int)
  | range
  | syntax
  deriving DecidableEq

/-- the loop of `strconv.ParseUint` (base 10, 64 bits), used by `json.Number.Int64` — user_config.go:229 -/
def parseUint : Nat → Str → Parsed
  | n, [] => .ok n
  | n, c :: cs =>
    if c.toNat < 48 ∨ 57 < c.toNat then .syntax
    else if 2 ^ 64 ≤ n * 10 + (c.toNat - 48) then .range
    else parseUint (n * 10 + (c.toNat - 48)) cs

/-- the text without its sign, as `strconv.ParseInt` strips it -/
def unsigned : Str → Str
  | [] => []
  | c :: r => if c = '-' ∨ c = '+' then r else c :: r

/-- `strconv.ParseInt(text, 10, 64)`, called by `json.Number.Int64` — user_config.go:229 -/
def parseInt (s : Str) : Parsed :=
  if unsigned s = [] then .syntax
  else
    match parseUint 0 (unsigned s) with
    | .ok n =>
      if s.head? = some '-' then (if n > 2 ^ 63 then .range else .ok (-n)) else (if n ≥ 2 ^ 63 then .range else .ok n)
    | r => r

/-- `int64(f)` for the float64 `m·2^e`: rounded towards zero; out of range the result depends on the processor (`oor`) —
user_config.go:231 -/
def toInt64 (oor m e : Int) : Int :=
  let n := if 0 ≤ e then m * 2 ^ e.toNat else m.tdiv (2 ^ (-e).toNat)
  if -2 ^ 63 ≤ n ∧ n < 2 ^ 63 then n else oor

/-- `optionalIntFromMap` — user_config.go:214-245: the value the setting has afterwards, `dflt` if it is not set.  A `json.Number` out of
range becomes `math.MaxInt64`, a value of any other type 0. -/
def readInt (oor : Int) (m : Map JVal) (key : Str) (dflt : Int) : Except Unit Int :=
  match m.get key with
  | none => .ok dflt
  | some (.number t) =>
    match parseInt t with
    | .ok n => .ok n
    | .range => .ok (2 ^ 63 - 1)
    | .syntax => .error ()
  | some (.float a e) => .ok (toInt64 oor a e)
  | some _ => .ok 0

/-- `optionalBoolFromMap` — user_config.go:247-262 -/
def readBool (m : Map JVal) (key : Str) (dflt : Bool) : Bool :=
  match m.get key with
  | some (.bool b) => b
  | _ => dflt

/-- `optionalStringFromMap` — user_config.go:264-279 -/
def readStr (m : Map JVal) (key : Str) (dflt : Str) : Str :=
  match m.get key with
  | some (.str s) => s
  | _ => dflt

/-- `PQConfig` with its `PQEncoder` — pq_config.go:30-42 -/
structure PQ where
  enabled : Bool
  bitCompression : Bool
  segments : Int
  centroids : Int
  encoder : Str
  distribution : Str
  deriving DecidableEq

/-- `UserConfig` — user_config.go:53-66 -/
structure UC where
  skip : Bool
  cleanup : Int
  maxConn : Int
  efC : Int
  ef : Int
  efMin : Int
  efMax : Int
  efFactor : Int
  cacheMax : Int
  cutoff : Int
  distance : Str
  pq : PQ
  deriving DecidableEq

/-! the names of the settings — user_config.go:115-175, pq_config.go:67-143 -/
def kMaxConn : Str := "maxConnections".toList
def kCleanup : Str := "cleanupIntervalSeconds".toList
def kEfC : Str := "efConstruction".toList
def kEf : Str := "ef".toList
def kEfFactor : Str := "dynamicEfFactor".toList
def kEfMax : Str := "dynamicEfMax".toList
def kEfMin : Str := "dynamicEfMin".toList
def kCacheMax : Str := "vectorCacheMaxObjects".toList
def kCutoff : Str := "flatSearchCutoff".toList
def kSkip : Str := "skip".toList
def kDistance : Str := "distance".toList
def kPq : Str := "pq".toList
def kEnabled : Str := "enabled".toList
def kBit : Str := "bitCompression".toList
def kSegments : Str := "segments".toList
def kCentroids : Str := "centroids".toList
def kEncoder : Str := "encoder".toList
def kType : Str := "type".toList
def kDistribution : Str := "distribution".toList
/-! the names of distance, encoders and distributions — user_config.go:44, pq_config.go:24-25, 46-58 -/
def sCosine : Str := "cosine".toList
def sKmeans : Str := "kmeans".toList
def sTile : Str := "tile".toList
def sLogNormal : Str := "log-normal".toList
def sNormal : Str := "normal".toList

/-- the defaults of product quantisation — pq_config.go:20-27, user_config.go:87-96 -/
def PQ.default : PQ := ⟨false, false, 0, 256, sKmeans, sLogNormal⟩

/-- `SetDefaults` — user_config.go:33-45, 75-97 -/
def UC.default : UC :=
  { skip := false, cleanup := 300, maxConn := 64, efC := 128, ef := -1, efMin := 100, efMax := 500, efFactor := 8,
    cacheMax := 10 ^ 12, cutoff := 40000, distance := sCosine, pq := PQ.default }

/-- `ValidEncoder` — pq_config.go:44-53 -/
def validEncoder (s : Str) : Bool := s = sTile || s = sKmeans
/-- `ValidEncoderDistribution` — pq_config.go:55-64 -/
def validDistribution (s : Str) : Bool := s = sLogNormal || s = sNormal

/-- `encoderFromMap`, `encoderDistributionFromMap` — pq_config.go:66-104 -/
def readChecked (m : Map JVal) (key : Str) (valid : Str → Bool) (dflt : Str) : Except Unit Str :=
  match m.get key with
  | some (.str s) => if valid s then .ok s else .error ()
  | _ => .ok dflt

/-- `parsePQMap` — pq_config.go:106-164 -/
def parsePQ (oor : Int) (m : Map JVal) : Except Unit PQ :=
  match m.get kPq with
  | some (.map p) => do
    let enabled := readBool p kEnabled PQ.default.enabled
    let bit := readBool p kBit PQ.default.bitCompression
    let segments ← readInt oor p kSegments PQ.default.segments
    let centroids ← readInt oor p kCentroids PQ.default.centroids
    match Map.get p kEncoder with
    | some (.map e) => do
      let enc ← readChecked e kType validEncoder PQ.default.encoder
      let dist ← readChecked e kDistribution validDistribution PQ.default.distribution
      pure ⟨enabled, bit, segments, centroids, enc, dist⟩
    | _ => pure ⟨enabled, bit, segments, centroids, PQ.default.encoder, PQ.default.distribution⟩
  | _ => .ok PQ.default

/-- `validate` — user_config.go:187-209 -/
def UC.valid (c : UC) : Bool := 4 ≤ c.maxConn && 4 ≤ c.efC

/-- `ParseAndValidateConfig` — user_config.go:101-185; `none`: nil.  An error is always returned with some configuration, which the
model leaves out. -/
def parse (oor : Int) : Option JVal → Except Unit UC
  | none => .ok UC.default
  | some (.map m) => do
    let maxConn ← readInt oor m kMaxConn UC.default.maxConn
    let cleanup ← readInt oor m kCleanup UC.default.cleanup
    let efC ← readInt oor m kEfC UC.default.efC
    let ef ← readInt oor m kEf UC.default.ef
    let efFactor ← readInt oor m kEfFactor UC.default.efFactor
    let efMax ← readInt oor m kEfMax UC.default.efMax
    let efMin ← readInt oor m kEfMin UC.default.efMin
    let cacheMax ← readInt oor m kCacheMax UC.default.cacheMax
    let cutoff ← readInt oor m kCutoff UC.default.cutoff
    let pq ← parsePQ oor m
    let c : UC := { skip := readBool m kSkip UC.default.skip, cleanup, maxConn, efC, ef, efMin, efMax, efFactor, cacheMax, cutoff,
                    distance := readStr m kDistance UC.default.distance, pq }
    if c.valid then pure c else .error ()
  | some _ => .error ()

/-! ## updating -/

/-- a configuration object as the update sees it.  config_update.go works with the type of the Weaviate library (`ent`), not with the type
of this repository (`own`, returned by `ParseAndValidateConfig`) — config_update.go:19, user_config.go:53 -/
inductive Cfg where
  | ent (c : UC)
  | own (c : UC)
  | other

/-- `ValidateUserConfigUpdate` with `validateImmutableIntField` — config_update.go:22-77; `true`: accepted -/
def validateUpdate (initial updated : Cfg) : Bool :=
  match initial, updated with
  | .ent a, .ent b => a.efC = b.efC && a.maxConn = b.maxConn && a.cleanup = b.cleanup
  | _, _ => false

/-- the settings in a running index — index.go:78-90, 244-268 -/
structure Live where
  ef : Int
  efMin : Int
  efMax : Int
  efFactor : Int
  cutoff : Int
  /-- `maxSize` of the vector cache -/
  cacheMax : Int
  /-- `maxSize` of the compressed vector cache -/
  compressedMax : Int
  compressed : Bool
  /-- fixed when the index is made -/
  efC : Int
  maxConn : Int
  cleanup : Int
  distance : Str
  deriving DecidableEq

/-- what an update does: the settings afterwards, whether it reports an error, whether it starts the compression, and how often the
callback has been called when it returns -/
structure Updated where
  live : Live
  failed : Bool
  compressing : Bool
  callbacks : Nat
  deriving DecidableEq

/-- `UpdateUserConfig` — config_update.go:79-128 -/
def update (h : Live) : Cfg → Updated
  | .ent c =>
    let h' : Live := { h with ef := c.ef, efMin := c.efMin, efMax := c.efMax, efFactor := c.efFactor, cutoff := c.cutoff,
                              cacheMax := if h.compressed then h.cacheMax else c.cacheMax,
                              compressedMax := if h.compressed then c.cacheMax else h.compressedMax }
    if !h.compressed && c.pq.enabled then
      if !validEncoder c.pq.encoder then ⟨h', true, false, 1⟩
      else if !validDistribution c.pq.distribution then ⟨h', true, false, 1⟩
      else ⟨h', false, true, 1⟩
    else ⟨h', false, false, 1⟩
  | _ => ⟨h, true, false, 1⟩

end Fave.Config
