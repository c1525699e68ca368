import Verif.Model.Rest
/-!
# The start of the server

Model of adapters/handlers/environment.go, defaults.go, handler.go (`NewHandler`), of `document.New` and of restapi/configure_fave.go: the
configuration is read from environment variables, the storage library, the vectoriser, the user and the pod are opened one after the
other, and the process ends if one of them fails.  The listeners are in Model/Server.
-/
namespace Fave.Start
open Client Rest

/-- the environment variables that are read — environment.go:7-36 -/
inductive Var where
  | verbose | beeApi | rpcApi | stampId | vectorizerUrl | user | password | pod
  deriving DecidableEq

/-- `os.Getenv`: empty if the variable is not set -/
abbrev Environment := Var → Str

/-- `HandlerConfig` — handler.go:21-30 -/
structure Config where
  verbose : Bool
  beeApi : Str
  rpcEndpoint : Str
  stampId : Str
  vectorizerUrl : Str
  username : Str
  password : Str
  pod : Str
  deriving DecidableEq

/-- `handlers.HandlerConfig{}` — configure_fave.go:47 -/
def Config.zero : Config := ⟨false, [], [], [], [], [], [], []⟩

/-- `enabled` — environment.go:38-51 -/
def enabled (v : Str) : Bool :=
  if v = [] then false
  else if v = ['o', 'n'] ∨ v = ['e', 'n', 'a', 'b', 'l', 'e', 'd'] ∨ v = ['1'] ∨ v = ['t', 'r', 'u', 'e'] then true
  else false

/-- `if v := os.Getenv(x); v != "" { field = v }` — environment.go:12-35 -/
def over (v field : Str) : Str := if v ≠ [] then v else field

/-- `FromEnv` — environment.go:7-36 -/
def fromEnv (env : Environment) (c : Config) : Config :=
  { verbose := if enabled (env .verbose) then true else c.verbose
    beeApi := over (env .beeApi) c.beeApi
    rpcEndpoint := over (env .rpcApi) c.rpcEndpoint
    stampId := over (env .stampId) c.stampId
    vectorizerUrl := over (env .vectorizerUrl) c.vectorizerUrl
    username := over (env .user) c.username
    password := over (env .password) c.password
    pod := over (env .pod) c.pod }

/-- `DEFAULT_BEE_API` — defaults.go:4 -/
def defaultBee : Str := ['h', 't', 't', 'p', ':', '/', '/', 'l', 'o', 'c', 'a', 'l', 'h', 'o', 's', 't', ':', '1', '6', '3', '3']
/-- `DEFAULT_STAMP_ID` — defaults.go:5 -/
def defaultStamp : Str := List.replicate 64 '0'

/-- `SetDefaults` — defaults.go:8-16 -/
def setDefaults (c : Config) : Config :=
  let c := if c.beeApi = [] then { c with beeApi := defaultBee } else c
  if c.stampId = [] then { c with stampId := defaultStamp } else c

/-- a call to something outside, with its arguments -/
inductive Call where
  /-- `dfs.NewDfsAPI` — handler.go:58 -/
  | dfs (bee stamp rpc : Str)
  /-- `GET <url>//health` — pkg/vectorizer/rest/vectorizer.go:29-38 -/
  | health (url : Str)
  /-- `LoginUserV2` — document.go:103 -/
  | login (user password : Str)
  /-- `IsPodExist` — document.go:118 -/
  | podExists (pod : Str)
  /-- `CreatePod` — document.go:119 -/
  | createPod (pod : Str)
  /-- `OpenPod` — document.go:124 -/
  | openPod (pod : Str)
  deriving DecidableEq

/-- what the outside answers to each call: `true` if it succeeds, for `podExists` if the pod is there.  (A successful login is taken to
give a session id that is not empty.) -/
abbrev Outside := Call → Bool

/-- the calls of `Client.OpenPod` after a successful login, and whether it succeeds — document.go:111-129 -/
def podCalls (out : Outside) (pod : Str) : List Call × Bool :=
  if out (.podExists pod) then ([.podExists pod, .openPod pod], out (.openPod pod))
  else if out (.createPod pod) then ([.podExists pod, .createPod pod, .openPod pod], out (.openPod pod))
  else ([.podExists pod, .createPod pod], false)

/-- `document.New` — document.go:61-97: the call it makes and whether it succeeds -/
def newClient (out : Outside) (url : Str) : List Call × Bool :=
  if url = [] then ([], true) else ([.health url], out (.health url))

/-- `NewHandler` — handler.go:32-79 with document.go:61-144, on a pod whose contents are those of `w`: the calls to the outside and the
client that results, `none` if there is an error -/
def newHandler {F : Type} (env : Environment) (out : Outside) (w : World F) : List Call × Option (World F) :=
  let c := setDefaults (fromEnv env Config.zero)
  let dfs : Call := .dfs c.beeApi c.stampId c.rpcEndpoint
  if !out dfs then ([dfs], none)
  else
    let n := newClient out c.vectorizerUrl
    if !n.2 then (dfs :: n.1, none)
    else
      let w := { restart w with lookup := decide (c.vectorizerUrl ≠ []) }
      let log : Call := .login c.username c.password
      match login (out log) w with
      | (_, some _) => (dfs :: n.1 ++ [log], none)
      | (w, none) =>
        let p := podCalls out c.pod
        match openPod p.2 w with
        | (_, some _) => (dfs :: n.1 ++ [log] ++ p.1, none)
        | (w, none) => (dfs :: n.1 ++ [log] ++ p.1, some w)

/-- the process: it has ended (`os.Exit(1)`) or serves requests — configure_fave.go:47-66 -/
inductive Proc (F : Type) where
  | exited
  | serving (w : World F)

/-- `configureAPI`: the handlers are registered only if `NewHandler` succeeds — configure_fave.go:26-67 -/
def configure {F : Type} (env : Environment) (out : Outside) (w : World F) : Proc F :=
  match (newHandler env out w).2 with
  | none => .exited
  | some w => .serving w

/-- a request arrives; a process that has ended gives no answer -/
def Proc.handle {F D : Type} [Dist D] [DecidableEq F] (E : Env F D) (uuid : Str → Bool) : Proc F → HReq F D → Proc F × Option (Resp F D)
  | .exited, _ => (.exited, none)
  | .serving w, r => let x := Rest.handle E uuid w r; (.serving x.1, some x.2)

/-- the process after a sequence of requests -/
def Proc.after {F D : Type} [Dist D] [DecidableEq F] (E : Env F D) (uuid : Str → Bool) (p : Proc F) (rs : List (HReq F D)) : Proc F :=
  rs.foldl (fun p r => (p.handle E uuid r).1) p

end Fave.Start
