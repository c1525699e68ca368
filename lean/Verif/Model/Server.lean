import Verif.Model.Basic
/-!
# Listening, serving and shutting down

Model of restapi/server.go and of cmd/fave-server/main.go after the command line has been read.  The first part is sequential: which servers
are started with which settings.  The second part is a small-step machine of the goroutines that serve and shut down: the handler of signals,
callers of `Shutdown`, the serving loop of each `http.Server`, the goroutine that shuts it down, `handleShutdown` and the main goroutine.
`http.Server` itself (net/http) is taken as documented: `Shutdown` closes the listeners, after which no request is accepted and `Serve`
returns `ErrServerClosed`; it returns once no request is in flight, with the error of closing the listeners if there was one, or with an error
when its context ends.  Connections without a request are not modelled.
-/
namespace Fave.Server

/-! ## Which servers are started -/

/-- the three kinds of listeners, in the order in which they are started — server.go:30-34, 171, 194, 226 -/
inductive Scheme where
  | unix | http | https
  deriving DecidableEq, Repr

/-- the words for them — server.go:30-34 -/
def Scheme.word : Scheme → String
  | .unix => "unix"
  | .http => "http"
  | .https => "https"

/-- the options of the command line — server.go:68-98; durations as integers; the certificate files by name -/
structure Options where
  listeners : List String
  cleanup : Int
  socket : String
  host : String
  port : Nat
  limit : Int
  keepAlive : Int
  readTimeout : Int
  writeTimeout : Int
  tlsHost : String
  tlsPort : Nat
  tlsCert : String
  tlsKey : String
  tlsCA : String
  tlsLimit : Int
  tlsKeepAlive : Int
  tlsReadTimeout : Int
  tlsWriteTimeout : Int

/-- `hasScheme` — server.go:138-150; `defaultSchemes` — server.go:36-42 -/
def hasScheme (o : Options) (x : Scheme) : Bool :=
  let schemes := if o.listeners.length = 0 then ["http"] else o.listeners
  schemes.any (· == x.word)

/-- what the outside answers: addresses that can be listened on, with the host and port that come back (`swag.SplitHostPort` fails: `none`);
key pairs that can be loaded; certificate authorities that can be read and parsed -/
structure Outside where
  unix : String → Bool
  tcp : String → Nat → Option (String × Nat)
  pair : String → String → Bool
  caRead : String → Bool
  caParse : String → Bool

/-- first part of `Listen`: settings of https not given are those of http — server.go:334-355 -/
def inherit (o : Options) : Options :=
  if hasScheme o .https then
    { o with
      tlsHost := if o.tlsHost = "" then o.host else o.tlsHost
      tlsLimit := if o.tlsLimit = 0 then o.limit else o.tlsLimit
      tlsKeepAlive := if o.tlsKeepAlive = 0 then o.keepAlive else o.tlsKeepAlive
      tlsReadTimeout := if o.tlsReadTimeout = 0 then o.readTimeout else o.tlsReadTimeout
      tlsWriteTimeout := if o.tlsWriteTimeout = 0 then o.writeTimeout else o.tlsWriteTimeout }
  else o

/-- the http part of `Listen` — server.go:365-378; `none`: an error is returned -/
def listenHttp (out : Outside) (o : Options) : Option Options :=
  if hasScheme o .http then
    match out.tcp o.host o.port with
    | none => none
    | some (h, p) => some { o with host := h, port := p }
  else some o

/-- the https part of `Listen` — server.go:380-393 -/
def listenHttps (out : Outside) (o : Options) : Option Options :=
  if hasScheme o .https then
    match out.tcp o.tlsHost o.tlsPort with
    | none => none
    | some (h, p) => some { o with tlsHost := h, tlsPort := p }
  else some o

/-- `Listen` — server.go:329-397 -/
def listen (out : Outside) (o : Options) : Option Options :=
  let o := inherit o
  if hasScheme o .unix && !out.unix o.socket then none
  else
    match listenHttp out o with
    | none => none
    | some o => listenHttps out o

/-- an `http.Server` that is started: its scheme, address and settings; `none` is the zero value of the field, that is, no limit -/
structure Started where
  scheme : Scheme
  host : String
  port : Nat
  readTimeout : Int
  writeTimeout : Int
  keepAlives : Bool
  limit : Option Int
  idle : Option Int
  clientCert : Bool
  deriving DecidableEq, Repr

/-- `if x > 0 { … }` — server.go:175-177, 200-206, 232-237 -/
def positive (x : Int) : Option Int := if x > 0 then some x else none

/-- the server on the domain socket — server.go:171-192; it has no timeouts -/
def unixServer (o : Options) : Started := ⟨.unix, o.socket, 0, 0, 0, true, none, positive o.cleanup, false⟩

/-- the http server — server.go:194-224 -/
def httpServer (o : Options) : Started :=
  ⟨.http, o.host, o.port, o.readTimeout, o.writeTimeout, decide (o.keepAlive > 0), positive o.limit, positive o.cleanup, false⟩

/-- the https server — server.go:226-319; with a certificate authority clients have to show a certificate (line 276) -/
def httpsServer (o : Options) : Started :=
  ⟨.https, o.tlsHost, o.tlsPort, o.tlsReadTimeout, o.tlsWriteTimeout, decide (o.tlsKeepAlive > 0), positive o.tlsLimit, positive o.cleanup,
    decide (o.tlsCA ≠ "")⟩

/-- how a start ends: `Serve` returns an error (which `main` logs before it exits), the process exits in `Serve`, or the servers run -/
inductive Outcome where
  | error
  | fatal
  | running (servers : List Started)
  deriving DecidableEq, Repr

/-- the certificates — server.go:258-301; `configureTLS` (configure_fave.go:74-76) does nothing -/
def certificates (out : Outside) (o : Options) : Option Outcome :=
  let given := o.tlsCert ≠ "" ∧ o.tlsKey ≠ ""
  if given ∧ out.pair o.tlsCert o.tlsKey = false then some .error
  else if o.tlsCA ≠ "" ∧ out.caRead o.tlsCA = false then some .error
  else if o.tlsCA ≠ "" ∧ out.caParse o.tlsCA = false then some .error
  else if ¬ given then some .fatal
  else none

/-- `Serve` up to the goroutine of `handleShutdown` — server.go:153-321; the handler is set in `ConfigureAPI` before -/
def start (out : Outside) (o : Options) : Outcome :=
  match listen out o with
  | none => .error
  | some o =>
    let servers : List Started := []
    let servers := if hasScheme o .unix then servers ++ [unixServer o] else servers
    let servers := if hasScheme o .http then servers ++ [httpServer o] else servers
    if hasScheme o .https then
      match certificates out o with
      | some e => e
      | none => .running (servers ++ [httpsServer o])
    else .running servers

/-! ## The machine -/

/-- a call of `Shutdown` — server.go:400-405: not made, before the `CompareAndSwap`, before the `close`, returned -/
inductive Call where
  | idle | called | won | returned
  deriving DecidableEq, Repr

/-- the goroutine that calls `server.Shutdown(ctx)` — server.go:424-435: not yet running; listeners closed (with an error or not) and waiting
for requests in flight; about to send its result on the channel without buffer; result received -/
inductive Down where
  | idle
  | draining (bad : Bool)
  | result (ok : Bool)
  | sent (ok : Bool)
  deriving DecidableEq, Repr

/-- a server: is its `Serve` running, the number of requests in flight, the goroutine that shuts it down -/
structure Srv where
  serving : Bool
  active : Nat
  down : Down
  deriving DecidableEq, Repr

/-- `handleShutdown` — server.go:407-447: waiting for the channel to be closed; in the loop of line 440 with the number of turns made and
`success`; finished -/
inductive Handle where
  | waiting
  | collecting (k : Nat) (ok : Bool)
  | done
  deriving DecidableEq, Repr

/-- the hooks — server.go:420, 444 -/
inductive Hook where
  | pre | post
  deriving DecidableEq, Repr

/-- the main goroutine: in `wg.Wait`, in the deferred `Shutdown` of `main`, gone -/
inductive Main where
  | waiting
  | returned
  | exited (code : Nat)
  deriving DecidableEq, Repr

/-- the state of the machine; `n` servers; call 0 of `Shutdown` is made by the handler of signals, call 1 by `main`, further ones (below `m`) by
whoever has the server -/
structure St where
  n : Nat
  m : Nat
  /-- the channel of signals has a buffer of one — server.go:50 -/
  pending : Bool
  interrupted : Bool
  /-- `shuttingDown` — server.go:101, 401 -/
  shutting : Bool
  call : Nat → Call
  /-- how often `close(s.shutdown)` was executed — server.go:402 -/
  closes : Nat
  srv : Nat → Srv
  handle : Handle
  hooks : List Hook
  main : Main

/-- all servers started, nobody wants to stop — server.go:320-324 -/
def St.begin (n m : Nat) : St := ⟨n, m + 2, false, false, false, fun _ => .idle, 0, fun _ => ⟨true, 0, .idle⟩, .waiting, [], .waiting⟩

/-- steps; the first five are made by the outside -/
inductive Ev where
  | signal
  | ask (i : Nat)
  | accept (i : Nat)
  | finish (i : Nat)
  | fail (i : Nat)
  | take
  | swap (i : Nat)
  | close (i : Nat)
  | wake
  | drain (i : Nat) (bad : Bool)
  | stop (i : Nat)
  | drained (i : Nat)
  | timeout (i : Nat)
  | receive (i : Nat)
  | skip
  | collected
  | return
  | exit
  deriving DecidableEq, Repr

/-- the state with another call -/
def St.setCall (s : St) (i : Nat) (c : Call) : St := { s with call := fun j => if j = i then c else s.call j }
/-- the state with another server -/
def St.setSrv (s : St) (i : Nat) (v : Srv) : St := { s with srv := fun j => if j = i then v else s.srv j }

/-- has the process ended? -/
def St.over (s : St) : Bool :=
  match s.main with
  | .exited _ => true
  | _ => false

/-- a step while the process runs, `none` if it is not possible -/
def step (s : St) : Ev → Option St
  /- a signal; it is dropped if one is waiting — server.go:50, 505-507 -/
  | .signal => some { s with pending := true }
  /- someone else calls `Shutdown` -/
  | .ask i => if 2 ≤ i ∧ i < s.m ∧ s.call i = .idle then some (s.setCall i .called) else none
  /- a request comes in; only while the listeners are open -/
  | .accept i =>
    if i < s.n ∧ (s.srv i).serving = true ∧ (s.srv i).down = .idle then some (s.setSrv i { s.srv i with active := (s.srv i).active + 1 }) else none
  /- a request is answered -/
  | .finish i => if i < s.n ∧ 0 < (s.srv i).active then some (s.setSrv i { s.srv i with active := (s.srv i).active - 1 }) else none
  /- `Serve` of a server fails: the process exits — server.go:187-189, 219-221, 314-316 -/
  | .fail i => if i < s.n ∧ (s.srv i).serving = true ∧ (s.srv i).down = .idle then some { s with main := .exited 1 } else none
  /- the handler of signals takes one — server.go:491-500 -/
  | .take =>
    if s.pending = true ∧ s.call 0 ≠ .called ∧ s.call 0 ≠ .won then
      if s.interrupted then some { s with pending := false }
      else some ({ s with pending := false, interrupted := true }.setCall 0 .called)
    else none
  /- `CompareAndSwapInt32(&s.shuttingDown, 0, 1)` — server.go:401 -/
  | .swap i =>
    if i < s.m ∧ s.call i = .called then
      if s.shutting then some (s.setCall i .returned) else some ({ s with shutting := true }.setCall i .won)
    else none
  /- `close(s.shutdown)` — server.go:402 -/
  | .close i => if i < s.m ∧ s.call i = .won then some ({ s with closes := s.closes + 1 }.setCall i .returned) else none
  /- `<-s.shutdown`, the hook, the goroutines are started — server.go:412-436 -/
  | .wake => if s.handle = .waiting ∧ 0 < s.closes then some { s with handle := .collecting 0 true, hooks := s.hooks ++ [.pre] } else none
  /- `server.Shutdown(ctx)` closes the listeners — server.go:429 -/
  | .drain i bad =>
    if i < s.n ∧ s.handle ≠ .waiting ∧ (s.srv i).down = .idle then some (s.setSrv i { s.srv i with down := .draining bad }) else none
  /- `Serve` returns `ErrServerClosed`, `wg.Done()` — server.go:186-190 -/
  | .stop i =>
    if i < s.n ∧ (s.srv i).serving = true ∧ (s.srv i).down ≠ .idle then some (s.setSrv i { s.srv i with serving := false }) else none
  /- no request is in flight: `server.Shutdown(ctx)` returns -/
  | .drained i =>
    match (s.srv i).down with
    | .draining bad => if i < s.n ∧ (s.srv i).active = 0 then some (s.setSrv i { s.srv i with down := .result (!bad) }) else none
    | _ => none
  /- the time of the context is over: `server.Shutdown(ctx)` returns an error — server.go:416, 429-431 -/
  | .timeout i =>
    match (s.srv i).down with
    | .draining _ => if i < s.n then some (s.setSrv i { s.srv i with down := .result false }) else none
    | _ => none
  /- `success && <-shutdownChan` with `success` still true: the channel is read — server.go:427, 441 -/
  | .receive i =>
    match s.handle, (s.srv i).down with
    | .collecting k true, .result ok =>
      if i < s.n ∧ k < s.n then some { s.setSrv i { s.srv i with down := .sent ok } with handle := .collecting (k + 1) ok } else none
    | _, _ => none
  /- `success && <-shutdownChan` with `success` false: the channel is not read — server.go:441 -/
  | .skip =>
    match s.handle with
    | .collecting k false => if k < s.n then some { s with handle := .collecting (k + 1) false } else none
    | _ => none
  /- the loop is over; the hook, `wg.Done()` — server.go:443-446, 410 -/
  | .collected =>
    match s.handle with
    | .collecting k ok => if k = s.n then some { s with handle := .done, hooks := if ok then s.hooks ++ [.post] else s.hooks } else none
    | _ => none
  /- `wg.Wait()` and `Serve` return; the deferred `Shutdown` is called — server.go:324-325, main.go:29 -/
  | .return =>
    if s.main = .waiting ∧ s.handle = .done ∧ (∀ i, i < s.n → (s.srv i).serving = false) then some ({ s with main := .returned }.setCall 1 .called)
    else none
  /- `main` returns -/
  | .exit => if s.main = .returned ∧ s.call 1 = .returned then some { s with main := .exited 0 } else none

/-- a step; there is none when the process has ended -/
def next (s : St) (e : Ev) : Option St := if s.over then none else step s e

/-- a sequence of steps -/
def run : List Ev → St → Option St
  | [], s => some s
  | e :: es, s => match next s e with | some s' => run es s' | none => none

end Fave.Server
