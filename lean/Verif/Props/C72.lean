import Verif.Lemmas.ServerRun
/-!
# C72 — the server listens as configured, is shut down once, in order and in finitely many steps

Which servers are started follows from the options.  However many signals and calls of `Shutdown` there are, the channel is closed once, the
hook after the shutdown runs only when no request is in flight, and the process ends by itself once it is asked to.  Not true: that it waits
for all servers — after the first one that reports an error the others are not waited for (`success = success && <-shutdownChan`), so that
requests to another server are cut off.
-/
namespace Fave.C72
open Server

/-! ## Examples -/

/-- options as they are without any flag -/
def plain : Options :=
  ⟨[], 10, "/var/run/fave.sock", "localhost", 1234, 0, 180, 30, 60, "", 0, "", "", "", 0, 0, 0, 0⟩

/-- an outside in which everything works -/
def works : Outside := ⟨fun _ => true, fun _ p => some ("127.0.0.1", p), fun _ _ => true, fun _ => true, fun _ => true⟩

/-- http and https with certificate -/
def both : Options := { plain with listeners := ["https", "http", "https"], tlsPort := 443, tlsCert := "c", tlsKey := "k" }

/-! ## Start -/

theorem hasScheme_iff (o : Options) (x : Scheme) : hasScheme o x = true ↔ x ∈ wanted o.listeners := by
  unfold hasScheme wanted
  by_cases h : o.listeners = []
  · rw [if_pos (by simp [h]), if_pos h]
    cases x <;> decide
  · rw [if_neg (by simpa using h), if_neg h, List.mem_filter]
    constructor
    · intro hx
      rw [List.any_eq_true] at hx
      obtain ⟨w, hw, he⟩ := hx
      refine ⟨by cases x <;> simp, ?_⟩
      rw [List.contains_iff_mem]
      rw [beq_iff_eq] at he
      exact he ▸ hw
    · rintro ⟨_, hx⟩
      rw [List.contains_iff_mem] at hx
      rw [List.any_eq_true]
      exact ⟨x.word, hx, by simp⟩

theorem hasScheme_congr {o o' : Options} (h : o'.listeners = o.listeners) (x : Scheme) : hasScheme o' x = hasScheme o x := by
  unfold hasScheme; rw [h]

theorem inherit_listeners (o : Options) : (inherit o).listeners = o.listeners := by unfold inherit; split <;> rfl

/-- what is started when listening works -/
theorem listen_some {out : Outside} {o o' : Options} (h : listen out o = some o') :
    o'.listeners = o.listeners ∧ (hasScheme o .unix = true → out.unix o.socket = true) ∧
    (hasScheme o .http = true → out.tcp o.host o.port = some (o'.host, o'.port)) ∧
    (hasScheme o .https = true → out.tcp (inherit o).tlsHost o.tlsPort = some (o'.tlsHost, o'.tlsPort)) ∧
    o'.socket = o.socket ∧ o'.tlsCert = o.tlsCert ∧ o'.tlsKey = o.tlsKey ∧ o'.tlsCA = o.tlsCA ∧ o'.readTimeout = o.readTimeout ∧
    o'.writeTimeout = o.writeTimeout ∧ o'.keepAlive = o.keepAlive ∧ o'.limit = o.limit ∧ o'.cleanup = o.cleanup ∧
    o'.tlsReadTimeout = (inherit o).tlsReadTimeout ∧ o'.tlsWriteTimeout = (inherit o).tlsWriteTimeout ∧
    o'.tlsKeepAlive = (inherit o).tlsKeepAlive ∧ o'.tlsLimit = (inherit o).tlsLimit := by
  have hl := inherit_listeners o
  have hi : (inherit o).socket = o.socket ∧ (inherit o).host = o.host ∧ (inherit o).port = o.port ∧ (inherit o).tlsPort = o.tlsPort ∧
      (inherit o).tlsCert = o.tlsCert ∧ (inherit o).tlsKey = o.tlsKey ∧ (inherit o).tlsCA = o.tlsCA ∧
      (inherit o).readTimeout = o.readTimeout ∧ (inherit o).writeTimeout = o.writeTimeout ∧ (inherit o).keepAlive = o.keepAlive ∧
      (inherit o).limit = o.limit ∧ (inherit o).cleanup = o.cleanup := by
    unfold inherit; split <;> simp
  simp only [listen] at h
  generalize inherit o = q at hi hl h ⊢
  rw [← hasScheme_congr hl .unix, ← hasScheme_congr hl .http, ← hasScheme_congr hl .https]
  obtain ⟨h1, h2, h3, h4, h5⟩ := hi
  rw [← h1, ← h2, ← h3, ← h4, ← h5.1, ← h5.2.1, ← h5.2.2.1, ← h5.2.2.2.1, ← h5.2.2.2.2.1, ← h5.2.2.2.2.2.1, ← h5.2.2.2.2.2.2.1,
    ← h5.2.2.2.2.2.2.2, ← hl]
  by_cases hu : (hasScheme q .unix && !out.unix q.socket) = true
  · rw [if_pos hu] at h; cases h
  rw [if_neg hu] at h
  have hu : hasScheme q .unix = true → out.unix q.socket = true := by
    intro hs; rw [hs] at hu; simpa using hu
  unfold listenHttp at h
  by_cases hp : hasScheme q .http = true
  · rw [if_pos hp] at h
    cases ht : out.tcp q.host q.port with
    | none => rw [ht] at h; cases h
    | some hp' =>
      obtain ⟨a, b⟩ := hp'
      rw [ht] at h
      simp only [listenHttps] at h
      have hc : hasScheme { q with host := a, port := b } .https = hasScheme q .https := rfl
      rw [hc] at h
      by_cases hs : hasScheme q .https = true
      · rw [if_pos hs] at h
        cases ht' : out.tcp q.tlsHost q.tlsPort with
        | none => rw [ht'] at h; cases h
        | some cd =>
          rw [ht'] at h
          injection h with h; subst h
          exact ⟨rfl, hu, fun _ => rfl, fun _ => rfl, rfl, rfl, rfl, rfl, rfl, rfl, rfl, rfl, rfl, rfl, rfl, rfl, rfl⟩
      · rw [if_neg hs] at h
        injection h with h; subst h
        exact ⟨rfl, hu, fun _ => rfl, fun e => absurd e hs, rfl, rfl, rfl, rfl, rfl, rfl, rfl, rfl, rfl, rfl, rfl, rfl, rfl⟩
  · rw [if_neg hp] at h
    simp only [listenHttps] at h
    by_cases hs : hasScheme q .https = true
    · rw [if_pos hs] at h
      cases ht' : out.tcp q.tlsHost q.tlsPort with
      | none => rw [ht'] at h; cases h
      | some cd =>
        rw [ht'] at h
        injection h with h; subst h
        exact ⟨rfl, hu, fun e => absurd e hp, fun _ => rfl, rfl, rfl, rfl, rfl, rfl, rfl, rfl, rfl, rfl, rfl, rfl, rfl, rfl⟩
    · rw [if_neg hs] at h
      injection h with h; subst h
      exact ⟨rfl, hu, fun e => absurd e hp, fun e => absurd e hs, rfl, rfl, rfl, rfl, rfl, rfl, rfl, rfl, rfl, rfl, rfl, rfl, rfl⟩

theorem start_running {out : Outside} {o : Options} {l : List Started} (h : start out o = .running l) :
    ∃ o', listen out o = some o' ∧ (hasScheme o .https = true → certificates out o' = none) ∧
      l = (if hasScheme o .unix then [unixServer o'] else []) ++ (if hasScheme o .http then [httpServer o'] else []) ++
        (if hasScheme o .https then [httpsServer o'] else []) := by
  unfold start at h
  cases hl : listen out o with
  | none => rw [hl] at h; cases h
  | some o' =>
    rw [hl] at h
    have hs := (listen_some hl).1
    refine ⟨o', rfl, ?_⟩
    simp only [hasScheme_congr hs, List.nil_append] at h
    by_cases h3 : hasScheme o .https = true
    · rw [if_pos h3] at h
      cases hc : certificates out o' with
      | some e =>
        rw [hc] at h
        exfalso
        simp only at h
        rw [h] at hc
        unfold certificates at hc
        simp only at hc
        repeat' split at hc
        all_goals cases hc
      | none =>
        rw [hc] at h
        injection h with h
        refine ⟨fun _ => rfl, ?_⟩
        rw [← h]
        cases hasScheme o .unix <;> cases hasScheme o .http <;> simp [h3]
    · rw [if_neg h3] at h
      injection h with h
      refine ⟨fun e => absurd e h3, ?_⟩
      rw [← h]
      cases hasScheme o .unix <;> cases hasScheme o .http <;> simp [h3]

/-- the servers that run are those asked for, each once and in a fixed order, however often and in which order they are named -/
theorem schemes_started (out : Outside) (o : Options) (l : List Started) (h : start out o = .running l) :
    l.map Started.scheme = wanted o.listeners := by
  obtain ⟨o', _, _, rfl⟩ := start_running h
  by_cases hn : o.listeners = []
  · have h1 : hasScheme o .unix = false := by simp [hasScheme, hn, Scheme.word]
    have h2 : hasScheme o .http = true := by simp [hasScheme, hn, Scheme.word]
    have h3 : hasScheme o .https = false := by simp [hasScheme, hn, Scheme.word]
    rw [h1, h2, h3]
    simp [wanted, hn, httpServer]
  · have key : ∀ x : Scheme, hasScheme o x = o.listeners.contains x.word := by
      intro x
      rw [Bool.eq_iff_iff, hasScheme_iff]
      simp only [wanted, if_neg hn, List.mem_filter]
      exact ⟨fun h => h.2, fun h => ⟨by cases x <;> simp, h⟩⟩
    simp only [key, wanted, if_neg hn, List.filter_cons, List.filter_nil]
    cases o.listeners.contains Scheme.unix.word <;> cases o.listeners.contains Scheme.http.word <;>
      cases o.listeners.contains Scheme.https.word <;> rfl

example : start works both = .running
    [⟨.http, "127.0.0.1", 1234, 30, 60, true, none, some 10, false⟩, ⟨.https, "127.0.0.1", 443, 30, 60, true, none, some 10, false⟩] := by
  decide +kernel
example : wanted both.listeners = [.http, .https] := by decide
example : start works plain = .running [⟨.http, "127.0.0.1", 1234, 30, 60, true, none, some 10, false⟩] := by decide +kernel

/-- with only other words than `unix`, `http` and `https` the process listens nowhere, and does not say so -/
theorem unknown_words_listen_nowhere (out : Outside) (o : Options) (hne : o.listeners ≠ [])
    (hx : ∀ x : Scheme, x.word ∉ o.listeners) : start out o = .running [] := by
  have h : ∀ x, hasScheme o x = false := by
    intro x
    refine Bool.eq_false_iff.2 fun h => ?_
    have := (hasScheme_iff o x).1 h
    simp only [wanted, if_neg hne, List.mem_filter, List.contains_iff_mem] at this
    exact hx x this.2
  have hi : inherit o = o := by unfold inherit; rw [h .https]; rfl
  have hl : listen out o = some o := by
    simp [listen, hi, h .unix, listenHttp, h .http, listenHttps, h .https]
  simp [start, hl, h]

example : start works { plain with listeners := ["HTTP"] } = .running [] :=
  unknown_words_listen_nowhere _ _ (by decide) (by intro x; cases x <;> decide)

/-- the address of the https server: the one of the http server if none is given -/
def tlsAddress (o : Options) : String := if o.tlsHost = "" then o.host else o.tlsHost

/-- the servers run exactly if each listener wanted can be opened and, for https, certificate and key are given and can be loaded and the
certificate authority, if one is given, can be read and parsed -/
theorem starts_exactly_if (out : Outside) (o : Options) :
    (∃ l, start out o = .running l) ↔
      (.unix ∈ wanted o.listeners → out.unix o.socket = true) ∧
      (.http ∈ wanted o.listeners → (out.tcp o.host o.port).isSome) ∧
      (.https ∈ wanted o.listeners → (out.tcp (tlsAddress o) o.tlsPort).isSome ∧ o.tlsCert ≠ "" ∧ o.tlsKey ≠ "" ∧
        out.pair o.tlsCert o.tlsKey = true ∧ (o.tlsCA ≠ "" → out.caRead o.tlsCA = true ∧ out.caParse o.tlsCA = true)) := by
  simp only [← hasScheme_iff]
  have hhost : hasScheme o .https = true → (inherit o).tlsHost = tlsAddress o := by
    intro h; unfold inherit tlsAddress; rw [if_pos h]
  have cert : ∀ o' : Options, certificates out o' = none ↔ (o'.tlsCert ≠ "" ∧ o'.tlsKey ≠ "" ∧ out.pair o'.tlsCert o'.tlsKey = true ∧
      (o'.tlsCA ≠ "" → out.caRead o'.tlsCA = true ∧ out.caParse o'.tlsCA = true)) := by
    intro o'
    unfold certificates
    by_cases h1 : o'.tlsCert = "" <;> by_cases h2 : o'.tlsKey = "" <;> by_cases h3 : o'.tlsCA = "" <;>
      cases h4 : out.pair o'.tlsCert o'.tlsKey <;> cases h5 : out.caRead o'.tlsCA <;> cases h6 : out.caParse o'.tlsCA <;>
        simp_all
  constructor
  · rintro ⟨l, h⟩
    obtain ⟨o', hl, hc, _⟩ := start_running h
    obtain ⟨_, hu, hp, hs, _, e1, e2, e3, _⟩ := listen_some hl
    refine ⟨hu, fun h => by rw [hp h]; rfl, fun h => ?_⟩
    have := (cert o').1 (hc h)
    rw [e1, e2, e3] at this
    refine ⟨by rw [← hhost h, hs h]; rfl, this⟩
  · rintro ⟨hu, hp, hs⟩
    have hl : ∃ o', listen out o = some o' := by
      have hli := inherit_listeners o
      have e : (inherit o).socket = o.socket ∧ (inherit o).host = o.host ∧ (inherit o).port = o.port ∧ (inherit o).tlsPort = o.tlsPort := by
        unfold inherit; split <;> simp
      simp only [listen]
      rw [if_neg (by rw [hasScheme_congr hli, e.1]; intro hc; rw [Bool.and_eq_true, Bool.not_eq_true'] at hc; rw [hu hc.1] at hc; cases hc.2)]
      have hs' : ∀ q : Options, q.listeners = o.listeners → q.tlsHost = (inherit o).tlsHost → q.tlsPort = o.tlsPort →
          ∃ o', listenHttps out q = some o' := by
        intro q h1 h2 h3
        unfold listenHttps
        rw [hasScheme_congr h1, h2, h3]
        by_cases h : hasScheme o .https = true
        · rw [if_pos h, hhost h]
          obtain ⟨x, hx⟩ := Option.isSome_iff_exists.1 (hs h).1
          rw [hx]; exact ⟨_, rfl⟩
        · rw [if_neg h]; exact ⟨_, rfl⟩
      unfold listenHttp
      rw [hasScheme_congr hli, e.2.1, e.2.2.1]
      by_cases h : hasScheme o .http = true
      · rw [if_pos h]
        obtain ⟨x, hx⟩ := Option.isSome_iff_exists.1 (hp h)
        rw [hx]
        exact hs' _ hli rfl e.2.2.2
      · rw [if_neg h]
        exact hs' _ hli rfl e.2.2.2
    obtain ⟨o', hl⟩ := hl
    obtain ⟨hli, _, _, _, _, e1, e2, e3, _⟩ := listen_some hl
    unfold start
    rw [hl]
    simp only [hasScheme_congr hli]
    by_cases h : hasScheme o .https = true
    · rw [if_pos h, (cert o').2 (by rw [e1, e2, e3]; exact (hs h).2)]
      exact ⟨_, rfl⟩
    · rw [if_neg h]; exact ⟨_, rfl⟩

example : start works { both with tlsKey := "" } = .fatal := by decide +kernel
example : start { works with caParse := fun _ => false } { both with tlsCA := "a" } = .error := by decide +kernel
example : start { works with tcp := fun _ p => if p = 443 then none else some ("::1", p) } both = .error := by decide +kernel

/-- what is not set for https is taken from http; clients have to show a certificate exactly if a certificate authority is given -/
theorem https_settings (out : Outside) (o : Options) (l : List Started) (v : Started) (h : start out o = .running l) (hv : v ∈ l)
    (hs : v.scheme = .https) :
    out.tcp (tlsAddress o) o.tlsPort = some (v.host, v.port) ∧
    v.readTimeout = (if o.tlsReadTimeout = 0 then o.readTimeout else o.tlsReadTimeout) ∧
    v.writeTimeout = (if o.tlsWriteTimeout = 0 then o.writeTimeout else o.tlsWriteTimeout) ∧
    (v.keepAlives = true ↔ (if o.tlsKeepAlive = 0 then o.keepAlive else o.tlsKeepAlive) > 0) ∧
    (∀ k, v.limit = some k ↔ k > 0 ∧ k = if o.tlsLimit = 0 then o.limit else o.tlsLimit) ∧
    (v.clientCert = true ↔ o.tlsCA ≠ "") := by
  obtain ⟨o', hl, _, rfl⟩ := start_running h
  obtain ⟨_, _, _, ht, _, _, _, e3, _, _, _, _, _, r1, r2, r3, r4⟩ := listen_some hl
  have hv : hasScheme o .https = true ∧ v = httpsServer o' := by
    simp only [List.mem_append] at hv
    rcases hv with (hv | hv) | hv <;> (split at hv <;> simp at hv)
    · rw [hv] at hs; cases hs
    · rw [hv] at hs; cases hs
    · rename_i hx; exact ⟨hx, hv⟩
  obtain ⟨hh, rfl⟩ := hv
  have hin : inherit o = { o with
      tlsHost := if o.tlsHost = "" then o.host else o.tlsHost
      tlsLimit := if o.tlsLimit = 0 then o.limit else o.tlsLimit
      tlsKeepAlive := if o.tlsKeepAlive = 0 then o.keepAlive else o.tlsKeepAlive
      tlsReadTimeout := if o.tlsReadTimeout = 0 then o.readTimeout else o.tlsReadTimeout
      tlsWriteTimeout := if o.tlsWriteTimeout = 0 then o.writeTimeout else o.tlsWriteTimeout } := by
    unfold inherit; rw [if_pos hh]
  rw [hin] at r1 r2 r3 r4 ht
  refine ⟨ht hh, r1, r2, ?_, fun k => ?_, ?_⟩
  · show decide (o'.tlsKeepAlive > 0) = true ↔ _
    rw [r3]; exact decide_eq_true_iff
  · show positive o'.tlsLimit = some k ↔ _
    rw [r4]
    show positive (if o.tlsLimit = 0 then o.limit else o.tlsLimit) = some k ↔ _
    generalize (if o.tlsLimit = 0 then o.limit else o.tlsLimit) = z
    unfold positive
    constructor
    · intro h
      split at h
      · injection h with h; exact ⟨by omega, h.symm⟩
      · cases h
    · rintro ⟨h1, rfl⟩
      rw [if_pos h1]
  · show decide (o'.tlsCA ≠ "") = true ↔ _
    rw [e3]; exact decide_eq_true_iff

example : ∃ l v, start works { both with tlsReadTimeout := 7, limit := 5, tlsCA := "a" } = .running l ∧ v ∈ l ∧ v.scheme = .https ∧
    v.readTimeout = 7 ∧ v.writeTimeout = 60 ∧ v.limit = some 5 ∧ v.clientCert = true :=
  ⟨[⟨.http, "127.0.0.1", 1234, 30, 60, true, some 5, some 10, false⟩, ⟨.https, "127.0.0.1", 443, 7, 60, true, some 5, some 10, true⟩],
    ⟨.https, "127.0.0.1", 443, 7, 60, true, some 5, some 10, true⟩, by decide +kernel, by simp, rfl, rfl, rfl, rfl, rfl⟩

/-! ## Shutting down -/

/-- an orderly end: two servers, a request in flight on the second one when the signal comes; a second signal and a call from elsewhere -/
def orderly : List Ev :=
  [.accept 0, .accept 1, .finish 0, .signal, .take, .ask 2, .swap 2, .signal, .swap 0, .close 2, .wake, .take, .drain 1 false, .drain 0 false,
    .stop 0, .drained 0, .receive 0, .finish 1, .drained 1, .receive 1, .collected, .stop 1, .return, .swap 1, .exit]

/-- closing the listener of the first server fails; a request is in flight on the second one -/
def cut : List Ev :=
  [.accept 1, .signal, .take, .swap 0, .close 0, .wake, .drain 0 true, .drain 1 false, .stop 0, .stop 1, .drained 0, .receive 0, .skip, .collected,
    .return, .swap 1, .exit]

/-- a summary of a state, for the examples -/
def look (s : Option St) : Option (Main × List Hook × Nat × List Srv) :=
  s.map fun s => (s.main, s.hooks, s.closes, (List.range s.n).map s.srv)

/-- the state after a sequence of steps, for the examples -/
def reached (tr : List Ev) (n m : Nat) : St := (run tr (St.begin n m)).getD (St.begin n m)

theorem run_reached {tr : List Ev} {n m : Nat} (h : (run tr (St.begin n m)).isSome = true) :
    run tr (St.begin n m) = some (reached tr n m) := by
  obtain ⟨s, hs⟩ := Option.isSome_iff_exists.1 h
  rw [reached, hs]; rfl

example : look (run orderly (St.begin 2 1)) = some (.exited 0, [.pre, .post], 1, [⟨false, 0, .sent true⟩, ⟨false, 0, .sent true⟩]) := by
  decide +kernel

/-- however many signals and calls there are, the channel is closed at most once (a second time would be a panic) -/
theorem closed_at_most_once (n m : Nat) (s : St) (h : Occurs n m s) : s.closes ≤ 1 := (occurs_inv h).calls.closes_le

/-- the hooks run at most once each and in order; the second one only when each server has stopped without error, accepts nothing and has no
request in flight -/
theorem hooks_in_order (n m : Nat) (s : St) (h : Occurs n m s) :
    (s.hooks = [] ∨ s.hooks = [.pre] ∨ s.hooks = [.pre, .post]) ∧
    (Hook.post ∈ s.hooks → ∀ i, i < n → (s.srv i).active = 0 ∧ next s (.accept i) = none) := by
  have hi := occurs_inv h
  have hn : s.n = n := h.elim fun _ h => (run_size h).1
  cases hh : s.handle with
  | waiting =>
    have := (hi.srvs.before hh).1
    exact ⟨.inl this, fun hp => by rw [this] at hp; cases hp⟩
  | collecting k ok =>
    have := (hi.srvs.loop k ok hh).2
    exact ⟨.inr (.inl this), fun hp => by rw [this] at hp; simp at hp⟩
  | done =>
    rcases hi.srvs.done hh with ⟨a, b⟩ | ⟨a, _⟩
    · refine ⟨.inr (.inr a), fun _ i hin => ?_⟩
      have hd := b i (by omega)
      refine ⟨hi.srvs.still i (.inr hd), ?_⟩
      unfold next
      split
      · rfl
      · simp [step, hd]
    · exact ⟨.inr (.inl a), fun hp => by rw [a] at hp; simp at hp⟩

example : ∃ s, Occurs 2 1 s ∧ Hook.post ∈ s.hooks ∧ s.over = false := by
  refine ⟨_, ⟨orderly.take 23, run_reached (by decide +kernel)⟩, ?_, ?_⟩
  · decide +kernel
  · decide +kernel

/-- the process returns from `main` only after the first hook, with no server serving, the channel closed -/
theorem returns_only_after (n m : Nat) (s : St) (h : Occurs n m s) (he : s.main = .exited 0) :
    s.closes = 1 ∧ Hook.pre ∈ s.hooks ∧ s.handle = .done ∧ ∀ i, i < n → (s.srv i).serving = false := by
  have hi := occurs_inv h
  have hn : s.n = n := h.elim fun _ h => (run_size h).1
  have h1 := hi.mains.main1 (.inr he)
  refine ⟨hi.srvs.after (by rw [h1.1]; simp), ?_, h1.1, fun i hin => h1.2.1 i (by omega)⟩
  rcases hi.srvs.done h1.1 with ⟨a, _⟩ | ⟨a, _⟩ <;> simp [a]

example : ∃ s, Occurs 2 1 s ∧ s.main = .exited 0 := by
  refine ⟨_, ⟨orderly, run_reached (by decide +kernel)⟩, ?_⟩
  · decide +kernel

/-- nobody wanted it to stop -/
def Undisturbed (s : St) : Prop := s.pending = false ∧ s.shutting = false ∧ ∀ i, s.call i = .idle

theorem undisturbed_next {s s' : St} {e : Ev} (hi : Inv s) (hu : Undisturbed s) (h : next s e = some s') (h1 : e ≠ .signal)
    (h2 : ∀ i, e ≠ .ask i) : Undisturbed s' ∧ (s.main = .waiting → s'.main = .waiting ∨ s'.main = .exited 1) := by
  have hcl := (hi.calls.open_ hu.2.1).1
  have hw : s.handle = .waiting := Decidable.byContradiction fun hne => by have := hi.srvs.after hne; omega
  have hs := (next_step h).1
  cases e with
  | signal => exact absurd rfl h1
  | ask i => exact absurd rfl (h2 i)
  | take => simp [step, hu.1] at hs
  | swap i => simp [step, hu.2.2 i] at hs
  | close i => simp [step, hu.2.2 i] at hs
  | wake => simp [step, hcl] at hs
  | drain i bad => simp [step, hw] at hs
  | receive i => simp [step, hw] at hs
  | skip => simp [step, hw] at hs
  | collected => simp [step, hw] at hs
  | «return» => simp [step, hw] at hs
  | exit => simp [step, hu.2.2 1] at hs
  | fail i =>
    simp only [step] at hs
    split at hs
    · injection hs with hs; subst hs; exact ⟨hu, fun _ => .inr rfl⟩
    · cases hs
  | _ =>
    simp only [step] at hs
    repeat' split at hs
    all_goals first | (injection hs with hs; subst hs; exact ⟨hu, fun h => .inl h⟩) | cases hs

/-- without a signal or a call from elsewhere the process goes on for ever, unless a listener fails -/
theorem serves_until_asked (n m : Nat) (tr : List Ev) (s : St) (h : run tr (St.begin n m) = some s) (h1 : signals tr = 0) (h2 : asks tr = 0) :
    (s.main = .waiting ∨ s.main = .exited 1) ∧ s.hooks = [] ∧ ∀ i, (s.srv i).down = .idle := by
  have key : ∀ (tr : List Ev) (s0 s : St), Inv s0 → Undisturbed s0 → (s0.main = .waiting ∨ s0.main = .exited 1) → run tr s0 = some s →
      signals tr = 0 → asks tr = 0 → Inv s ∧ Undisturbed s ∧ (s.main = .waiting ∨ s.main = .exited 1) := by
    intro tr
    induction tr with
    | nil => intro s0 s hi hu hm h _ _; injection h with h; subst h; exact ⟨hi, hu, hm⟩
    | cons e tr ih =>
      intro s0 s hi hu hm h h1 h2
      simp only [run] at h
      split at h
      · rename_i s1 hn
        have e1 : e ≠ .signal := by rintro rfl; simp [signals] at h1
        have e2 : ∀ i, e ≠ .ask i := by rintro i rfl; simp [asks] at h2
        obtain ⟨a, b⟩ := undisturbed_next hi hu hn e1 e2
        refine ih s1 s (inv_next hi hn) a ?_ h ?_ ?_
        · rcases hm with hm | hm
          · exact b hm
          · exact absurd hm ((next_step hn).2 1)
        · simp only [signals, List.filter_cons] at h1 ⊢
          split at h1
          · simp at h1
          · exact h1
        · simp only [asks, List.filter_cons] at h2 ⊢
          split at h2
          · simp at h2
          · exact h2
      · cases h
  obtain ⟨hi, hu, hm⟩ := key tr _ s (inv_begin n m) ⟨rfl, rfl, fun _ => rfl⟩ (.inl rfl) h h1 h2
  have hcl := (hi.calls.open_ hu.2.1).1
  have hw : s.handle = .waiting := Decidable.byContradiction fun hne => by have := hi.srvs.after hne; omega
  exact ⟨hm, hi.srvs.before hw⟩

example : look (run [.accept 0, .accept 0, .finish 0] (St.begin 1 0)) = some (.waiting, [], 0, [⟨true, 1, .idle⟩]) := by decide +kernel
example : look (run [.accept 0, .fail 0] (St.begin 1 0)) = some (.exited 1, [], 0, [⟨true, 1, .idle⟩]) := by decide +kernel

/-- once someone wants the process to stop it can always go on by itself … -/
theorem never_stuck (n m : Nat) (s : St) (h : Occurs n m s) (ho : s.over = false) (hw : Wanted s) :
    ∃ e, e.own = true ∧ (next s e).isSome := by
  obtain ⟨e, s', he, hn⟩ := some_own (occurs_inv h) ho hw
  exact ⟨e, he, by rw [hn]; rfl⟩

/-- … and it makes a bounded number of steps of its own: five for each server and six, three for each signal and two for each call from
elsewhere, whatever order everything happens in … -/
theorem steps_bounded (n m : Nat) (tr : List Ev) (s : St) (h : run tr (St.begin n m) = some s) :
    ownSteps tr ≤ 5 * n + 6 + 3 * signals tr + 2 * asks tr := by
  have := left_run (inv_begin n m) h
  rw [left_begin] at this
  omega

/-- … so that it ends with code 0 -/
theorem ends_when_asked (n m : Nat) (s : St) (h : Occurs n m s) (ho : s.over = false) (hw : Wanted s) :
    ∃ tr s', (∀ e, e ∈ tr → e.own = true) ∧ run tr s = some s' ∧ s'.main = .exited 0 :=
  ends (left s) (Nat.le_refl _) (occurs_inv h) ho hw

example : ∃ s, Occurs 2 1 s ∧ s.over = false ∧ Wanted s := by
  refine ⟨_, ⟨cut.take 9, run_reached (by decide +kernel)⟩, ?_, .inr ⟨0, ?_, ?_⟩⟩
  · decide +kernel
  · decide +kernel
  · decide +kernel
example : ownSteps orderly = 18 ∧ signals orderly = 2 ∧ asks orderly = 1 := by decide

/-- requests are cut off only if a server reports an error: the listener could not be closed or the time was over -/
theorem nothing_cut_off (n m : Nat) (s : St) (h : Occurs n m s) (he : s.main = .exited 0)
    (hno : ∀ i, i < n → (s.srv i).down ≠ .sent false) : ∀ i, i < n → (s.srv i).active = 0 := by
  have hi := occurs_inv h
  have hn : s.n = n := h.elim fun _ h => (run_size h).1
  intro i hin
  rcases hi.srvs.done (hi.mains.main1 (.inr he)).1 with ⟨_, b⟩ | ⟨_, j, hj, b⟩
  · exact hi.srvs.still i (.inr (b i (by omega)))
  · exact absurd b (hno j (by omega))

example : ∃ s, Occurs 2 1 s ∧ s.main = .exited 0 ∧ ∀ i, i < 2 → (s.srv i).down ≠ .sent false := by
  refine ⟨_, ⟨orderly, run_reached (by decide +kernel)⟩, ?_, ?_⟩
  · decide +kernel
  · intro i hi
    match i, hi with
    | 0, _ => decide +kernel
    | 1, _ => decide +kernel

/-- with a single server, as without any flag, a request is cut off only if the shutdown of that server failed.  In full it should read: for any
number of servers, a request is cut off only if the shutdown of its own server failed; that is not true, see `others_cut_off` -/
theorem own_server_waited_for_partial (m : Nat) (s : St) (h : Occurs 1 m s) (he : s.main = .exited 0) (ha : (s.srv 0).active ≠ 0) :
    (s.srv 0).down = .sent false := by
  refine Decidable.byContradiction fun hne => ha (nothing_cut_off 1 m s h he ?_ 0 (by omega))
  intro i hi
  have : i = 0 := by omega
  rw [this]; exact hne

example : ∃ s, Occurs 1 0 s ∧ s.main = .exited 0 ∧ (s.srv 0).active ≠ 0 := by
  refine ⟨_, ⟨[.accept 0, .signal, .take, .swap 0, .close 0, .wake, .drain 0 false, .stop 0, .timeout 0, .receive 0, .collected, .return, .swap 1, .exit], run_reached (by decide +kernel)⟩, ?_, ?_⟩
  · decide +kernel
  · decide +kernel

/-- with two servers the process may end while a request to the second one is in flight, although nothing has gone wrong there and the time is not
over: after the error of the first one the channel is not read any more -/
theorem others_cut_off :
    ∃ tr s, run tr (St.begin 2 0) = some s ∧ s.main = .exited 0 ∧ (s.srv 1).active = 1 ∧ (s.srv 1).down = .draining false ∧
      ∀ i, .timeout i ∉ tr := by
  refine ⟨cut, _, run_reached (by decide +kernel), ?_, ?_, ?_, ?_⟩
  · decide +kernel
  · decide +kernel
  · decide +kernel
  · intro i; simp [cut]

/-- the state but for the waiting signal -/
def butSignal (p : Bool) (s : St) : St := { s with pending := p }

theorem map_ite {α β : Type} (c : Prop) [Decidable c] (f : α → β) (a b : Option α) :
    (if c then a else b).map f = if c then a.map f else b.map f := by split <;> rfl

theorem next_butSignal (p : Bool) (s : St) (e : Ev) (h1 : e ≠ .signal) (h2 : e ≠ .take) : next (butSignal p s) e = (next s e).map (butSignal p) := by
  unfold next
  have ho : (butSignal p s).over = s.over := rfl
  rw [ho]
  cases s.over with
  | true => rfl
  | false =>
    simp only [Bool.false_eq_true, if_false]
    clear ho
    cases e
    case signal => exact absurd rfl h1
    case take => exact absurd rfl h2
    case swap i => conv => rhs; simp only [step, map_ite]
                   rfl
    case drained i =>
      have hd : ((butSignal p s).srv i).down = (s.srv i).down := rfl
      simp only [step]
      rw [hd]
      cases (s.srv i).down with
      | draining bad => conv => rhs; simp only [map_ite]
                        rfl
      | _ => rfl
    case timeout i =>
      have hd : ((butSignal p s).srv i).down = (s.srv i).down := rfl
      simp only [step]
      rw [hd]
      cases (s.srv i).down with
      | draining bad => conv => rhs; simp only [map_ite]
                        rfl
      | _ => rfl
    case receive i =>
      have hd : ((butSignal p s).srv i).down = (s.srv i).down := rfl
      have hh : (butSignal p s).handle = s.handle := rfl
      simp only [step]
      rw [hd, hh]
      split
      · conv => rhs; simp only [map_ite]
        rfl
      · rfl
    case skip =>
      have hh : (butSignal p s).handle = s.handle := rfl
      simp only [step]
      rw [hh]
      split
      · conv => rhs; simp only [map_ite]
        rfl
      · rfl
    case collected =>
      have hh : (butSignal p s).handle = s.handle := rfl
      simp only [step]
      rw [hh]
      split
      · conv => rhs; simp only [map_ite]
        rfl
      · rfl
    all_goals
      conv => rhs; simp only [step, map_ite]
      rfl

theorem interrupted_next {s s' : St} {e : Ev} (h : next s e = some s') (hi : s.interrupted = true) : s'.interrupted = true := by
  have h := (next_step h).1
  cases e <;> simp only [step] at h <;> (repeat' split at h) <;>
    first | (injection h with h; subst h; first | exact hi | rfl) | (simp only [Option.some.injEq] at h; subst h; exact hi) | cases h

/-- once the first signal has been taken, further ones change nothing: without them and what the handler does about them everything goes the
same way -/
theorem later_signals_ignored (tr : List Ev) (s s' : St) (hint : s.interrupted = true) (h : run tr s = some s') :
    ∃ s'', run (tr.filter fun e => e ≠ .signal ∧ e ≠ .take) s = some s'' ∧ butSignal false s'' = butSignal false s' := by
  have key : ∀ (tr : List Ev) (s s' : St) (p : Bool), s.interrupted = true → run tr s = some s' →
      ∃ s'', run (tr.filter fun e => e ≠ .signal ∧ e ≠ .take) (butSignal p s) = some s'' ∧ butSignal false s'' = butSignal false s' := by
    intro tr
    induction tr with
    | nil => intro s s' p _ h; injection h with h; subst h; exact ⟨_, rfl, rfl⟩
    | cons e tr ih =>
      intro s s' p hint h
      simp only [run] at h
      split at h
      · rename_i s1 h1
        have hint1 := interrupted_next h1 hint
        by_cases he : e = .signal ∨ e = .take
        · have hf : ((e :: tr).filter fun e => e ≠ .signal ∧ e ≠ .take) = tr.filter fun e => e ≠ .signal ∧ e ≠ .take := by
            rcases he with rfl | rfl <;> simp
          have hs : butSignal p s1 = butSignal p s := by
            have h2 := (next_step h1).1
            rcases he with rfl | rfl
            · simp only [step, Option.some.injEq] at h2; subst h2; rfl
            · simp only [step] at h2
              split at h2
              · injection h2 with h2; subst h2; rfl
              · cases h2
          rw [hf, ← hs]
          exact ih s1 s' p hint1 h
        · have he' : e ≠ .signal ∧ e ≠ .take := ⟨fun h => he (.inl h), fun h => he (.inr h)⟩
          obtain ⟨s'', a, b⟩ := ih s1 s' p hint1 h
          refine ⟨s'', ?_, b⟩
          rw [List.filter_cons_of_pos (by simpa using he')]
          simp only [run]
          rw [next_butSignal p s e he'.1 he'.2, h1]
          exact a
      · cases h
  have hs : butSignal s.pending s = s := rfl
  rw [← hs]
  exact key tr s s' s.pending hint h

example : ∃ tr s s', (∃ tr0, run tr0 (St.begin 2 1) = some s) ∧ s.interrupted = true ∧ run tr s = some s' ∧ s'.main = .exited 0 ∧
    .signal ∈ tr := by
  have h1 : run orderly (St.begin 2 1) = some (reached orderly 2 1) := run_reached (by decide +kernel)
  have h2 : run (orderly.take 5) (St.begin 2 1) = some (reached (orderly.take 5) 2 1) := run_reached (by decide +kernel)
  have h3 : (run (orderly.drop 5) (reached (orderly.take 5) 2 1)).isSome = true := by decide +kernel
  obtain ⟨s', hs⟩ := Option.isSome_iff_exists.1 h3
  have h4 := run_append h2 hs
  rw [show orderly.take 5 ++ orderly.drop 5 = orderly from rfl, h1] at h4
  injection h4 with h4
  exact ⟨orderly.drop 5, _, s', ⟨_, h2⟩, by decide +kernel, hs, by rw [← h4]; decide +kernel, by decide⟩

end Fave.C72
