import Verif.Spec.Server
/-!
# Lemmas on the machine of the server
-/
namespace Fave.Server

/-! ## Sums -/

/-- the sum of the first values -/
def total (f : Nat → Nat) : Nat → Nat
  | 0 => 0
  | n + 1 => total f n + f n

theorem total_congr {f g : Nat → Nat} : ∀ {n : Nat}, (∀ i, i < n → f i = g i) → total f n = total g n
  | 0, _ => rfl
  | n + 1, h => by
    show total f n + f n = total g n + g n
    rw [total_congr (fun i hi => h i (by omega)), h n (by omega)]

theorem total_change {f g : Nat → Nat} {i : Nat} : ∀ {n : Nat}, i < n → (∀ j, j ≠ i → g j = f j) → total g n + f i = total f n + g i
  | 0, hi, _ => by omega
  | n + 1, hi, h => by
    show total g n + g n + f i = total f n + f n + g i
    by_cases hn : i = n
    · subst hn
      rw [total_congr (fun j hj => h j (by omega))]; omega
    · have := total_change (n := n) (i := i) (by omega) h
      rw [h n (fun e => hn e.symm)]; omega

theorem total_all {f : Nat → Nat} : ∀ {n : Nat}, (∀ i, i < n → 1 ≤ f i) → n ≤ total f n
  | 0, _ => Nat.le_refl _
  | n + 1, h => by
    have h1 := total_all (n := n) (fun i hi => h i (by omega))
    have h2 := h n (by omega)
    show n + 1 ≤ total f n + f n
    omega

theorem total_le {f : Nat → Nat} : ∀ {n : Nat}, (∀ i, f i ≤ 1) → total f n ≤ n
  | 0, _ => Nat.le_refl _
  | n + 1, h => by
    have h1 := total_le (n := n) h
    have h2 := h n
    show total f n + f n ≤ n + 1
    omega

theorem total_full {f : Nat → Nat} (h : ∀ i, f i ≤ 1) {n : Nat} : total f n = n → ∀ i, i < n → f i = 1 := by
  induction n with
  | zero => intro _ i hi; omega
  | succ n ih =>
    intro e i hi
    have h1 := total_le (n := n) h
    have h2 := h n
    have e : total f n + f n = n + 1 := e
    by_cases hn : i = n
    · subst hn; omega
    · exact ih (by omega) i (by omega)

/-! ## The invariant -/

/-- has the result been received? -/
def isSent : Down → Nat
  | .sent _ => 1
  | _ => 0

theorem isSent_le (d : Down) : isSent d ≤ 1 := by cases d <;> simp [isSent]

/-- the number of results received -/
def received (s : St) : Nat := total (fun i => isSent (s.srv i).down) s.n

/-- what holds of the calls of `Shutdown` in every state -/
structure CallInv (m : Nat) (shutting interrupted : Bool) (call : Nat → Call) (closes : Nat) : Prop where
  two : 2 ≤ m
  open_ : shutting = false → closes = 0 ∧ ∀ i, call i ≠ .won ∧ call i ≠ .returned
  shut : shutting = true → (closes = 1 ∧ ∀ i, call i ≠ .won) ∨
    (closes = 0 ∧ ∃ i, i < m ∧ call i = .won ∧ ∀ j, call j = .won → j = i)
  few : ∀ i, m ≤ i → call i = .idle
  sig : interrupted = true ↔ call 0 ≠ .idle

/-- what holds of the servers and of `handleShutdown` in every state -/
structure SrvInv (n : Nat) (closes : Nat) (srv : Nat → Srv) (handle : Handle) (hooks : List Hook) : Prop where
  before : handle = .waiting → hooks = [] ∧ ∀ i, (srv i).down = .idle
  after : handle ≠ .waiting → closes = 1
  loop : ∀ k ok, handle = .collecting k ok → k ≤ n ∧ hooks = [.pre]
  good : ∀ k, handle = .collecting k true → total (fun i => isSent (srv i).down) n = k ∧ ∀ i, i < n → (srv i).down ≠ .sent false
  bad : ∀ k, handle = .collecting k false → ∃ i, i < n ∧ (srv i).down = .sent false
  done : handle = .done → (hooks = [.pre, .post] ∧ ∀ i, i < n → (srv i).down = .sent true) ∨
    (hooks = [.pre] ∧ ∃ i, i < n ∧ (srv i).down = .sent false)
  still : ∀ i, (srv i).down = .result true ∨ (srv i).down = .sent true → (srv i).active = 0
  stopped : ∀ i, (srv i).serving = false → (srv i).down ≠ .idle

/-- what holds of the main goroutine in every state -/
structure MainInv (n : Nat) (main : Main) (handle : Handle) (srv : Nat → Srv) (one : Call) : Prop where
  main0 : main = .waiting → one = .idle
  main1 : main = .returned ∨ main = .exited 0 → handle = .done ∧ (∀ i, i < n → (srv i).serving = false) ∧ one ≠ .idle
  main2 : main = .exited 0 → one = .returned

/-- what holds in every state -/
structure Inv (s : St) : Prop where
  calls : CallInv s.m s.shutting s.interrupted s.call s.closes
  srvs : SrvInv s.n s.closes s.srv s.handle s.hooks
  mains : MainInv s.n s.main s.handle s.srv (s.call 1)

theorem inv_begin (n m : Nat) : Inv (St.begin n m) := by
  refine ⟨⟨by simp [St.begin], ?_, ?_, ?_, ?_⟩, ⟨?_, ?_, ?_, ?_, ?_, ?_, ?_, ?_⟩, ⟨?_, ?_, ?_⟩⟩ <;> simp [St.begin]

/-! ### Calls -/

/-- one call goes on without the swap being made -/
theorem CallInv.begun {m c : Nat} {b j : Bool} {call : Nat → Call} (h : CallInv m b j call c) {i : Nat} (hi : i < m)
    (hc : call i ≠ .won) {j' : Bool} (hj : j' = true ↔ (if 0 = i then Call.called else call 0) ≠ .idle) :
    CallInv m b j' (fun k => if k = i then .called else call k) c := by
  refine ⟨h.two, ?_, ?_, ?_, hj⟩
  · intro hb
    refine ⟨(h.open_ hb).1, fun k => ?_⟩
    by_cases hk : k = i
    · simp [hk]
    · simpa [hk] using (h.open_ hb).2 k
  · intro hb
    rcases h.shut hb with ⟨h1, h2⟩ | ⟨h1, k, hk, h3, h4⟩
    · refine .inl ⟨h1, fun k => ?_⟩
      by_cases hk : k = i
      · simp [hk]
      · simpa [hk] using h2 k
    · have hki : k ≠ i := fun e => hc (e ▸ h3)
      refine .inr ⟨h1, k, hk, by simpa [hki] using h3, fun l hl => ?_⟩
      by_cases hl' : l = i
      · simp [hl'] at hl
      · exact h4 l (by simpa [hl'] using hl)
  · intro k hk
    have : k ≠ i := by omega
    simpa [this] using h.few k hk

/-- after the swap of someone else -/
theorem CallInv.late {m c : Nat} {j : Bool} {call : Nat → Call} (h : CallInv m true j call c) {i : Nat} (hi : i < m)
    (hc : call i = .called) : CallInv m true j (fun k => if k = i then .returned else call k) c := by
  refine ⟨h.two, by simp, ?_, ?_, ?_⟩
  · intro hb
    rcases h.shut hb with ⟨h1, h2⟩ | ⟨h1, k, hk, h3, h4⟩
    · refine .inl ⟨h1, fun k => ?_⟩
      by_cases hk : k = i
      · simp [hk]
      · simpa [hk] using h2 k
    · have hki : k ≠ i := fun e => by rw [e, hc] at h3; cases h3
      refine .inr ⟨h1, k, hk, by simpa [hki] using h3, fun l hl => ?_⟩
      by_cases hl' : l = i
      · simp [hl'] at hl
      · exact h4 l (by simpa [hl'] using hl)
  · intro k hk
    have : k ≠ i := by omega
    simpa [this] using h.few k hk
  · rw [h.sig]
    by_cases h0 : 0 = i
    · simp [h0, hc]
    · simp [h0]

/-- the swap -/
theorem CallInv.first {m c : Nat} {j : Bool} {call : Nat → Call} (h : CallInv m false j call c) {i : Nat} (hi : i < m)
    (hc : call i = .called) : CallInv m true j (fun k => if k = i then .won else call k) c := by
  refine ⟨h.two, by simp, ?_, ?_, ?_⟩
  · intro _
    refine .inr ⟨(h.open_ rfl).1, i, hi, by simp, fun l hl => ?_⟩
    by_cases hl' : l = i
    · exact hl'
    · exact absurd (by simpa [hl'] using hl) ((h.open_ rfl).2 l).1
  · intro k hk
    have : k ≠ i := by omega
    simpa [this] using h.few k hk
  · rw [h.sig]
    by_cases h0 : 0 = i
    · simp [h0, hc]
    · simp [h0]

/-- who is about to close is the only one, and the channel is open -/
theorem CallInv.winner {m c : Nat} {b j : Bool} {call : Nat → Call} (h : CallInv m b j call c) {i : Nat} (hc : call i = .won) :
    b = true ∧ c = 0 ∧ ∀ k, call k = .won → k = i := by
  cases b with
  | false => exact absurd hc ((h.open_ rfl).2 i).1
  | true =>
    rcases h.shut rfl with ⟨_, h2⟩ | ⟨h1, k, _, _, h4⟩
    · exact absurd hc (h2 i)
    · exact ⟨rfl, h1, fun l hl => (h4 l hl).trans (h4 i hc).symm⟩

/-- the close -/
theorem CallInv.closed {m c : Nat} {b j : Bool} {call : Nat → Call} (h : CallInv m b j call c) {i : Nat} (hi : i < m)
    (hc : call i = .won) : CallInv m b j (fun k => if k = i then .returned else call k) (c + 1) := by
  obtain ⟨hb, h0, hu⟩ := h.winner hc
  subst hb h0
  refine ⟨h.two, by simp, ?_, ?_, ?_⟩
  · intro _
    refine .inl ⟨rfl, fun l => ?_⟩
    by_cases hl' : l = i
    · simp [hl']
    · simpa [hl'] using fun e => hl' (hu l e)
  · intro k hk
    have : k ≠ i := by omega
    simpa [this] using h.few k hk
  · rw [h.sig]
    by_cases h0 : 0 = i
    · simp [h0, hc]
    · simp [h0]

/-- the channel is closed or nobody has passed it -/
theorem CallInv.closes_le {m c : Nat} {b j : Bool} {call : Nat → Call} (h : CallInv m b j call c) : c ≤ 1 := by
  cases b with
  | false => rw [(h.open_ rfl).1]; omega
  | true => rcases h.shut rfl with ⟨h1, _⟩ | ⟨h1, _⟩ <;> omega

/-! ### Servers -/

/-- a server changes, but the state of the goroutine that shuts it down only in ways that do not matter -/
theorem SrvInv.srv {n c : Nat} {srv : Nat → Srv} {hd : Handle} {hooks : List Hook} (h : SrvInv n c srv hd hooks) {i : Nat} {v : Srv}
    (h1 : hd = .waiting → v.down = .idle)
    (h2 : ∀ ok, v.down = .sent ok ↔ (srv i).down = .sent ok)
    (h3 : v.down = .result true ∨ v.down = .sent true → v.active = 0)
    (h4 : v.serving = false → v.down ≠ .idle) : SrvInv n c (fun j => if j = i then v else srv j) hd hooks := by
  have key : ∀ j ok, ((if j = i then v else srv j).down = .sent ok) ↔ (srv j).down = .sent ok := by
    intro j ok
    by_cases hj : j = i
    · subst hj; simpa using h2 ok
    · simp [hj]
  refine ⟨?_, h.after, h.loop, ?_, ?_, ?_, ?_, ?_⟩
  · intro hw
    refine ⟨(h.before hw).1, fun j => ?_⟩
    by_cases hj : j = i
    · simpa [hj] using h1 hw
    · simpa [hj] using (h.before hw).2 j
  · intro k hk
    refine ⟨?_, fun j hj hs => (h.good k hk).2 j hj ((key j false).1 hs)⟩
    rw [← (h.good k hk).1]
    refine total_congr fun j _ => ?_
    by_cases hj : j = i
    · subst hj
      show isSent (if j = j then v else srv j).down = _
      rw [if_pos rfl]
      cases hv : v.down with
      | sent ok => rw [(h2 ok).1 hv]
      | _ =>
        cases hs : (srv j).down with
        | sent ok => rw [(h2 ok).2 hs] at hv; cases hv
        | _ => rfl
    · simp [hj]
  · intro k hk
    obtain ⟨j, hj, hs⟩ := h.bad k hk
    exact ⟨j, hj, (key j false).2 hs⟩
  · intro hd
    rcases h.done hd with ⟨a, b⟩ | ⟨a, j, hj, hs⟩
    · exact .inl ⟨a, fun j hj => (key j true).2 (b j hj)⟩
    · exact .inr ⟨a, j, hj, (key j false).2 hs⟩
  · intro j
    by_cases hj : j = i
    · simpa [hj] using h3
    · simpa [hj] using h.still j
  · intro j
    by_cases hj : j = i
    · simpa [hj] using h4
    · simpa [hj] using h.stopped j

/-- a result is received -/
theorem SrvInv.receive {n c k : Nat} {srv : Nat → Srv} {hooks : List Hook} (h : SrvInv n c srv (.collecting k true) hooks) {i : Nat}
    (hi : i < n) (hk : k < n) {ok : Bool} (hr : (srv i).down = .result ok) :
    SrvInv n c (fun j => if j = i then { srv i with down := .sent ok } else srv j) (.collecting (k + 1) ok) hooks := by
  refine ⟨by simp, fun _ => h.after (by simp), ?_, ?_, ?_, by simp, ?_, ?_⟩
  · intro l ok' hl
    injection hl with h1 h2
    subst h1
    exact ⟨by omega, (h.loop k true rfl).2⟩
  · intro l hl
    injection hl with h1 h2
    subst h1 h2
    have ht : total (fun j => isSent (if j = i then { srv i with down := .sent true } else srv j).down) n + isSent (srv i).down =
        total (fun j => isSent (srv j).down) n + isSent (if i = i then { srv i with down := .sent true } else srv i).down :=
      total_change (f := fun j => isSent (srv j).down)
        (g := fun j => isSent (if j = i then { srv i with down := .sent true } else srv j).down) (i := i) (n := n) hi
        (fun j hj => by simp only [if_neg hj])
    have h1 : isSent (srv i).down = 0 := by rw [hr]; rfl
    have h2 : isSent (if i = i then { srv i with down := .sent true } else srv i).down = 1 := by rw [if_pos rfl]; rfl
    rw [h1, h2, (h.good k rfl).1] at ht
    refine ⟨ht, fun j hj hs => ?_⟩
    by_cases hji : j = i
    · simp [hji] at hs
    · exact (h.good k rfl).2 j hj (by simpa [hji] using hs)
  · intro l hl
    injection hl with h1 h2
    exact ⟨i, hi, by simp [h2]⟩
  · intro j
    by_cases hj : j = i
    · subst hj
      intro hx
      have : ok = true := by simpa using hx
      subst this
      simpa using h.still j (.inl hr)
    · simpa [hj] using h.still j
  · intro j
    by_cases hj : j = i
    · simp [hj]
    · simpa [hj] using h.stopped j

/-- the loop is over -/
theorem SrvInv.collected {n c k : Nat} {srv : Nat → Srv} {hooks : List Hook} {ok : Bool} (h : SrvInv n c srv (.collecting k ok) hooks)
    (hk : k = n) : SrvInv n c srv .done (if ok then hooks ++ [.post] else hooks) := by
  refine ⟨by simp, fun _ => h.after (by simp), by simp, by simp, by simp, ?_, h.still, h.stopped⟩
  intro _
  have hh := (h.loop k ok rfl).2
  cases ok with
  | true =>
    refine .inl ⟨by simp [hh], fun i hi => ?_⟩
    have h1 := total_full (fun i => isSent_le (srv i).down) ((h.good k rfl).1.trans hk) i hi
    have h2 := (h.good k rfl).2 i hi
    cases hd : (srv i).down with
    | sent b => cases b with
      | true => rfl
      | false => exact absurd hd h2
    | _ => simp [hd, isSent] at h1
  | false => exact .inr ⟨by simp [hh], h.bad k rfl⟩

/-! ### Main -/

theorem MainInv.srv {n : Nat} {main : Main} {hd : Handle} {srv : Nat → Srv} {one : Call} (h : MainInv n main hd srv one) {i : Nat} {v : Srv}
    (hv : (srv i).serving = false → v.serving = false) : MainInv n main hd (fun j => if j = i then v else srv j) one := by
  refine ⟨h.main0, fun hm => ⟨(h.main1 hm).1, fun j hj => ?_, (h.main1 hm).2.2⟩, h.main2⟩
  by_cases hji : j = i
  · subst hji; simpa using hv ((h.main1 hm).2.1 j hj)
  · simpa [hji] using (h.main1 hm).2.1 j hj

theorem MainInv.hd {n : Nat} {main : Main} {hd hd' : Handle} {srv : Nat → Srv} {one : Call} (h : MainInv n main hd srv one)
    (hne : hd ≠ .done) : MainInv n main hd' srv one :=
  ⟨h.main0, fun hm => absurd (h.main1 hm).1 hne, h.main2⟩

/-- a call other than the one of `main`, or a later point of that one -/
theorem MainInv.call {n : Nat} {main : Main} {hd : Handle} {srv : Nat → Srv} {one one' : Call} (h : MainInv n main hd srv one)
    (h1 : one = .idle → one' = .idle) (h2 : one' = .idle → one = .idle) (h3 : one = .returned → one' = .returned) : MainInv n main hd srv one' :=
  ⟨fun hm => h1 (h.main0 hm), fun hm => ⟨(h.main1 hm).1, (h.main1 hm).2.1, fun e => (h.main1 hm).2.2 (h2 e)⟩, fun hm => h3 (h.main2 hm)⟩

end Fave.Server
