import Verif.Lemmas.Server
/-!
# Every step keeps the invariant; the process makes finitely many steps of its own
-/
namespace Fave.Server

theorem next_step {s s' : St} {e : Ev} (h : next s e = some s') : step s e = some s' ∧ ∀ c, s.main ≠ .exited c := by
  unfold next at h
  by_cases ho : s.over = true
  · rw [if_pos ho] at h; cases h
  · rw [if_neg ho] at h
    exact ⟨h, fun c hc => ho (by simp [St.over, hc])⟩

/-- the invariant is kept -/
theorem inv_next {s s' : St} {e : Ev} (hi : Inv s) (h : next s e = some s') : Inv s' := by
  obtain ⟨h, hm⟩ := next_step h
  have two := hi.calls.two
  cases e with
  | signal => simp only [step, Option.some.injEq] at h; subst h; exact ⟨hi.calls, hi.srvs, hi.mains⟩
  | ask i =>
    simp only [step] at h
    split at h
    · rename_i hc
      injection h with h; subst h
      refine ⟨hi.calls.begun hc.2.1 (by rw [hc.2.2]; simp) ?_, hi.srvs, hi.mains.call ?_ ?_ ?_⟩
      · rw [if_neg (by omega)]; exact hi.calls.sig
      all_goals (simp only [St.setCall]; rw [if_neg (by omega)]; exact id)
    · cases h
  | accept i =>
    simp only [step] at h
    split at h
    · rename_i hc
      injection h with h; subst h
      refine ⟨hi.calls, hi.srvs.srv (fun _ => hc.2.2) (fun _ => Iff.rfl) ?_ (hi.srvs.stopped i), hi.mains.srv id⟩
      simp [hc.2.2]
    · cases h
  | finish i =>
    simp only [step] at h
    split at h
    · rename_i hc
      injection h with h; subst h
      refine ⟨hi.calls, hi.srvs.srv (fun hw => (hi.srvs.before hw).2 i) (fun _ => Iff.rfl) (fun hd => ?_) (hi.srvs.stopped i), hi.mains.srv id⟩
      have := hi.srvs.still i hd
      show (s.srv i).active - 1 = 0
      omega
    · cases h
  | fail i =>
    simp only [step] at h
    split at h
    · injection h with h; subst h
      exact ⟨hi.calls, hi.srvs, ⟨by simp, by simp, by simp⟩⟩
    · cases h
  | take =>
    simp only [step] at h
    split at h
    · rename_i hc
      split at h
      · injection h with h; subst h; exact ⟨hi.calls, hi.srvs, hi.mains⟩
      · injection h with h; subst h
        refine ⟨hi.calls.begun (by omega) hc.2.2 (by rw [if_pos rfl]; exact ⟨fun _ => by simp, fun _ => rfl⟩), hi.srvs, hi.mains.call ?_ ?_ ?_⟩
        all_goals (simp only [St.setCall]; rw [if_neg (by omega)]; exact id)
    · cases h
  | swap i =>
    simp only [step] at h
    split at h
    · rename_i hc
      have hcalls := hi.calls
      split at h
      · rename_i hs
        injection h with h; subst h
        rw [hs] at hcalls
        refine ⟨?_, hi.srvs, hi.mains.call ?_ ?_ ?_⟩
        · simp only [St.setCall, hs]; exact hcalls.late hc.1 hc.2
        all_goals
          simp only [St.setCall]
          by_cases h1 : 1 = i
          · subst h1; simp [hc.2]
          · rw [if_neg h1]; exact id
      · rename_i hs
        injection h with h; subst h
        rw [Bool.not_eq_true] at hs
        rw [hs] at hcalls
        refine ⟨?_, hi.srvs, hi.mains.call ?_ ?_ ?_⟩
        · simp only [St.setCall]; exact hcalls.first hc.1 hc.2
        all_goals
          simp only [St.setCall]
          by_cases h1 : 1 = i
          · subst h1; simp [hc.2]
          · rw [if_neg h1]; exact id
    · cases h
  | close i =>
    simp only [step] at h
    split at h
    · rename_i hc
      injection h with h; subst h
      have hw := hi.calls.winner hc.2
      refine ⟨hi.calls.closed hc.1 hc.2, ⟨hi.srvs.before, fun hne => ?_, hi.srvs.loop, hi.srvs.good, hi.srvs.bad, hi.srvs.done, hi.srvs.still,
        hi.srvs.stopped⟩, hi.mains.call ?_ ?_ ?_⟩
      · have := hi.srvs.after hne; omega
      all_goals
        simp only [St.setCall]
        by_cases h1 : 1 = i
        · subst h1; simp [hc.2]
        · rw [if_neg h1]; exact id
    · cases h
  | wake =>
    simp only [step] at h
    split at h
    · rename_i hc
      injection h with h; subst h
      have hb := hi.srvs.before hc.1
      have hle := hi.calls.closes_le
      refine ⟨hi.calls, ⟨by simp, fun _ => by show s.closes = 1; omega, ?_, ?_, by simp, by simp, hi.srvs.still, hi.srvs.stopped⟩,
        hi.mains.hd (by rw [hc.1]; simp)⟩
      · intro k ok hk
        injection hk with h1 h2
        subst h1
        exact ⟨by omega, by simp [hb.1]⟩
      · intro k hk
        injection hk with h1 h2
        subst h1
        refine ⟨?_, fun i _ hs => by rw [hb.2 i] at hs; cases hs⟩
        have : ∀ n, total (fun i => isSent (s.srv i).down) n = 0 := by
          intro n
          induction n with
          | zero => rfl
          | succ n ih => simp only [total, ih, hb.2 n]; rfl
        exact this _
    · cases h
  | drain i bad =>
    simp only [step] at h
    split at h
    · rename_i hc
      injection h with h; subst h
      refine ⟨hi.calls, hi.srvs.srv (fun hw => absurd hw hc.2.1) (fun ok => ?_) ?_ ?_, hi.mains.srv id⟩
      · simp [hc.2.2]
      · simp
      · simp
    · cases h
  | stop i =>
    simp only [step] at h
    split at h
    · rename_i hc
      injection h with h; subst h
      exact ⟨hi.calls, hi.srvs.srv (fun hw => (hi.srvs.before hw).2 i) (fun _ => Iff.rfl) (hi.srvs.still i) (fun _ => hc.2.2), hi.mains.srv (fun _ => rfl)⟩
    · cases h
  | drained i =>
    simp only [step] at h
    split at h
    · rename_i bad hd
      split at h
      · rename_i hc
        injection h with h; subst h
        refine ⟨hi.calls, hi.srvs.srv (fun hw => ?_) (fun ok => ?_) (fun _ => hc.2) (by simp), hi.mains.srv id⟩
        · rw [(hi.srvs.before hw).2 i] at hd; cases hd
        · simp [hd]
      · cases h
    · cases h
  | timeout i =>
    simp only [step] at h
    split at h
    · rename_i bad hd
      split at h
      · injection h with h; subst h
        refine ⟨hi.calls, hi.srvs.srv (fun hw => ?_) (fun ok => ?_) (by simp) (by simp), hi.mains.srv id⟩
        · rw [(hi.srvs.before hw).2 i] at hd; cases hd
        · simp [hd]
      · cases h
    · cases h
  | receive i =>
    simp only [step] at h
    split at h
    · rename_i k ok hh hd
      split at h
      · rename_i hc
        injection h with h; subst h
        have hs := hi.srvs
        rw [hh] at hs
        refine ⟨hi.calls, hs.receive hc.1 hc.2 hd, ?_⟩
        exact (hi.mains.hd (by rw [hh]; simp)).srv id
      · cases h
    · cases h
  | skip =>
    simp only [step] at h
    split at h
    · rename_i k hh
      split at h
      · injection h with h; subst h
        have hs := hi.srvs
        rw [hh] at hs
        refine ⟨hi.calls, ⟨by simp, fun _ => hs.after (by simp), ?_, ?_, ?_, by simp, hs.still, hs.stopped⟩, hi.mains.hd (by rw [hh]; simp)⟩
        · intro l ok hl
          injection hl with h1 h2
          subst h1
          rename_i hk
          exact ⟨hk, (hs.loop k false rfl).2⟩
        · intro l hl
          injection hl with h1 h2
          cases h2
        · intro l hl
          exact hs.bad k rfl
      · cases h
    · cases h
  | collected =>
    simp only [step] at h
    split at h
    · rename_i k ok hh
      split at h
      · rename_i hc
        injection h with h; subst h
        have hs := hi.srvs
        rw [hh] at hs
        exact ⟨hi.calls, hs.collected hc, hi.mains.hd (by rw [hh]; simp)⟩
      · cases h
    · cases h
  | «return» =>
    simp only [step] at h
    split at h
    · rename_i hc
      injection h with h; subst h
      have h1 := hi.mains.main0 hc.1
      refine ⟨hi.calls.begun (by omega) (by rw [h1]; simp) ?_, hi.srvs,
        ⟨fun e => (by cases e), fun _ => ⟨hc.2.1, hc.2.2, by simp [St.setCall]⟩, fun e => (by cases e)⟩⟩
      rw [if_neg (by omega)]; exact hi.calls.sig
    · cases h
  | exit =>
    simp only [step] at h
    split at h
    · rename_i hc
      injection h with h; subst h
      exact ⟨hi.calls, hi.srvs, ⟨by simp, fun _ => hi.mains.main1 (.inl hc.1), fun _ => hc.2⟩⟩
    · cases h

theorem inv_run : ∀ {tr : List Ev} {s s' : St}, Inv s → run tr s = some s' → Inv s'
  | [], s, s', hi, h => by injection h with h; subst h; exact hi
  | e :: tr, s, s', hi, h => by
    simp only [run] at h
    split at h
    · rename_i s1 h1
      exact inv_run (inv_next hi h1) h
    · cases h

theorem occurs_inv {n m : Nat} {s : St} (h : Occurs n m s) : Inv s := h.elim fun _ h => inv_run (inv_begin n m) h

theorem next_size {s s' : St} {e : Ev} (h : next s e = some s') : s'.n = s.n ∧ s'.m = s.m := by
  have h := (next_step h).1
  cases e <;> simp only [step] at h <;> (repeat' split at h) <;> first | (injection h with h; subst h; exact ⟨rfl, rfl⟩) | cases h

theorem run_size : ∀ {tr : List Ev} {s s' : St}, run tr s = some s' → s'.n = s.n ∧ s'.m = s.m
  | [], s, s', h => by injection h with h; subst h; exact ⟨rfl, rfl⟩
  | e :: tr, s, s', h => by
    simp only [run] at h
    split at h
    · rename_i s1 h1
      have a := run_size h
      have b := next_size h1
      exact ⟨a.1.trans b.1, a.2.trans b.2⟩
    · cases h

theorem run_append : ∀ {t u : List Ev} {s s' s'' : St}, run t s = some s' → run u s' = some s'' → run (t ++ u) s = some s''
  | [], u, s, s', s'', h, g => by injection h with h; subst h; exact g
  | e :: t, u, s, s', s'', h, g => by
    simp only [run] at h
    split at h
    · rename_i s1 h1
      simp only [List.cons_append, run, h1]
      exact run_append h g
    · cases h

/-! ## Steps left -/

def callCost : Call → Nat
  | .called => 2
  | .won => 1
  | _ => 0

def downCost : Down → Nat
  | .idle => 3
  | .draining _ => 2
  | .result _ => 1
  | .sent _ => 0

def srvCost (v : Srv) : Nat := downCost v.down + (if v.serving then 1 else 0)

def handleCost (n : Nat) : Handle → Nat
  | .waiting => n + 2
  | .collecting k _ => n - k + 1
  | .done => 0

def mainCost : Main → Nat
  | .waiting => 4
  | .returned => 1
  | .exited _ => 0

/-- a bound for the steps that the process can still make by itself -/
def left (s : St) : Nat :=
  (if s.pending then 3 else 0) + total (fun i => callCost (s.call i)) s.m + total (fun i => srvCost (s.srv i)) s.n + handleCost s.n s.handle +
    mainCost s.main

theorem left_begin (n m : Nat) : left (St.begin n m) = 5 * n + 6 := by
  have h1 : ∀ k, total (fun i => callCost ((St.begin n m).call i)) k = 0 := by
    intro k; induction k with
    | zero => rfl
    | succ k ih => simp only [total, ih]; rfl
  have h2 : ∀ k, total (fun i => srvCost ((St.begin n m).srv i)) k = 4 * k := by
    intro k; induction k with
    | zero => rfl
    | succ k ih => simp only [total, ih]; simp [srvCost, downCost, St.begin]; omega
  unfold left
  rw [h1, h2]
  simp [St.begin, handleCost, mainCost]; omega

theorem call_cost (s : St) {i : Nat} (hi : i < s.m) (c : Call) :
    total (fun j => callCost ((s.setCall i c).call j)) s.m + callCost (s.call i) = total (fun j => callCost (s.call j)) s.m + callCost c := by
  have := total_change (f := fun j => callCost (s.call j)) (g := fun j => callCost ((s.setCall i c).call j)) (i := i) hi
    (fun j hj => by simp only [St.setCall, if_neg hj])
  simpa only [St.setCall, if_true] using this

theorem srv_cost (s : St) {i : Nat} (hi : i < s.n) (v : Srv) :
    total (fun j => srvCost ((s.setSrv i v).srv j)) s.n + srvCost (s.srv i) = total (fun j => srvCost (s.srv j)) s.n + srvCost v := by
  have := total_change (f := fun j => srvCost (s.srv j)) (g := fun j => srvCost ((s.setSrv i v).srv j)) (i := i) hi
    (fun j hj => by simp only [St.setSrv, if_neg hj])
  simpa only [St.setSrv, if_true] using this

/-- the parts that are no sums -/
def rest (s : St) : Nat := (if s.pending then 3 else 0) + handleCost s.n s.handle + mainCost s.main

theorem left_call {s s' : St} {i : Nat} {c : Call} (hi : i < s.m) (h1 : s'.n = s.n) (h2 : s'.m = s.m) (h3 : s'.call = (s.setCall i c).call)
    (h4 : s'.srv = s.srv) : left s' + callCost (s.call i) + rest s = left s + callCost c + rest s' := by
  have := call_cost s hi c
  unfold left rest
  rw [h1, h2, h3, h4]
  omega

theorem left_srv {s s' : St} {i : Nat} {v : Srv} (hi : i < s.n) (h1 : s'.n = s.n) (h2 : s'.m = s.m) (h3 : s'.call = s.call)
    (h4 : s'.srv = (s.setSrv i v).srv) : left s' + srvCost (s.srv i) + rest s = left s + srvCost v + rest s' := by
  have := srv_cost s hi v
  unfold left rest
  rw [h1, h2, h3, h4]
  omega

theorem left_same {s s' : St} (h1 : s'.n = s.n) (h2 : s'.m = s.m) (h3 : s'.call = s.call)
    (h4 : s'.srv = s.srv) : left s' + rest s = left s + rest s' := by
  unfold left rest
  rw [h1, h2, h3, h4]
  omega

/-- what a step of the outside may add -/
def Ev.adds : Ev → Nat
  | .signal => 3
  | .ask _ => 2
  | _ => 0

theorem left_next {s s' : St} {e : Ev} (hi : Inv s) (h : next s e = some s') :
    left s' + (if e.own then 1 else 0) ≤ left s + e.adds := by
  obtain ⟨h, hm⟩ := next_step h
  have two := hi.calls.two
  cases e with
  | signal =>
    simp only [step, Option.some.injEq] at h; subst h
    have h1 := left_same (s := s) (s' := { s with pending := true }) rfl rfl rfl rfl
    simp only [rest, if_true] at h1
    simp only [Ev.own, Ev.adds, Bool.false_eq_true, if_false]
    omega
  | ask i =>
    simp only [step] at h
    split at h
    · rename_i hc
      injection h with h; subst h
      have h1 := left_call (s := s) (s' := s.setCall i .called) hc.2.1 rfl rfl rfl rfl
      have h2 : rest (s.setCall i .called) = rest s := rfl
      rw [hc.2.2, h2] at h1
      simp only [callCost] at h1
      simp only [Ev.own, Ev.adds, Bool.false_eq_true, if_false]
      omega
    · cases h
  | accept i =>
    simp only [step] at h
    split at h
    · rename_i hc
      injection h with h; subst h
      have h1 := left_srv (s := s) (s' := s.setSrv i { s.srv i with active := (s.srv i).active + 1 }) hc.1 rfl rfl rfl rfl
      simp only [rest, srvCost, St.setSrv] at h1 ⊢
      simp only [Ev.own, Ev.adds, Bool.false_eq_true, if_false]
      omega
    · cases h
  | finish i =>
    simp only [step] at h
    split at h
    · rename_i hc
      injection h with h; subst h
      have h1 := left_srv (s := s) (s' := s.setSrv i { s.srv i with active := (s.srv i).active - 1 }) hc.1 rfl rfl rfl rfl
      simp only [rest, srvCost, St.setSrv] at h1 ⊢
      simp only [Ev.own, Ev.adds, Bool.false_eq_true, if_false]
      omega
    · cases h
  | fail i =>
    simp only [step] at h
    split at h
    · injection h with h; subst h
      have h1 := left_same (s := s) (s' := { s with main := .exited 1 }) rfl rfl rfl rfl
      simp only [rest, mainCost] at h1
      simp only [Ev.own, Ev.adds, Bool.false_eq_true, if_false]
      omega
    · cases h
  | take =>
    simp only [step] at h
    split at h
    · rename_i hc
      split at h
      · injection h with h; subst h
        have h1 := left_same (s := s) (s' := { s with pending := false }) rfl rfl rfl rfl
        simp only [rest, hc.1, if_true, Bool.false_eq_true, if_false] at h1
        simp only [Ev.own, Ev.adds, if_true]
        omega
      · rename_i hint
        injection h with h; subst h
        have h0 : s.call 0 = .idle := Decidable.byContradiction fun hne => hint (hi.calls.sig.2 hne)
        have h1 := left_call (s := s) (s' := { s with pending := false, interrupted := true }.setCall 0 .called) (by omega) rfl rfl rfl rfl
        rw [h0] at h1
        simp only [rest, hc.1, if_true, Bool.false_eq_true, if_false, callCost, St.setCall] at h1 ⊢
        simp only [Ev.own, Ev.adds, if_true]
        omega
    · cases h
  | swap i =>
    simp only [step] at h
    split at h
    · rename_i hc
      split at h
      · injection h with h; subst h
        have h1 := left_call (s := s) (s' := s.setCall i .returned) hc.1 rfl rfl rfl rfl
        have h2 : rest (s.setCall i .returned) = rest s := rfl
        rw [hc.2, h2] at h1
        simp only [callCost] at h1
        simp only [Ev.own, Ev.adds, if_true]
        omega
      · injection h with h; subst h
        have h1 := left_call (s := s) (s' := { s with shutting := true }.setCall i .won) hc.1 rfl rfl rfl rfl
        rw [hc.2] at h1
        simp only [rest, callCost, St.setCall] at h1 ⊢
        simp only [Ev.own, Ev.adds, if_true]
        omega
    · cases h
  | close i =>
    simp only [step] at h
    split at h
    · rename_i hc
      injection h with h; subst h
      have h1 := left_call (s := s) (s' := { s with closes := s.closes + 1 }.setCall i .returned) hc.1 rfl rfl rfl rfl
      rw [hc.2] at h1
      simp only [rest, callCost, St.setCall] at h1 ⊢
      simp only [Ev.own, Ev.adds, if_true]
      omega
    · cases h
  | wake =>
    simp only [step] at h
    split at h
    · rename_i hc
      injection h with h; subst h
      have h1 := left_same (s := s) (s' := { s with handle := .collecting 0 true, hooks := s.hooks ++ [.pre] }) rfl rfl rfl rfl
      simp only [rest, hc.1, handleCost] at h1
      simp only [Ev.own, Ev.adds, if_true]
      omega
    · cases h
  | drain i bad =>
    simp only [step] at h
    split at h
    · rename_i hc
      injection h with h; subst h
      have h1 := left_srv (s := s) (s' := s.setSrv i { s.srv i with down := .draining bad }) hc.1 rfl rfl rfl rfl
      simp only [rest, srvCost, hc.2.2, downCost, St.setSrv] at h1 ⊢
      simp only [Ev.own, Ev.adds, if_true]
      omega
    · cases h
  | stop i =>
    simp only [step] at h
    split at h
    · rename_i hc
      injection h with h; subst h
      have h1 := left_srv (s := s) (s' := s.setSrv i { s.srv i with serving := false }) hc.1 rfl rfl rfl rfl
      simp only [rest, srvCost, hc.2.1, St.setSrv, if_true, Bool.false_eq_true, if_false] at h1 ⊢
      simp only [Ev.own, Ev.adds, if_true]
      omega
    · cases h
  | drained i =>
    simp only [step] at h
    split at h
    · rename_i bad hd
      split at h
      · rename_i hc
        injection h with h; subst h
        have h1 := left_srv (s := s) (s' := s.setSrv i { s.srv i with down := .result (!bad) }) hc.1 rfl rfl rfl rfl
        simp only [rest, srvCost, hd, downCost, St.setSrv] at h1 ⊢
        simp only [Ev.own, Ev.adds, if_true]
        omega
      · cases h
    · cases h
  | timeout i =>
    simp only [step] at h
    split at h
    · rename_i bad hd
      split at h
      · rename_i hc
        injection h with h; subst h
        have h1 := left_srv (s := s) (s' := s.setSrv i { s.srv i with down := .result false }) hc rfl rfl rfl rfl
        simp only [rest, srvCost, hd, downCost, St.setSrv] at h1 ⊢
        simp only [Ev.own, Ev.adds, if_true]
        omega
      · cases h
    · cases h
  | receive i =>
    simp only [step] at h
    split at h
    · rename_i k ok hh hd
      split at h
      · rename_i hc
        injection h with h; subst h
        have h1 := left_srv (s := s) (s' := { s.setSrv i { s.srv i with down := .sent ok } with handle := .collecting (k + 1) ok })
          hc.1 rfl rfl rfl rfl
        simp only [rest, srvCost, hd, hh, downCost, handleCost, St.setSrv] at h1 ⊢
        simp only [Ev.own, Ev.adds, if_true]
        omega
      · cases h
    · cases h
  | skip =>
    simp only [step] at h
    split at h
    · rename_i k hh
      split at h
      · rename_i hk
        injection h with h; subst h
        have h1 := left_same (s := s) (s' := { s with handle := .collecting (k + 1) false }) rfl rfl rfl rfl
        simp only [rest, hh, handleCost] at h1
        simp only [Ev.own, Ev.adds, if_true]
        omega
      · cases h
    · cases h
  | collected =>
    simp only [step] at h
    split at h
    · rename_i k ok hh
      split at h
      · rename_i hk
        injection h with h; subst h
        have h1 := left_same (s := s) (s' := { s with handle := .done, hooks := if ok then s.hooks ++ [.post] else s.hooks }) rfl rfl rfl rfl
        simp only [rest, hh, handleCost] at h1
        simp only [Ev.own, Ev.adds, if_true]
        omega
      · cases h
    · cases h
  | «return» =>
    simp only [step] at h
    split at h
    · rename_i hc
      injection h with h; subst h
      have h0 := hi.mains.main0 hc.1
      have h1 := left_call (s := s) (s' := { s with main := .returned }.setCall 1 .called) (by omega) rfl rfl rfl rfl
      rw [h0] at h1
      simp only [rest, hc.1, callCost, mainCost, St.setCall] at h1 ⊢
      simp only [Ev.own, Ev.adds, if_true]
      omega
    · cases h
  | exit =>
    simp only [step] at h
    split at h
    · rename_i hc
      injection h with h; subst h
      have h1 := left_same (s := s) (s' := { s with main := .exited 0 }) rfl rfl rfl rfl
      simp only [rest, hc.1, mainCost] at h1
      simp only [Ev.own, Ev.adds, if_true]
      omega
    · cases h

theorem left_run : ∀ {tr : List Ev} {s s' : St}, Inv s → run tr s = some s' → left s' + ownSteps tr ≤ left s + 3 * signals tr + 2 * asks tr
  | [], s, s', _, h => by injection h with h; subst h; simp [ownSteps]; omega
  | e :: tr, s, s', hi, h => by
    simp only [run] at h
    split at h
    · rename_i s1 h1
      have a := left_run (inv_next hi h1) h
      have b := left_next hi h1
      have h2 : ownSteps (e :: tr) = (if e.own then 1 else 0) + ownSteps tr := by
        cases he : e.own <;> simp [ownSteps, he, Nat.add_comm]
      have h3 : 3 * signals (e :: tr) + 2 * asks (e :: tr) = e.adds + 3 * signals tr + 2 * asks tr := by
        cases e <;> simp [signals, asks, Ev.adds] <;> omega
      omega
    · cases h

/-! ## There is always a next step -/

theorem some_own {s : St} (hi : Inv s) (ho : s.over = false) (hw : Wanted s) : ∃ e s', e.own = true ∧ next s e = some s' := by
  have lift : ∀ e s', e.own = true → step s e = some s' → ∃ e s', e.own = true ∧ next s e = some s' :=
    fun e s' h1 h2 => ⟨e, s', h1, by unfold next; rw [ho]; exact h2⟩
  -- someone is in a call
  by_cases hcall : ∃ i, i < s.m ∧ (s.call i = .called ∨ s.call i = .won)
  · obtain ⟨i, hm, hc | hc⟩ := hcall
    · by_cases hs : s.shutting = true
      · exact lift (.swap i) _ rfl (by simp only [step, hm, hc, and_self, if_true, hs]; rfl)
      · exact lift (.swap i) _ rfl (by simp only [step, hm, hc, and_self, if_true, if_neg hs]; rfl)
    · exact lift (.close i) _ rfl (by simp only [step, hm, hc, and_self, if_true]; rfl)
  have hno : ∀ i, i < s.m → s.call i ≠ .called ∧ s.call i ≠ .won :=
    fun i h => ⟨fun e => hcall ⟨i, h, .inl e⟩, fun e => hcall ⟨i, h, .inr e⟩⟩
  -- a signal waits
  by_cases hp : s.pending = true
  · have h0 := hno 0 (by have := hi.calls.two; omega)
    by_cases hint : s.interrupted = true
    · exact lift .take _ rfl (by simp only [step, hp, ne_eq, h0.1, h0.2, not_false_eq_true, and_self, if_true, hint]; rfl)
    · exact lift .take _ rfl (by simp only [step, hp, ne_eq, h0.1, h0.2, not_false_eq_true, and_self, if_true, if_neg hint]; rfl)
  -- the channel is closed
  have hcl : s.closes = 1 := by
    rcases hw with h | ⟨i, hm, hc⟩
    · exact absurd h hp
    · have hr : s.call i = .returned := by
        have := hno i hm
        cases hx : s.call i with
        | returned => rfl
        | idle => exact absurd hx hc
        | called => exact absurd hx this.1
        | won => exact absurd hx this.2
      cases hs : s.shutting with
      | false => exact absurd hr ((hi.calls.open_ hs).2 i).2
      | true =>
        rcases hi.calls.shut hs with h | ⟨_, j, hj, h, _⟩
        · exact h.1
        · exact absurd h (hno j hj).2
  cases hh : s.handle with
  | waiting => exact lift .wake _ rfl (by simp only [step, hh, hcl, true_and]; rw [if_pos (by omega)])
  | collecting k ok =>
    by_cases hk : k < s.n
    · cases ok with
      | false => exact lift .skip _ rfl (by simp only [step, hh, hk, if_true]; rfl)
      | true =>
        have : ∃ i, i < s.n ∧ isSent (s.srv i).down = 0 := by
          refine Decidable.byContradiction fun hne => ?_
          have h1 : s.n ≤ total (fun i => isSent (s.srv i).down) s.n :=
            total_all fun i hi' => Nat.pos_of_ne_zero fun e => hne ⟨i, hi', e⟩
          rw [(hi.srvs.good k hh).1] at h1
          omega
        obtain ⟨i, hin, hz⟩ := this
        cases hd : (s.srv i).down with
        | idle => exact lift (.drain i false) _ rfl (by simp only [step, hh, hd, hin, true_and]; rw [if_pos (by simp)])
        | draining b => exact lift (.timeout i) _ rfl (by simp only [step, hd, hin, if_true]; rfl)
        | result b => exact lift (.receive i) _ rfl (by simp only [step, hh, hd, hin, hk, and_self, if_true]; rfl)
        | sent b => rw [hd] at hz; cases hz
    · have := (hi.srvs.loop k ok hh).1
      exact lift .collected _ rfl (by simp only [step, hh]; rw [if_pos (by omega)])
  | done =>
    by_cases hs : ∃ i, i < s.n ∧ (s.srv i).serving = true
    · obtain ⟨i, hin, hs⟩ := hs
      by_cases hd : (s.srv i).down = .idle
      · exact lift (.drain i false) _ rfl (by simp only [step, hh, hd, hin, true_and]; rw [if_pos (by simp)])
      · exact lift (.stop i) _ rfl (by simp only [step, hin, hs, true_and]; rw [if_pos hd])
    · have hs : ∀ i, i < s.n → (s.srv i).serving = false := fun i h => by
        cases hx : (s.srv i).serving with
        | false => rfl
        | true => exact absurd ⟨i, h, hx⟩ hs
      cases hm : s.main with
      | waiting => exact lift .return _ rfl (by simp only [step]; rw [if_pos ⟨hm, hh, hs⟩])
      | returned =>
        have h1 := hno 1 (by have := hi.calls.two; omega)
        have h2 := (hi.mains.main1 (.inl hm)).2.2
        have hr : s.call 1 = .returned := by
          cases hx : s.call 1 with
          | returned => rfl
          | idle => exact absurd hx h2
          | called => exact absurd hx h1.1
          | won => exact absurd hx h1.2
        exact lift .exit _ rfl (by simp only [step]; rw [if_pos ⟨hm, hr⟩])
      | exited c => rw [St.over, hm] at ho; cases ho

/-- who wanted the process to stop has not changed their mind -/
theorem wanted_next {s s' : St} {e : Ev} (hi : Inv s) (hw : Wanted s) (h : next s e = some s') : Wanted s' := by
  have two := hi.calls.two
  have h := (next_step h).1
  have set : ∀ (s1 : St) (i : Nat) (c : Call), i < s1.m → c ≠ .idle → Wanted (s1.setCall i c) :=
    fun s1 i c h1 h2 => .inr ⟨i, h1, by simpa [St.setCall] using h2⟩
  cases e with
  | signal => simp only [step, Option.some.injEq] at h; subst h; exact .inl rfl
  | take =>
    simp only [step] at h
    split at h
    · rename_i hc
      split at h
      · rename_i hint
        injection h with h; subst h
        exact .inr ⟨0, by show 0 < s.m; omega, hi.calls.sig.1 hint⟩
      · injection h with h; subst h
        exact set _ _ _ (by show 0 < s.m; omega) (by simp)
    · cases h
  | ask i =>
    simp only [step] at h
    split at h
    · rename_i hc; injection h with h; subst h; exact set _ _ _ hc.2.1 (by simp)
    · cases h
  | swap i =>
    simp only [step] at h
    split at h
    · rename_i hc
      split at h <;> (injection h with h; subst h; exact set _ _ _ hc.1 (by simp))
    · cases h
  | close i =>
    simp only [step] at h
    split at h
    · rename_i hc; injection h with h; subst h; exact set _ _ _ hc.1 (by simp)
    · cases h
  | «return» =>
    simp only [step] at h
    split at h
    · rename_i hc; injection h with h; subst h; exact set _ _ _ (by show 1 < s.m; omega) (by simp)
    · cases h
  | _ =>
    simp only [step] at h
    repeat' split at h
    all_goals first | (injection h with h; subst h; exact hw) | cases h

/-- an own step ends the process only with code 0 -/
theorem own_exit {s s' : St} {e : Ev} (he : e.own = true) (h : next s e = some s') (c : Nat) (hm : s'.main = .exited c) : c = 0 := by
  obtain ⟨h, hn⟩ := next_step h
  cases e with
  | exit =>
    simp only [step] at h
    split at h
    · injection h with h; subst h; injection hm with hm; exact hm.symm
    · cases h
  | signal => cases he
  | ask _ => cases he
  | accept _ => cases he
  | finish _ => cases he
  | fail _ => cases he
  | «return» =>
    simp only [step] at h
    split at h
    · injection h with h; subst h; cases hm
    · cases h
  | _ =>
    simp only [step] at h
    repeat' split at h
    all_goals first | (injection h with h; subst h; exact absurd hm (hn c)) | cases h

/-- the process can end by itself -/
theorem ends : ∀ (k : Nat) {s : St}, left s ≤ k → Inv s → s.over = false → Wanted s →
    ∃ tr s', (∀ e, e ∈ tr → e.own = true) ∧ run tr s = some s' ∧ s'.main = .exited 0
  | 0, s, hk, hi, ho, hw => by
    obtain ⟨e, s', he, h⟩ := some_own hi ho hw
    have := left_next hi h
    rw [he] at this
    have : e.adds = 0 := by cases e <;> first | rfl | cases he
    simp_all
  | k + 1, s, hk, hi, ho, hw => by
    obtain ⟨e, s1, he, h⟩ := some_own hi ho hw
    have h1 := left_next hi h
    have h2 : e.adds = 0 := by cases e <;> first | rfl | cases he
    rw [he, h2] at h1
    simp only [if_true] at h1
    by_cases ho1 : s1.over = true
    · refine ⟨[e], s1, by simpa using he, by simp [run, h], ?_⟩
      unfold St.over at ho1
      split at ho1
      · rename_i c hc; rw [hc, own_exit he h c hc]
      · cases ho1
    · obtain ⟨tr, s', ht, hr, hx⟩ := ends k (s := s1) (by omega) (inv_next hi h) (by simpa using ho1) (wanted_next hi hw h)
      refine ⟨e :: tr, s', ?_, by simp only [run, h]; exact hr, hx⟩
      intro e' he'
      rcases List.mem_cons.1 he' with rfl | h
      · exact he
      · exact ht e' h

end Fave.Server
