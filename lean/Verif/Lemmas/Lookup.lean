import Verif.Model.Lookup
/-!
# Invariants of the parallel look-up
-/
namespace Fave
namespace Lookup

/-- sum of `w 0 … w (n-1)` -/
def total (w : Nat → Nat) : Nat → Nat
  | 0 => 0
  | n + 1 => total w n + w n

theorem total_congr {w w' : Nat → Nat} {n : Nat} (h : ∀ j, j < n → w j = w' j) : total w n = total w' n := by
  induction n with
  | zero => rfl
  | succ n ih => rw [total, total, ih fun j hj => h j (by omega), h n (by omega)]

theorem total_update {w w' : Nat → Nat} {n i : Nat} (hi : i < n) (h : ∀ j, j ≠ i → w j = w' j) :
    total w n + w' i = total w' n + w i := by
  induction n with
  | zero => omega
  | succ n ih =>
    simp only [total]
    by_cases hin : i = n
    · subst hin
      rw [total_congr (n := i) fun j hj => h j (by omega)]
      omega
    · have := ih (by omega)
      rw [h n (by omega)]
      omega

theorem total_le {w w' : Nat → Nat} {n : Nat} (h : ∀ j, j < n → w j ≤ w' j) : total w n ≤ total w' n := by
  induction n with
  | zero => exact Nat.le_refl _
  | succ n ih =>
    have := ih fun j hj => h j (by omega)
    have := h n (by omega)
    simp only [total]
    omega

theorem total_lt {w : Nat → Nat} {n i : Nat} (hi : i < n) (h : ∀ j, w j ≤ 1) (h0 : w i = 0) : total w n < n := by
  have h1 : ∀ m, total w m ≤ m := by
    intro m
    induction m with
    | zero => exact Nat.le_refl _
    | succ m ih => have := h m; simp only [total]; omega
  induction n with
  | zero => omega
  | succ n ih =>
    simp only [total]
    by_cases hin : i = n
    · subst hin; rw [h0]; have := h1 i; omega
    · have := ih (by omega)
      have := h n
      omega

theorem total_zero {w : Nat → Nat} {n i : Nat} (hi : i < n) (h : total w n = 0) : w i = 0 := by
  induction n with
  | zero => omega
  | succ n ih =>
    simp only [total] at h
    by_cases hin : i = n
    · subst hin; omega
    · exact ih (by omega) (by omega)

theorem total_all_zero {w : Nat → Nat} {n : Nat} (h : ∀ i, i < n → w i = 0) : total w n = 0 := by
  induction n with
  | zero => rfl
  | succ n ih => rw [total, ih fun i hi => h i (by omega), h n (by omega)]

section
variable {E Doc : Type}

/-- goroutines the wait group still counts -/
def active : G E → Nat
  | .looking => 1
  | .sending _ => 1
  | .finishing => 1
  | _ => 0

/-- goroutines that are past their send, if they had to send -/
def past : G E → Bool
  | .finishing => true
  | .done => true
  | _ => false

/-- the look-up of `i` ends with error `e` -/
def Fails (out : Nat → Except E (List Doc)) (notFound : Nat → E) (i : Nat) (e : E) : Prop :=
  out i = .error e ∨ (out i = .ok [] ∧ e = notFound i)

/-- does the look-up of `i` end with an error? -/
def bad (out : Nat → Except E (List Doc)) (i : Nat) : Bool :=
  match out i with
  | .ok (_ :: _) => false
  | _ => true

/-- errors sent by goroutine `i` -/
def sent (out : Nat → Except E (List Doc)) (s : St E Doc) (i : Nat) : Nat :=
  if past (s.gs i) && bad out i then 1 else 0

/-- has the caller not received an error yet? -/
def waiting : Main E Doc → Bool
  | .launching _ => true
  | .ranging => true
  | _ => false

/-- how many goroutines have been started -/
def launched (n : Nat) : Main E Doc → Nat
  | .launching k => k
  | _ => n

/-- the invariant -/
structure Inv (n : Nat) (out : Nat → Except E (List Doc)) (notFound : Nat → E) (s : St E Doc) : Prop where
  le : launched n s.main ≤ n
  unborn : ∀ i, s.gs i = .unborn ↔ launched n s.main ≤ i
  wg : s.wg = total (fun i => active (s.gs i)) n
  len : s.docs.length = n
  sending : ∀ i e, s.gs i = .sending e → Fails out notFound i e
  chan : ∀ e ∈ s.chan, ∃ i, i < n ∧ Fails out notFound i e
  room : s.chan.length ≤ total (sent out s) n
  kept : waiting s.main = true → s.chan.length = total (sent out s) n
  docs : ∀ i, i < n → past (s.gs i) = true → bad out i = false → ∃ d rest, out i = .ok (d :: rest) ∧ s.docs[i]? = some (some d)
  closer : s.closer = .unborn ↔ ∃ k, s.main = .launching k
  closed : s.closed = true ↔ s.closer = .done
  after : s.closed = true → ∀ i, i < n → s.gs i = .done
  calm : s.panicked = false
  err : ∀ e, s.main = .failed e → ∃ i, i < n ∧ Fails out notFound i e
  ans : ∀ ds, s.main = .answered ds → ds.length = n ∧ ∀ i, i < n → ∃ d rest, out i = .ok (d :: rest) ∧ ds[i]? = some (some d)

theorem setG_other {s : St E Doc} {i j : Nat} {g : G E} (h : j ≠ i) : (s.setG i g).gs j = s.gs j := if_neg h

theorem setG_self {s : St E Doc} {i : Nat} {g : G E} : (s.setG i g).gs i = g := if_pos rfl

variable {n : Nat} {out : Nat → Except E (List Doc)} {notFound : Nat → E}

theorem inv_start : Inv n out notFound (start n : St E Doc) where
  le := Nat.zero_le _
  unborn i := ⟨fun _ => Nat.zero_le _, fun _ => rfl⟩
  wg := (total_all_zero fun _ _ => rfl).symm
  len := List.length_replicate
  sending i e h := by cases h
  chan e h := by cases h
  room := Nat.zero_le _
  kept _ := (total_all_zero fun _ _ => rfl).symm
  docs i _ h := by cases h
  closer := ⟨fun _ => ⟨0, rfl⟩, fun _ => rfl⟩
  closed := ⟨fun h => (by cases h), fun h => (by cases h)⟩
  after h := by cases h
  calm := rfl
  err e h := by cases h
  ans ds h := by cases h

/-- a goroutine that is active has been started -/
theorem Inv.started {s : St E Doc} (h : Inv n out notFound s) {i : Nat} (hi : s.gs i ≠ .unborn) : i < n := by
  have : ¬ launched n s.main ≤ i := fun hh => hi ((h.unborn i).2 hh)
  have := h.le
  omega

theorem Inv.open {s : St E Doc} (h : Inv n out notFound s) {i : Nat} (hi : s.gs i ≠ .unborn) (hd : s.gs i ≠ .done) :
    s.closed = false := by
  cases hc : s.closed with
  | false => rfl
  | true => exact (hd (h.after hc i (h.started hi))).elim

/-- what stays the same when one running goroutine moves -/
structure Moves (n : Nat) (out : Nat → Except E (List Doc)) (s s' : St E Doc) (i : Nat) (g : G E) : Prop where
  born : s.gs i ≠ .unborn
  live : s.gs i ≠ .done
  to : s'.gs = (s.setG i g).gs
  born' : g ≠ .unborn
  main : s'.main = s.main
  closer : s'.closer = s.closer
  closed : s'.closed = s.closed

theorem Moves.other {s s' : St E Doc} {i : Nat} {g : G E} (m : Moves n out s s' i g) {j : Nat} (h : j ≠ i) : s'.gs j = s.gs j := by
  rw [m.to]; exact setG_other h

theorem Moves.self {s s' : St E Doc} {i : Nat} {g : G E} (m : Moves n out s s' i g) : s'.gs i = g := by
  rw [m.to]; exact setG_self

theorem Moves.activeEq {s s' : St E Doc} {i : Nat} {g : G E} (m : Moves n out s s' i g) (h : Inv n out notFound s) :
    s.wg + active g = total (fun j => active (s'.gs j)) n + active (s.gs i) := by
  have := total_update (w := fun j => active (s.gs j)) (w' := fun j => active (s'.gs j)) (h.started m.born)
    (fun j hj => by show active (s.gs j) = active (s'.gs j); rw [m.other hj])
  simp only [m.self] at this
  rw [h.wg]
  exact this

theorem Moves.sentEq {s s' : St E Doc} {i : Nat} {g : G E} (m : Moves n out s s' i g) (h : Inv n out notFound s) :
    total (sent out s) n + sent out s' i = total (sent out s') n + sent out s i :=
  total_update (h.started m.born) (fun j hj => by unfold Lookup.sent; rw [m.other hj])

/-- a move keeps everything except what is said about the wait group, the channel and the documents -/
theorem Moves.inv {s s' : St E Doc} {i : Nat} {g : G E} (m : Moves n out s s' i g) (h : Inv n out notFound s)
    (hwg : s'.wg + active (s.gs i) = s.wg + active g) (hlen : s'.docs.length = n)
    (hs : ∀ e, g = .sending e → Fails out notFound i e)
    (hc : ∀ e ∈ s'.chan, ∃ i, i < n ∧ Fails out notFound i e)
    (hn : s'.chan.length + sent out s i = s.chan.length + sent out s' i)
    (hd : ∀ j, j < n → past (s'.gs j) = true → bad out j = false → ∃ d rest, out j = .ok (d :: rest) ∧ s'.docs[j]? = some (some d))
    (hp : s'.panicked = false) : Inv n out notFound s' where
  le := by rw [m.main]; exact h.le
  unborn j := by
    rw [m.main]
    by_cases hj : j = i
    · subst hj
      rw [m.self]
      constructor
      · intro hh; exact (m.born' hh).elim
      · intro hh; exact (m.born ((h.unborn j).2 hh)).elim
    · rw [m.other hj]; exact h.unborn j
  wg := by have := m.activeEq h; omega
  len := hlen
  sending j e he := by
    by_cases hj : j = i
    · subst hj
      rw [m.self] at he
      exact hs e he
    · rw [m.other hj] at he
      exact h.sending j e he
  chan := hc
  room := by have := m.sentEq h; have := h.room; omega
  kept hw := by
    rw [m.main] at hw
    have := m.sentEq h
    have := h.kept hw
    omega
  docs := hd
  closer := by rw [m.closer, m.main]; exact h.closer
  closed := by rw [m.closer, m.closed]; exact h.closed
  after hcl := by
    rw [m.closed] at hcl
    exact (m.live (h.after hcl i (h.started m.born))).elim
  calm := hp
  err e he := by rw [m.main] at he; exact h.err e he
  ans ds hds := by rw [m.main] at hds; exact h.ans ds hds

theorem bad_ok {i : Nat} {d : Doc} {rest : List Doc} (h : out i = .ok (d :: rest)) : bad out i = false := by
  unfold bad; rw [h]

theorem bad_fails {i : Nat} {e : E} (h : Fails out notFound i e) : bad out i = true := by
  unfold bad
  rcases h with h | ⟨h, _⟩ <;> rw [h]

theorem good_of {i : Nat} (h : bad out i = false) : ∃ d rest, out i = .ok (d :: rest) := by
  unfold bad at h
  split at h
  · rename_i d rest he; exact ⟨d, rest, he⟩
  · cases h

theorem inv_step {s s' : St E Doc} (h : Inv n out notFound s) (hst : Step n out notFound s s') : Inv n out notFound s' := by
  cases hst with
  | launch k hm hk =>
    have hl : launched n s.main = k := by rw [hm]; rfl
    have hub : s.gs k = .unborn := (h.unborn k).2 (by omega)
    have hw : waiting s.main = true := by rw [hm]; rfl
    have hcl : s.closer = .unborn := h.closer.2 ⟨k, hm⟩
    have hop : s.closed = false := by
      cases hc : s.closed with
      | false => rfl
      | true => have := h.closed.1 hc; rw [hcl] at this; cases this
    have hsent : ∀ j, sent out { s.setG k .looking with main := .launching (k + 1), wg := s.wg + 1 } j = sent out s j := by
      intro j
      unfold sent
      by_cases hj : j = k
      · subst hj
        show (if past ((s.setG j G.looking).gs j) && _ then 1 else 0) = _
        rw [setG_self, hub]
        rfl
      · show (if past ((s.setG k G.looking).gs j) && _ then 1 else 0) = _
        rw [setG_other hj]
    have hpast : ∀ j, past ((s.setG k G.looking).gs j) = true → past (s.gs j) = true := by
      intro j hj
      by_cases hjk : j = k
      · subst hjk; rw [setG_self] at hj; cases hj
      · rw [setG_other hjk] at hj; exact hj
    refine ⟨hk, ?_, ?_, h.len, ?_, h.chan, ?_, ?_, fun i hi hp => h.docs i hi (hpast i hp), ?_, ?_, ?_, h.calm, ?_, ?_⟩
    · intro j
      show (s.setG k G.looking).gs j = .unborn ↔ k + 1 ≤ j
      by_cases hj : j = k
      · subst hj
        rw [setG_self]
        constructor
        · intro hh; cases hh
        · intro hh; omega
      · rw [setG_other hj, h.unborn j, hl]
        omega
    · show s.wg + 1 = total (fun j => active ((s.setG k G.looking).gs j)) n
      have := total_update (w := fun j => active (s.gs j)) (w' := fun j => active ((s.setG k G.looking).gs j)) hk
        (fun j hj => by show active (s.gs j) = active ((s.setG k G.looking).gs j); rw [setG_other hj])
      simp only [setG_self, hub] at this
      have hwg := h.wg
      have e1 : active (G.looking : G E) = 1 := rfl
      have e0 : active (G.unborn : G E) = 0 := rfl
      omega
    · intro j e he
      have he' : (s.setG k G.looking).gs j = .sending e := he
      by_cases hj : j = k
      · subst hj; rw [setG_self] at he'; cases he'
      · rw [setG_other hj] at he'; exact h.sending j e he'
    · rw [total_congr fun j _ => hsent j]; exact h.room
    · intro _
      rw [total_congr fun j _ => hsent j]; exact h.kept hw
    · exact ⟨fun _ => ⟨k + 1, rfl⟩, fun _ => hcl⟩
    · exact h.closed
    · intro hc
      have hc' : s.closed = true := hc
      rw [hop] at hc'
      cases hc'
    · intro e he; cases he
    · intro ds hds; cases hds
  | spawn hm =>
    have hl : launched n s.main = n := by rw [hm]; rfl
    have hcl : s.closer = .unborn := h.closer.2 ⟨n, hm⟩
    have hop : s.closed = false := by
      cases hc : s.closed with
      | false => rfl
      | true => have := h.closed.1 hc; rw [hcl] at this; cases this
    refine ⟨Nat.le_refl _, ?_, h.wg, h.len, h.sending, h.chan, h.room, ?_, h.docs, ?_, ?_, ?_, h.calm, ?_, ?_⟩
    · intro j
      show s.gs j = .unborn ↔ n ≤ j
      rw [h.unborn j, hl]
    · intro _
      exact h.kept (by rw [hm]; rfl)
    · constructor
      · intro hh; cases hh
      · rintro ⟨k, hk⟩; cases hk
    · constructor
      · intro hh
        have hh' : s.closed = true := hh
        rw [hop] at hh'; cases hh'
      · intro hh; cases hh
    · intro hh
      have hh' : s.closed = true := hh
      rw [hop] at hh'; cases hh'
    · intro e he; cases he
    · intro ds hds; cases hds
  | found i d rest hg ho =>
    have m : Moves n out s { s.setG i .finishing with docs := s.docs.set i (some d) } i .finishing :=
      ⟨by rw [hg]; simp, by rw [hg]; simp, rfl, by simp, rfl, rfl, rfl⟩
    have hin := h.started m.born
    have hb := bad_ok ho
    refine m.inv h ?_ ?_ ?_ h.chan ?_ ?_ h.calm
    · rw [hg]; rfl
    · show (s.docs.set i (some d)).length = n
      rw [List.length_set]; exact h.len
    · intro e he; cases he
    · unfold sent; rw [hb]; simp [St.setG]
    · intro j hj hp hbj
      by_cases hji : j = i
      · subst hji
        refine ⟨d, rest, ho, ?_⟩
        show (s.docs.set j (some d))[j]? = _
        rw [List.getElem?_set_self (by rw [h.len]; exact hj)]
      · rw [m.other hji] at hp
        obtain ⟨d', rest', h1, h2⟩ := h.docs j hj hp hbj
        refine ⟨d', rest', h1, ?_⟩
        show (s.docs.set i (some d))[j]? = _
        rw [List.getElem?_set_ne (fun hh => hji hh.symm)]
        exact h2
  | empty i hg ho =>
    have m : Moves n out s (s.setG i (.sending (notFound i))) i (.sending (notFound i)) :=
      ⟨by rw [hg]; simp, by rw [hg]; simp, rfl, by simp, rfl, rfl, rfl⟩
    refine m.inv h ?_ h.len ?_ h.chan ?_ ?_ h.calm
    · rw [hg]; rfl
    · intro e he; cases he; exact Or.inr ⟨ho, rfl⟩
    · unfold sent; rw [m.self, hg]; simp [past, St.setG]
    · intro j hj hp hbj
      by_cases hji : j = i
      · subst hji; rw [m.self] at hp; cases hp
      · rw [m.other hji] at hp
        exact h.docs j hj hp hbj
  | failed i e hg ho =>
    have m : Moves n out s (s.setG i (.sending e)) i (.sending e) :=
      ⟨by rw [hg]; simp, by rw [hg]; simp, rfl, by simp, rfl, rfl, rfl⟩
    refine m.inv h ?_ h.len ?_ h.chan ?_ ?_ h.calm
    · rw [hg]; rfl
    · intro e he; cases he; exact Or.inl ho
    · unfold sent; rw [m.self, hg]; simp [past, St.setG]
    · intro j hj hp hbj
      by_cases hji : j = i
      · subst hji; rw [m.self] at hp; cases hp
      · rw [m.other hji] at hp
        exact h.docs j hj hp hbj
  | send i e hg hc hroom =>
    have m : Moves n out s { s.setG i .finishing with chan := s.chan ++ [e] } i .finishing :=
      ⟨by rw [hg]; simp, by rw [hg]; simp, rfl, by simp, rfl, rfl, rfl⟩
    have hf := h.sending i e hg
    have hb := bad_fails hf
    refine m.inv h ?_ h.len ?_ ?_ ?_ ?_ h.calm
    · rw [hg]; rfl
    · intro e he; cases he
    · intro e' he'
      rcases List.mem_append.1 he' with he' | he'
      · exact h.chan e' he'
      · rw [List.mem_singleton] at he'
        subst he'
        exact ⟨i, h.started m.born, hf⟩
    · unfold sent; rw [m.self, hg, hb]; simp [past]
    · intro j hj hp hbj
      by_cases hji : j = i
      · subst hji; rw [hb] at hbj; cases hbj
      · rw [m.other hji] at hp
        exact h.docs j hj hp hbj
  | sendClosed i e hg hc =>
    have := h.open (i := i) (by rw [hg]; simp) (by rw [hg]; simp)
    rw [this] at hc
    cases hc
  | wgDone i hg =>
    have m : Moves n out s { s.setG i .done with wg := s.wg - 1, panicked := s.panicked || s.wg == 0 } i .done :=
      ⟨by rw [hg]; simp, by rw [hg]; simp, rfl, by simp, rfl, rfl, rfl⟩
    have hpos : 0 < s.wg := by
      have := m.activeEq h
      rw [hg] at this
      have e1 : active (G.finishing : G E) = 1 := rfl
      have e0 : active (G.done : G E) = 0 := rfl
      omega
    refine m.inv h ?_ h.len ?_ h.chan ?_ ?_ ?_
    · rw [hg]
      show s.wg - 1 + 1 = s.wg + 0
      omega
    · intro e he; cases he
    · unfold sent; rw [m.self, hg]; simp [past, St.setG]
    · intro j hj hp hbj
      by_cases hji : j = i
      · subst hji
        exact h.docs j hj (by rw [hg]; rfl) hbj
      · rw [m.other hji] at hp
        exact h.docs j hj hp hbj
    · show (s.panicked || s.wg == 0) = false
      rw [h.calm]
      simp
      omega
  | close hcl hwg =>
    have hop : s.closed = false := by
      cases hc : s.closed with
      | false => rfl
      | true => have := h.closed.1 hc; rw [hcl] at this; cases this
    have hnl : ¬ ∃ k, s.main = .launching k := fun hh => by have := h.closer.2 hh; rw [hcl] at this; cases this
    refine ⟨h.le, h.unborn, h.wg, h.len, h.sending, h.chan, h.room, h.kept, h.docs, ?_, ?_, ?_, ?_, h.err, h.ans⟩
    · constructor
      · intro hh; cases hh
      · intro hh; exact (hnl hh).elim
    · exact ⟨fun _ => rfl, fun _ => rfl⟩
    · intro _ i hi
      have h0 : active (s.gs i) = 0 := total_zero (w := fun i => active (s.gs i)) hi (by rw [← h.wg]; exact hwg)
      have hl : launched n s.main = n := by
        cases hm : s.main with
        | launching k => exact (hnl ⟨k, hm⟩).elim
        | _ => rfl
      have hb : s.gs i ≠ .unborn := fun hh => by have := (h.unborn i).1 hh; omega
      show s.gs i = .done
      cases hg : s.gs i with
      | done => rfl
      | unborn => exact (hb hg).elim
      | looking => rw [hg] at h0; cases h0
      | sending e => rw [hg] at h0; cases h0
      | finishing => rw [hg] at h0; cases h0
    · show (s.panicked || s.closed) = false
      rw [h.calm, hop]
      rfl
  | recv e rest hm hch =>
    have hl : launched n s.main = n := by rw [hm]; rfl
    refine ⟨Nat.le_refl _, ?_, h.wg, h.len, h.sending, ?_, ?_, ?_, h.docs, ?_, h.closed, h.after, h.calm, ?_, ?_⟩
    · intro j
      show s.gs j = .unborn ↔ n ≤ j
      rw [h.unborn j, hl]
    · intro e' he'
      exact h.chan e' (by rw [hch]; exact List.mem_cons_of_mem _ he')
    · have := h.room
      rw [hch, List.length_cons] at this
      show rest.length ≤ total (sent out s) n
      omega
    · intro hw; cases hw
    · constructor
      · intro hh
        obtain ⟨k, hk⟩ := h.closer.1 hh
        rw [hm] at hk; cases hk
      · rintro ⟨k, hk⟩; cases hk
    · intro e' he'
      cases he'
      exact h.chan e (by rw [hch]; exact List.mem_cons_self)
    · intro ds hds; cases hds
  | finish hm hch hcl =>
    have hl : launched n s.main = n := by rw [hm]; rfl
    refine ⟨Nat.le_refl _, ?_, h.wg, h.len, h.sending, h.chan, h.room, ?_, h.docs, ?_, h.closed, h.after, h.calm, ?_, ?_⟩
    · intro j
      show s.gs j = .unborn ↔ n ≤ j
      rw [h.unborn j, hl]
    · intro hw; cases hw
    · constructor
      · intro hh
        obtain ⟨k, hk⟩ := h.closer.1 hh
        rw [hm] at hk; cases hk
      · rintro ⟨k, hk⟩; cases hk
    · intro e he; cases he
    · intro ds hds
      cases hds
      refine ⟨h.len, ?_⟩
      intro i hi
      have hdone := h.after hcl i hi
      have hz := h.kept (by rw [hm]; rfl)
      rw [hch, List.length_nil] at hz
      have h0 := total_zero hi hz.symm
      unfold sent at h0
      rw [hdone] at h0
      have hb : bad out i = false := by
        cases hb : bad out i with
        | false => rfl
        | true => rw [hb] at h0; simp [past] at h0
      exact h.docs i hi (by rw [hdone]; rfl) hb

theorem reach_inv {s : St E Doc} (h : Reach n out notFound s) : Inv n out notFound s := by
  induction h with
  | start => exact inv_start
  | step _ _ _ hst ih => exact inv_step ih hst

/-! ## progress -/

/-- how much a goroutine still has to do -/
def weight : G E → Nat
  | .unborn => 4
  | .looking => 3
  | .sending _ => 2
  | .finishing => 1
  | .done => 0

/-- how much the caller still has to do -/
def mainWeight (n : Nat) : Main E Doc → Nat
  | .launching k => n - k + 2
  | .ranging => 1
  | _ => 0

/-- how much the closing goroutine still has to do -/
def closerWeight : Closer → Nat
  | .unborn => 2
  | .waiting => 1
  | .done => 0

/-- decreases in every step -/
def measure (n : Nat) (s : St E Doc) : Nat :=
  total (fun i => weight (s.gs i)) n + mainWeight n s.main + closerWeight s.closer

theorem measure_setG {s s' : St E Doc} {i : Nat} {g : G E} (hi : i < n) (hw : weight g < weight (s.gs i))
    (hg : s'.gs = (s.setG i g).gs) : total (fun j => weight (s'.gs j)) n < total (fun j => weight (s.gs j)) n := by
  have := total_update (w := fun j => weight (s.gs j)) (w' := fun j => weight (s'.gs j)) hi
    (fun j hj => by show weight (s.gs j) = weight (s'.gs j); rw [hg, setG_other hj])
  simp only [hg, setG_self] at this ⊢
  omega

theorem measure_lt {s s' : St E Doc} (h : Inv n out notFound s) (hst : Step n out notFound s s') : measure n s' < measure n s := by
  cases hst with
  | launch k hm hk =>
    have hub : s.gs k = .unborn := (h.unborn k).2 (by rw [hm]; exact Nat.le_refl _)
    have := measure_setG (s := s) (s' := { s.setG k .looking with main := .launching (k + 1), wg := s.wg + 1 }) (g := .looking) hk
      (by rw [hub]; simp only [weight]; omega) rfl
    have hm1 : mainWeight n s.main = n - k + 2 := by rw [hm]; rfl
    show total _ n + (n - (k + 1) + 2) + closerWeight s.closer < total _ n + _ + _
    rw [hm1]
    omega
  | spawn hm =>
    have hcl : s.closer = .unborn := h.closer.2 ⟨n, hm⟩
    unfold measure
    rw [hm, hcl]
    show _ + 1 + 1 < _ + (n - n + 2) + 2
    show total (fun i => weight (s.gs i)) n + 1 + 1 < total (fun i => weight (s.gs i)) n + (n - n + 2) + 2
    omega
  | found i d rest hg ho =>
    have := measure_setG (s := s) (s' := { s.setG i .finishing with docs := s.docs.set i (some d) }) (g := .finishing)
      (h.started (by rw [hg]; simp)) (by rw [hg]; simp only [weight]; omega) rfl
    show total _ n + mainWeight n s.main + closerWeight s.closer < total _ n + mainWeight n s.main + closerWeight s.closer
    omega
  | empty i hg ho =>
    have := measure_setG (s := s) (s' := s.setG i (.sending (notFound i))) (g := .sending (notFound i))
      (h.started (by rw [hg]; simp)) (by rw [hg]; simp only [weight]; omega) rfl
    show total _ n + mainWeight n s.main + closerWeight s.closer < total _ n + mainWeight n s.main + closerWeight s.closer
    omega
  | failed i e hg ho =>
    have := measure_setG (s := s) (s' := s.setG i (.sending e)) (g := .sending e)
      (h.started (by rw [hg]; simp)) (by rw [hg]; simp only [weight]; omega) rfl
    show total _ n + mainWeight n s.main + closerWeight s.closer < total _ n + mainWeight n s.main + closerWeight s.closer
    omega
  | send i e hg hc hr =>
    have := measure_setG (s := s) (s' := { s.setG i .finishing with chan := s.chan ++ [e] }) (g := .finishing)
      (h.started (by rw [hg]; simp)) (by rw [hg]; simp only [weight]; omega) rfl
    show total _ n + mainWeight n s.main + closerWeight s.closer < total _ n + mainWeight n s.main + closerWeight s.closer
    omega
  | sendClosed i e hg hc =>
    have := h.open (i := i) (by rw [hg]; simp) (by rw [hg]; simp)
    rw [this] at hc
    cases hc
  | wgDone i hg =>
    have := measure_setG (s := s) (s' := { s.setG i .done with wg := s.wg - 1, panicked := s.panicked || s.wg == 0 }) (g := .done)
      (h.started (by rw [hg]; simp)) (by rw [hg]; simp only [weight]; omega) rfl
    show total _ n + mainWeight n s.main + closerWeight s.closer < total _ n + mainWeight n s.main + closerWeight s.closer
    omega
  | close hcl hwg =>
    unfold measure
    rw [hcl]
    show total (fun i => weight (s.gs i)) n + mainWeight n s.main + 0 < total (fun i => weight (s.gs i)) n + mainWeight n s.main + 1
    omega
  | recv e rest hm hch =>
    unfold measure
    rw [hm]
    show total (fun i => weight (s.gs i)) n + 0 + closerWeight s.closer < total (fun i => weight (s.gs i)) n + 1 + closerWeight s.closer
    omega
  | finish hm hch hcl =>
    unfold measure
    rw [hm]
    show total (fun i => weight (s.gs i)) n + 0 + closerWeight s.closer < total (fun i => weight (s.gs i)) n + 1 + closerWeight s.closer
    omega

/-- everything has come to its end -/
def Over (n : Nat) (s : St E Doc) : Prop :=
  ((∃ e, s.main = .failed e) ∨ ∃ ds, s.main = .answered ds) ∧ (∀ i, i < n → s.gs i = .done) ∧ s.closer = .done

theorem progress {s : St E Doc} (h : Inv n out notFound s) : Over n s ∨ ∃ s', Step n out notFound s s' := by
  -- a goroutine that can move
  by_cases hg : ∃ i, i < n ∧ s.gs i ≠ .unborn ∧ s.gs i ≠ .done
  · right
    obtain ⟨i, hi, hu, hd⟩ := hg
    cases hgi : s.gs i with
    | unborn => exact (hu hgi).elim
    | done => exact (hd hgi).elim
    | looking =>
      cases ho : out i with
      | error e => exact ⟨_, .failed s i e hgi ho⟩
      | ok l =>
        cases l with
        | nil => exact ⟨_, .empty s i hgi ho⟩
        | cons d rest => exact ⟨_, .found s i d rest hgi ho⟩
    | sending e =>
      refine ⟨_, .send s i e hgi (h.open hu hd) ?_⟩
      have h1 := h.room
      have h2 : total (sent out s) n < n := by
        refine total_lt hi ?_ ?_
        · intro j; unfold sent; split <;> omega
        · unfold sent; rw [hgi]; rfl
      omega
    | finishing => exact ⟨_, .wgDone s i hgi⟩
  · cases hm : s.main with
    | launching k =>
      right
      have hk : k ≤ n := by have := h.le; rw [hm] at this; exact this
      rcases Nat.lt_or_ge k n with hlt | hge
      · exact ⟨_, .launch s k hm hlt⟩
      · have : k = n := Nat.le_antisymm hk hge
        subst this
        exact ⟨_, .spawn s hm⟩
    | _ =>
      have hl : launched n s.main = n := by rw [hm]; rfl
      have hnl : s.closer ≠ .unborn := fun hh => by obtain ⟨k, hk⟩ := h.closer.1 hh; rw [hm] at hk; cases hk
      have hdone : ∀ i, i < n → s.gs i = .done := by
        intro i hi
        have hb : s.gs i ≠ .unborn := fun hh => by have := (h.unborn i).1 hh; omega
        exact Classical.byContradiction fun hh => hg ⟨i, hi, hb, hh⟩
      cases hc : s.closer with
      | unborn => exact (hnl hc).elim
      | waiting =>
        right
        refine ⟨_, .close s hc ?_⟩
        rw [h.wg]
        exact total_all_zero fun i hi => by rw [hdone i hi]; rfl
      | done =>
        first
          | (left
             exact ⟨Or.inl ⟨_, hm⟩, hdone, hc⟩)
          | (left
             exact ⟨Or.inr ⟨_, hm⟩, hdone, hc⟩)
          | (right
             cases hch : s.chan with
             | nil => exact ⟨_, .finish s hm hch (h.closed.2 hc)⟩
             | cons e rest => exact ⟨_, .recv s e rest hm hch⟩)

end
end Lookup
end Fave
