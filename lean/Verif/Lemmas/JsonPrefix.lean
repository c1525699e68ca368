import Verif.Lemmas.Json
/-!
# Reading a value depends on nothing after it, and on no more fuel than its length
-/
namespace Fave.Json

theorem skip_length (s : Text) : (skip s).length ≤ s.length := by
  induction s with
  | nil => simp [skip]
  | cons c s ih => simp only [skip]; split <;> simp <;> omega

theorem skip_append {s : Text} (h : skip s ≠ []) (t : Text) : skip (s ++ t) = skip s ++ t := by
  induction s with
  | nil => simp [skip] at h
  | cons c s ih =>
    simp only [skip, List.cons_append] at h ⊢
    split at h
    · rename_i hc; rw [if_pos hc, if_pos hc]; exact ih h
    · rename_i hc; rw [if_neg hc, if_neg hc]; rfl

/-! ## Numbers -/

theorem digits_split (s : Text) : (digits s).1 ++ (digits s).2 = s := List.takeWhile_append_dropWhile

theorem digits_ext {s : Text} (h : (digits s).2 ≠ []) (t : Text) : digits (s ++ t) = ((digits s).1, (digits s).2 ++ t) := by
  induction s with
  | nil => simp [digits] at h
  | cons c s ih =>
    by_cases hc : c.isDigit = true
    · simp only [digits, List.dropWhile_cons, hc, if_true] at h
      have := ih h
      simp only [digits, Prod.mk.injEq] at this
      simp [digits, hc, this.1, this.2]
    · simp [digits, hc]

theorem digits_length (s : Text) : (digits s).2.length ≤ s.length := by
  have := congrArg List.length (digits_split s); simp at this; omega

theorem readFrac_ext {s r : Text} {f : Option Text} (h : readFrac s = some (f, r)) (hr : r ≠ []) (t : Text) :
    readFrac (s ++ t) = some (f, r ++ t) ∧ r.length ≤ s.length := by
  cases s with
  | nil => simp [readFrac] at h; exact absurd h.2 hr
  | cons c s =>
    by_cases hc : c = '.'
    · subst hc
      simp only [readFrac, List.cons_append] at h ⊢
      split at h
      · simp at h
      · rename_i g r' hd hg
        simp only [Option.some.injEq, Prod.mk.injEq] at h
        obtain ⟨rfl, rfl⟩ := h
        have e1 : (digits s).1 = g := by rw [hg]
        have e2 : (digits s).2 = r' := by rw [hg]
        have := digits_ext (s := s) (by rw [e2]; exact hr) t
        have hl := digits_length s
        rw [e1, e2] at this
        rw [e2] at hl
        rw [this]
        refine ⟨?_, by simp; omega⟩
        split
        · rename_i e; simp only [Prod.mk.injEq] at e; exact absurd e.1 hd
        · rename_i e; simp only [Prod.mk.injEq] at e; rw [e.1, e.2]
    · have e : ∀ u, readFrac (c :: u) = some (none, c :: u) := fun u => by
        unfold readFrac; split
        · rename_i e; simp only [List.cons.injEq] at e; exact absurd e.1 hc
        · rfl
      rw [e] at h
      simp only [Option.some.injEq, Prod.mk.injEq] at h
      obtain ⟨rfl, rfl⟩ := h
      exact ⟨by rw [List.cons_append, e], by simp⟩

theorem readSign_ext {s : Text} (h : s ≠ []) (t : Text) : readSign (s ++ t) = ((readSign s).1, (readSign s).2 ++ t) ∧ (readSign s).2.length ≤ s.length := by
  cases s with
  | nil => exact absurd rfl h
  | cons c s =>
    by_cases h1 : c = '-'
    · subst h1; simp [readSign]
    by_cases h2 : c = '+'
    · subst h2; simp [readSign]
    have e : ∀ u, readSign (c :: u) = (false, c :: u) := fun u => by
      unfold readSign; split
      · rename_i e; simp only [List.cons.injEq] at e; exact absurd e.1 h1
      · rename_i e; simp only [List.cons.injEq] at e; exact absurd e.1 h2
      · rfl
    rw [List.cons_append, e, e]; simp

theorem readExp_ext {s r : Text} {x : Option (Bool × Text)} (h : readExp s = some (x, r)) (hr : r ≠ []) (t : Text) :
    readExp (s ++ t) = some (x, r ++ t) ∧ r.length ≤ s.length := by
  cases s with
  | nil => simp [readExp] at h; exact absurd h.2 hr
  | cons c s =>
    simp only [readExp, List.cons_append] at h ⊢
    split at h
    · rename_i hc
      rw [if_pos hc]
      split at h
      · simp at h
      · rename_i e r' hd hg
        simp only [Option.some.injEq, Prod.mk.injEq] at h
        obtain ⟨rfl, rfl⟩ := h
        have hs : s ≠ [] := by
          rintro rfl
          simp [readSign, digits] at hg
          exact hr hg.2
        obtain ⟨g1, g2⟩ := readSign_ext hs t
        have e1 : (digits (readSign s).2).1 = e := by rw [hg]
        have e2 : (digits (readSign s).2).2 = r' := by rw [hg]
        have := digits_ext (s := (readSign s).2) (by rw [e2]; exact hr) t
        have hl := digits_length (readSign s).2
        rw [e1, e2] at this
        rw [e2] at hl
        rw [g1]
        simp only []
        rw [this]
        refine ⟨?_, by simp; omega⟩
        split
        · rename_i q; simp only [Prod.mk.injEq] at q; exact absurd q.1 hd
        · rename_i q; simp only [Prod.mk.injEq] at q; rw [q.1, q.2]
    · rename_i hc
      simp only [Option.some.injEq, Prod.mk.injEq] at h
      obtain ⟨rfl, rfl⟩ := h
      rw [if_neg hc]
      exact ⟨rfl, by simp⟩

theorem readBody_ext {neg : Bool} {s r : Text} {l : Lit} (h : readBody neg s = some (l, r)) (hr : r ≠ []) (t : Text) :
    readBody neg (s ++ t) = some (l, r ++ t) ∧ r.length < s.length := by
  unfold readBody at h
  split at h
  · simp at h
  · rename_i hd
    split at h
    · simp at h
    · rename_i f q hf
      cases hx : readExp q with
      | none => simp [hx] at h
      | some x =>
        obtain ⟨x, r'⟩ := x
        simp only [hx, Option.map_some, Option.some.injEq, Prod.mk.injEq] at h
        obtain ⟨rfl, rfl⟩ := h
        obtain ⟨a1, a2⟩ := readExp_ext hx hr t
        have hq : q ≠ [] := by rintro rfl; simp at a2; exact hr a2
        obtain ⟨b1, b2⟩ := readFrac_ext hf hq t
        have hs : (digits s).2 ≠ [] := by intro h0; rw [h0] at b2; simp at b2; exact hq b2
        have c := digits_ext hs t
        have hl := congrArg List.length (digits_split s)
        have : (digits s).1 ≠ [] := fun h0 => hd (.inl h0)
        have : 0 < (digits s).1.length := List.length_pos_iff.2 this
        refine ⟨?_, by simp at hl; omega⟩
        unfold readBody
        rw [c]
        simp only [if_neg hd, b1, a1, Option.map_some]

theorem readNum_head {s : Text} {x : Lit × Text} (h : readNum s = some x) : ∃ c r, s = c :: r ∧ (c.isDigit = true ∨ c = '-') := by
  unfold readNum at h
  split at h
  · exact ⟨_, _, rfl, .inr rfl⟩
  · unfold readBody at h
    split at h
    · simp at h
    · rename_i hd
      cases s with
      | nil => exact absurd (.inl rfl) hd
      | cons c s =>
        refine ⟨c, s, rfl, .inl ?_⟩
        cases hc : c.isDigit with
        | true => rfl
        | false => exact absurd (.inl (by simp [digits, hc])) hd

theorem readNum_ext {s r : Text} {l : Lit} (h : readNum s = some (l, r)) (hr : r ≠ []) (t : Text) :
    readNum (s ++ t) = some (l, r ++ t) ∧ r.length < s.length := by
  obtain ⟨c, u, rfl, -⟩ := readNum_head h
  by_cases hc : c = '-'
  · subst hc
    simp only [readNum, List.cons_append] at h ⊢
    obtain ⟨a, b⟩ := readBody_ext h hr t
    exact ⟨a, by simp; omega⟩
  · have e : ∀ u, readNum (c :: u) = readBody false (c :: u) := fun u => by
      unfold readNum; split
      · rename_i e; simp only [List.cons.injEq] at e; exact absurd e.1 hc
      · rfl
    rw [e] at h
    obtain ⟨a, b⟩ := readBody_ext h hr t
    exact ⟨by rw [List.cons_append, e]; exact a, b⟩

/-- a number is not empty -/
theorem readNum_length {s r : Text} {l : Lit} (h : readNum s = some (l, r)) : r.length < s.length := by
  by_cases hr : r = []
  · obtain ⟨c, u, rfl, -⟩ := readNum_head h
    simp [hr]
  · exact (readNum_ext h hr []).2

/-! ## Strings -/

theorem hex4_ext {s r : Text} {n : Nat} (h : hex4 s = some (n, r)) (t : Text) : hex4 (s ++ t) = some (n, r ++ t) ∧ r.length < s.length := by
  unfold hex4 at h
  split at h
  · rename_i a b c d u
    cases ha : hexVal a <;> simp [ha] at h
    cases hb : hexVal b <;> simp [hb] at h
    cases hc : hexVal c <;> simp [hc] at h
    cases hd : hexVal d <;> simp [hd] at h
    obtain ⟨rfl, rfl⟩ := h
    simp [hex4, ha, hb, hc, hd]
    omega
  · simp at h

theorem ahead_ext {s r : Text} {n : Nat} (h : ahead s = some (n, r)) (t : Text) : ahead (s ++ t) = some (n, r ++ t) ∧ r.length < s.length := by
  unfold ahead at h
  split at h
  · rename_i u
    obtain ⟨a, b⟩ := hex4_ext h t
    exact ⟨a, by simp; omega⟩
  · simp at h

/-- no escape follows: either none will, or the string is not complete -/
theorem ahead_none {k : Nat} {s : Text} {x : Text × Text} (h : ahead s = none) (hu : unquote k s = some x) (t : Text) : ahead (s ++ t) = none := by
  match s, h, hu with
  | [], h, hu => cases k <;> simp [unquote] at hu
  | [c], h, hu =>
    by_cases hc : c = '\\'
    · subst hc; cases k <;> simp [unquote] at hu
    · unfold ahead; split
      · rename_i q; simp only [List.cons_append, List.cons.injEq] at q; exact absurd q.1 hc
      · rfl
  | c :: d :: u, h, hu =>
    by_cases hc : c = '\\' ∧ d = 'u'
    · obtain ⟨rfl, rfl⟩ := hc
      simp only [ahead] at h
      cases k <;> simp [unquote, h] at hu
    · unfold ahead; split
      · rename_i q; simp only [List.cons_append, List.cons.injEq] at q; exact absurd ⟨q.1, q.2.1⟩ hc
      · rfl

theorem unescape_length (n : Nat) (t : Text) : (unescape n t).2.length ≤ t.length := by
  unfold unescape
  split
  · split
    · rename_i hx
      have := (ahead_ext hx []).2
      split
      · simp; omega
      · simp
    · simp
  · simp

/-- what an escape means does not depend on what comes after the end of its string -/
theorem unescape_ext {k n : Nat} {s : Text} {x : Text × Text} (h : unquote k (unescape n s).2 = some x) (t : Text) :
    unescape n (s ++ t) = ((unescape n s).1, (unescape n s).2 ++ t) := by
  unfold unescape at h ⊢
  by_cases hn : surrogate n = true
  · simp only [hn, if_true] at h ⊢
    cases ha : ahead s with
    | none =>
      simp only [ha] at h
      simp only [ahead_none ha h t]
    | some m =>
      simp only [(ahead_ext ha t).1]
      by_cases hb : (decide (n < 0xdc00) && decide (0xdc00 ≤ m.1) && decide (m.1 < 0xe000)) = true
      · simp only [hb, if_true]
      · simp only [hb, Bool.false_eq_true, if_false]
  · simp only [hn, Bool.false_eq_true, if_false]

theorem unquote_ext : ∀ {k : Nat} {s x r : Text}, unquote k s = some (x, r) →
    r.length < s.length ∧ ∀ m t, s.length ≤ r.length + m → unquote m (s ++ t) = some (x, r ++ t) := by
  intro k
  induction k with
  | zero => intro s x r h; simp [unquote] at h
  | succ k ih =>
    intro s x r h
    unfold unquote at h
    split at h
    · simp at h
    · rename_i u
      simp only [Option.some.injEq, Prod.mk.injEq] at h
      obtain ⟨rfl, rfl⟩ := h
      refine ⟨by simp, fun m t hm => ?_⟩
      obtain ⟨m, rfl⟩ : ∃ m', m = m' + 1 := ⟨m - 1, by simp at hm; omega⟩
      simp [unquote]
    · rename_i c u
      split at h
      · rename_i hc
        subst hc
        cases hx : hex4 u with
        | none => simp [hx] at h
        | some a =>
          obtain ⟨a, v⟩ := a
          simp only [hx, Option.map_eq_some_iff] at h
          obtain ⟨⟨y, w⟩, h1, h2⟩ := h
          simp only [Prod.mk.injEq] at h2
          obtain ⟨rfl, rfl⟩ := h2
          obtain ⟨i1, i2⟩ := ih h1
          have l1 := unescape_length a v
          have l2 := (hex4_ext hx []).2
          refine ⟨by simp; omega, fun m t hm => ?_⟩
          obtain ⟨m, rfl⟩ : ∃ m', m = m' + 1 := ⟨m - 1, by simp at hm; omega⟩
          simp only [unquote, List.cons_append, if_true, (hex4_ext hx t).1, unescape_ext h1 t]
          rw [i2 m t (by simp at hm; omega)]
          rfl
      · rename_i hc
        split at h
        · simp at h
        · rename_i z hz
          simp only [Option.map_eq_some_iff] at h
          obtain ⟨⟨y, w⟩, h1, h2⟩ := h
          simp only [Prod.mk.injEq] at h2
          obtain ⟨rfl, rfl⟩ := h2
          obtain ⟨i1, i2⟩ := ih h1
          refine ⟨by simp; omega, fun m t hm => ?_⟩
          obtain ⟨m, rfl⟩ : ∃ m', m = m' + 1 := ⟨m - 1, by simp at hm; omega⟩
          simp only [unquote, List.cons_append, if_neg hc, hz]
          rw [i2 m t (by simp at hm; omega)]
          rfl
    · rename_i c u h1 h2
      split at h
      · simp at h
      · rename_i hc
        simp only [Option.map_eq_some_iff] at h
        obtain ⟨⟨y, w⟩, h3, h4⟩ := h
        simp only [Prod.mk.injEq] at h4
        obtain ⟨rfl, rfl⟩ := h4
        obtain ⟨i1, i2⟩ := ih h3
        refine ⟨by simp; omega, fun m t hm => ?_⟩
        obtain ⟨m, rfl⟩ : ∃ m', m = m' + 1 := ⟨m - 1, by simp at hm; omega⟩
        have := i2 m t (by simp at hm; omega)
        rw [List.cons_append]
        unfold unquote
        split
        · rename_i q; simp at q
        · rename_i q; simp only [List.cons.injEq] at q; exact absurd q.1 (fun h0 => h1 (by rw [h0]))
        · rename_i q; simp only [List.cons.injEq] at q; exact absurd (.inr q.1) hc
        · rename_i q; simp only [List.cons.injEq] at q; rw [← q.1, ← q.2, if_neg hc, this]; rfl

/-! ## Values -/

/-- where a value ends is known without looking further, unless it is a number at the end of the text -/
def Ends (v : J) (r : Text) : Prop := r ≠ [] ∨ ∀ l, v ≠ .num l

theorem skip_eq_cons {r q : Text} {c : Char} (h : skip r = c :: q) : r ≠ [] ∧ q.length < r.length ∧ ∀ t, skip (r ++ t) = c :: (q ++ t) := by
  have h1 := skip_length r
  rw [h] at h1
  refine ⟨by rintro rfl; simp [skip] at h, by simp at h1; omega, fun t => ?_⟩
  rw [skip_append (by rw [h]; simp), h]; rfl

theorem ext (n : Nat) :
    (∀ {s r : Text} {v : J}, value n s = some (v, r) → r.length < s.length ∧
      (Ends v r → ∀ m t, s.length ≤ r.length + m → value m (s ++ t) = some (v, r ++ t))) ∧
    (∀ {s r : Text} {l : List J}, elems n s = some (l, r) → r.length < s.length ∧
      ∀ m t, s.length ≤ r.length + m → elems m (s ++ t) = some (l, r ++ t)) ∧
    (∀ {s r : Text} {l : List (Text × J)}, members n s = some (l, r) → r.length < s.length ∧
      ∀ m t, s.length ≤ r.length + m → members m (s ++ t) = some (l, r ++ t)) := by
  induction n with
  | zero => exact ⟨fun h => by simp [value] at h, fun h => by simp [elems] at h, fun h => by simp [members] at h⟩
  | succ n ih =>
    obtain ⟨ihv, ihe, ihm⟩ := ih
    refine ⟨?_, ?_, ?_⟩
    · intro s r v h
      unfold value at h
      split at h
      · -- a string
        rename_i u hs
        obtain ⟨-, k1, k2⟩ := skip_eq_cons hs
        simp only [Option.map_eq_some_iff, Prod.mk.injEq] at h
        obtain ⟨⟨y, w⟩, h1, rfl, rfl⟩ := h
        obtain ⟨i1, i2⟩ := unquote_ext h1
        refine ⟨by simp only; omega, fun _ m t hm => ?_⟩
        obtain ⟨m, rfl⟩ : ∃ m', m = m' + 1 := ⟨m - 1, by simp only at hm; omega⟩
        simp only [value, k2 t]
        rw [i2 _ t (by simp; omega)]
        rfl
      · -- an array
        rename_i u hs
        obtain ⟨-, k1, k2⟩ := skip_eq_cons hs
        split at h
        · rename_i w hw
          obtain ⟨-, j1, j2⟩ := skip_eq_cons hw
          simp only [Option.some.injEq, Prod.mk.injEq] at h
          obtain ⟨rfl, rfl⟩ := h
          refine ⟨by omega, fun _ m t hm => ?_⟩
          obtain ⟨m, rfl⟩ : ∃ m', m = m' + 1 := ⟨m - 1, by omega⟩
          simp only [value, k2 t, j2 t]
        · rename_i hw
          simp only [Option.map_eq_some_iff, Prod.mk.injEq] at h
          obtain ⟨⟨y, w⟩, h1, rfl, rfl⟩ := h
          obtain ⟨i1, i2⟩ := ihe h1
          have j1 := skip_length u
          refine ⟨by simp only; omega, fun _ m t hm => ?_⟩
          obtain ⟨m, rfl⟩ : ∃ m', m = m' + 1 := ⟨m - 1, by simp only at hm; omega⟩
          simp only [value, k2 t]
          have hne : skip u ≠ [] := by intro h0; rw [h0] at i1; simp at i1
          rw [skip_append hne]
          have := i2 m t (by simp only at hm; omega)
          split
          · rename_i q hq
            cases hu : skip u with
            | nil => exact absurd hu hne
            | cons c u' => rw [hu] at hq; simp only [List.cons_append, List.cons.injEq] at hq; exact absurd hu (by rw [hq.1]; exact hw u')
          · rw [this]; rfl
      · -- an object
        rename_i u hs
        obtain ⟨-, k1, k2⟩ := skip_eq_cons hs
        split at h
        · rename_i w hw
          obtain ⟨-, j1, j2⟩ := skip_eq_cons hw
          simp only [Option.some.injEq, Prod.mk.injEq] at h
          obtain ⟨rfl, rfl⟩ := h
          refine ⟨by omega, fun _ m t hm => ?_⟩
          obtain ⟨m, rfl⟩ : ∃ m', m = m' + 1 := ⟨m - 1, by omega⟩
          simp only [value, k2 t, j2 t]
        · rename_i hw
          simp only [Option.map_eq_some_iff, Prod.mk.injEq] at h
          obtain ⟨⟨y, w⟩, h1, rfl, rfl⟩ := h
          obtain ⟨i1, i2⟩ := ihm h1
          have j1 := skip_length u
          refine ⟨by simp only; omega, fun _ m t hm => ?_⟩
          obtain ⟨m, rfl⟩ : ∃ m', m = m' + 1 := ⟨m - 1, by simp only at hm; omega⟩
          simp only [value, k2 t]
          have hne : skip u ≠ [] := by intro h0; rw [h0] at i1; simp at i1
          rw [skip_append hne]
          have := i2 m t (by simp only at hm; omega)
          split
          · rename_i q hq
            cases hu : skip u with
            | nil => exact absurd hu hne
            | cons c u' => rw [hu] at hq; simp only [List.cons_append, List.cons.injEq] at hq; exact absurd hu (by rw [hq.1]; exact hw u')
          · rw [this]; rfl
      · rename_i u hs
        obtain ⟨-, k1, k2⟩ := skip_eq_cons hs
        simp only [List.length_cons] at k1
        simp only [Option.some.injEq, Prod.mk.injEq] at h
        obtain ⟨rfl, rfl⟩ := h
        refine ⟨by omega, fun _ m t hm => ?_⟩
        obtain ⟨m, rfl⟩ : ∃ m', m = m' + 1 := ⟨m - 1, by omega⟩
        simp [value, k2 t]
      · rename_i u hs
        obtain ⟨-, k1, k2⟩ := skip_eq_cons hs
        simp only [List.length_cons] at k1
        simp only [Option.some.injEq, Prod.mk.injEq] at h
        obtain ⟨rfl, rfl⟩ := h
        refine ⟨by omega, fun _ m t hm => ?_⟩
        obtain ⟨m, rfl⟩ : ∃ m', m = m' + 1 := ⟨m - 1, by omega⟩
        simp [value, k2 t]
      · rename_i u hs
        obtain ⟨-, k1, k2⟩ := skip_eq_cons hs
        simp only [List.length_cons] at k1
        simp only [Option.some.injEq, Prod.mk.injEq] at h
        obtain ⟨rfl, rfl⟩ := h
        refine ⟨by omega, fun _ m t hm => ?_⟩
        obtain ⟨m, rfl⟩ : ∃ m', m = m' + 1 := ⟨m - 1, by omega⟩
        simp [value, k2 t]
      · -- a number
        simp only [Option.map_eq_some_iff, Prod.mk.injEq] at h
        obtain ⟨⟨y, w⟩, h1, rfl, rfl⟩ := h
        have l1 := readNum_length h1
        have l2 := skip_length s
        refine ⟨by simp only; omega, fun he m t hm => ?_⟩
        obtain ⟨m, rfl⟩ : ∃ m', m = m' + 1 := ⟨m - 1, by simp only at hm; omega⟩
        have hw : w ≠ [] := by
          rcases he with he | he
          · exact he
          · exact absurd rfl (he y)
        obtain ⟨c, u, hu, hc⟩ := readNum_head h1
        obtain ⟨g, -⟩ := readNum_ext h1 hw t
        have k2 := (skip_eq_cons hu).2.2 t
        have := value_num (n := m) (t := u ++ t) hc
        have e : value (m + 1) (s ++ t) = value (m + 1) (c :: (u ++ t)) := by
          simp only [value, k2, skip_opens (opens_digit hc)]
        rw [e, this, ← List.cons_append, ← hu, g]
        rfl
    · intro s r l h
      unfold elems at h
      split at h
      · simp at h
      · rename_i v u hv
        obtain ⟨v1, v2⟩ := ihv hv
        split at h
        · rename_i w hw
          obtain ⟨j0, j1, j2⟩ := skip_eq_cons hw
          simp only [Option.map_eq_some_iff, Prod.mk.injEq] at h
          obtain ⟨⟨y, z⟩, h1, rfl, rfl⟩ := h
          obtain ⟨i1, i2⟩ := ihe h1
          refine ⟨by simp only; omega, fun m t hm => ?_⟩
          simp only at hm i1
          obtain ⟨m, rfl⟩ : ∃ m', m = m' + 1 := ⟨m - 1, by omega⟩
          simp only [elems, v2 (.inl j0) m t (by omega), j2 t]
          rw [i2 m t (by omega)]
          rfl
        · rename_i w hw
          obtain ⟨j0, j1, j2⟩ := skip_eq_cons hw
          simp only [Option.some.injEq, Prod.mk.injEq] at h
          obtain ⟨rfl, rfl⟩ := h
          refine ⟨by omega, fun m t hm => ?_⟩
          obtain ⟨m, rfl⟩ : ∃ m', m = m' + 1 := ⟨m - 1, by omega⟩
          simp only [elems, v2 (.inl j0) m t (by omega), j2 t]
        · simp at h
    · intro s r l h
      unfold members at h
      split at h
      · rename_i u hs
        obtain ⟨-, k1, k2⟩ := skip_eq_cons hs
        split at h
        · simp at h
        · rename_i k a hk
          obtain ⟨u1, u2⟩ := unquote_ext hk
          split at h
          · rename_i b hb
            obtain ⟨b0, b1, b2⟩ := skip_eq_cons hb
            split at h
            · simp at h
            · rename_i v d hv
              obtain ⟨v1, v2⟩ := ihv hv
              split at h
              · rename_i w hw
                obtain ⟨j0, j1, j2⟩ := skip_eq_cons hw
                simp only [Option.map_eq_some_iff, Prod.mk.injEq] at h
                obtain ⟨⟨y, z⟩, h1, rfl, rfl⟩ := h
                obtain ⟨i1, i2⟩ := ihm h1
                refine ⟨by simp only; omega, fun m t hm => ?_⟩
                simp only at hm i1
                obtain ⟨m, rfl⟩ : ∃ m', m = m' + 1 := ⟨m - 1, by omega⟩
                simp only [members, k2 t]
                rw [u2 _ t (by simp; omega)]
                simp only [b2 t, v2 (.inl j0) m t (by omega), j2 t]
                rw [i2 m t (by omega)]
                rfl
              · rename_i w hw
                obtain ⟨j0, j1, j2⟩ := skip_eq_cons hw
                simp only [Option.some.injEq, Prod.mk.injEq] at h
                obtain ⟨rfl, rfl⟩ := h
                refine ⟨by omega, fun m t hm => ?_⟩
                obtain ⟨m, rfl⟩ : ∃ m', m = m' + 1 := ⟨m - 1, by omega⟩
                simp only [members, k2 t]
                rw [u2 _ t (by simp; omega)]
                simp only [b2 t, v2 (.inl j0) m t (by omega), j2 t]
              · simp at h
          · simp at h
      · simp at h

theorem value_fuel_num {n : Nat} {s r : Text} {l : Lit} (h : value n s = some (.num l, r)) (m : Nat) : value (m + 1) s = some (.num l, r) := by
  cases n with
  | zero => simp [value] at h
  | succ n =>
    unfold value at h
    split at h
    · simp at h
    · split at h <;> simp at h
    · split at h <;> simp at h
    · simp at h
    · simp at h
    · simp at h
    · simp only [Option.map_eq_some_iff, Prod.mk.injEq, J.num.injEq] at h
      obtain ⟨⟨y, w⟩, h1, rfl, rfl⟩ := h
      obtain ⟨c, u, hu, hc⟩ := readNum_head h1
      have e : value (m + 1) s = value (m + 1) (c :: u) := by
        simp only [value, hu, skip_opens (opens_digit hc)]
      rw [e, value_num hc, ← hu, h1]
      rfl

/-- the fuel of `parse` never runs out: what any amount reads is read with the length of the text -/
theorem value_fuel {n : Nat} {s r : Text} {v : J} (h : value n s = some (v, r)) : value (s.length + 1) s = some (v, r) := by
  by_cases hv : ∃ l, v = .num l
  · obtain ⟨l, rfl⟩ := hv
    exact value_fuel_num h _
  · have := ((ext n).1 h).2 (.inr fun l e => hv ⟨l, e⟩) (s.length + 1) [] (by omega)
    simpa using this

/-- the text of an object cut anywhere is refused -/
theorem parse_torn {html : Bool} {l : List (Text × J)} (hv : (J.obj l).Ok) {p q : Text} (hpq : p ++ q = render html (.obj l)) (hq : q ≠ []) : parse p = none := by
  cases hp : parse p with
  | none => rfl
  | some v =>
    exfalso
    simp only [parse] at hp
    split at hp
    · rename_i w r hw
      obtain ⟨a1, a2⟩ := (ext _).1 hw
      have hob : ∀ l, w ≠ .num l := by
        rintro x rfl
        have hne : p ≠ [] := by rintro rfl; simp at a1
        obtain ⟨c, p', rfl⟩ := List.exists_cons_of_ne_nil hne
        have hc : c = '{' := by
          rcases l with _ | ⟨⟨k, y⟩, l⟩ <;> simp only [render, List.cons_append, List.cons.injEq] at hpq <;> exact hpq.1
        subst hc
        unfold value at hw
        rw [skip_opens (by unfold Opens; decide)] at hw
        simp only at hw
        split at hw
        · simp at hw
        · simp only [Option.map_eq_some_iff, Prod.mk.injEq] at hw
          obtain ⟨_, _, h, _⟩ := hw
          exact absurd h (by simp)
      have b1 := a2 (.inr hob) (p.length + q.length) q (by omega)
      have b2 := value_render (html := html) _ hv (n := p.length + q.length) (t := []) (by rw [← hpq]; simp) stops_nil
      rw [← hpq, List.append_nil, b1] at b2
      simp at b2
      exact hq b2.2.2
    · simp at hp

end Fave.Json
