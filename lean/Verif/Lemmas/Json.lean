import Verif.Spec.Json
/-!
# Lemmas about JSON texts: what is written is read
-/
namespace Fave.Json

/-- what may follow a number -/
def Stops (t : Text) : Prop := ∀ c r, t = c :: r → c.isDigit = false ∧ c ≠ '.' ∧ c ≠ 'e' ∧ c ≠ 'E'

theorem stops_nil : Stops [] := by intro c r h; simp at h

theorem stops_cons {c : Char} {r : Text} (h : c.isDigit = false ∧ c ≠ '.' ∧ c ≠ 'e' ∧ c ≠ 'E') : Stops (c :: r) := by
  intro c' r' e
  simp only [List.cons.injEq] at e
  rw [← e.1]; exact h

theorem digits_append {ds t : Text} (h : ∀ c ∈ ds, c.isDigit = true) (ht : ∀ c r, t = c :: r → c.isDigit = false) :
    digits (ds ++ t) = (ds, t) := by
  induction ds with
  | nil =>
    cases t with
    | nil => rfl
    | cons c r => simp [digits, ht c r rfl]
  | cons d ds ih =>
    have hd := h d (by simp)
    have := ih (fun c hc => h c (by simp [hc]))
    simp only [digits, Prod.mk.injEq] at this
    simp [digits, hd, this.1, this.2]

theorem readExp_stops {t : Text} (h : Stops t) : readExp t = some (none, t) := by
  cases t with
  | nil => rfl
  | cons c r =>
    obtain ⟨-, -, h1, h2⟩ := h c r rfl
    simp [readExp, h1, h2]

theorem readExp_text {n : Bool} {e t : Text} (he : Digits e) (ht : Stops t) :
    readExp ('e' :: (if n then '-' else '+') :: (e ++ t)) = some (some (n, e), t) := by
  have := digits_append he.2 (fun c r h => (ht c r h).1)
  cases e with
  | nil => exact absurd rfl he.1
  | cons d ds => cases n <;> simp only [readExp, readSign, true_or, if_true, Bool.false_eq_true, if_false, this]

theorem readFrac_stops {t : Text} (h : ∀ c r, t = c :: r → c ≠ '.') : readFrac t = some (none, t) := by
  unfold readFrac
  split
  · rename_i r; exact absurd rfl (h _ r rfl)
  · rfl

theorem readFrac_text {f t : Text} (hf : Digits f) (ht : ∀ c r, t = c :: r → c.isDigit = false) :
    readFrac ('.' :: (f ++ t)) = some (some f, t) := by
  have := digits_append hf.2 ht
  cases f with
  | nil => exact absurd rfl hf.1
  | cons d ds => simp only [readFrac, this]

theorem readExp_expText {x : Option (Bool × Text)} (hx : ∀ n e, x = some (n, e) → Digits e) {t : Text} (ht : Stops t) :
    readExp (expText x ++ t) = some (x, t) ∧ ∀ c r, expText x ++ t = c :: r → c.isDigit = false ∧ c ≠ '.' := by
  cases x with
  | none =>
    exact ⟨by simpa [expText] using readExp_stops ht, fun c r h =>
      ⟨(ht c r (by simpa [expText] using h)).1, (ht c r (by simpa [expText] using h)).2.1⟩⟩
  | some ne =>
    obtain ⟨n, e⟩ := ne
    refine ⟨by simpa [expText] using readExp_text (n := n) (hx n e rfl) ht, fun c r h => ?_⟩
    simp only [expText, List.cons_append, List.cons.injEq] at h
    rw [← h.1]; decide

theorem readFrac_fracText {x : Option Text} (hx : ∀ f, x = some f → Digits f) {t : Text} (ht : ∀ c r, t = c :: r → c.isDigit = false ∧ c ≠ '.') :
    readFrac (fracText x ++ t) = some (x, t) ∧ ∀ c r, fracText x ++ t = c :: r → c.isDigit = false := by
  cases x with
  | none =>
    exact ⟨by simpa [fracText] using readFrac_stops (fun c r h => (ht c r h).2), fun c r h => (ht c r (by simpa [fracText] using h)).1⟩
  | some f =>
    refine ⟨by simpa [fracText] using readFrac_text (hx f rfl) (fun c r h => (ht c r h).1), fun c r h => ?_⟩
    simp only [fracText, List.cons_append, List.cons.injEq] at h
    rw [← h.1]; decide

/-- a number is read to its end -/
theorem readNum_text {l : Lit} (hl : l.Ok) {t : Text} (ht : Stops t) : readNum (l.text ++ t) = some (l, t) := by
  obtain ⟨neg, int, frac, exp⟩ := l
  obtain ⟨hi, h0, hf, he⟩ := hl
  simp only at hi h0 hf he
  obtain ⟨e1, e2⟩ := readExp_expText he ht
  obtain ⟨f1, f2⟩ := readFrac_fracText hf e2
  have hd := digits_append hi.2 f2
  have hb : readBody neg (int ++ (fracText frac ++ (expText exp ++ t))) = some (⟨neg, int, frac, exp⟩, t) := by
    unfold readBody
    rw [hd]
    have : ¬ (int = [] ∨ (int.head? = some '0' ∧ int ≠ ['0'])) := by
      rintro (h | ⟨h, h'⟩)
      · exact hi.1 h
      · exact h' (h0 h)
    simp only [if_neg this, f1, e1, Option.map_some]
  cases neg with
  | true => simpa [Lit.text, readNum] using hb
  | false =>
    simp only [Lit.text, Bool.false_eq_true, if_false, List.nil_append, List.append_assoc]
    cases int with
    | nil => exact absurd rfl hi.1
    | cons d ds =>
      have hdd := hi.2 d (by simp)
      unfold readNum
      split
      · rename_i h
        simp only [List.cons_append, List.cons.injEq] at h
        rw [h.1] at hdd
        exact absurd hdd (by decide)
      · exact hb

/-! ## Strings -/

theorem hexVal_hexChar {n : Nat} (h : n < 16) : hexVal (hexChar n) = some n := by
  revert n; decide

theorem hex4_escape (n : Nat) (hn : n < 65536) (t : Text) :
    hex4 (hexChar (n / 4096 % 16) :: hexChar (n / 256 % 16) :: hexChar (n / 16 % 16) :: hexChar (n % 16) :: t) = some (n, t) := by
  simp only [hex4, hexVal_hexChar (Nat.mod_lt _ (by decide : 16 > 0)), Option.bind_eq_bind, Option.bind_some, Option.pure_def, Option.some.injEq,
    Prod.mk.injEq, and_true]
  omega

theorem ofNat_toNat (c : Char) : Char.ofNat c.toNat = c := by simp

/-- a string is read to its end -/
theorem unquote_quote {html : Bool} (s t : Text) : ∀ {n : Nat}, s.length < n → unquote n (quote html s ++ t) = some (s, t) := by
  induction s with
  | nil =>
    intro n hn
    obtain ⟨m, rfl⟩ : ∃ m, n = m + 1 := ⟨n - 1, by simp at hn; omega⟩
    rfl
  | cons c s ih =>
    intro n hn
    obtain ⟨m, rfl⟩ : ∃ m, n = m + 1 := ⟨n - 1, by simp at hn; omega⟩
    have hm := ih (n := m) (by simp at hn; omega)
    simp only [quote, List.append_assoc, quoteChar]
    split
    · rename_i h; subst h; simp [unquote, List.lookup, hm]
    split
    · rename_i h; subst h; simp [unquote, List.lookup, hm]
    split
    · rename_i h; subst h; simp [unquote, List.lookup, hm]
    split
    · rename_i h; subst h; simp [unquote, List.lookup, hm]
    split
    · rename_i h; subst h; simp [unquote, List.lookup, hm]
    split
    · rename_i h1 h2 _ _ _ h
      have hlt : c.toNat < 55296 := by
        simp only [Bool.or_eq_true, Bool.and_eq_true, decide_eq_true_eq] at h
        rcases h with ((h | ⟨-, ((h | h) | h)⟩) | h) | h
        · omega
        · subst h; decide
        · subst h; decide
        · subst h; decide
        · omega
        · omega
      have hs : surrogate c.toNat = false := by
        simp only [surrogate, Bool.and_eq_false_iff, decide_eq_false_iff_not]; omega
      simp [unquote, escape, hex4_escape c.toNat (by omega), unescape, hs, hm]
    · rename_i h1 h2 _ _ _ h
      simp only [Bool.or_eq_true, decide_eq_true_eq, not_or] at h
      simp only [List.cons_append, List.nil_append]
      unfold unquote
      split
      · rename_i e; simp at e
      · rename_i e; simp only [List.cons.injEq] at e; exact absurd e.1 h1
      · rename_i e; simp only [List.cons.injEq] at e; exact absurd e.1 h2
      · rename_i c' t' _ _ e
        simp only [List.cons.injEq] at e
        obtain ⟨rfl, rfl⟩ := e
        simp [h.1.1.1, h2, hm]

/-! ## Values -/

/-- not a space, and not one of the characters that close something -/
def Opens (c : Char) : Prop := c ≠ ' ' ∧ c ≠ '\t' ∧ c ≠ '\r' ∧ c ≠ '\n' ∧ c ≠ ']' ∧ c ≠ '}'

theorem skip_opens {c : Char} (h : Opens c) (t : Text) : skip (c :: t) = c :: t := by
  simp [skip, h.1, h.2.1, h.2.2.1, h.2.2.2.1]

theorem opens_digit {c : Char} (h : c.isDigit = true ∨ c = '-') : Opens c := by
  refine ⟨?_, ?_, ?_, ?_, ?_, ?_⟩ <;> rintro rfl <;> revert h <;> decide

theorem lit_head {l : Lit} (hl : l.Ok) : ∃ c r, l.text = c :: r ∧ (c.isDigit = true ∨ c = '-') := by
  obtain ⟨neg, int, frac, exp⟩ := l
  cases neg with
  | true => exact ⟨'-', _, rfl, .inr rfl⟩
  | false =>
    cases int with
    | nil => exact absurd rfl hl.1.1
    | cons d ds => exact ⟨d, _, rfl, .inl (hl.1.2 d (by simp))⟩

theorem render_head {html : Bool} {v : J} (hv : v.Ok) : ∃ c r, render html v = c :: r ∧ Opens c := by
  cases hv with
  | null => exact ⟨_, _, rfl, by unfold Opens; decide⟩
  | bool b => cases b <;> exact ⟨_, _, rfl, by unfold Opens; decide⟩
  | num l hl =>
    obtain ⟨c, r, h, hc⟩ := lit_head hl
    exact ⟨c, r, by rw [render, h], opens_digit hc⟩
  | str s => exact ⟨_, _, rfl, by unfold Opens; decide⟩
  | arr l _ => cases l <;> exact ⟨_, _, rfl, by unfold Opens; decide⟩
  | obj l _ => rcases l with _ | ⟨⟨k, v⟩, l⟩ <;> exact ⟨_, _, rfl, by unfold Opens; decide⟩

theorem value_num {n : Nat} {c : Char} {t : Text} (hc : c.isDigit = true ∨ c = '-') :
    value (n + 1) (c :: t) = (readNum (c :: t)).map fun r => (.num r.1, r.2) := by
  unfold value
  rw [skip_opens (opens_digit hc)]
  split
  · rename_i h; simp only [List.cons.injEq] at h; rw [h.1] at hc; exact absurd hc (by decide)
  · rename_i h; simp only [List.cons.injEq] at h; rw [h.1] at hc; exact absurd hc (by decide)
  · rename_i h; simp only [List.cons.injEq] at h; rw [h.1] at hc; exact absurd hc (by decide)
  · rename_i h; simp only [List.cons.injEq] at h; rw [h.1] at hc; exact absurd hc (by decide)
  · rename_i h; simp only [List.cons.injEq] at h; rw [h.1] at hc; exact absurd hc (by decide)
  · rename_i h; simp only [List.cons.injEq] at h; rw [h.1] at hc; exact absurd hc (by decide)
  · rfl

theorem quote_length {html : Bool} (s : Text) : s.length < (quote html s).length := by
  induction s with
  | nil => simp [quote]
  | cons c s ih =>
    have : 0 < (quoteChar html c).length := by
      unfold quoteChar
      repeat' split
      all_goals simp [escape]
    simp only [quote, List.length_cons, List.length_append]
    omega

theorem stops_renderElems {html : Bool} (l : List J) (t : Text) : Stops (renderElems html l ++ t) := by
  cases l <;> exact stops_cons (by decide)

theorem stops_renderMembers {html : Bool} (l : List (Text × J)) (t : Text) : Stops (renderMembers html l ++ t) := by
  rcases l with _ | ⟨⟨k, v⟩, l⟩ <;> exact stops_cons (by decide)

mutual
/-- a value is read to its end -/
theorem value_render {html : Bool} : (v : J) → v.Ok → ∀ {n : Nat} {t : Text}, (render html v).length ≤ n → Stops t → value n (render html v ++ t) = some (v, t)
  | .null, _, n, t, hn, _ => by
    obtain ⟨m, rfl⟩ : ∃ m, n = m + 1 := ⟨n - 1, by simp [render] at hn; omega⟩
    simp [render, value, skip]
  | .bool b, _, n, t, hn, _ => by
    obtain ⟨m, rfl⟩ : ∃ m, n = m + 1 := ⟨n - 1, by cases b <;> simp [render] at hn <;> omega⟩
    cases b <;> simp [render, value, skip]
  | .num l, hv, n, t, hn, ht => by
    cases hv with
    | num _ hl =>
      obtain ⟨c, r, h, hc⟩ := lit_head hl
      obtain ⟨m, rfl⟩ : ∃ m, n = m + 1 := ⟨n - 1, by simp [render, h] at hn; omega⟩
      have := readNum_text hl ht
      rw [render]
      rw [h] at this ⊢
      rw [List.cons_append, value_num hc, ← List.cons_append, this]
      rfl
  | .str s, _, n, t, hn, _ => by
    obtain ⟨m, rfl⟩ : ∃ m, n = m + 1 := ⟨n - 1, by simp [render] at hn; omega⟩
    have := quote_length (html := html) s
    simp only [render, List.cons_append, value]
    rw [skip_opens (by unfold Opens; decide)]
    simp only []
    rw [unquote_quote s t (by simp; omega)]
    rfl
  | .arr [], _, n, t, hn, _ => by
    obtain ⟨m, rfl⟩ : ∃ m, n = m + 1 := ⟨n - 1, by simp [render] at hn; omega⟩
    simp [render, value, skip]
  | .arr (v :: l), hv, n, t, hn, _ => by
    cases hv with
    | arr _ hl =>
      obtain ⟨m, rfl⟩ : ∃ m, n = m + 1 := ⟨n - 1, by simp [render] at hn; omega⟩
      have h := elems_render (html := html) v l (hl v (by simp)) (fun w hw => hl w (by simp [hw])) (n := m) (t := t) (by simp [render] at hn ⊢; omega)
      obtain ⟨c, r, hr, hc⟩ := render_head (hl v (by simp))
      simp only [render, List.cons_append, value]
      rw [skip_opens (by unfold Opens; decide)]
      simp only []
      rw [hr] at h ⊢
      simp only [List.cons_append] at h ⊢
      rw [skip_opens hc]
      split
      · rename_i e; simp only [List.cons.injEq] at e; exact absurd e.1 hc.2.2.2.2.1
      · rw [h]; rfl
  | .obj [], _, n, t, hn, _ => by
    obtain ⟨m, rfl⟩ : ∃ m, n = m + 1 := ⟨n - 1, by simp [render] at hn; omega⟩
    simp [render, value, skip]
  | .obj ((k, v) :: l), hv, n, t, hn, _ => by
    cases hv with
    | obj _ hl =>
      obtain ⟨m, rfl⟩ : ∃ m, n = m + 1 := ⟨n - 1, by simp [render] at hn; omega⟩
      have h := members_render (html := html) k v l (hl (k, v) (by simp)) (fun w hw => hl w (by simp [hw])) (n := m) (t := t) (by simp [render] at hn ⊢; omega)
      simp only [render, List.cons_append, value]
      rw [skip_opens (by unfold Opens; decide)]
      simp only []
      rw [skip_opens (by unfold Opens; decide)]
      simp only [List.cons_append] at h
      split
      · rename_i e; simp only [List.cons.injEq] at e; exact absurd e.1 (by decide)
      · rw [h]; rfl
termination_by v => sizeOf v
theorem elems_render {html : Bool} : (v : J) → (l : List J) → v.Ok → (∀ w ∈ l, w.Ok) → ∀ {n : Nat} {t : Text}, (render html v ++ renderElems html l).length ≤ n →
    elems n ((render html v ++ renderElems html l) ++ t) = some (v :: l, t)
  | v, [], hv, _, n, t, hn => by
    obtain ⟨m, rfl⟩ : ∃ m, n = m + 1 := ⟨n - 1, by simp [renderElems] at hn; omega⟩
    have h := value_render (html := html) v hv (n := m) (t := renderElems html [] ++ t) (by simp [renderElems] at hn; omega) (stops_renderElems _ _)
    rw [List.append_assoc]
    simp only [elems, h]
    simp [renderElems, skip]
  | v, w :: l, hv, hl, n, t, hn => by
    obtain ⟨m, rfl⟩ : ∃ m, n = m + 1 := ⟨n - 1, by simp [renderElems] at hn; omega⟩
    have h := value_render (html := html) v hv (n := m) (t := renderElems html (w :: l) ++ t) (by simp [renderElems] at hn; omega) (stops_renderElems _ _)
    have h2 := elems_render (html := html) w l (hl w (by simp)) (fun x hx => hl x (by simp [hx])) (n := m) (t := t) (by simp [renderElems] at hn ⊢; omega)
    rw [List.append_assoc]
    simp only [elems, h]
    rw [List.append_assoc] at h2
    simp [renderElems, skip, h2]
termination_by v l => sizeOf v + sizeOf l
theorem members_render {html : Bool} : (k : Text) → (v : J) → (l : List (Text × J)) → v.Ok → (∀ w ∈ l, w.2.Ok) → ∀ {n : Nat} {t : Text},
    ('"' :: (quote html k ++ ':' :: (render html v ++ renderMembers html l))).length ≤ n →
    members n ('"' :: (quote html k ++ ':' :: (render html v ++ renderMembers html l)) ++ t) = some ((k, v) :: l, t)
  | k, v, [], hv, _, n, t, hn => by
    obtain ⟨m, rfl⟩ : ∃ m, n = m + 1 := ⟨n - 1, by simp [renderMembers] at hn; omega⟩
    have h := value_render (html := html) v hv (n := m) (t := renderMembers html [] ++ t) (by simp [renderMembers] at hn; omega) (stops_renderMembers _ _)
    have := quote_length (html := html) k
    simp only [List.cons_append, List.append_assoc, members]
    rw [skip_opens (by unfold Opens; decide)]
    simp only []
    rw [unquote_quote k _ (by simp; omega)]
    simp only []
    rw [skip_opens (by unfold Opens; decide)]
    simp only [h]
    simp [renderMembers, skip]
  | k, v, (k', w) :: l, hv, hl, n, t, hn => by
    obtain ⟨m, rfl⟩ : ∃ m, n = m + 1 := ⟨n - 1, by simp [renderMembers] at hn; omega⟩
    have h := value_render (html := html) v hv (n := m) (t := renderMembers html ((k', w) :: l) ++ t) (by simp [renderMembers] at hn; omega) (stops_renderMembers _ _)
    have h2 := members_render (html := html) k' w l (hl (k', w) (by simp)) (fun x hx => hl x (by simp [hx])) (n := m) (t := t)
      (by simp [renderMembers] at hn ⊢; omega)
    have := quote_length (html := html) k
    simp only [List.cons_append, List.append_assoc, members]
    rw [skip_opens (by unfold Opens; decide)]
    simp only []
    rw [unquote_quote k _ (by simp; omega)]
    simp only []
    rw [skip_opens (by unfold Opens; decide)]
    simp only [h]
    simp only [List.cons_append, List.append_assoc] at h2
    simp [renderMembers, skip, h2]
termination_by _ v l => sizeOf v + sizeOf l
end

/-- what is written is read -/
theorem parse_render {html : Bool} {v : J} (hv : v.Ok) : parse (render html v) = some v := by
  have := value_render (html := html) v hv (n := (render html v).length + 1) (t := []) (by omega) stops_nil
  rw [List.append_nil] at this
  simp [parse, this, skip]

end Fave.Json
