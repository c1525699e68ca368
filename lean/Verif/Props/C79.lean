import Verif.Model.VecText
import Verif.Lemmas.DoubleRounding
import Verif.Lemmas.Docs
/-!
# C79 — a vector is the same for a document and for a search

*The same JSON text, given as the vector of a document and as the vector of a search, is accepted or refused by both, and stands for the same 32-bit floats.*

This is false: a document's numbers are rounded to 64 bits first and then to 32 (`full_claim_false`), numbers beyond the range of 32-bit floats become
infinite in a document and are refused in a search (`infinite_component`), and `null` is refused in a document and is zero in a search.  What holds is that the
two differ only if the 64-bit float lies exactly between two 32-bit ones (`component_partial`), and not at all for numbers written as 64-bit floats are.
-/
namespace Fave.C79
open Json F32 Docs Stored VecText

theorem round_f32 (x : ℚ) : F32.round x = f32.round x := by
  have : F32.place x = f32.place x := by
    unfold F32.place Fmt.place f32
    norm_num
  unfold F32.round Fmt.round
  rw [this]

theorem floatOf_num {l : Lit} {q : Num} : floatOf (.num l) = some q ↔ q = .fin (f32.round l.value) ∧ |f32.round l.value| < 2 ^ 128 := by
  show Option.map _ (if |f32.round l.value| < 2 ^ 128 then _ else _) = _ ↔ _
  split
  · rename_i h
    simp only [Option.map_some, Option.some.injEq, h, and_true]
    exact eq_comm
  · rename_i h
    simp [h]

theorem docComp_num {l : Lit} {p : Num} :
    docComp (.num l) = some p ↔ f64.read l.value = some (f64.round l.value) ∧ p = fl (f64.round l.value) := by
  show Option.map _ (if |f64.round l.value| < 2 ^ 1024 then _ else _) = _ ↔ (if |f64.round l.value| < 2 ^ 1024 then _ else _) = _ ∧ _
  split
  · simp only [Option.map_some, Option.some.injEq, true_and]
    exact eq_comm
  · simp

theorem fl_small {x : ℚ} (h : |f32.round x| < 2 ^ 128) : fl x = .fin (f32.round x) := by
  unfold fl
  rw [round_f32, if_pos h]

/-- a 64-bit float, made by rounding the number as written, lies exactly between the component `p` of a document and the component `q` of a search; the
former may be too large, hence infinite -/
def Halfway (l : Lit) (p q : Num) : Prop :=
  ∃ y a b, f64.read l.value = some y ∧ y ≠ l.value ∧ q = .fin b ∧ (p = .fin a ∨ (∃ s, p = .inf s) ∧ 2 ^ 128 ≤ |a|) ∧ a ≠ b ∧ |y - a| = |y - b|

/-- **C79**: a component that both accept is the same for both, unless it is rounded to 64 bits and then lies exactly between the two 32-bit floats that it
becomes; the one for the document may be too large, hence infinite. -/
theorem component_partial {l : Lit} {p q : Num} (hp : docComp (.num l) = some p) (hq : floatOf (.num l) = some q) :
    p = q ∨ Halfway l p q := by
  obtain ⟨h1, rfl⟩ := docComp_num.1 hp
  obtain ⟨rfl, h3⟩ := floatOf_num.1 hq
  by_cases he : f32.round (f64.round l.value) = f32.round l.value
  · left
    rw [fl_small (by rwa [he]), he]
  · rcases Fmt.round_twice f32_good f64_good (by decide) (by decide) l.value with h | ⟨h, h'⟩
    · exact absurd h he
    · right
      refine ⟨f64.round l.value, f32.round (f64.round l.value), f32.round l.value, h1, h, rfl, ?_, he, h'⟩
      by_cases hb : |f32.round (f64.round l.value)| < 2 ^ 128
      · exact .inl (fl_small hb)
      · refine .inr ⟨⟨decide (f64.round l.value < 0), ?_⟩, not_lt.1 hb⟩
        unfold fl
        rw [round_f32, if_neg hb]

/-- **C79**: a vector that both accept has the same length for both, and its components are the same but for those. -/
theorem vector_partial {props : List (Text × J)} {x : J} {v w : List Num} (hx : last props kVector = some x) (hv : docVec props = .vec v)
    (hw : searchVec x = .vec w) :
    v.length = w.length ∧ ∃ ls : List Lit, x = .arr (ls.map .num) ∧ ∀ (i : Nat) p q l, v[i]? = some p → w[i]? = some q → ls[i]? = some l →
      p = q ∨ Halfway l p q := by
  unfold docVec at hv
  rw [lookup_take, hx] at hv
  cases x with
  | arr js =>
    simp only [Option.map_some, take] at hv
    simp only [searchVec] at hw
    replace hv : every docComp (takeList js) = some v := by
      revert hv
      split <;> simp_all
    replace hw : every floatOf js = some w := by
      revert hw
      split <;> simp_all
    suffices h : v.length = w.length ∧ ∃ ls : List Lit, js = ls.map .num ∧ ∀ (i : Nat) p q l, v[i]? = some p → w[i]? = some q → ls[i]? = some l →
        p = q ∨ Halfway l p q by
      obtain ⟨h1, ls, rfl, h2⟩ := h
      exact ⟨h1, ls, rfl, h2⟩
    clear hx
    induction js generalizing v w with
    | nil =>
      simp only [takeList, every, Option.some.injEq] at hv hw
      subst hv; subst hw
      exact ⟨rfl, [], rfl, by simp⟩
    | cons j js ih =>
      simp only [takeList, every] at hv hw
      split at hv
      · rename_i a r h1 h2
        split at hw
        · rename_i b r' h3 h4
          simp only [Option.some.injEq] at hv hw
          subst hv; subst hw
          obtain ⟨g1, ls, rfl, g2⟩ := ih h2 h4
          cases j with
          | num l =>
            refine ⟨by simp [g1], l :: ls, rfl, fun i p q l' e1 e2 e3 => ?_⟩
            cases i with
            | zero =>
              simp only [List.getElem?_cons_zero, Option.some.injEq] at e1 e2 e3
              subst e1; subst e2; subst e3
              exact component_partial h1 h3
            | succ i => exact g2 i p q l' (by simpa using e1) (by simpa using e2) (by simpa using e3)
          | _ => simp [take, docComp] at h1
        · simp at hw
      · simp at hv
  | _ => simp [searchVec] at hw

/-- **C79**: whichever way the component of a document is rounded, hardly any 32-bit float is nearer to the number as written: at most by twice the
rounding to 64 bits. -/
theorem nearly_nearest {l : Lit} {a : ℚ} (hp : docComp (.num l) = some (.fin a)) {z : ℚ} (hz : IsFloat z) :
    |a - l.value| ≤ |z - l.value| + |l.value| / 2 ^ 52 + 2 ^ (-1074 : ℤ) := by
  obtain ⟨h1, h2⟩ := docComp_num.1 hp
  have ha : a = f32.round (f64.round l.value) := by
    unfold fl at h2
    rw [round_f32] at h2
    split at h2
    · simpa using h2
    · simp at h2
  have hn : |a - f64.round l.value| ≤ |z - f64.round l.value| := by
    obtain ⟨m, e, rfl, hm, he, -⟩ := hz
    rw [ha]
    exact Fmt.round_nearest f32_good _ hm he
  have hd := Fmt.round_err f64 f64_good l.value
  have e1 : |a - l.value| ≤ |a - f64.round l.value| + |f64.round l.value - l.value| := by
    rw [show a - l.value = (a - f64.round l.value) + (f64.round l.value - l.value) by ring]
    exact abs_add_le _ _
  have e2 : |z - f64.round l.value| ≤ |z - l.value| + |f64.round l.value - l.value| := by
    rw [show z - f64.round l.value = (z - l.value) - (f64.round l.value - l.value) by ring]
    exact abs_sub _ _
  have e3 : (2 : ℚ) ^ (f64.low - 1) * 2 = 2 ^ (-1074 : ℤ) := by
    rw [← zpow_add_one₀ (by norm_num)]; rfl
  have e4 : |l.value| / 2 ^ f64.bits * 2 = |l.value| / 2 ^ 52 := by
    show |l.value| / 2 ^ 53 * 2 = _
    ring
  linarith

/-- **C79**: a component whose nearest 64-bit float is a 32-bit float is that float for both. -/
theorem double_component {l : Lit} {x : ℚ} (h : f64.read l.value = some x) (hx : IsFloat x) :
    docComp (.num l) = some (.fin x) ∧ floatOf (.num l) = some (.fin x) := by
  have hr : f64.round l.value = x := by
    unfold Fmt.read at h
    split at h
    · simpa using h
    · simp at h
  have h32 : f32.round x = x := Fmt.round_is (F := f32) hx
  have hlt : |x| < 2 ^ 128 := hx.choose_spec.choose_spec.2.2.2
  have hd : f32.round l.value = x := by
    rcases Fmt.round_twice f32_good f64_good (by decide) (by decide) l.value with e | ⟨-, e⟩
    · rw [← e, hr, h32]
    · rw [hr, h32, sub_self, abs_zero] at e
      have := abs_eq_zero.1 e.symm
      linarith
  refine ⟨docComp_num.2 ⟨by rw [h, hr], ?_⟩, floatOf_num.2 ⟨by rw [hd], by rwa [hd]⟩⟩
  rw [hr, fl_small (by rwa [h32]), h32]

/-- **C79**: vectors written as 64-bit floats are written (`json.Marshal` of `float64`s, JavaScript, Python) are the same for both, whatever 32-bit floats they
consist of. -/
theorem doubles_survive (v : List ℚ) (hv : ∀ x ∈ v, IsFloat x) : ∃ ls : List Lit, v.map f64.lit = ls.map some ∧
    (∀ props, last props kVector = some (.arr (ls.map .num)) → docVec props = .vec (v.map .fin)) ∧
    searchVec (.arr (ls.map .num)) = .vec (v.map .fin) := by
  suffices h : ∃ ls : List Lit, v.map f64.lit = ls.map some ∧ every docComp (takeList (ls.map .num)) = some (v.map .fin) ∧
      every floatOf (ls.map .num) = some (v.map .fin) by
    obtain ⟨ls, h1, h2, h3⟩ := h
    refine ⟨ls, h1, fun props hl => ?_, by simp only [searchVec, h3]⟩
    unfold docVec
    rw [lookup_take, hl]
    simp only [Option.map_some, take, h2]
  induction v with
  | nil => exact ⟨[], rfl, rfl, rfl⟩
  | cons x v ih =>
    obtain ⟨ls, h1, h2, h3⟩ := ih fun y hy => hv y (by simp [hy])
    have hx := hv x (by simp)
    have hI : f64.Is x := by
      obtain ⟨m, e, e1, e2, e3, e4⟩ := hx
      exact ⟨m, e, e1, e2.trans (by norm_num [f64]), by show (-1074 : ℤ) ≤ e; omega, e4.trans (pow_lt_pow_right₀ (by norm_num) (by decide))⟩
    obtain ⟨l, g1, -, g3⟩ := Fmt.lit_back f64_good hI
    obtain ⟨c1, c2⟩ := double_component g3 hx
    exact ⟨l :: ls, by simp [g1, h1], by simp [takeList, take, every, c1, h2], by simp [every, c2, h3]⟩

/-- **C79**: exactly these components are refused. -/
theorem refused_iff (v : J) :
    (docComp v = none ↔ ∀ l, v = .num l → f64.read l.value = none) ∧
    (floatOf v = none ↔ v ≠ .null ∧ ∀ l, v = .num l → f32.read l.value = none) := by
  cases v <;> simp [docComp, floatOf]

theorem every_none {α : Type} {f : J → Option α} {l : List J} : every f l = none ↔ ∃ c ∈ l, f c = none := by
  induction l with
  | nil => simp [every]
  | cons v l ih =>
    rw [every]
    cases hv : f v with
    | none => simp [hv]
    | some a =>
      cases hl : every f l with
      | none => simp [hv, ← ih, hl]
      | some r =>
        have : ¬ ∃ c ∈ l, f c = none := by rw [← ih, hl]; simp
        simpa [hv] using this

/-- **C79**: a document has no vector exactly if the property is missing or null, and is refused exactly if it is anything else than a list of numbers in
the range of 64-bit floats. -/
theorem document_vector_refused (props : List (Text × J)) :
    (docVec props = .none ↔ last props kVector = none ∨ last props kVector = some .null) ∧
    (docVec props = .refused ↔ ∃ v, last props kVector = some v ∧ v ≠ .null ∧
      ∀ l, v = .arr l → ∃ c ∈ l, ∀ n, c = .num n → f64.read n.value = none) := by
  have comp : ∀ c, docComp (take c) = none ↔ ∀ n, c = .num n → f64.read n.value = none := by
    intro c; cases c <;> simp [docComp, take]
  unfold docVec
  rw [lookup_take]
  cases h : last props kVector with
  | none => simp
  | some v =>
    cases v with
    | null => simp [take]
    | bool b => simp [take]
    | num n => simp [take]
    | str t => simp [take]
    | obj l => simp [take]
    | arr l =>
      simp only [Option.map_some, take, takeList_eq]
      cases hl : every docComp (l.map take) with
      | some r =>
        have : ¬ ∃ c ∈ l, ∀ n, c = .num n → f64.read n.value = none := by
          rintro ⟨c, hc, hn⟩
          have := every_none.2 ⟨take c, List.mem_map_of_mem hc, (comp c).2 hn⟩
          rw [hl] at this
          cases this
        simpa using this
      | none =>
        obtain ⟨c, hc, hn⟩ := every_none.1 hl
        obtain ⟨d, hd, rfl⟩ := List.mem_map.1 hc
        simpa using ⟨d, hd, (comp d).1 hn⟩

/-- **C79**: a search has no vector exactly if it is null, and is refused exactly if it is anything else than a list of numbers in the range of 32-bit
floats, with null allowed among them. -/
theorem search_vector_refused (v : J) :
    (searchVec v = .blank ↔ v = .null) ∧
    (searchVec v = .refused ↔ v ≠ .null ∧ ∀ l, v = .arr l → ∃ c ∈ l, c ≠ .null ∧ ∀ n, c = .num n → f32.read n.value = none) := by
  cases v with
  | null => simp [searchVec]
  | bool b => simp [searchVec]
  | num n => simp [searchVec]
  | str t => simp [searchVec]
  | obj l => simp [searchVec]
  | arr l =>
    unfold searchVec
    simp only
    cases hl : every floatOf l with
    | some r =>
      have : ¬ ∃ c ∈ l, c ≠ .null ∧ ∀ n, c = .num n → f32.read n.value = none := by
        rintro ⟨c, hc, hn⟩
        have := every_none.2 ⟨c, hc, ((refused_iff c).2).2 hn⟩
        rw [hl] at this
        cases this
      simpa using this
    | none =>
      obtain ⟨c, hc, hn⟩ := every_none.1 hl
      simpa using ⟨c, hc, ((refused_iff c).2).1 hn⟩

theorem round_big {F : Fmt} (hF : F.Good) (hb : 1 ≤ F.bits) {k : ℕ} (hl : F.low ≤ k) {x : ℚ} (hx : (2 : ℚ) ^ k ≤ |x|) :
    (2 : ℚ) ^ k ≤ |F.round x| ∧ (F.round x < 0 ↔ x < 0) := by
  have h1 : |(1 : ℤ)| < 2 ^ F.bits := by
    rw [abs_one]
    exact one_lt_pow₀ (by norm_num) (by omega)
  have hz : ((1 : ℤ) : ℚ) * 2 ^ (k : ℤ) = 2 ^ k := by rw [Int.cast_one, one_mul, zpow_natCast]
  have hp : (0 : ℚ) < 2 ^ k := by positivity
  rcases le_total 0 x with h0 | h0
  · rw [abs_of_nonneg h0, ← hz] at hx
    have := Fmt.le_round hF h1 hl hx
    rw [hz] at this hx
    exact ⟨this.trans (le_abs_self _), ⟨fun h => by linarith, fun h => by linarith⟩⟩
  · rw [abs_of_nonpos h0, ← hz] at hx
    have := Fmt.le_round hF h1 hl hx
    rw [F.round_neg] at this
    rw [hz] at this hx
    exact ⟨this.trans (neg_le_abs _), ⟨fun h => by linarith, fun h => by linarith⟩⟩

/-- **C79**: a component of 2^128 or more that is in the range of 64-bit floats is infinite in a document, and refused in a search. -/
theorem infinite_component {l : Lit} (h : (2 : ℚ) ^ 128 ≤ |l.value|) {y : ℚ} (hy : f64.read l.value = some y) :
    docComp (.num l) = some (.inf (decide (l.value < 0))) ∧ floatOf (.num l) = none := by
  have hr : f64.read l.value = some (f64.round l.value) := by
    unfold Fmt.read at hy ⊢
    split at hy
    · rename_i hb; rw [if_pos hb]
    · simp at hy
  obtain ⟨b1, b2⟩ := round_big f64_good (by decide) (k := 128) (by decide) h
  obtain ⟨b3, -⟩ := round_big f32_good (by decide) (k := 128) (by decide) b1
  obtain ⟨b4, -⟩ := round_big f32_good (by decide) (k := 128) (by decide) h
  constructor
  · refine docComp_num.2 ⟨hr, ?_⟩
    unfold fl
    rw [round_f32, if_neg (not_lt.2 b3)]
    simp only [b2]
  · show Option.map _ (if |f32.round l.value| < 2 ^ 128 then _ else _) = _
    rw [if_neg (not_lt.2 b4)]
    rfl

/-- the number 7.038531e-26, the shortest decimal of a 32-bit float -/
def halfway : Lit := ⟨false, ['7'], some "038531".toList, some (true, ['2', '6'])⟩

/-- the number 1e39 -/
def large : Lit := ⟨false, ['1'], none, some (false, ['3', '9'])⟩

/-- the 32-bit float 0x15ae43fd -/
def x15ae43fd : ℚ := 11420669 / 2 ^ 107

/-- It is written as 7.038531e-26 and a search reads it as it was; a document gets the next larger one. -/
theorem halfway_differs : IsFloat x15ae43fd ∧ f32.lit x15ae43fd = some halfway ∧ floatOf (.num halfway) = some (.fin x15ae43fd) ∧
    docComp (.num halfway) = some (.fin (11420670 / 2 ^ 107)) := by
  refine ⟨⟨11420669, -107, by norm_num [x15ae43fd], by norm_num, by norm_num, ?_⟩, by decide +kernel, by decide +kernel, by decide +kernel⟩
  rw [abs_of_pos] <;> norm_num [x15ae43fd]

/-- the full claim is false, in both halves: of two vectors of one component, one differs and one is refused by the search only -/
theorem full_claim_false : (¬ ∀ x v w, docVec [(kVector, x)] = .vec v → searchVec x = .vec w → v = w) ∧
    ¬ ∀ x, (∃ v, docVec [(kVector, x)] = .vec v) → ∃ w, searchVec x = .vec w := by
  constructor
  · intro h
    have := h (.arr [.num halfway]) [.fin (11420670 / 2 ^ 107)] [.fin x15ae43fd] (by decide +kernel) (by decide +kernel)
    revert this
    decide +kernel
  · intro h
    obtain ⟨w, hw⟩ := h (.arr [.num large]) ⟨[.inf false], by decide +kernel⟩
    rw [show searchVec (.arr [.num large]) = .refused by decide +kernel] at hw
    cases hw

/-- Texts accepted by one and refused by the other. -/
theorem one_refuses :
    docVec [(kVector, .arr [.num large])] = .vec [.inf false] ∧ searchVec (.arr [.num large]) = .refused ∧
    docVec [(kVector, .arr [.null])] = .refused ∧ searchVec (.arr [.null]) = .vec [.fin 0] ∧
    docVec [(kVector, .null)] = .none ∧ searchVec .null = .blank := by decide +kernel

example : docVec [(kVector, .str ['1'])] = .refused ∧ docVec [(kVector, .arr []), (kVector, .num halfway)] = .refused ∧ docVec [] = .none ∧
    searchVec (.num halfway) = .refused ∧ searchVec (.arr [.null, .bool true]) = .refused := by decide +kernel

-- the hypotheses are met: three floats, one of them the troublesome one, written as 64-bit floats
example : ∃ ls : List Lit, [x15ae43fd, 1 / 2, -3].map f64.lit = ls.map some ∧
    searchVec (.arr (ls.map .num)) = .vec [.fin x15ae43fd, .fin (1 / 2), .fin (-3)] := by
  obtain ⟨ls, h1, -, h3⟩ := doubles_survive [x15ae43fd, 1 / 2, -3] (by
    intro x hx
    simp only [List.mem_cons, List.not_mem_nil, or_false] at hx
    rcases hx with rfl | rfl | rfl
    · exact halfway_differs.1
    · exact ⟨1, -1, by norm_num, by norm_num, by norm_num, by norm_num [abs_of_pos]⟩
    · exact ⟨-3, 0, by norm_num, by norm_num, by norm_num, by norm_num [abs_of_neg]⟩)
  exact ⟨ls, h1, h3⟩
example : (2 : ℚ) ^ 128 ≤ |large.value| ∧ (f64.read large.value).isSome = true := by decide +kernel
example : docComp (.num halfway) = some (.fin (11420670 / 2 ^ 107)) ∧ floatOf (.num halfway) = some (.fin x15ae43fd) ∧
    f64.read halfway.value = some (22841339 / 2 ^ 108) := by decide +kernel

end Fave.C79
