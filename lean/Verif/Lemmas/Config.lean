import Verif.Model.Config
/-! # Lemmas about configuration parsing -/
namespace Fave.Config
open Client (Str Map digits)

theorem parseUint_append (a b : Str) : ∀ (n k : Nat), parseUint n a = .ok k → parseUint n (a ++ b) = parseUint k b := by
  induction a with
  | nil => intro n k h; simp only [parseUint, Parsed.ok.injEq] at h; rw [List.nil_append]; congr 1; omega
  | cons c cs ih =>
    intro n k h
    simp only [parseUint] at h
    simp only [List.cons_append, parseUint]
    split at h
    · exact absurd h (by simp)
    · split at h
      · exact absurd h (by simp)
      · rename_i h1 h2
        rw [if_neg h1, if_neg h2]
        exact ih _ _ h

theorem digit_toNat (d : Nat) (h : d < 10) : (Char.ofNat (48 + d)).toNat = 48 + d := by
  have : ∀ d : Fin 10, (Char.ofNat (48 + d.val)).toNat = 48 + d.val := by decide +kernel
  exact this ⟨d, h⟩

theorem parseUint_digit (n d : Nat) (h : d < 10) (hlt : n * 10 + d < 2 ^ 64) :
    parseUint n [Char.ofNat (48 + d)] = .ok ((n * 10 + d : Nat)) := by
  simp only [parseUint, digit_toNat d h]
  rw [if_neg (by omega), if_neg (by omega)]
  congr 2; omega

theorem parseUint_digits (n : Nat) (h : n < 2 ^ 64) : parseUint 0 (digits n) = .ok n := by
  induction n using Nat.strongRecOn with
  | _ n ih =>
    rw [digits]
    split
    · rename_i hlt
      rw [parseUint_digit 0 n hlt (by omega)]; congr 2; omega
    · rw [parseUint_append _ _ 0 (n / 10) (ih (n / 10) (by omega) (by omega)),
        parseUint_digit _ _ (by omega) (by omega)]
      congr 2; omega

theorem digits_ne_nil (n : Nat) : digits n ≠ [] := by
  rw [digits]; split <;> simp

theorem digits_head (n : Nat) (c : Char) (r : Str) : digits n = c :: r → 48 ≤ c.toNat ∧ c.toNat ≤ 57 := by
  induction n using Nat.strongRecOn generalizing c r with
  | _ n ih =>
    rw [digits]
    split
    · rename_i hlt
      intro h
      simp only [List.cons.injEq] at h
      rw [← h.1, digit_toNat n hlt]; omega
    · rename_i hlt
      intro h
      cases hd : digits (n / 10) with
      | nil => exact absurd hd (digits_ne_nil _)
      | cons a t =>
        rw [hd] at h
        simp only [List.cons_append, List.cons.injEq] at h
        rw [← h.1]
        exact ih (n / 10) (by omega) a t hd

theorem parseInt_nat (n : Nat) (h : n < 2 ^ 63) : parseInt (digits n) = .ok n := by
  have hd := parseUint_digits n (by omega)
  cases hs : digits n with
  | nil => exact absurd hs (digits_ne_nil n)
  | cons c r =>
    have hc := digits_head n c r hs
    have h1 : c ≠ '-' := by rintro rfl; exact absurd hc.1 (by decide)
    have h2 : c ≠ '+' := by rintro rfl; exact absurd hc.1 (by decide)
    rw [hs] at hd
    have hdig : unsigned (c :: r) = c :: r := by simp [unsigned, h1, h2]
    unfold parseInt
    simp only [hdig, hd, List.cons_ne_nil, if_false, List.head?_cons, Option.some.injEq]
    rw [if_neg h1, if_neg (by omega)]

theorem parseInt_neg (n : Nat) (h : n ≤ 2 ^ 63) : parseInt ('-' :: digits n) = .ok (-n) := by
  have hd := parseUint_digits n (by omega)
  have hdig : unsigned ('-' :: digits n) = digits n := by simp [unsigned]
  unfold parseInt
  simp only [hdig, hd, digits_ne_nil, if_false, List.head?_cons, if_true]
  rw [if_neg (by omega)]

theorem parseInt_plus (n : Nat) (h : n < 2 ^ 63) : parseInt ('+' :: digits n) = .ok n := by
  have hd := parseUint_digits n (by omega)
  have hdig : unsigned ('+' :: digits n) = digits n := by simp [unsigned]
  unfold parseInt
  simp only [hdig, hd, digits_ne_nil, if_false]
  rw [if_neg (show ¬ List.head? ('+' :: digits n) = some '-' by rw [List.head?_cons]; decide), if_neg (by omega)]

theorem bind_ok {α β : Type} {x : Except Unit α} {f : α → Except Unit β} {b : β} :
    (x >>= f) = .ok b ↔ ∃ a, x = .ok a ∧ f a = .ok b := by
  cases x with
  | error e => simp [bind, Except.bind]
  | ok a => simp [bind, Except.bind]

/-- everything a successful parse of a map has read -/
theorem parse_map {oor : Int} {m : Map JVal} {c : UC} (h : parse oor (some (.map m)) = .ok c) :
    readInt oor m kMaxConn 64 = .ok c.maxConn ∧ readInt oor m kCleanup 300 = .ok c.cleanup ∧
    readInt oor m kEfC 128 = .ok c.efC ∧ readInt oor m kEf (-1) = .ok c.ef ∧
    readInt oor m kEfFactor 8 = .ok c.efFactor ∧ readInt oor m kEfMax 500 = .ok c.efMax ∧
    readInt oor m kEfMin 100 = .ok c.efMin ∧ readInt oor m kCacheMax (10 ^ 12) = .ok c.cacheMax ∧
    readInt oor m kCutoff 40000 = .ok c.cutoff ∧ parsePQ oor m = .ok c.pq ∧
    c.skip = readBool m kSkip false ∧ c.distance = readStr m kDistance sCosine ∧ c.valid = true := by
  unfold parse at h
  simp only [bind_ok] at h
  obtain ⟨a1, h1, a2, h2, a3, h3, a4, h4, a5, h5, a6, h6, a7, h7, a8, h8, a9, h9, p, hp, h⟩ := h
  split at h
  · rename_i hv
    simp only [pure, Except.pure, Except.ok.injEq] at h
    subst h
    exact ⟨h1, h2, h3, h4, h5, h6, h7, h8, h9, hp, rfl, rfl, hv⟩
  · exact absurd h (by simp)

/-- everything a successful parse of the quantisation settings has read -/
theorem parsePQ_map {oor : Int} {m p : Map JVal} {q : PQ} (hm : m.get kPq = some (.map p)) (h : parsePQ oor m = .ok q) :
    readInt oor p kSegments 0 = .ok q.segments ∧ readInt oor p kCentroids 256 = .ok q.centroids ∧
    q.enabled = readBool p kEnabled false ∧ q.bitCompression = readBool p kBit false ∧
    (∀ e, p.get kEncoder = some (.map e) → readChecked e kType validEncoder sKmeans = .ok q.encoder ∧
      readChecked e kDistribution validDistribution sLogNormal = .ok q.distribution) ∧
    ((∀ e, p.get kEncoder ≠ some (.map e)) → q.encoder = sKmeans ∧ q.distribution = sLogNormal) := by
  unfold parsePQ at h
  simp only [hm, bind_ok] at h
  obtain ⟨a1, h1, a2, h2, h⟩ := h
  split at h
  · rename_i e he
    simp only [bind_ok] at h
    obtain ⟨b1, g1, b2, g2, h⟩ := h
    simp only [pure, Except.pure, Except.ok.injEq] at h
    subst h
    refine ⟨h1, h2, rfl, rfl, fun e' he' => ?_, fun hno => absurd he (hno e)⟩
    rw [he] at he'; simp only [Option.some.injEq, JVal.map.injEq] at he'; subst he'
    exact ⟨g1, g2⟩
  · rename_i hno
    simp only [pure, Except.pure, Except.ok.injEq] at h
    subst h
    exact ⟨h1, h2, rfl, rfl, fun e he => absurd he (hno e), fun _ => ⟨rfl, rfl⟩⟩

end Fave.Config
