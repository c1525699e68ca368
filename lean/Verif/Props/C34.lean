import Verif.Lemmas.Config
/-!
# C34: parsing an index configuration

Full claim: *parsing either reports an error or yields a configuration in which every absent setting has its default and every present
numeric setting has the given value, and a maximum-connections value below 4 or a construction width below 4 is always refused.*

For numbers that are 64-bit integers the claim holds (`absent_has_default`, `present_has_value_partial`, `small_refused_partial`).  It fails
for other numbers: a number far below zero is taken as the largest integer and accepted (`huge_negative_accepted`), fractions are cut off
when they come as float64 (`fraction_cut_off`); and a setting given as text or `null` is silently set to 0 (`not_a_number_becomes_zero`).
-/
namespace Fave.C34
open Config
open Client (Str Map digits)

/-- an integer setting: its name, where it ends up, its default -/
structure IntSetting where
  key : Str
  value : UC → Int
  dflt : Int

/-- the integer settings at the top of the configuration -/
def intSettings : List IntSetting :=
  [⟨"maxConnections".toList, (·.maxConn), 64⟩, ⟨"cleanupIntervalSeconds".toList, (·.cleanup), 300⟩,
   ⟨"efConstruction".toList, (·.efC), 128⟩, ⟨"ef".toList, (·.ef), -1⟩, ⟨"dynamicEfFactor".toList, (·.efFactor), 8⟩,
   ⟨"dynamicEfMax".toList, (·.efMax), 500⟩, ⟨"dynamicEfMin".toList, (·.efMin), 100⟩,
   ⟨"vectorCacheMaxObjects".toList, (·.cacheMax), 1000000000000⟩, ⟨"flatSearchCutoff".toList, (·.cutoff), 40000⟩]

/-- the integer settings inside "pq" -/
def pqSettings : List IntSetting :=
  [⟨"segments".toList, (·.pq.segments), 0⟩, ⟨"centroids".toList, (·.pq.centroids), 256⟩]

/-- `v` writes the 64-bit integer `n`: in decimal, or as a float64 -/
inductive Writes : JVal → Int → Prop
  | nat (n : Nat) (h : n < 2 ^ 63) : Writes (.number (digits n)) n
  | plus (n : Nat) (h : n < 2 ^ 63) : Writes (.number ('+' :: digits n)) n
  | neg (n : Nat) (h : n ≤ 2 ^ 63) : Writes (.number ('-' :: digits n)) (-n)
  | whole (m : Int) (e : Nat) (h : -2 ^ 63 ≤ m * 2 ^ e ∧ m * 2 ^ e < 2 ^ 63) : Writes (.float m e) (m * 2 ^ e)
  | scaled (n : Int) (e : Nat) (h : -2 ^ 63 ≤ n ∧ n < 2 ^ 63) : Writes (.float (n * 2 ^ e) (-e)) n

theorem toInt64_writes (oor : Int) {m e n : Int} (h : Writes (.float m e) n) : toInt64 oor m e = n := by
  generalize hv : JVal.float m e = v at h
  cases h with
  | nat | plus | neg => cases hv
  | whole m' e' h =>
    cases hv
    unfold toInt64
    rw [if_pos (Int.natCast_nonneg _), Int.toNat_natCast, if_pos h]
  | scaled n e' h =>
    cases hv
    have hq : (n * 2 ^ e').tdiv (2 ^ e') = n := Int.mul_tdiv_cancel _ (Int.ne_of_gt (Int.pow_pos (by omega)))
    unfold toInt64
    by_cases he : (0 : Int) ≤ -(e' : Int)
    · have : e' = 0 := by omega
      subst this
      simpa using fun h1 => absurd h.2 (by omega)
    · rw [if_neg he, Int.neg_neg, Int.toNat_natCast, hq, if_pos h]

theorem readInt_writes (oor : Int) (m : Map JVal) (k : Str) (d : Int) {v : JVal} {n : Int} (hv : m.get k = some v)
    (h : Writes v n) : readInt oor m k d = .ok n := by
  unfold readInt
  rw [hv]
  have h0 := h
  cases h with
  | nat n hn => simp only [parseInt_nat n hn]
  | plus n hn => simp only [parseInt_plus n hn]
  | neg n hn => simp only [parseInt_neg n hn]
  | whole m e hm => simp only [toInt64_writes oor h0]
  | scaled n e hn => simp only [toInt64_writes oor h0]

theorem readInt_absent (oor : Int) (m : Map JVal) (k : Str) (d : Int) (hv : m.get k = none) : readInt oor m k d = .ok d := by
  unfold readInt; rw [hv]

theorem readInt_of {oor : Int} {m : Map JVal} {c : UC} (h : parse oor (some (.map m)) = .ok c) (s : IntSetting)
    (hs : s ∈ intSettings) : readInt oor m s.key s.dflt = .ok (s.value c) := by
  obtain ⟨h1, h2, h3, h4, h5, h6, h7, h8, h9, -⟩ := parse_map h
  simp only [intSettings, List.mem_cons, List.not_mem_nil, or_false] at hs
  rcases hs with rfl | rfl | rfl | rfl | rfl | rfl | rfl | rfl | rfl
  · exact h1
  · exact h2
  · exact h3
  · exact h4
  · exact h5
  · exact h6
  · exact h7
  · exact h8
  · exact h9

theorem readPQ_of {oor : Int} {m p : Map JVal} {c : UC} (h : parse oor (some (.map m)) = .ok c)
    (hp : m.get "pq".toList = some (.map p)) (s : IntSetting) (hs : s ∈ pqSettings) :
    readInt oor p s.key s.dflt = .ok (s.value c) := by
  obtain ⟨-, -, -, -, -, -, -, -, -, hpq, -⟩ := parse_map h
  obtain ⟨h1, h2, -⟩ := parsePQ_map hp hpq
  simp only [pqSettings, List.mem_cons, List.not_mem_nil, or_false] at hs
  rcases hs with rfl | rfl
  · exact h1
  · exact h2

/-- **C34**: a setting that is not given has its default. -/
theorem absent_has_default (oor : Int) (m : Map JVal) (c : UC) (h : parse oor (some (.map m)) = .ok c) :
    (∀ s ∈ intSettings, m.get s.key = none → s.value c = s.dflt) ∧
    (m.get "skip".toList = none → c.skip = false) ∧
    (m.get "distance".toList = none → c.distance = "cosine".toList) ∧
    (m.get "pq".toList = none → c.pq = ⟨false, false, 0, 256, "kmeans".toList, "log-normal".toList⟩) ∧
    (∀ p : Map JVal, m.get "pq".toList = some (.map p) →
      (∀ s ∈ pqSettings, p.get s.key = none → s.value c = s.dflt) ∧
      (p.get "enabled".toList = none → c.pq.enabled = false) ∧
      (p.get "bitCompression".toList = none → c.pq.bitCompression = false) ∧
      (p.get "encoder".toList = none → c.pq.encoder = "kmeans".toList ∧ c.pq.distribution = "log-normal".toList)) := by
  obtain ⟨-, -, -, -, -, -, -, -, -, hpq, hskip, hdist, -⟩ := parse_map h
  refine ⟨fun s hs hn => ?_, fun hn => ?_, fun hn => ?_, fun hn => ?_, fun p hp => ?_⟩
  · have := readInt_of h s hs
    rw [readInt_absent _ _ _ _ hn] at this
    exact (Except.ok.inj this).symm
  · rw [hskip]; unfold readBool; rw [show m.get kSkip = none from hn]
  · rw [hdist]; unfold readStr; rw [show m.get kDistance = none from hn]; rfl
  · unfold parsePQ at hpq
    rw [show m.get kPq = none from hn] at hpq
    exact (Except.ok.inj hpq).symm
  · obtain ⟨-, -, he, hb, -, hno⟩ := parsePQ_map hp hpq
    refine ⟨fun s hs hn => ?_, fun hn => ?_, fun hn => ?_, fun hn => ?_⟩
    · have := readPQ_of h hp s hs
      rw [readInt_absent _ _ _ _ hn] at this
      exact (Except.ok.inj this).symm
    · rw [he]; unfold readBool; rw [show p.get kEnabled = none from hn]
    · rw [hb]; unfold readBool; rw [show p.get kBit = none from hn]
    · exact hno (fun e => by rw [show p.get kEncoder = none from hn]; exact nofun)

/-- **C34** (partial: 64-bit integers): a setting that is given has the given value; so have the truth values, the distance and the
quantisation settings. -/
theorem present_has_value_partial (oor : Int) (m : Map JVal) (c : UC) (h : parse oor (some (.map m)) = .ok c) :
    (∀ s ∈ intSettings, ∀ v n, m.get s.key = some v → Writes v n → s.value c = n) ∧
    (∀ b, m.get "skip".toList = some (.bool b) → c.skip = b) ∧
    (∀ d, m.get "distance".toList = some (.str d) → c.distance = d) ∧
    (∀ p : Map JVal, m.get "pq".toList = some (.map p) →
      (∀ s ∈ pqSettings, ∀ v n, p.get s.key = some v → Writes v n → s.value c = n) ∧
      (∀ b, p.get "enabled".toList = some (.bool b) → c.pq.enabled = b) ∧
      (∀ b, p.get "bitCompression".toList = some (.bool b) → c.pq.bitCompression = b) ∧
      (∀ e : Map JVal, p.get "encoder".toList = some (.map e) →
        (∀ t, e.get "type".toList = some (.str t) → c.pq.encoder = t) ∧
        (∀ t, e.get "distribution".toList = some (.str t) → c.pq.distribution = t))) := by
  obtain ⟨-, -, -, -, -, -, -, -, -, hpq, hskip, hdist, -⟩ := parse_map h
  refine ⟨fun s hs v n hv hw => ?_, fun b hb => ?_, fun d hd => ?_, fun p hp => ?_⟩
  · have := readInt_of h s hs
    rw [readInt_writes oor m _ _ hv hw] at this
    exact (Except.ok.inj this).symm
  · rw [hskip]; unfold readBool; rw [show m.get kSkip = _ from hb]
  · rw [hdist]; unfold readStr; rw [show m.get kDistance = _ from hd]
  · obtain ⟨-, -, he, hb, henc, -⟩ := parsePQ_map hp hpq
    refine ⟨fun s hs v n hv hw => ?_, fun b hb' => ?_, fun b hb' => ?_, fun e he' => ⟨fun t ht => ?_, fun t ht => ?_⟩⟩
    · have := readPQ_of h hp s hs
      rw [readInt_writes oor p _ _ hv hw] at this
      exact (Except.ok.inj this).symm
    · rw [he]; unfold readBool; rw [show p.get kEnabled = _ from hb']
    · rw [hb]; unfold readBool; rw [show p.get kBit = _ from hb']
    · have := (henc e he').1
      unfold readChecked at this
      simp only [show e.get kType = _ from ht] at this
      split at this
      · exact (Except.ok.inj this).symm
      · exact absurd this (by simp)
    · have := (henc e he').2
      unfold readChecked at this
      simp only [show e.get kDistribution = _ from ht] at this
      split at this
      · exact (Except.ok.inj this).symm
      · exact absurd this (by simp)

/-- **C34**: whatever is given, an accepted configuration has at least 4 connections and construction width at least 4. -/
theorem accepted_at_least_four (oor : Int) (x : Option JVal) (c : UC) (h : parse oor x = .ok c) : 4 ≤ c.maxConn ∧ 4 ≤ c.efC := by
  cases x with
  | none =>
    simp only [parse, Except.ok.injEq] at h
    subst h; decide
  | some v =>
    cases v with
    | map m =>
      obtain ⟨-, -, -, -, -, -, -, -, -, -, -, -, hv⟩ := parse_map h
      simpa [UC.valid] using hv
    | _ => exact absurd h (by simp [parse])

/-- **C34** (partial: 64-bit integers): fewer than 4 connections or a construction width below 4 are refused. -/
theorem small_refused_partial (oor : Int) (m : Map JVal) (v : JVal) (n : Int)
    (hv : m.get "maxConnections".toList = some v ∨ m.get "efConstruction".toList = some v) (hw : Writes v n) (hn : n < 4) :
    parse oor (some (.map m)) = .error () := by
  cases h : parse oor (some (.map m)) with
  | error e => rfl
  | ok c =>
    exfalso
    have h4 := accepted_at_least_four oor _ c h
    have hp := (present_has_value_partial oor m c h).1
    rcases hv with hv | hv
    · have := hp ⟨"maxConnections".toList, (·.maxConn), 64⟩ (by simp [intSettings]) v n hv hw
      exact absurd h4.1 (by simp only at this; omega)
    · have := hp ⟨"efConstruction".toList, (·.efC), 128⟩ (by simp [intSettings]) v n hv hw
      exact absurd h4.2 (by simp only at this; omega)

/-- **C34**: nothing given is the default configuration; anything but a map is refused. -/
theorem no_map (oor : Int) : parse oor none = .ok UC.default ∧
    ∀ v, (∀ m, v ≠ JVal.map m) → parse oor (some v) = .error () := by
  refine ⟨rfl, fun v hv => ?_⟩
  cases v with
  | map m => exact absurd rfl (hv m)
  | _ => rfl

/-- **C34**: a configuration whose integer settings are absent or 64-bit integers, with at least 4 connections and construction width at
least 4, and without quantisation settings, is accepted. -/
theorem well_formed_accepted (oor : Int) (m : Map JVal)
    (hint : ∀ s ∈ intSettings, ∀ v, m.get s.key = some v → ∃ n, Writes v n)
    (hsmall : ∀ k ∈ ["maxConnections".toList, "efConstruction".toList], ∀ v n, m.get k = some v → Writes v n → 4 ≤ n)
    (hpq : m.get "pq".toList = none) : ∃ c, parse oor (some (.map m)) = .ok c := by
  have hr : ∀ s ∈ intSettings, ∃ n, readInt oor m s.key s.dflt = .ok n ∧
      (n = s.dflt ∨ ∃ v, m.get s.key = some v ∧ Writes v n) := by
    intro s hs
    cases hv : m.get s.key with
    | none => exact ⟨_, readInt_absent _ _ _ _ hv, .inl rfl⟩
    | some v =>
      obtain ⟨n, hn⟩ := hint s hs v hv
      exact ⟨n, readInt_writes _ _ _ _ hv hn, .inr ⟨v, rfl, hn⟩⟩
  simp only [intSettings, List.mem_cons, List.not_mem_nil, or_false, forall_eq_or_imp, forall_eq] at hr
  obtain ⟨⟨a1, h1, k1⟩, ⟨a2, h2, -⟩, ⟨a3, h3, k3⟩, ⟨a4, h4, -⟩, ⟨a5, h5, -⟩, ⟨a6, h6, -⟩, ⟨a7, h7, -⟩, ⟨a8, h8, -⟩, ⟨a9, h9, -⟩⟩ := hr
  have hq : parsePQ oor m = .ok PQ.default := by
    unfold parsePQ; rw [show m.get kPq = none from hpq]
  have b1 : 4 ≤ a1 := by
    rcases k1 with k1 | ⟨v, hv, hw⟩
    · rw [k1]; decide
    · exact hsmall _ (by simp) v a1 hv hw
  have b3 : 4 ≤ a3 := by
    rcases k3 with k3 | ⟨v, hv, hw⟩
    · rw [k3]; decide
    · exact hsmall _ (by simp) v a3 hv hw
  refine ⟨{ skip := readBool m kSkip UC.default.skip, cleanup := a2, maxConn := a1, efC := a3, ef := a4, efMin := a7, efMax := a6,
            efFactor := a5, cacheMax := a8, cutoff := a9, distance := readStr m kDistance UC.default.distance, pq := PQ.default }, ?_⟩
  unfold parse
  refine bind_ok.mpr ⟨a1, h1, bind_ok.mpr ⟨a2, h2, bind_ok.mpr ⟨a3, h3, bind_ok.mpr ⟨a4, h4, bind_ok.mpr ⟨a5, h5,
    bind_ok.mpr ⟨a6, h6, bind_ok.mpr ⟨a7, h7, bind_ok.mpr ⟨a8, h8, bind_ok.mpr ⟨a9, h9, bind_ok.mpr ⟨_, hq, ?_⟩⟩⟩⟩⟩⟩⟩⟩⟩⟩
  rw [if_pos (by simp [UC.valid, b1, b3])]
  rfl

/-- **C34**: a number written with a decimal point is refused, in every integer setting (whatever follows the point). -/
theorem decimal_point_refused (oor : Int) (m : Map JVal) (s : IntSetting) (hs : s ∈ intSettings) (n : Nat) (r : Str) (hn : n < 2 ^ 63)
    (hv : m.get s.key = some (.number (digits n ++ '.' :: r))) : parse oor (some (.map m)) = .error () := by
  cases h : parse oor (some (.map m)) with
  | error e => rfl
  | ok c =>
    exfalso
    have hr := readInt_of h s hs
    have hsyn : parseInt (digits n ++ '.' :: r) = .syntax := by
      have hp : parseUint 0 (digits n ++ '.' :: r) = .syntax := by
        rw [parseUint_append _ _ _ _ (parseUint_digits n (by omega))]
        have hd : ('.' : Char).toNat < 48 ∨ 57 < ('.' : Char).toNat := by decide
        simp only [parseUint]
        rw [if_pos hd]
      cases hd : digits n with
      | nil => exact absurd hd (digits_ne_nil n)
      | cons c t =>
        have hc := digits_head n c t hd
        have h1 : c ≠ '-' := by rintro rfl; exact absurd hc.1 (by decide)
        have h2 : c ≠ '+' := by rintro rfl; exact absurd hc.1 (by decide)
        rw [hd] at hp
        have hu : unsigned (c :: t ++ '.' :: r) = c :: t ++ '.' :: r := by simp [unsigned, h1, h2]
        unfold parseInt
        rw [hu, hp, if_neg (by simp)]
    unfold readInt at hr
    simp only [hv, hsyn] at hr
    exact absurd hr (by simp)

/-- A truth value that is given as something else, say the text "true", is neither refused nor turned into the opposite: it keeps its
default.  So does a distance that is no text. -/
theorem not_a_bool_keeps_default (oor : Int) (m : Map JVal) (c : UC) (h : parse oor (some (.map m)) = .ok c) :
    (∀ v, m.get "skip".toList = some v → (∀ b, v ≠ .bool b) → c.skip = false) ∧
    (∀ v, m.get "distance".toList = some v → (∀ s, v ≠ .str s) → c.distance = "cosine".toList) ∧
    (∀ p : Map JVal, m.get "pq".toList = some (.map p) →
      (∀ v, p.get "enabled".toList = some v → (∀ b, v ≠ .bool b) → c.pq.enabled = false) ∧
      (∀ v, p.get "bitCompression".toList = some v → (∀ b, v ≠ .bool b) → c.pq.bitCompression = false)) := by
  obtain ⟨-, -, -, -, -, -, -, -, -, hpq, hskip, hdist, -⟩ := parse_map h
  have key : ∀ (m : Map JVal) k v d, m.get k = some v → (∀ b, v ≠ .bool b) → readBool m k d = d := by
    intro m k v d hv hb
    unfold readBool
    rw [hv]
    cases v with
    | bool b => exact absurd rfl (hb b)
    | _ => rfl
  refine ⟨fun v hv hb => ?_, fun v hv hb => ?_, fun p hp => ?_⟩
  · rw [hskip]; exact key m _ v _ hv hb
  · rw [hdist]
    unfold readStr
    rw [show m.get kDistance = _ from hv]
    cases v with
    | str b => exact absurd rfl (hb b)
    | _ => rfl
  · obtain ⟨-, -, he, hb', -⟩ := parsePQ_map hp hpq
    exact ⟨fun v hv hb => by rw [he]; exact key p _ v _ hv hb, fun v hv hb => by rw [hb']; exact key p _ v _ hv hb⟩

/-- **C34 fails**: a setting that is given as text, truth value or `null` is neither refused nor left at its default: it becomes 0. -/
theorem not_a_number_becomes_zero (oor : Int) (m : Map JVal) (c : UC) (h : parse oor (some (.map m)) = .ok c) (s : IntSetting)
    (hs : s ∈ intSettings) (v : JVal) (hv : m.get s.key = some v) (h1 : ∀ t, v ≠ .number t) (h2 : ∀ a e, v ≠ .float a e) :
    s.value c = 0 := by
  have := readInt_of h s hs
  unfold readInt at this
  rw [hv] at this
  cases v with
  | number t => exact absurd rfl (h1 t)
  | float a e => exact absurd rfl (h2 a e)
  | _ => exact (Except.ok.inj this).symm

/-- **C34 fails**: `-10000000000000000000` connections are accepted, as the largest integer. -/
theorem huge_negative_accepted (oor : Int) :
    ∃ (m : Map JVal) (c : UC), m.get "maxConnections".toList = some (.number "-10000000000000000000".toList) ∧
      parse oor (some (.map m)) = .ok c ∧ c.maxConn = 2 ^ 63 - 1 :=
  ⟨[("maxConnections".toList, .number "-10000000000000000000".toList)], { UC.default with maxConn := 2 ^ 63 - 1 },
    by simp [Map.get], by
      have : parseInt "-10000000000000000000".toList = .range := by decide +kernel
      have hr : ∀ d, readInt oor [("maxConnections".toList, JVal.number "-10000000000000000000".toList)] kMaxConn d =
          .ok (2 ^ 63 - 1) := by
        intro d
        unfold readInt
        rw [show Map.get [("maxConnections".toList, JVal.number "-10000000000000000000".toList)] kMaxConn =
          some (.number "-10000000000000000000".toList) by rfl]
        simp only [this]
      simp only [parse, hr]
      rfl, rfl⟩

/-- **C34 fails**: a width of 9.75 is not refused but cut off to 9 when it comes as a float64. -/
theorem fraction_cut_off (oor : Int) :
    ∃ (m : Map JVal) (c : UC), m.get "efConstruction".toList = some (.float 39 (-2)) ∧ parse oor (some (.map m)) = .ok c ∧ c.efC = 9 :=
  ⟨[("efConstruction".toList, .float 39 (-2))], { UC.default with efC := 9 }, by simp [Map.get], rfl, rfl⟩

/-! ## the hypotheses are met -/

/-- a configuration as it may come from a user -/
def given : Map JVal :=
  [("ef".toList, .number "250".toList), ("maxConnections".toList, .float 16 0), ("efConstruction".toList, .float 512 (-2)),
   ("distance".toList, .str "l2-squared".toList), ("cleanupIntervalSeconds".toList, .number "-1".toList),
   ("pq".toList, .map [("enabled".toList, .bool true), ("segments".toList, .number "12".toList),
     ("encoder".toList, .map [("type".toList, .str "tile".toList)])])]

example : parse 0 (some (.map given)) = .ok
    { UC.default with ef := 250, maxConn := 16, efC := 128, distance := "l2-squared".toList, cleanup := -1,
                      pq := ⟨true, false, 12, 256, "tile".toList, "log-normal".toList⟩ } := by rfl

example : Writes (.number "250".toList) 250 := by
  have h : digits 250 = "250".toList := by simp [digits]
  exact h ▸ .nat 250 (by omega)
example : Writes (.float 16 0) 16 := .whole 16 0 (by omega)
example : Writes (.float 512 (-2)) 128 := .scaled 128 2 (by omega)
example : Writes (.number "-1".toList) (-1) := by
  have h : '-' :: digits 1 = "-1".toList := by simp [digits]
  exact h ▸ .neg 1 (by omega)

/-- three connections are refused -/
example : parse 0 (some (.map [("maxConnections".toList, .number (digits 3))])) = .error () :=
  small_refused_partial 0 _ _ 3 (.inl rfl) (.nat 3 (by omega)) (by omega)

/-- `"ef": "100"` is accepted as 0 -/
example : parse 0 (some (.map [("ef".toList, .str "100".toList)])) = .ok { UC.default with ef := 0 } := rfl

/-- `"skip": "true"` is accepted and leaves the index in use -/
example : parse 0 (some (.map [("skip".toList, .str "true".toList)])) = .ok UC.default ∧ UC.default.skip = false := ⟨rfl, rfl⟩

/-- `"ef": 1.5` is refused -/
example : parse 0 (some (.map [("ef".toList, .number (digits 1 ++ '.' :: ['5']))])) = .error () :=
  decimal_point_refused 0 _ ⟨"ef".toList, (·.ef), -1⟩ (by simp [intSettings]) 1 ['5'] (by omega) rfl

end Fave.C34
