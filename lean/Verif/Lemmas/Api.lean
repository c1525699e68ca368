import Verif.Spec.Api
import Verif.Lemmas.Client
/-!
# Lemmas about the registry of operations
-/
namespace Fave.Api
open Client
variable {H B C : Type}

/-- where an operation is stored -/
def keyOf : Name → Str × Str
  | .add => (post, "/documents".toList)
  | .create => (post, "/collections".toList)
  | .delete => (delete, "/collections/{collection}".toList)
  | .collections => (get, "/collections".toList)
  | .documents => (get, "/documents".toList)
  | .nearest => (post, "/nearest-documents".toList)
  | .nearestByVector => (post, "/nearest-documents-by-vector".toList)
  | .root => (get, [])

theorem long_short (p : Str) : long (short p) = long p := by
  unfold short
  split
  · next h => subst h; rfl
  · rfl

theorem describedAt_short (m p : Str) : describedAt m (short p) = describedAt m p := by
  unfold describedAt; rw [long_short]

theorem short_ne (p : Str) : short p ≠ ['/'] := by
  unfold short; split
  · decide
  · assumption

theorem long_inj {p q : Str} (hp : p ≠ ['/']) (hq : q ≠ ['/']) (h : long p = long q) : p = q := by
  unfold long at h
  split at h <;> split at h
  · next a b => rw [a, b]
  · exact absurd h.symm hq
  · exact absurd h hp
  · exact h

theorem describedAt_key (n : Name) : describedAt (keyOf n).1 (keyOf n).2 = some n := by
  cases n <;> decide +kernel

theorem keyOf_ne (n : Name) : (keyOf n).2 ≠ ['/'] := by cases n <;> decide +kernel

theorem described_key : ∀ r ∈ described, ∃ n, (keyOf n).1 = r.method ∧ long (keyOf n).2 = r.path := by
  intro r hr
  simp only [described, List.mem_cons, List.not_mem_nil, or_false] at hr
  rcases hr with rfl | rfl | rfl | rfl | rfl | rfl | rfl | rfl
  · exact ⟨.root, by decide +kernel⟩
  · exact ⟨.collections, by decide +kernel⟩
  · exact ⟨.create, by decide +kernel⟩
  · exact ⟨.delete, by decide +kernel⟩
  · exact ⟨.documents, by decide +kernel⟩
  · exact ⟨.add, by decide +kernel⟩
  · exact ⟨.nearest, by decide +kernel⟩
  · exact ⟨.nearestByVector, by decide +kernel⟩

theorem describedAt_iff {m p : Str} (hp : p ≠ ['/']) (n : Name) : describedAt m p = some n ↔ keyOf n = (m, p) := by
  constructor
  · intro h
    have h0 := h
    unfold describedAt at h
    split at h
    · cases h
    · next r hr =>
      have hm := List.mem_of_find?_eq_some hr
      have hq := List.find?_some hr
      simp only [decide_eq_true_eq] at hq
      obtain ⟨n', e1, e2⟩ := described_key r hm
      have e3 : (keyOf n').2 = p := long_inj (keyOf_ne n') hp (e2.trans hq.2)
      have e4 := describedAt_key n'
      rw [e1, hq.1, e3, h0] at e4
      cases e4
      rw [← hq.1, ← e1, ← e3]
  · intro h
    have := describedAt_key n
    rw [h] at this
    exact this

/-- the entry for a method and a path -/
def entry (t : Map (Map (Http H B))) (m p : Str) : Option (Http H B) := ((t.get m).getD []).get p

theorem get_set_self {α : Type} (t : Map α) (m : Str) (x : α) : (t.set m x).get m = some x := Map.get_set_self t m x

theorem get_set_other {α : Type} (t : Map α) {m k : Str} (h : k ≠ m) (x : α) : (t.set m x).get k = t.get k := by
  rw [Map.get_set, if_neg h]

theorem entry_put_self (t : Map (Map (Http H B))) (m p : Str) (x : Http H B) : entry (put t m p x) m p = some x := by
  unfold entry put
  rw [get_set_self]
  exact get_set_self _ _ _

theorem entry_put_other (t : Map (Map (Http H B))) {m p m' p' : Str} (x : Http H B) (h : (m', p') ≠ (m, p)) :
    entry (put t m p x) m' p' = entry t m' p' := by
  unfold entry put
  by_cases hm : m' = m
  · subst hm
    rw [get_set_self]
    have : p' ≠ p := fun hp => h (by rw [hp])
    exact get_set_other _ this _
  · rw [get_set_other _ hm]

theorem entry_put (t : Map (Map (Http H B))) (m p m' p' : Str) (x : Http H B) :
    entry (put t m p x) m' p' = if (m', p') = (m, p) then some x else entry t m' p' := by
  split
  · next h => cases h; exact entry_put_self _ _ _ _
  · next h => exact entry_put_other _ _ h

theorem get_put (t : Map (Map (Http H B))) (m p k : Str) (x : Http H B) :
    ((put t m p x).get k).isSome = (decide (k = m) || (t.get k).isSome) := by
  unfold put
  by_cases h : k = m
  · subst h; rw [get_set_self]; simp
  · rw [get_set_other _ h]; simp [h]

/-- the table that is made -/
def table (f : Name → Option H) : Map (Map (Http H B)) :=
  let t := []
  let t := put t post "/documents".toList (.op .add (f .add))
  let t := put t post "/collections".toList (.op .create (f .create))
  let t := put t delete "/collections/{collection}".toList (.op .delete (f .delete))
  let t := put t get "/collections".toList (.op .collections (f .collections))
  let t := put t get "/documents".toList (.op .documents (f .documents))
  let t := put t post "/nearest-documents".toList (.op .nearest (f .nearest))
  let t := put t post "/nearest-documents-by-vector".toList (.op .nearestByVector (f .nearestByVector))
  put t get [] (.op .root (f .root))

theorem init_new {a : Api H B C} (h : a.handlers = some []) : init a = { a with handlers := some (table a.fields) } := by
  unfold init initCache table
  rw [h]
  rfl

theorem table_key (f : Name → Option H) (n : Name) : entry (table f : Map (Map (Http H B))) (keyOf n).1 (keyOf n).2 = some (.op n (f n)) := by
  unfold table
  simp only [entry_put]
  cases n <;> rfl

theorem table_some (f : Name → Option H) {m p : Str} {x : Http H B} (h : entry (table f) m p = some x) : ∃ n, keyOf n = (m, p) := by
  unfold table at h
  simp only [entry_put] at h
  by_cases h8 : (m, p) = keyOf .root
  · exact ⟨_, h8.symm⟩
  by_cases h7 : (m, p) = keyOf .nearestByVector
  · exact ⟨_, h7.symm⟩
  by_cases h6 : (m, p) = keyOf .nearest
  · exact ⟨_, h6.symm⟩
  by_cases h5 : (m, p) = keyOf .documents
  · exact ⟨_, h5.symm⟩
  by_cases h4 : (m, p) = keyOf .collections
  · exact ⟨_, h4.symm⟩
  by_cases h3 : (m, p) = keyOf .delete
  · exact ⟨_, h3.symm⟩
  by_cases h2 : (m, p) = keyOf .create
  · exact ⟨_, h2.symm⟩
  by_cases h1 : (m, p) = keyOf .add
  · exact ⟨_, h1.symm⟩
  simp only [keyOf] at h1 h2 h3 h4 h5 h6 h7 h8
  rw [if_neg h8, if_neg h7, if_neg h6, if_neg h5, if_neg h4, if_neg h3, if_neg h2, if_neg h1] at h
  cases h

theorem table_entry (f : Name → Option H) {m p : Str} (hp : p ≠ ['/']) :
    entry (table f : Map (Map (Http H B))) m p = (describedAt m p).map (fun n => .op n (f n)) := by
  cases h : describedAt m p with
  | some n =>
    have := (describedAt_iff hp n).1 h
    have e := table_key (B := B) f n
    rw [this] at e
    exact e
  | none =>
    cases h' : entry (table f : Map (Map (Http H B))) m p with
    | none => rfl
    | some x =>
      obtain ⟨n, hn⟩ := table_some f h'
      rw [(describedAt_iff hp n).2 hn] at h
      cases h

theorem table_rows (f : Name → Option H) (m : Str) :
    (((table f : Map (Map (Http H B)))).get m).isSome = true ↔ m = post ∨ m = get ∨ m = delete := by
  unfold table
  simp only [get_put]
  have : (Map.get ([] : Map (Map (Http H B))) m).isSome = false := rfl
  simp only [this, Bool.or_false, Bool.or_eq_true, decide_eq_true_eq]
  constructor
  · intro h; rcases h with h | h | h | h | h | h | h | h <;> simp [h]
  · intro h; rcases h with h | h | h <;> simp [h]

theorem run_append (up : Str → Str) (a : Api H B C) (cs ds : List (Call H B C)) :
    run up a (cs ++ ds) = (run up a cs).bind (fun x => run up x ds) := by
  induction cs generalizing a with
  | nil => rfl
  | cons c cs ih =>
    simp only [List.cons_append, run]
    cases step up a c with
    | none => rfl
    | some x => exact ih x

theorem run_snoc (up : Str → Str) (a : Api H B C) (cs : List (Call H B C)) (c : Call H B C) :
    run up a (cs ++ [c]) = (run up a cs).bind (fun x => step up x c) := by
  rw [run_append]
  congr 1
  funext x
  simp only [run]
  cases step up x c <;> rfl

theorem made_snoc (cs : List (Call H B C)) (c : Call H B C) : made (cs ++ [c]) = (made cs || c.makes) := by
  simp [made]

theorem bound_made (n : Name) (h : Option H) (cs ds : List (Call H B C)) (hm : made cs = true) : bound n h (cs ++ ds) = bound n h cs := by
  induction cs generalizing h with
  | nil => cases hm
  | cons c cs ih =>
    cases c <;> simp only [List.cons_append, bound] <;> first | rfl | (apply ih; simpa [made, Call.makes] using hm)

theorem bound_append (n : Name) (h : Option H) (cs ds : List (Call H B C)) (hm : made cs = false) :
    bound n h (cs ++ ds) = bound n (bound n h cs) ds := by
  induction cs generalizing h with
  | nil => rfl
  | cons c cs ih =>
    cases c <;> simp only [List.cons_append, bound] <;>
      first | (apply ih; simpa [made, Call.makes] using hm) | (simp [made, Call.makes] at hm)

theorem builders_append (up : Str → Str) (n : Name) (cs ds : List (Call H B C)) :
    builders up n (cs ++ ds) = builders up n ds ++ builders up n cs := by
  induction cs with
  | nil => simp [builders]
  | cons c cs ih => cases c <;> simp only [List.cons_append, builders, ih, List.append_assoc]

theorem builders_unmade (up : Str → Str) (n : Name) (cs : List (Call H B C)) (hm : made cs = false) : builders up n cs = [] := by
  induction cs with
  | nil => rfl
  | cons c cs ih =>
    cases c <;> simp only [builders] <;>
      first | (apply ih; simpa [made, Call.makes] using hm) | (simp [made, Call.makes] at hm)

/-- the registry before and after it is made -/
structure Shape (up : Str → Str) (f : Name → Option H) (cs : List (Call H B C)) (a : Api H B C) : Prop where
  before : made cs = false → a.handlers = some [] ∧ ∀ n, a.fields n = bound n (f n) cs
  after : made cs = true → ∃ t, a.handlers = some t ∧
    (∀ m, (t.get m).isSome = true ↔ m = post ∨ m = get ∨ m = delete) ∧
    ∀ m p, p ≠ ['/'] → entry t m p = (describedAt m p).map (fun n => wrap (.op n (bound n (f n) cs)) (builders up n cs))

theorem wrap_append (x : Http H B) (l k : List B) : wrap x (l ++ k) = wrap (wrap x k) l := by
  induction l with
  | nil => rfl
  | cons b l ih => simp only [List.cons_append, wrap, ih]

theorem init_idem {a : Api H B C} {t : Map (Map (Http H B))} (h : a.handlers = some t) (ht : t ≠ []) : init a = a := by
  unfold init
  rw [h]
  exact if_neg ht

theorem ne_nil_of_rows {t : Map (Map (Http H B))} (h : ∀ m, (t.get m).isSome = true ↔ m = post ∨ m = get ∨ m = delete) : t ≠ [] := by
  intro e
  have := (h post).2 (Or.inl rfl)
  rw [e] at this
  cases this

/-- `Init` in a state of either shape -/
theorem shape_init {up : Str → Str} {f : Name → Option H} {cs : List (Call H B C)} {a : Api H B C} (h : Shape up f cs a) :
    ∃ t, (init a).handlers = some t ∧
    (∀ m, (t.get m).isSome = true ↔ m = post ∨ m = get ∨ m = delete) ∧
    ∀ m p, p ≠ ['/'] → entry t m p = (describedAt m p).map (fun n => wrap (.op n (bound n (f n) cs)) (builders up n cs)) := by
  cases hm : made cs with
  | true =>
    obtain ⟨t, h1, h2, h3⟩ := h.after hm
    rw [init_idem h1 (ne_nil_of_rows h2)]
    exact ⟨t, h1, h2, h3⟩
  | false =>
    obtain ⟨h1, h2⟩ := h.before hm
    rw [init_new h1]
    refine ⟨_, rfl, table_rows _, fun m p hp => ?_⟩
    rw [table_entry _ hp]
    congr 1
    funext n
    rw [builders_unmade up n cs hm, h2]
    rfl

theorem shape_new (up : Str → Str) (ni : Name → H) (j jo : C) : Shape up (fun n => some (ni n)) ([] : List (Call H B C)) (new ni j jo) :=
  ⟨fun _ => ⟨rfl, fun _ => rfl⟩, fun h => by cases h⟩

/-- a call that neither makes nor uses the registry -/
theorem shape_quiet {up : Str → Str} {f : Name → Option H} {cs : List (Call H B C)} {a a' : Api H B C} {c : Call H B C}
    (h : Shape up f cs a) (hh : a'.handlers = a.handlers) (hc : c.makes = false)
    (hf : made cs = false → ∀ n, a'.fields n = bound n (bound n (f n) cs) [c]) : Shape up f (cs ++ [c]) a' := by
  refine ⟨fun hm => ?_, fun hm => ?_⟩
  · rw [made_snoc, hc, Bool.or_false] at hm
    refine ⟨hh.trans (h.before hm).1, fun n => ?_⟩
    rw [bound_append n _ cs [c] hm]
    exact hf hm n
  · rw [made_snoc, hc, Bool.or_false] at hm
    obtain ⟨t, h1, h2, h3⟩ := h.after hm
    refine ⟨t, hh.trans h1, h2, fun m p hp => ?_⟩
    rw [h3 m p hp]
    congr 1
    funext n
    rw [bound_made n _ cs [c] hm, builders_append]
    have : builders up n [c] = [] := by cases c <;> first | rfl | cases hc
    rw [this]; rfl

theorem bound_makes (n : Name) (h : Option H) (cs : List (Call H B C)) (c : Call H B C) (hc : c.makes = true) :
    bound n h (cs ++ [c]) = bound n h cs := by
  cases hm : made cs with
  | true => exact bound_made n h cs [c] hm
  | false =>
    rw [bound_append n h cs [c] hm]
    cases c <;> first | rfl | cases hc

theorem entry_eq (t : Map (Map (Http H B))) (m p : Str) : ((t.get m).getD []).get p = entry t m p := rfl

theorem addMiddleware_cases (up : Str → Str) (hu : Upper up) {f : Name → Option H} {cs : List (Call H B C)} {a : Api H B C}
    (h : Shape up f cs a) (m p : Str) (b : B) :
    (describedAt (up m) p = none ∧ addMiddleware up a m p b = some (init a)) ∨
    (∃ n, describedAt (up m) p = some n ∧ m ≠ up m ∧ addMiddleware up a m p b = none) ∨
    (∃ n t, describedAt (up m) p = some n ∧ m = up m ∧ (init a).handlers = some t ∧
      addMiddleware up a m p b =
        some { init a with handlers := some (put t m (short p) (.wrapped b (wrap (.op n (bound n (f n) cs)) (builders up n cs)))) }) := by
  obtain ⟨t, h1, h2, h3⟩ := shape_init h
  have he := h3 (up m) (short p) (short_ne p)
  rw [describedAt_short] at he
  unfold addMiddleware
  simp only [h1, Option.getD_some, entry_eq]
  cases hd : describedAt (up m) p with
  | none =>
    rw [hd] at he
    left
    rw [he]
    exact ⟨rfl, rfl⟩
  | some n =>
    right
    rw [hd] at he
    rw [he]
    have hk : up m = post ∨ up m = get ∨ up m = delete := by
      rw [← describedAt_short] at hd
      have := (describedAt_iff (short_ne p) n).1 hd
      have e : (keyOf n).1 = up m := by rw [this]
      rw [← e]
      cases n <;> simp [keyOf]
    by_cases hm : m = up m
    · right
      rw [← hm] at hk
      have := (h2 m).2 hk
      obtain ⟨r, hr⟩ := Option.isSome_iff_exists.1 this
      refine ⟨n, t, rfl, hm, rfl, ?_⟩
      simp only [Option.map_some, hr]
      unfold put
      rw [hr]
      rfl
    · left
      refine ⟨n, rfl, hm, ?_⟩
      have : t.get m = none := by
        cases hr : t.get m with
        | none => rfl
        | some r =>
          exfalso
          have hs : (t.get m).isSome = true := by rw [hr]; rfl
          rcases (h2 m).1 hs with e | e | e
          · exact hm (by rw [e, hu.post])
          · exact hm (by rw [e, hu.get])
          · exact hm (by rw [e, hu.delete])
      simp only [Option.map_some, this]

theorem shape_step {up : Str → Str} (hu : Upper up) {f : Name → Option H} {cs : List (Call H B C)} {a a' : Api H B C} {c : Call H B C}
    (h : Shape up f cs a) (hs : step up a c = some a') : Shape up f (cs ++ [c]) a' := by
  have inits : ∀ c : Call H B C, c = .init ∨ c = .serve → Shape up f (cs ++ [c]) (init a) := by
    intro c hc
    have hk : c.makes = true := by rcases hc with rfl | rfl <;> rfl
    refine ⟨fun hm => ?_, fun _ => ?_⟩
    · rw [made_snoc, hk, Bool.or_true] at hm; cases hm
    · obtain ⟨t, h1, h2, h3⟩ := shape_init h
      refine ⟨t, h1, h2, fun m p hp => ?_⟩
      rw [h3 m p hp]
      congr 1
      funext n
      rw [bound_makes n _ cs c hk, builders_append]
      have : builders up n [c] = [] := by rcases hc with rfl | rfl <;> rfl
      rw [this]; rfl
  cases c with
  | setHandler n k =>
    rcases Option.some.inj hs with rfl
    refine shape_quiet h rfl rfl (fun hm x => ?_)
    simp only [bound]
    rw [(h.before hm).2]
    by_cases e : x = n
    · rw [if_pos e, if_pos e.symm]
    · rw [if_neg e, if_neg (fun h => e h.symm)]
  | setJson k => rcases Option.some.inj hs with rfl; exact shape_quiet h rfl rfl (fun hm x => (h.before hm).2 x)
  | setJsonOut k => rcases Option.some.inj hs with rfl; exact shape_quiet h rfl rfl (fun hm x => (h.before hm).2 x)
  | registerConsumer _ k => rcases Option.some.inj hs with rfl; exact shape_quiet h rfl rfl (fun hm x => (h.before hm).2 x)
  | registerProducer _ k => rcases Option.some.inj hs with rfl; exact shape_quiet h rfl rfl (fun hm x => (h.before hm).2 x)
  | init => rcases Option.some.inj hs with rfl; exact inits .init (Or.inl rfl)
  | serve => rcases Option.some.inj hs with rfl; exact inits .serve (Or.inr rfl)
  | addMiddleware m p b =>
    obtain ⟨t0, h1, h2, h3⟩ := shape_init h
    refine ⟨fun hm => ?_, fun _ => ?_⟩
    · rw [made_snoc] at hm; simp [Call.makes] at hm
    rcases addMiddleware_cases up hu h m p b with ⟨hd, he⟩ | ⟨n, hd, _, he⟩ | ⟨n, t, hd, hmu, ht, he⟩
    · rcases Option.some.inj (he.symm.trans hs) with rfl
      refine ⟨t0, h1, h2, fun m' p' hp => ?_⟩
      rw [h3 m' p' hp]
      congr 1
      funext n
      rw [bound_makes n _ cs _ rfl, builders_append]
      simp [builders, hd]
    · have := he.symm.trans hs; cases this
    · rcases Option.some.inj (he.symm.trans hs) with rfl
      rcases Option.some.inj (h1.symm.trans ht) with rfl
      refine ⟨_, rfl, fun k => ?_, fun m' p' hp => ?_⟩
      · rw [get_put, ← h2 k]
        by_cases hk : k = m
        · have : (t0.get k).isSome = true := by
            rw [h2, hk, hmu]
            rw [← describedAt_short] at hd
            have := (describedAt_iff (short_ne p) n).1 hd
            have e : (keyOf n).1 = up m := by rw [this]
            rw [← e]
            cases n <;> simp [keyOf]
          simp [this]
        · simp [hk]
      · rw [entry_put]
        have hd' := hd
        rw [← hmu, ← describedAt_short] at hd'
        have hk := (describedAt_iff (short_ne p) n).1 hd'
        by_cases e : (m', p') = (m, short p)
        · rw [if_pos e]
          cases e
          rw [hd']
          simp only [Option.map_some]
          rw [bound_makes n _ cs _ rfl, builders_append]
          simp only [builders, List.nil_append, hd, if_true, List.singleton_append, wrap]
        · rw [if_neg e, h3 m' p' hp]
          cases hd2 : describedAt m' p' with
          | none => rfl
          | some n' =>
            simp only [Option.map_some]
            rw [bound_makes n' _ cs _ rfl, builders_append]
            have : n ≠ n' := by
              rintro rfl
              exact e (((describedAt_iff hp n).1 hd2).symm.trans hk)
            have : ¬ (some n = some n') := fun h => this (Option.some.inj h)
            simp only [builders, hd, this, if_false, List.nil_append]

theorem shape_run {up : Str → Str} (hu : Upper up) {f : Name → Option H} {cs ds : List (Call H B C)} {a a' : Api H B C}
    (h : Shape up f cs a) (hs : run up a ds = some a') : Shape up f (cs ++ ds) a' := by
  induction ds generalizing cs a with
  | nil => rcases Option.some.inj hs with rfl; rw [List.append_nil]; exact h
  | cons c ds ih =>
    simp only [run] at hs
    cases hc : step up a c with
    | none => rw [hc] at hs; cases hs
    | some x =>
      rw [hc] at hs
      have := ih (shape_step hu h hc) hs
      rwa [List.append_assoc] at this

end Fave.Api
