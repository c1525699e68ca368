import Verif.Lemmas.Compress
/-!
# Runs of an index that is compressed at some time
-/
namespace Fave
namespace Compress
open VecCache

variable {V B : Type}

theorem run_append (fit : List V → V → B) : ∀ (a b : List (Ev V)) (s : Sys V B),
    s.run fit (a ++ b) = (s.run fit a).bind fun t => t.run fit b
  | [], _, _ => rfl
  | e :: a, b, s => by
    rw [List.cons_append]
    rw [Sys.run, Sys.run]
    cases h : s.ev fit e with
    | none => rfl
    | some t => exact run_append fit a b t

/-- before compression: no codes, and every vector in the cache is the vertex's own -/
structure Before (n : Nat) (maxSize : Int) (s : Sys V B) : Prop where
  size : s.plain.slots.length = n
  own : ∀ id v, at_ s.plain id = some v → s.source id = some v
  fresh : s.todo = none → s.codes.slots = List.replicate n none ∧ s.codes.maxSize = maxSize ∧ ∀ id, s.store id = none

theorem look_some {s t : Sys V B} {id : Nat} (h : s.look id = some t) : t.source = s.source ∧ t.codes = s.codes ∧
    t.store = s.store ∧ t.enc = s.enc ∧ t.todo = s.todo ∧ t.plain.slots.length = s.plain.slots.length ∧
    ∀ i v, at_ t.plain i = some v → at_ s.plain i = some v ∨ (i = id ∧ s.source i = some v) := by
  unfold Sys.look at h
  unfold Cache.get at h
  cases hs : s.plain.slots[id]? with
  | none => simp [hs] at h
  | some o =>
    have hlt : id < s.plain.slots.length := (List.getElem?_eq_some_iff.mp hs).1
    rw [hs] at h
    cases o with
    | some v => cases h; exact ⟨rfl, rfl, rfl, rfl, rfl, rfl, fun i v hv => Or.inl hv⟩
    | none =>
      dsimp only at h
      unfold Cache.miss at h
      dsimp only at h
      cases hv : s.source id with
      | none => rw [hv] at h; cases h; exact ⟨rfl, rfl, rfl, rfl, rfl, rfl, fun i v hv => Or.inl hv⟩
      | some v =>
        rw [hv] at h
        dsimp only at h
        have hw : s.plain.bump.write id (some v) = some { s.plain.bump with slots := s.plain.slots.set id (some v) } := by
          unfold Cache.write; rw [if_pos (by exact hlt)]; rfl
        rw [hw] at h
        cases h
        refine ⟨rfl, rfl, rfl, rfl, rfl, by simp, fun i w hi => ?_⟩
        rw [at_set (c := s.plain) hlt rfl] at hi
        by_cases hid : i = id
        · rw [if_pos hid] at hi; cases hi; subst hid; exact Or.inr ⟨rfl, hv⟩
        · rw [if_neg hid] at hi; exact Or.inl hi

theorem replicate_tick {n : Nat} {c : Cache B} (h : c.slots = List.replicate n none) : c.tick.slots = List.replicate n none := by
  unfold Cache.tick Cache.clear
  split
  · show c.slots.map _ = _; rw [h, List.map_replicate]
  · exact h

theorem tick_max {α : Type} (c : Cache α) : c.tick.maxSize = c.maxSize := by
  unfold Cache.tick Cache.clear
  split <;> rfl

/-- once compressed, always compressed -/
theorem enc_stays (fit : List V → V → B) {s t : Sys V B} {e : Ev V} (h : s.ev fit e = some t) (ht : t.enc = none) : s.enc = none := by
  cases hs : s.enc with
  | none => rfl
  | some enc =>
    exfalso
    cases e with
    | insert id v =>
      simp only [Sys.ev, Sys.insert, hs] at h
      cases hp : preload s.codes id (enc v) with
      | none => rw [hp] at h; cases h
      | some c => rw [hp] at h; cases h; cases ht
    | remove id =>
      simp only [Sys.ev, Sys.remove, hs] at h
      cases hp : delete s.codes id with
      | none => rw [hp] at h; cases h
      | some c => rw [hp] at h; cases h; cases ht
    | look id => rw [(look_some h).2.2.2.1, hs] at ht; cases ht
    | tickPlain => cases h; rw [hs] at ht; cases ht
    | tickCodes => cases h; rw [hs] at ht; cases ht
    | begin => simp only [Sys.ev, hs, Option.isSome_some, Bool.true_or, if_true] at h; cases h; rw [hs] at ht; cases ht
    | finish order =>
      simp only [Sys.ev, Sys.finish] at h
      cases htd : s.todo with
      | none => rw [htd] at h; cases h; rw [hs] at ht; cases ht
      | some todo =>
        rw [htd] at h
        simp only at h
        cases hk : s.keepAll (fit todo) todo order with
        | none => rw [hk] at h; cases h
        | some u => rw [hk] at h; cases h; cases ht

theorem before_ev (fit : List V → V → B) {n : Nat} {maxSize : Int} {s t : Sys V B} (hb : Before n maxSize s) (hs : s.enc = none) {e : Ev V}
    (h : s.ev fit e = some t) (ht : t.enc = none) : Before n maxSize t := by
  obtain ⟨h1, h2, h3⟩ := hb
  cases e with
  | insert id v =>
    simp only [Sys.ev, Sys.insert, hs] at h
    cases hp : s.plain.preload id (some v) with
    | none => rw [hp] at h; cases h
    | some c =>
      rw [hp] at h; cases h
      obtain ⟨h4, h5, -, -⟩ := preload_some hp
      refine ⟨by show c.slots.length = n; rw [h5, List.length_set]; exact h1, fun i w hi => ?_, h3⟩
      change at_ c i = some w at hi
      show put s.source id (some v) i = some w
      rw [at_set h4 h5] at hi
      by_cases hid : i = id
      · subst hid; rw [if_pos rfl] at hi; rw [put_self]; exact hi
      · rw [if_neg hid] at hi; rw [put_other _ hid]; exact h2 i w hi
  | remove id =>
    simp only [Sys.ev, Sys.remove, hs] at h
    cases hp : s.plain.delete id with
    | none => rw [hp] at h; cases h
    | some c =>
      rw [hp] at h; cases h
      obtain ⟨h4, h5, h6⟩ := delete_some hp
      refine ⟨by show c.slots.length = n; rw [h4]; exact h1, fun i w hi => ?_, h3⟩
      change at_ c i = some w at hi
      show put s.source id none i = some w
      by_cases hid : i = id
      · subst hid; rw [h5] at hi; cases hi
      · rw [h6 i hid] at hi; rw [put_other _ hid]; exact h2 i w hi
  | look id =>
    obtain ⟨h4, h5, h6, h7, h8, h9, h10⟩ := look_some h
    refine ⟨h9.trans h1, fun i w hi => ?_, fun hn => ?_⟩
    · rw [h4]
      rcases h10 i w hi with h | h
      · exact h2 i w h
      · exact h.2
    · rw [h8] at hn; rw [h5, h6]; exact h3 hn
  | tickPlain =>
    cases h
    refine ⟨(tick_length _).trans h1, fun i w hi => ?_, h3⟩
    rcases tick_at s.plain i with h | h
    · exact h2 i w (h.symm.trans hi)
    · exact absurd (h.symm.trans hi) (fun h => by cases h)
  | tickCodes =>
    cases h
    exact ⟨h1, h2, fun hn => ⟨replicate_tick (h3 hn).1, (tick_max _).trans (h3 hn).2.1, (h3 hn).2.2⟩⟩
  | begin =>
    simp only [Sys.ev, hs, Option.isSome_none, Bool.false_or] at h
    cases htd : s.todo with
    | some todo =>
      rw [htd] at h
      cases h
      exact ⟨h1, h2, h3⟩
    | none =>
      rw [htd] at h
      cases h
      exact ⟨h1, h2, fun hn => by cases hn⟩
  | finish order =>
    simp only [Sys.ev, Sys.finish] at h
    cases htd : s.todo with
    | none => rw [htd] at h; cases h; exact ⟨h1, h2, h3⟩
    | some todo =>
      rw [htd] at h
      simp only at h
      cases hk : s.keepAll (fit todo) todo order with
      | none => rw [hk] at h; cases h
      | some u => rw [hk] at h; cases h; cases ht

theorem before_start (B : Type) (source : Nat → Option V) (n : Nat) (maxSize : Int) : Before n maxSize (start B source n maxSize) :=
  { size := List.length_replicate
    own := fun id v h => absurd ((holds_new (α := V) n maxSize id).symm.trans h) (fun h => by cases h)
    fresh := fun _ => ⟨rfl, rfl, fun _ => rfl⟩ }

theorem before_run (fit : List V → V → B) {n : Nat} {maxSize : Int} : ∀ (es : List (Ev V)) {s t : Sys V B}, Before n maxSize s →
    s.enc = none → s.run fit es = some t → t.enc = none → Before n maxSize t
  | [], s, t, hb, _, h, _ => by cases h; exact hb
  | e :: es, s, t, hb, hs, h, ht => by
    unfold Sys.run at h
    cases hev : s.ev fit e with
    | none => rw [hev] at h; cases h
    | some u =>
      rw [hev] at h
      have hu : u.enc = none := by
        have : ∀ (es : List (Ev V)) (u : Sys V B), u.run fit es = some t → u.enc = none := by
          intro es
          induction es with
          | nil => intro u hu; cases hu; exact ht
          | cons e es ih =>
            intro u hu
            unfold Sys.run at hu
            cases hev : u.ev fit e with
            | none => rw [hev] at hu; cases hu
            | some w => rw [hev] at hu; exact enc_stays fit hev (ih w hu)
        exact this es u h
      exact before_run fit es (before_ev fit hb hs hev hu) hu h ht

/-- looking up a vector that is not in the cache -/
theorem look_fills (fit : List V → V → B) (s : Sys V B) (id : Nat) (v : V) (hs : s.plain.slots[id]? = some none)
    (hv : s.source id = some v) : ∃ t, s.ev fit (.look id) = some t ∧ t.source = s.source ∧ t.codes = s.codes ∧ t.store = s.store ∧
      t.enc = s.enc ∧ t.todo = s.todo ∧ t.plain.slots = s.plain.slots.set id (some v) := by
  have hl : id < s.plain.slots.length := (List.getElem?_eq_some_iff.mp hs).1
  refine ⟨{ s with plain := { s.plain with slots := s.plain.slots.set id (some v), count := s.plain.count + 1 } }, ?_,
    rfl, rfl, rfl, rfl, rfl, rfl⟩
  unfold Sys.ev Sys.look Cache.get Cache.miss
  simp only [hs, hv]
  rw [show s.plain.bump.write id (some v) = some _ from preload_of_lt hl (some v)]

/-- inserting into an index that is not compressed -/
theorem insert_fills (fit : List V → V → B) (s : Sys V B) (id : Nat) (v : V) (hl : id < s.plain.slots.length) (he : s.enc = none) :
    ∃ t, s.ev fit (.insert id v) = some t ∧ t.source = put s.source id (some v) ∧ t.codes = s.codes ∧ t.store = s.store ∧
      t.enc = none ∧ t.todo = s.todo ∧ t.plain.slots = s.plain.slots.set id (some v) := by
  refine ⟨{ s with
      source := put s.source id (some v), enc := none,
      plain := { s.plain with slots := s.plain.slots.set id (some v), count := s.plain.count + 1 } }, ?_, rfl, rfl, rfl, rfl, rfl, rfl⟩
  simp only [Sys.ev, Sys.insert, he, preload_of_lt hl]
  rfl

/-! ## compression -/

theorem range_perm {n : Nat} {order : List Nat} (h : order.Perm (List.range n)) : order.Nodup ∧ ∀ i, i ∈ order ↔ i < n :=
  ⟨h.nodup_iff.mpr List.nodup_range, fun i => by rw [h.mem_iff, List.mem_range]⟩

/-- both parts of `Compress` one after the other, on an index that has no codes yet -/
theorem compress_spec (fit : List V → V → B) {n : Nat} {maxSize : Int} {s : Sys V B} (hb : Before n maxSize s) (he : s.enc = none)
    (ht : s.todo = none) (hn : n + 25000 < 2 ^ 64) {order : List Nat}
    (ho : order.Perm (List.range (s.plain.slots.filterMap id).length)) :
    ∃ t, s.run fit [.begin, .finish order] = some t ∧ t.enc = some (fit (s.plain.slots.filterMap id)) ∧ t.todo = none ∧
      t.source = s.source ∧ t.codes.slots.length = n + 25000 ∧ t.codes.maxSize = maxSize ∧
      (n + 25000 : Int) ≤ t.codes.count ∧
      ∀ i : Nat, at_ t.codes i = ((s.plain.slots.filterMap id)[i]?).map (fit (s.plain.slots.filterMap id)) ∧
        t.store i = ((s.plain.slots.filterMap id)[i]?).map (fit (s.plain.slots.filterMap id)) := by
  obtain ⟨h1, h2, h3⟩ := hb
  obtain ⟨h3, hmax, h4⟩ := h3 ht
  obtain ⟨hnd, hmem⟩ := range_perm ho
  have hle : (s.plain.slots.filterMap id).length ≤ n := h1 ▸ filterMap_le _
  have hgl : (grow s.codes s.plain.slots.length).slots.length = n + 25000 := by
    unfold grow Cache.grow
    rw [if_neg (by rw [h3, h1]; simp), growLocked_length _ (by omega) (by rw [h3, h1]; simp), h1]
  have hgc : (grow s.codes s.plain.slots.length).count = ((n + 25000 : Nat) : Int) := by
    unfold grow Cache.grow
    rw [if_neg (by rw [h3, h1]; simp)]
    unfold Cache.growLocked
    dsimp only
    rw [h1, Nat.mod_eq_of_lt hn]
  have hgm : (grow s.codes s.plain.slots.length).maxSize = s.codes.maxSize := by
    unfold grow Cache.grow Cache.growLocked
    split <;> rfl
  have hga : ∀ i : Nat, at_ (grow s.codes s.plain.slots.length) i = none := fun i => by
    unfold grow
    rw [grow_at _ (by omega)]
    unfold at_
    rw [h3, List.getElem?_replicate]
    split <;> rfl
  obtain ⟨t, k1, k2, k3, k4, k5, k6, k7, k8⟩ := keepAll_spec (fit (s.plain.slots.filterMap id)) (s.plain.slots.filterMap id) order
    s.begin hnd (fun i hi => (hmem i).mp hi) (by show _ ≤ (grow s.codes s.plain.slots.length).slots.length; omega)
  refine ⟨{ t with enc := some (fit (s.plain.slots.filterMap id)), todo := none, plain := t.plain.clear }, ?_, rfl, rfl, k3,
    ?_, ?_, ?_, fun i => ?_⟩
  · have e1 : s.ev fit .begin = some s.begin := by
      simp [Sys.ev, he, ht]
    have e2 : s.begin.ev fit (.finish order) =
        some { t with enc := some (fit (s.plain.slots.filterMap id)), todo := none, plain := t.plain.clear } := by
      have hx : s.begin.todo = some (s.plain.slots.filterMap id) := rfl
      simp only [Sys.ev, Sys.finish, hx]
      rw [k1]
      rfl
    simp only [Sys.run, e1, e2]
  · show t.codes.slots.length = _
    rw [k4]; exact hgl
  · show t.codes.maxSize = _
    rw [k5]; exact hgm.trans hmax
  · show _ ≤ t.codes.count
    have : (grow s.codes s.plain.slots.length).count ≤ t.codes.count := k6
    rw [hgc] at this
    omega
  · show at_ t.codes i = _ ∧ t.store i = _
    by_cases hi : i ∈ order
    · exact k7 i hi
    · obtain ⟨k9, k10⟩ := k8 i hi
      rw [hmem] at hi
      rw [k9, k10, List.getElem?_eq_none (by omega)]
      exact ⟨hga i, h4 i⟩

/-! ## after compression -/

/-- no code but that of the vertex's own vector -/
structure After (enc : V → B) (s : Sys V B) : Prop where
  on : s.enc = some enc
  done : s.todo = none
  own : ∀ id b, at_ s.codes id = some b → ∃ v, s.source id = some v ∧ b = enc v

/-- every vertex has its code -/
def Complete (enc : V → B) (s : Sys V B) : Prop := ∀ id v, s.source id = some v → at_ s.codes id = some (enc v)

/-- what an event does to the codes once the index is compressed -/
theorem after_codes (fit : List V → V → B) {enc : V → B} {s t : Sys V B} (he : s.enc = some enc) (htd : s.todo = none) {e : Ev V}
    (h : s.ev fit e = some t) : t.enc = some enc ∧ t.todo = none ∧ t.codes.slots.length = s.codes.slots.length ∧
    ∀ i, (match e with
      | .insert id v => if i = id then at_ t.codes i = some (enc v) ∧ t.source i = some v
          else at_ t.codes i = at_ s.codes i ∧ t.source i = s.source i
      | .remove id => if i = id then at_ t.codes i = none ∧ t.source i = none
          else at_ t.codes i = at_ s.codes i ∧ t.source i = s.source i
      | .tickCodes => (at_ t.codes i = at_ s.codes i ∨ at_ t.codes i = none) ∧ t.source i = s.source i
      | _ => at_ t.codes i = at_ s.codes i ∧ t.source i = s.source i) := by
  cases e with
  | insert id v =>
    simp only [Sys.ev, Sys.insert, he] at h
    cases hp : preload s.codes id (enc v) with
    | none => rw [hp] at h; cases h
    | some c =>
      rw [hp] at h; cases h
      obtain ⟨h4, h5, -, -⟩ := preload_some hp
      refine ⟨rfl, htd, by show c.slots.length = _; rw [h5, List.length_set], fun i => ?_⟩
      by_cases hid : i = id
      · simp only [if_pos hid]
        subst hid
        exact ⟨(at_set h4 h5 i).trans (if_pos rfl), put_self _ _ _⟩
      · simp only [if_neg hid]
        exact ⟨(at_set h4 h5 i).trans (if_neg hid), put_other _ hid _⟩
  | remove id =>
    simp only [Sys.ev, Sys.remove, he] at h
    cases hp : delete s.codes id with
    | none => rw [hp] at h; cases h
    | some c =>
      rw [hp] at h; cases h
      obtain ⟨h4, h5, h6⟩ := delete_some hp
      refine ⟨rfl, htd, h4, fun i => ?_⟩
      by_cases hid : i = id
      · simp only [if_pos hid]
        subst hid
        exact ⟨h5, put_self _ _ _⟩
      · simp only [if_neg hid]
        exact ⟨h6 i hid, put_other _ hid _⟩
  | look id =>
    obtain ⟨h4, h5, h6, h7, h8, -, -⟩ := look_some h
    exact ⟨h7.trans he, h8.trans htd, by rw [h5], fun i => ⟨by rw [h5], by rw [h4]⟩⟩
  | tickPlain => cases h; exact ⟨he, htd, rfl, fun i => ⟨rfl, rfl⟩⟩
  | tickCodes => cases h; exact ⟨he, htd, tick_length _, fun i => ⟨tick_at _ _, rfl⟩⟩
  | begin => simp only [Sys.ev, he, Option.isSome_some, Bool.true_or, if_true] at h; cases h; exact ⟨he, htd, rfl, fun i => ⟨rfl, rfl⟩⟩
  | finish order =>
    simp only [Sys.ev, Sys.finish, htd] at h
    cases h
    exact ⟨he, htd, rfl, fun i => ⟨rfl, rfl⟩⟩

theorem after_ev (fit : List V → V → B) {enc : V → B} {s t : Sys V B} (ha : After enc s) {e : Ev V} (h : s.ev fit e = some t) :
    After enc t ∧ (Complete enc s → e.ticks = false → Complete enc t) := by
  obtain ⟨h1, h2, h3⟩ := ha
  obtain ⟨h4, h5, -, h6⟩ := after_codes fit h1 h2 h
  have plain : (∀ i, at_ t.codes i = at_ s.codes i ∧ t.source i = s.source i) →
      After enc t ∧ (Complete enc s → e.ticks = false → Complete enc t) := fun hp => by
    refine ⟨⟨h4, h5, fun i b hb => ?_⟩, fun hc _ i v hv => ?_⟩
    · rw [(hp i).2]; rw [(hp i).1] at hb; exact h3 i b hb
    · rw [(hp i).1]; rw [(hp i).2] at hv; exact hc i v hv
  cases e with
  | insert id w =>
    refine ⟨⟨h4, h5, fun i b hb => ?_⟩, fun hc _ i v hv => ?_⟩
    · have h7 := h6 i
      by_cases hi : i = id
      · simp only [if_pos hi] at h7; exact ⟨w, h7.2, by rw [h7.1] at hb; exact (Option.some.inj hb).symm⟩
      · simp only [if_neg hi] at h7; rw [h7.2]; rw [h7.1] at hb; exact h3 i b hb
    · have h7 := h6 i
      by_cases hi : i = id
      · simp only [if_pos hi] at h7; rw [h7.2] at hv; cases hv; exact h7.1
      · simp only [if_neg hi] at h7; rw [h7.1]; rw [h7.2] at hv; exact hc i v hv
  | remove id =>
    refine ⟨⟨h4, h5, fun i b hb => ?_⟩, fun hc _ i v hv => ?_⟩
    · have h7 := h6 i
      by_cases hi : i = id
      · simp only [if_pos hi] at h7; rw [h7.1] at hb; cases hb
      · simp only [if_neg hi] at h7; rw [h7.2]; rw [h7.1] at hb; exact h3 i b hb
    · have h7 := h6 i
      by_cases hi : i = id
      · simp only [if_pos hi] at h7; rw [h7.2] at hv; cases hv
      · simp only [if_neg hi] at h7; rw [h7.1]; rw [h7.2] at hv; exact hc i v hv
  | tickCodes =>
    refine ⟨⟨h4, h5, fun i b hb => ?_⟩, fun _ hf => by cases hf⟩
    obtain ⟨h7, h8⟩ := h6 i
    rw [h8]
    rcases h7 with h7 | h7
    · rw [h7] at hb; exact h3 i b hb
    · rw [h7] at hb; cases hb
  | look id => exact plain h6
  | tickPlain => exact plain h6
  | begin => exact plain h6
  | finish order => exact plain h6

theorem after_run (fit : List V → V → B) {enc : V → B} : ∀ (es : List (Ev V)) {s t : Sys V B}, After enc s → s.run fit es = some t →
    After enc t ∧ (Complete enc s → (∀ e ∈ es, e.ticks = false) → Complete enc t)
  | [], s, t, ha, h => by cases h; exact ⟨ha, fun hc _ => hc⟩
  | e :: es, s, t, ha, h => by
    unfold Sys.run at h
    cases hev : s.ev fit e with
    | none => rw [hev] at h; cases h
    | some u =>
      rw [hev] at h
      obtain ⟨h1, h2⟩ := after_ev fit ha hev
      obtain ⟨h3, h4⟩ := after_run fit es h1 h
      exact ⟨h3, fun hc hall => h4 (h2 hc (hall e (by simp))) fun e he => hall e (by simp [he])⟩

/-- an empty place stays empty until something is inserted there -/
theorem empty_stays (fit : List V → V → B) {enc : V → B} {id : Nat} : ∀ (es : List (Ev V)) {s t : Sys V B}, s.enc = some enc →
    s.todo = none → at_ s.codes id = none → (∀ e ∈ es, e.inserts id = false) → s.run fit es = some t →
    at_ t.codes id = none ∧ t.codes.slots.length = s.codes.slots.length
  | [], s, t, _, _, hn, _, h => by cases h; exact ⟨hn, rfl⟩
  | e :: es, s, t, h1, h2, hn, hall, h => by
    unfold Sys.run at h
    cases hev : s.ev fit e with
    | none => rw [hev] at h; cases h
    | some u =>
      rw [hev] at h
      obtain ⟨h4, h5, hl, h6⟩ := after_codes fit h1 h2 hev
      have hu : at_ u.codes id = none := by
        have h7 := h6 id
        have h8 := hall e (by simp)
        cases e with
        | insert i w =>
          have hi : id ≠ i := fun hi => by simp [Ev.inserts, hi] at h8
          simp only [if_neg hi] at h7; rw [h7.1]; exact hn
        | remove i =>
          by_cases hi : id = i
          · simp only [if_pos hi] at h7; exact h7.1
          · simp only [if_neg hi] at h7; rw [h7.1]; exact hn
        | tickCodes => rcases h7.1 with h7 | h7 <;> rw [h7]; exact hn
        | look i => rw [h7.1]; exact hn
        | tickPlain => rw [h7.1]; exact hn
        | begin => rw [h7.1]; exact hn
        | finish order => rw [h7.1]; exact hn
      obtain ⟨h9, h10⟩ := empty_stays fit es h4 h5 hu (fun e he => hall e (by simp [he])) h
      exact ⟨h9, h10.trans hl⟩

end Compress
end Fave
