import Verif.Spec.VecCache
/-!
# Facts about the vector cache
-/
namespace Fave.VecCache

variable {α ε : Type}

/-- the cache holds exactly what is remembered -/
def Holds (c : Cache α) (m : Nat → Option α) : Prop := ∀ id, (c.slots[id]?).getD none = m id

theorem holds_new (n : Nat) (maxSize : Int) : Holds (new α n maxSize) fun _ => none := by
  intro id
  show ((List.replicate n none)[id]?).getD none = none
  rw [List.getElem?_replicate]
  split <;> rfl

theorem holds_set {c c' : Cache α} {m : Nat → Option α} (h : Holds c m) {id : Nat} (hid : id < c.slots.length) {v : Option α}
    (hc : c'.slots = c.slots.set id v) : Holds c' (put m id v) := by
  intro i
  rw [hc, List.getElem?_set]
  unfold put
  by_cases hi : i = id
  · subst hi; simp [hid]
  · rw [if_neg (by omega), if_neg hi]; exact h i

theorem write_some {c c' : Cache α} {id : Nat} {v : Option α} (h : c.write id v = some c') :
    id < c.slots.length ∧ c' = { c with slots := c.slots.set id v } := by
  unfold Cache.write at h
  by_cases hid : id < c.slots.length
  · rw [if_pos hid] at h; exact ⟨hid, (Option.some.inj h).symm⟩
  · rw [if_neg hid] at h; cases h

/-- look-ups: the answer and what is remembered afterwards -/
theorem get_spec (norm : Option α → Option α) (src : Nat → Except ε (Option α)) {c : Cache α} {m : Nat → Option α} (h : Holds c m)
    {id : Nat} (hid : id < c.slots.length) :
    (c.get norm src id).2 = answer norm src m id ∧ (c.get norm src id).1.slots.length = c.slots.length ∧
    ∀ m', Remembers norm m (.get id src) m' → Holds (c.get norm src id).1 m' := by
  have hm := h id
  rw [List.getElem?_eq_getElem hid] at hm
  simp only [Option.getD_some] at hm
  unfold Cache.get
  rw [List.getElem?_eq_getElem hid]
  cases hs : c.slots[id] with
  | some v =>
    rw [hs] at hm
    have ha : answer norm src m id = .ok (some v) := by unfold answer; rw [← hm]
    refine ⟨ha.symm, rfl, fun m' hr => ?_⟩
    cases hr with
    | failed e => rw [ha] at e; cases e
    | answered e =>
      rw [ha] at e
      cases e
      intro i
      unfold put
      by_cases hi : i = id
      · subst hi; rw [if_pos rfl]; exact (h i).trans hm.symm
      · rw [if_neg hi]; exact h i
  | none =>
    rw [hs] at hm
    dsimp only
    unfold Cache.miss
    cases hsrc : src id with
    | error e =>
      have ha : answer norm src m id = .fail e := by unfold answer; rw [← hm]; simp only [hsrc]
      refine ⟨ha.symm, rfl, fun m' hr => ?_⟩
      cases hr with
      | failed => exact h
      | answered e' => rw [ha] at e'; cases e'
    | ok w =>
      have ha : answer norm src m id = .ok (norm w) := by unfold answer; rw [← hm]; simp only [hsrc]
      dsimp only
      have hw : c.bump.write id (norm w) = some { c.bump with slots := c.slots.set id (norm w) } := by
        unfold Cache.write; rw [if_pos (by exact hid)]; rfl
      rw [hw]
      refine ⟨ha.symm, by simp, fun m' hr => ?_⟩
      cases hr with
      | failed e' => rw [ha] at e'; cases e'
      | answered e' =>
        rw [ha] at e'
        cases e'
        exact holds_set h hid rfl

theorem get_outside (norm : Option α → Option α) (src : Nat → Except ε (Option α)) {c : Cache α} {id : Nat}
    (h : c.slots.length ≤ id) : (c.get norm src id).2 = .panic := by
  unfold Cache.get
  rw [List.getElem?_eq_none h]

theorem growLocked_get (c : Cache α) {node : Nat} (hn : node + 25000 < 2 ^ 64) (hl : c.slots.length ≤ node) (id : Nat) :
    ((c.growLocked node).slots[id]?).getD none = (c.slots[id]?).getD none := by
  unfold Cache.growLocked
  dsimp only
  rw [Nat.mod_eq_of_lt hn, List.take_of_length_le (by omega), List.getElem?_append]
  by_cases h : id < c.slots.length
  · rw [if_pos h]
  · rw [if_neg h, List.getElem?_replicate, List.getElem?_eq_none (by omega)]
    split <;> rfl

theorem growLocked_length (c : Cache α) {node : Nat} (hn : node + 25000 < 2 ^ 64) (hl : c.slots.length ≤ node) :
    (c.growLocked node).slots.length = node + 25000 := by
  unfold Cache.growLocked
  dsimp only
  rw [Nat.mod_eq_of_lt hn, List.length_append, List.length_replicate, List.length_take]
  omega

theorem clear_get (c : Cache α) (id : Nat) : (c.clear.slots[id]?).getD none = none := by
  unfold Cache.clear
  dsimp only
  rw [List.getElem?_map]
  cases c.slots[id]? <;> rfl

theorem apply_spec (norm : Option α → Option α) {c c' : Cache α} {m : Nat → Option α} (h : Holds c m) (op : Op α ε)
    (hc : apply norm c op = some c') :
    (∃ m', Remembers norm m op m' ∧ Holds c' m') ∧ c.slots.length ≤ c'.slots.length ∧
    ∀ n, op = .grow n → n < c'.slots.length := by
  cases op with
  | get id src =>
    by_cases hid : id < c.slots.length
    · obtain ⟨h1, h2, h3⟩ := get_spec norm src h hid
      unfold apply at hc
      dsimp only at hc
      generalize hg : c.get norm src id = r at hc h1 h2 h3
      obtain ⟨c1, g⟩ := r
      dsimp only at h1 h2 h3
      cases g with
      | panic => cases hc
      | ok v =>
        cases hc
        exact ⟨⟨_, .answered h1.symm, h3 _ (.answered h1.symm)⟩, by omega, fun n hn => by cases hn⟩
      | fail e =>
        cases hc
        exact ⟨⟨_, .failed h1.symm, h3 _ (.failed h1.symm)⟩, by omega, fun n hn => by cases hn⟩
    · have := get_outside norm src (c := c) (id := id) (by omega)
      unfold apply at hc
      dsimp only at hc
      generalize hg : c.get norm src id = r at hc this
      obtain ⟨c1, g⟩ := r
      dsimp only at this
      subst this
      cases hc
  | preload id v =>
    obtain ⟨h1, rfl⟩ := write_some (show c.bump.write id v = some c' from hc)
    exact ⟨⟨_, .preload, holds_set h h1 rfl⟩, by simp [Cache.bump], fun n hn => by cases hn⟩
  | delete id =>
    unfold apply Cache.delete at hc
    dsimp only at hc
    have hm := h id
    cases hs : c.slots[id]? with
    | none =>
      rw [hs] at hc hm
      dsimp only at hc
      by_cases hb : id < 2 ^ 63
      · rw [if_pos hb] at hc
        cases hc
        refine ⟨⟨_, .delete, fun i => ?_⟩, Nat.le_refl _, fun n hn => by cases hn⟩
        unfold put
        by_cases hi : i = id
        · subst hi; rw [if_pos rfl, hs]; rfl
        · rw [if_neg hi]; exact h i
      · rw [if_neg hb] at hc; cases hc
    | some x =>
      obtain ⟨hid, -⟩ := List.getElem?_eq_some_iff.1 hs
      rw [hs] at hc hm
      cases x with
      | none =>
        cases hc
        refine ⟨⟨_, .delete, fun i => ?_⟩, Nat.le_refl _, fun n hn => by cases hn⟩
        unfold put
        by_cases hi : i = id
        · subst hi; rw [if_pos rfl, hs]; rfl
        · rw [if_neg hi]; exact h i
      | some y =>
        cases hc
        exact ⟨⟨_, .delete, holds_set h hid rfl⟩, by simp, fun n hn => by cases hn⟩
  | grow node =>
    unfold apply at hc
    dsimp only at hc
    by_cases hn : node + 25000 < 2 ^ 64
    · rw [if_pos hn] at hc
      cases hc
      unfold Cache.grow
      by_cases hl : node < c.slots.length
      · rw [if_pos hl]
        exact ⟨⟨m, .grow, h⟩, Nat.le_refl _, fun n hn => by cases hn; exact hl⟩
      · rw [if_neg hl]
        have hlen := growLocked_length c hn (by omega)
        exact ⟨⟨m, .grow, fun i => (growLocked_get c hn (by omega) i).trans (h i)⟩, by omega,
          fun n hn => by cases hn; omega⟩
    · rw [if_neg hn] at hc; cases hc
  | tick =>
    unfold apply at hc
    cases hc
    unfold Cache.tick
    by_cases hf : c.maxSize ≤ c.count
    · rw [if_pos hf]
      exact ⟨⟨_, .wiped, fun i => clear_get c i⟩, by simp [Cache.clear], fun n hn => by cases hn⟩
    · rw [if_neg hf]
      exact ⟨⟨_, .kept, h⟩, Nat.le_refl _, fun n hn => by cases hn⟩
  | setMax k =>
    unfold apply at hc
    cases hc
    exact ⟨⟨_, .setMax, h⟩, Nat.le_refl _, fun n hn => by cases hn⟩

theorem applyAll_spec (norm : Option α → Option α) (ops : List (Op α ε)) {c c' : Cache α} {m : Nat → Option α} (h : Holds c m)
    (hc : applyAll norm c ops = some c') :
    (∃ m', RemembersAll norm m ops m' ∧ Holds c' m') ∧ c.slots.length ≤ c'.slots.length ∧
    ∀ n, .grow n ∈ ops → n < c'.slots.length := by
  induction ops generalizing c m with
  | nil => cases hc; exact ⟨⟨m, .nil, h⟩, Nat.le_refl _, by simp⟩
  | cons op ops ih =>
    unfold applyAll at hc
    cases h1 : apply norm c op with
    | none => rw [h1] at hc; cases hc
    | some c1 =>
      rw [h1] at hc
      dsimp only at hc
      obtain ⟨⟨m1, hm1, hh1⟩, hl1, hg1⟩ := apply_spec norm h op h1
      obtain ⟨⟨m2, hm2, hh2⟩, hl2, hg2⟩ := ih hh1 hc
      refine ⟨⟨m2, .cons hm1 hm2, hh2⟩, by omega, fun n hn => ?_⟩
      rcases List.mem_cons.1 hn with hn | hn
      · have := hg1 n hn.symm; omega
      · exact hg2 n hn

theorem answer_put (norm : Option α → Option α) (src : Nat → Except ε (Option α)) (m : Nat → Option α) {id : Nat} {v : Option α}
    (h : answer norm src m id = .ok v) (i : Nat) : answer norm src (put m id v) i = answer norm src m i := by
  by_cases hi : i = id
  · subst hi
    rw [h]
    unfold answer put
    rw [if_pos rfl]
    cases v with
    | some v => rfl
    | none =>
      unfold answer at h
      cases hm : m i with
      | some w => rw [hm] at h; cases h
      | none => rw [hm] at h; exact h
  · unfold answer put
    rw [if_neg hi]

/-- the answer as `multiGet` gives it: a vector and an error -/
def Got.pair : Got α ε → Option α × Option ε
  | .ok v => (v, none)
  | .fail e => (none, some e)
  | .panic => (none, none)

theorem multiGet_spec (norm : Option α → Option α) (src : Nat → Except ε (Option α)) (ids : List Nat) {c : Cache α}
    {m : Nat → Option α} (hm : Holds c m) (hid : ∀ i ∈ ids, i < c.slots.length) :
    (c.multiGet norm src ids).2 = some (ids.map fun i => (answer norm src m i).pair) := by
  induction ids generalizing c m with
  | nil => rfl
  | cons id ids ih =>
    obtain ⟨h1, h2, h3⟩ := get_spec norm src hm (hid id (by simp))
    unfold Cache.multiGet
    generalize c.get norm src id = r at h1 h2 h3
    obtain ⟨c1, g⟩ := r
    dsimp only at h1 h2 h3
    have hid' : ∀ i ∈ ids, i < c1.slots.length := fun i hi => by have := hid i (by simp [hi]); omega
    cases g with
    | panic =>
      unfold answer at h1
      cases hmi : m id <;> rw [hmi] at h1
      · dsimp only at h1
        cases hs : src id <;> rw [hs] at h1 <;> cases h1
      · cases h1
    | ok v =>
      have := ih (h3 _ (.answered h1.symm)) hid'
      dsimp only
      generalize c1.multiGet norm src ids = q at this
      obtain ⟨c2, rest⟩ := q
      dsimp only at this
      subst this
      dsimp only
      simp only [answer_put norm src m h1.symm, List.map_cons, ← h1]
      rfl
    | fail e =>
      have := ih (h3 _ (.failed h1.symm)) hid'
      dsimp only
      generalize c1.multiGet norm src ids = q at this
      obtain ⟨c2, rest⟩ := q
      dsimp only at this
      subst this
      dsimp only
      simp only [List.map_cons, ← h1]
      rfl

theorem applyAll_append (norm : Option α → Option α) (ops ops' : List (Op α ε)) (c : Cache α) :
    applyAll norm c (ops ++ ops') = (applyAll norm c ops).bind fun c => applyAll norm c ops' := by
  induction ops generalizing c with
  | nil => rfl
  | cons op ops ih =>
    simp only [List.cons_append, applyAll]
    cases apply norm c op with
    | none => rfl
    | some c => exact ih c

/-! ## the counter -/

theorem countP_set_le (l : List (Option α)) (i : Nat) (v : Option α) :
    (l.set i v).countP Option.isSome ≤ l.countP Option.isSome + 1 := by
  induction l generalizing i with
  | nil => simp
  | cons x l ih =>
    cases i with
    | zero => simp only [List.set_cons_zero, List.countP_cons]; split <;> omega
    | succ i => simp only [List.set_cons_succ, List.countP_cons]; have := ih i; omega

theorem countP_set_none (l : List (Option α)) (i : Nat) (v : α) (h : l[i]? = some (some v)) :
    (l.set i none).countP Option.isSome + 1 = l.countP Option.isSome := by
  induction l generalizing i with
  | nil => simp at h
  | cons x l ih =>
    cases i with
    | zero => simp at h; subst h; simp
    | succ i =>
      simp only [List.set_cons_succ, List.countP_cons]
      have := ih i (by simpa using h)
      omega

theorem get_filled (norm : Option α → Option α) (src : Nat → Except ε (Option α)) (c : Cache α) (id : Nat)
    (h : (filled c : Int) ≤ c.count) : (filled (c.get norm src id).1 : Int) ≤ (c.get norm src id).1.count := by
  unfold Cache.get
  cases c.slots[id]? with
  | none => exact h
  | some x =>
    cases x with
    | some v => exact h
    | none =>
      dsimp only
      unfold Cache.miss
      cases src id with
      | error e => exact h
      | ok w =>
        dsimp only
        cases hw : c.bump.write id (norm w) with
        | none => dsimp only; unfold Cache.bump; unfold filled at h ⊢; dsimp only; omega
        | some c1 =>
          obtain ⟨-, rfl⟩ := write_some hw
          dsimp only
          unfold Cache.bump
          unfold filled at h ⊢
          have := countP_set_le c.slots id (norm w)
          dsimp only
          omega

theorem apply_filled (norm : Option α → Option α) {c c' : Cache α} (op : Op α ε) (hc : apply norm c op = some c')
    (h : (filled c : Int) ≤ c.count) : (filled c' : Int) ≤ c'.count := by
  cases op with
  | get id src =>
    have := get_filled norm src c id h
    unfold apply at hc
    dsimp only at hc
    generalize c.get norm src id = r at hc this
    obtain ⟨c1, g⟩ := r
    cases g <;> cases hc <;> exact this
  | preload id v =>
    obtain ⟨-, rfl⟩ := write_some (show c.bump.write id v = some c' from hc)
    unfold Cache.bump
    unfold filled at h ⊢
    have := countP_set_le c.slots id v
    dsimp only
    omega
  | delete id =>
    unfold apply Cache.delete at hc
    dsimp only at hc
    cases hs : c.slots[id]? with
    | none =>
      rw [hs] at hc
      dsimp only at hc
      by_cases hb : id < 2 ^ 63
      · rw [if_pos hb] at hc; cases hc; exact h
      · rw [if_neg hb] at hc; cases hc
    | some x =>
      rw [hs] at hc
      cases x with
      | none => cases hc; exact h
      | some y =>
        cases hc
        unfold filled at h ⊢
        have := countP_set_none c.slots id y hs
        dsimp only
        omega
  | grow node =>
    unfold apply at hc
    dsimp only at hc
    by_cases hn : node + 25000 < 2 ^ 64
    · rw [if_pos hn] at hc
      cases hc
      unfold Cache.grow
      by_cases hl : node < c.slots.length
      · rw [if_pos hl]; exact h
      · rw [if_neg hl]
        have h1 := growLocked_length c hn (by omega)
        have h2 : (c.growLocked node).slots.countP Option.isSome ≤ (c.growLocked node).slots.length := List.countP_le_length
        have h3 : (c.growLocked node).count = ((node + 25000 : Nat) : Int) := by
          unfold Cache.growLocked; dsimp only; rw [Nat.mod_eq_of_lt hn]
        unfold filled
        rw [h3]
        omega
    · rw [if_neg hn] at hc; cases hc
  | tick =>
    unfold apply at hc
    cases hc
    unfold Cache.tick
    by_cases hf : c.maxSize ≤ c.count
    · rw [if_pos hf]
      unfold filled Cache.clear
      dsimp only
      rw [List.countP_map]
      simp [Function.comp_def]
    · rw [if_neg hf]; exact h
  | setMax k => unfold apply at hc; cases hc; exact h

theorem applyAll_filled (norm : Option α → Option α) (ops : List (Op α ε)) {c c' : Cache α} (hc : applyAll norm c ops = some c')
    (h : (filled c : Int) ≤ c.count) : (filled c' : Int) ≤ c'.count := by
  induction ops generalizing c with
  | nil => cases hc; exact h
  | cons op ops ih =>
    unfold applyAll at hc
    cases h1 : apply norm c op with
    | none => rw [h1] at hc; cases hc
    | some c1 => rw [h1] at hc; exact ih hc (apply_filled norm op h1 h)

/-! ## goroutines -/

theorem Explained.mono {norm : Option α → Option α} {l : List (Ev α)} {id : Nat} {v : Option α} (h : Explained norm l id v)
    (e : Ev α) : Explained norm (e :: l) id v := by
  rcases h with h | ⟨w, h, hw⟩
  · exact .inl (List.mem_cons_of_mem _ h)
  · exact .inr ⟨w, List.mem_cons_of_mem _ h, hw⟩

/-- everything held anywhere is explained -/
structure Sound (norm : Option α → Option α) (s : Sys α) : Prop where
  slots : ∀ (id : Nat) (v : α), s.cache.slots[id]? = some (some v) → Explained norm s.log id (some v)
  count : ∀ t id v, s.pc t = .count id v → Explained norm s.log id v
  fill : ∀ t id v, s.pc t = .fill id v → Explained norm s.log id v
  log : ∀ later before id v, s.log = later ++ .returned id v :: before → Explained norm before id v

theorem Sound.goto {norm : Option α → Option α} {s : Sys α} (h : Sound norm s) (t : Nat) (p : Pc α)
    (hp : ∀ id v, p = .count id v ∨ p = .fill id v → Explained norm s.log id v) : Sound norm (s.goto t p) := by
  refine ⟨h.slots, fun u id v hu => ?_, fun u id v hu => ?_, h.log⟩
  · unfold Sys.goto at hu ⊢
    dsimp only at hu ⊢
    by_cases e : u = t
    · rw [if_pos e] at hu; exact hp id v (.inl hu)
    · rw [if_neg e] at hu; exact h.count u id v hu
  · unfold Sys.goto at hu ⊢
    dsimp only at hu ⊢
    by_cases e : u = t
    · rw [if_pos e] at hu; exact hp id v (.inr hu)
    · rw [if_neg e] at hu; exact h.fill u id v hu

theorem Sound.note {norm : Option α → Option α} {s : Sys α} (h : Sound norm s) (e : Ev α)
    (he : ∀ id v, e = .returned id v → Explained norm s.log id v) : Sound norm (s.note e) := by
  refine ⟨fun id v hv => (h.slots id v hv).mono e, fun t id v hv => (h.count t id v hv).mono e,
    fun t id v hv => (h.fill t id v hv).mono e, fun later before id v hl => ?_⟩
  have hl : e :: s.log = later ++ .returned id v :: before := hl
  cases later with
  | nil =>
    rw [List.nil_append, List.cons.injEq] at hl
    rw [← hl.2]; exact he id v hl.1
  | cons x later =>
    rw [List.cons_append, List.cons.injEq] at hl
    exact h.log later before id v hl.2

theorem Sound.cache {norm : Option α → Option α} {s : Sys α} (h : Sound norm s) (c : Cache α)
    (hc : ∀ (id : Nat) (v : α), c.slots[id]? = some (some v) → Explained norm s.log id (some v)) :
    Sound norm { s with cache := c } := ⟨hc, h.count, h.fill, h.log⟩

theorem growLocked_sub (c : Cache α) (node id : Nat) (v : α) (h : (c.growLocked node).slots[id]? = some (some v)) :
    c.slots[id]? = some (some v) := by
  unfold Cache.growLocked at h
  dsimp only at h
  rw [List.getElem?_append] at h
  split at h
  · rename_i hlt
    rw [List.getElem?_take] at h
    split at h
    · exact h
    · cases h
  · rw [List.getElem?_replicate] at h
    split at h <;> simp at h

theorem Sound.step {norm : Option α → Option α} {s u : Sys α} (h : Sound norm s) (hs : Step norm s u) : Sound norm u := by
  cases hs with
  | call t id hp => exact h.goto t _ (by simp)
  | hit t id v hp hv =>
    exact (h.goto t .idle (by simp)).note _ fun i w e => by cases e; exact h.slots id v hv
  | missed t id hp hv => exact h.goto t _ (by simp)
  | outside t id hp hv => exact (h.goto t .idle (by simp)).note _ (by simp)
  | fetch t id v hp =>
    have h1 : Sound norm (s.note (.fetched id v)) := h.note _ (by simp)
    have h2 := h1.goto t (.count id (norm v)) (fun i w e => by
      rcases e with e | e <;> cases e
      exact .inr ⟨v, List.mem_cons_self, rfl⟩)
    exact h2
  | fetchFail t id hp => exact (h.goto t .idle (by simp)).note _ (by simp)
  | bump t id v hp =>
    refine (h.goto t (.fill id v) (fun i w e => ?_)).cache s.cache.bump h.slots
    rcases e with e | e <;> cases e
    exact h.count t id v hp
  | fill t id v c hp hw =>
    obtain ⟨hid, rfl⟩ := write_some hw
    have hv := h.fill t id v hp
    refine ((h.goto t .idle (by simp)).cache _ fun i w hi => ?_).note _ fun i w e => by cases e; exact hv
    dsimp only at hi
    rw [List.getElem?_set] at hi
    by_cases e : id = i
    · subst e
      rw [if_pos rfl, if_pos hid, Option.some.injEq] at hi
      subst hi
      exact hv
    · rw [if_neg e] at hi; exact h.slots i w hi
  | fillOutside t id v hp hw => exact (h.goto t .idle (by simp)).note _ (by simp)
  | preload id v c hw =>
    obtain ⟨hid, rfl⟩ := write_some (show s.cache.bump.write id v = some c from hw)
    have h1 : Sound norm (s.note (.loaded id v)) := h.note _ (by simp)
    refine h1.cache { s.cache.bump with slots := s.cache.bump.slots.set id v } fun i w hi => ?_
    dsimp only at hi
    rw [List.getElem?_set] at hi
    by_cases e : id = i
    · subst e
      rw [if_pos rfl, if_pos hid, Option.some.injEq] at hi
      subst hi
      exact .inl List.mem_cons_self
    · rw [if_neg e] at hi; exact (h.slots i w hi).mono _
  | delete id c hc =>
    refine h.cache c fun i w hi => ?_
    unfold Cache.delete at hc
    cases hs : s.cache.slots[id]? with
    | none =>
      rw [hs] at hc
      dsimp only at hc
      by_cases hb : id < 2 ^ 63
      · rw [if_pos hb] at hc; cases hc; exact h.slots i w hi
      · rw [if_neg hb] at hc; cases hc
    | some x =>
      rw [hs] at hc
      cases x with
      | none => cases hc; exact h.slots i w hi
      | some y =>
        cases hc
        dsimp only at hi
        rw [List.getElem?_set] at hi
        by_cases e : id = i
        · subst e
          rw [if_pos rfl] at hi
          split at hi <;> simp at hi
        · rw [if_neg e] at hi; exact h.slots i w hi
  | growCheck t node hp hl => exact h.goto t _ (by simp)
  | grow t node hp =>
    exact (h.goto t .idle (by simp)).cache _ fun i w hi => h.slots i w (growLocked_sub _ _ _ _ hi)
  | tickCheck t hp hl => exact h.goto t _ (by simp)
  | tick t hp =>
    refine (h.goto t .idle (by simp)).cache _ fun i w hi => ?_
    have := clear_get s.cache i
    rw [hi] at this
    cases this

theorem sound_start (norm : Option α → Option α) (n : Nat) (maxSize : Int) : Sound norm (start α n maxSize) := by
  refine ⟨fun id v h => ?_, fun t id v h => (by cases h), fun t id v h => (by cases h), fun later before id v h => ?_⟩
  · have := holds_new (α := α) n maxSize id
    rw [show (new α n maxSize).slots[id]? = some (some v) from h] at this
    cases this
  · have h : [] = later ++ .returned id v :: before := h
    simp at h

theorem sound_steps {norm : Option α → Option α} {s u : Sys α} (h : Sound norm s) (hs : Steps norm s u) : Sound norm u := by
  induction hs with
  | refl => exact h
  | step _ h2 ih => exact ih.step h2

end Fave.VecCache
