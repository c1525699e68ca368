import Verif.Lemmas.CompressRun
/-!
# C62 — Compressing keeps every vector's code under its own id

Full statement: after `Compress` every vertex is compared through the code of its own vector: looking up the code of an id gives the
encoding of the vector of that id, whatever was inserted, removed, loaded or dropped before and after.

This is false.  `Compress` collects the vectors in the cache without the empty places and keeps the codes under the position in that
list instead of the id.  `right_iff_gapless` says exactly when the codes are right: if and only if no place of the vector cache before
a vector is empty.  Otherwise the codes behind the first empty place belong to other vertices (`shifted`) and the last vertices have
none.  A cache that was filled by searches after a restart has such places (`restart_mixes_up`).
Further: vectors inserted between the two parts of `Compress` get no code (`inserted_meanwhile`), and codes that were dropped because
the cache of codes counts more vectors than it may hold never come back (`dropped_for_good`) — which happens within three seconds
if the limit is at most the size of the table plus 25000 (`small_limit_drops_all`), since growing counts all new places as filled.

Proved as `codes_right_partial`: if there is no empty place before a vector when `Compress` runs, and nothing happens between its two
parts, then from then on no id ever has the code of another vector; and if all vectors were in the cache and no check of the size
happens, every id has its code.
-/
namespace Fave.C62
open Fave.Compress

variable {V B : Type}

/-- Any history of an index that is not compressed yet, then `Compress`, its places handled in any order: all vectors in the cache have
their own code, in the cache of codes and in the store, if and only if the vector cache has no empty place before a vector. -/
theorem right_iff_gapless (fit : List V → V → B) (source : Nat → Option V) (n : Nat) (maxSize : Int) (hn : n + 25000 < 2 ^ 64)
    (es : List (Ev V)) (s : Sys V B) (hs : (start B source n maxSize).run fit es = some s) (he : s.enc = none) (ht : s.todo = none)
    (order : List Nat) (ho : order.Perm (List.range (s.plain.slots.filterMap id).length)) :
    ∃ t enc, s.run fit [.begin, .finish order] = some t ∧ t.enc = some enc ∧ (s.Right t enc ↔ s.Gapless) := by
  have hb := before_run fit es (before_start B source n maxSize) rfl hs he
  obtain ⟨t, h1, h2, -, -, -, -, -, h3⟩ := compress_spec fit hb he ht hn ho
  refine ⟨t, _, h1, h2, fun hr => ?_, fun hg id v hv => ?_⟩
  · refine gapless_of_filterMap _ fun i v hi => ?_
    have hc := (hr i v (by unfold Sys.cached; rw [hi]; rfl)).2
    rw [(h3 i).2] at hc
    cases hx : (s.plain.slots.filterMap id)[i]? with
    | none => rw [hx] at hc; cases hc
    | some w => rfl
  · have hx := filterMap_gapless s.plain.slots hg id
    obtain ⟨h4, h5⟩ := h3 id
    have hv : (s.plain.slots[id]?).getD none = some v := hv
    rw [hx, hv] at h4 h5
    exact ⟨code_of_at h4, h5⟩

/-- What stands under an id with an empty place before it: nothing, or the code of the vector of a larger id. -/
theorem shifted (fit : List V → V → B) (source : Nat → Option V) (n : Nat) (maxSize : Int) (hn : n + 25000 < 2 ^ 64)
    (es : List (Ev V)) (s : Sys V B) (hs : (start B source n maxSize).run fit es = some s) (he : s.enc = none) (ht : s.todo = none)
    (order : List Nat) (ho : order.Perm (List.range (s.plain.slots.filterMap id).length)) (g id : Nat) (hg : g < n)
    (hgap : s.cached g = none) (hid : g ≤ id) (hin : id < n) :
    ∃ t enc, s.run fit [.begin, .finish order] = some t ∧ t.enc = some enc ∧
      (code t.codes id = .fail .notImplemented ∨ ∃ p v, id < p ∧ s.cached p = some v ∧ code t.codes id = .ok (some (enc v))) := by
  have hb := before_run fit es (before_start B source n maxSize) rfl hs he
  obtain ⟨t, h1, h2, -, -, hl, -, -, h3⟩ := compress_spec fit hb he ht hn ho
  refine ⟨t, _, h1, h2, ?_⟩
  obtain ⟨h4, -⟩ := h3 id
  cases hx : (s.plain.slots.filterMap _root_.id)[id]? with
  | none =>
    rw [hx] at h4
    left
    rw [code_eq (by omega), h4]
    rfl
  | some v =>
    rw [hx] at h4
    obtain ⟨p, -, h6, h7⟩ := filterMap_from _ _ _ hx
    have hg' : s.plain.slots[g]? = some none := by
      have hgl : g < s.plain.slots.length := by rw [hb.size]; exact hg
      unfold Sys.cached at hgap
      rw [List.getElem?_eq_getElem hgl] at hgap ⊢
      exact congrArg some hgap
    exact Or.inr ⟨p, v, h7 ⟨g, hid, hg'⟩, by unfold Sys.cached; rw [h6]; rfl, code_of_at h4⟩

/-- Without empty places before vectors, and with nothing between the two parts of `Compress`: whatever happens afterwards, the code
under an id is that of the vertex's own vector or there is an error; and if all vectors were in the cache when `Compress` ran, there
is no error until the size of the cache of codes is checked. -/
theorem codes_right_partial (fit : List V → V → B) (source : Nat → Option V) (n : Nat) (maxSize : Int) (hn : n + 25000 < 2 ^ 64)
    (es : List (Ev V)) (s : Sys V B) (hs : (start B source n maxSize).run fit es = some s) (he : s.enc = none) (ht : s.todo = none)
    (hg : s.Gapless) (order : List Nat) (ho : order.Perm (List.range (s.plain.slots.filterMap id).length))
    (later : List (Ev V)) (u : Sys V B) (hu : s.run fit (.begin :: .finish order :: later) = some u) :
    ∃ enc, u.enc = some enc ∧ (∀ id b, code u.codes id = .ok b → ∃ v, u.source id = some v ∧ b = some (enc v)) ∧
      ((∀ id v, s.source id = some v → s.cached id = some v) → (∀ e ∈ later, e.ticks = false) →
        ∀ id v, u.source id = some v → code u.codes id = .ok (some (enc v))) := by
  have hb := before_run fit es (before_start B source n maxSize) rfl hs he
  obtain ⟨t, h1, h2, h3, h4, -, -, -, h5⟩ := compress_spec fit hb he ht hn ho
  have hx := filterMap_gapless s.plain.slots hg
  have hr : t.run fit later = some u := by
    have := run_append fit [.begin, .finish order] later s
    rw [h1] at this
    exact this.symm.trans hu
  have ha : After (fit (s.plain.slots.filterMap id)) t := ⟨h2, h3, fun i b hi => by
    rw [(h5 i).1, hx] at hi
    cases hv : (s.plain.slots[i]?).getD none with
    | none => rw [hv] at hi; cases hi
    | some v => rw [hv] at hi; exact ⟨v, by rw [h4]; exact hb.own i v hv, (Option.some.inj hi).symm⟩⟩
  obtain ⟨h6, h7⟩ := after_run fit later ha hr
  refine ⟨_, h6.on, fun i b hi => ?_, fun hall hnt i v hv => ?_⟩
  · obtain ⟨b', rfl, hb'⟩ := code_ok hi
    obtain ⟨v, hv, rfl⟩ := h6.own i b' hb'
    exact ⟨v, hv, rfl⟩
  · refine code_of_at (h7 (fun i v hv => ?_) hnt i v hv)
    rw [h4] at hv
    have := hall i v hv
    rw [(h5 i).1, hx, show (s.plain.slots[i]?).getD none = some v from this]
    rfl

/-- A limit of at most the size of the table plus 25000 vectors: after `Compress`, the first check of the size drops every code. -/
theorem small_limit_drops_all (fit : List V → V → B) (source : Nat → Option V) (n : Nat) (maxSize : Int) (hn : n + 25000 < 2 ^ 64)
    (hm : maxSize ≤ n + 25000) (es : List (Ev V)) (s : Sys V B) (hs : (start B source n maxSize).run fit es = some s)
    (he : s.enc = none) (ht : s.todo = none) (order : List Nat)
    (ho : order.Perm (List.range (s.plain.slots.filterMap id).length)) :
    ∃ t, s.run fit [.begin, .finish order, .tickCodes] = some t ∧ ∀ id, id < n → code t.codes id = .fail .notImplemented := by
  have hb := before_run fit es (before_start B source n maxSize) rfl hs he
  obtain ⟨t, h1, h2, h3, -, h4, h5, h6, -⟩ := compress_spec fit hb he ht hn ho
  refine ⟨{ t with codes := tick t.codes }, ?_, fun i hi => ?_⟩
  · have := run_append fit [.begin, .finish order] [.tickCodes] s
    rw [h1] at this
    exact this
  · have hc : tick t.codes = t.codes.clear := if_pos (by omega)
    show code (tick t.codes) i = _
    rw [hc, code_eq (by rw [clear_length]; omega)]
    rw [show at_ t.codes.clear i = none from VecCache.clear_get t.codes i]

/-- Codes that were dropped do not come back: an id without a code has none until a vector is inserted under it. -/
theorem dropped_for_good (fit : List V → V → B) (enc : V → B) (s : Sys V B) (he : s.enc = some enc) (ht : s.todo = none) (id : Nat)
    (hd : code s.codes id = .fail .notImplemented) (es : List (Ev V)) (hi : ∀ e ∈ es, e.inserts id = false) (t : Sys V B)
    (h : s.run fit es = some t) : code t.codes id = .fail .notImplemented := by
  have hl : id < s.codes.slots.length := by
    unfold code at hd
    cases hs : s.codes.slots[id]? with
    | none => rw [hs] at hd; cases hd
    | some o => exact (List.getElem?_eq_some_iff.mp hs).1
  have hn : at_ s.codes id = none := by
    rw [code_eq hl] at hd
    cases hx : at_ s.codes id with
    | none => rfl
    | some b => rw [hx] at hd; cases hd
  obtain ⟨h1, h2⟩ := empty_stays fit es he ht hn hi h
  rw [code_eq (by omega), h1]

/-! ## what goes wrong -/

/-- a quantizer that changes nothing -/
def exact_ : List Nat → Nat → Nat := fun _ v => v

/-- ten vectors in storage -/
def ten : Nat → Option Nat := fun i => if i < 10 then some (100 + i) else none

/-- a table of 25000 places with two vectors -/
theorem two_looked_up : ∃ s : Sys Nat Nat, (start Nat ten 25000 1000000000000).run exact_ [.look 5, .look 7] = some s ∧
    s.enc = none ∧ s.todo = none ∧ s.source = ten ∧ s.plain.slots.filterMap id = [105, 107] ∧
    s.cached 0 = none ∧ s.cached 5 = some 105 := by
  have s0 : (start Nat ten 25000 1000000000000).plain.slots = List.replicate 25000 none := rfl
  obtain ⟨a, a1, a2, -, -, a5, a6, a7⟩ := look_fills exact_ (start Nat ten 25000 1000000000000) 5 105
    (by rw [s0, List.getElem?_replicate]; rfl) rfl
  rw [s0] at a7
  obtain ⟨b, b1, b2, -, -, b5, b6, b7⟩ := look_fills exact_ a 7 107
    (by rw [a7, List.getElem?_set_ne (by decide), List.getElem?_replicate]; rfl) (by rw [a2]; rfl)
  have e : b.plain.slots = [none, none, none, none, none, some 105, none, some 107] ++ List.replicate 24992 none := by
    rw [b7, a7, show 25000 = 8 + 24992 from rfl, ← List.replicate_append_replicate, List.set_append_left _ _ (by decide),
      List.set_append_left _ _ (by decide)]
    rfl
  refine ⟨b, by simp only [Sys.run, a1, b1], by rw [b5, a5]; rfl, by rw [b6, a6]; rfl, by rw [b2, a2]; rfl, ?_, ?_, ?_⟩
  · rw [e, List.filterMap_append, List.filterMap_replicate_of_none rfl]
    rfl
  · unfold Sys.cached; rw [e]; rfl
  · unfold Sys.cached; rw [e]; rfl

/-- After a restart a search looks up the vectors of 5 and 7; then the vectors are compressed.  The codes under 0 and 1 are those of the
vectors of 5 and 7, and 5 and 7 have none. -/
theorem restart_mixes_up : ∃ t : Sys Nat Nat,
    (start Nat ten 25000 1000000000000).run exact_ [.look 5, .look 7, .begin, .finish [0, 1]] = some t ∧
    t.source 0 = some 100 ∧ code t.codes 0 = .ok (some 105) ∧ code t.codes 1 = .ok (some 107) ∧
    code t.codes 5 = .fail .notImplemented ∧ code t.codes 7 = .fail .notImplemented := by
  obtain ⟨s, h1, h2, h3, h4, h5, -, -⟩ := two_looked_up
  have hb := before_run exact_ _ (before_start Nat ten 25000 1000000000000) rfl h1 h2
  obtain ⟨t, k1, -, -, k4, k5, -, -, k6⟩ := compress_spec exact_ hb h2 h3 (by decide) (order := [0, 1]) (by rw [h5]; decide)
  have hr := run_append exact_ [.look 5, .look 7] [.begin, .finish [0, 1]] (start Nat ten 25000 1000000000000)
  rw [h1] at hr
  rw [h5] at k6
  have fails : ∀ i, i < 25000 → at_ t.codes i = none → code t.codes i = .fail .notImplemented := fun i hi hn => by
    rw [code_eq (by omega), hn]
  exact ⟨t, hr.trans k1, by rw [k4, h4]; rfl, code_of_at (k6 0).1, code_of_at (k6 1).1, fails 5 (by decide) (k6 5).1,
    fails 7 (by decide) (k6 7).1⟩

/-- A vector inserted between the two parts of `Compress` has no code afterwards. -/
theorem inserted_meanwhile : ∃ t : Sys Nat Nat,
    (start Nat (fun _ => none) 25000 1000000000000).run exact_ [.insert 0 100, .begin, .insert 1 101, .finish [0]] = some t ∧
    t.source 1 = some 101 ∧ code t.codes 0 = .ok (some 100) ∧ code t.codes 1 = .fail .notImplemented := by
  have s0 : (start Nat (fun _ => none) 25000 1000000000000 : Sys Nat Nat).plain.slots = List.replicate 25000 none := rfl
  have c0 : (start Nat (fun _ => none) 25000 1000000000000 : Sys Nat Nat).codes.slots = List.replicate 25000 none := rfl
  obtain ⟨a, a1, a2, a3, -, a5, a6, a7⟩ := insert_fills exact_ (start Nat (fun _ => none) 25000 1000000000000) 0 100
    (by rw [s0, List.length_replicate]; decide) rfl
  rw [s0] at a7
  rw [show (start Nat (fun _ => none) 25000 1000000000000 : Sys Nat Nat).todo = none from rfl] at a6
  have al : a.plain.slots.length = 25000 := by rw [a7, List.length_set, List.length_replicate]
  have ac : ∀ i, at_ (grow a.codes a.plain.slots.length) i = none := fun i => by
    unfold grow
    rw [al, grow_at _ (by decide)]
    unfold at_
    rw [a3, c0, List.getElem?_replicate]
    split <;> rfl
  have ag : 25000 < (grow a.codes a.plain.slots.length).slots.length := by
    unfold grow; rw [al]; exact grow_length _ (by decide)
  have ab : a.ev exact_ .begin = some a.begin := by simp [Sys.ev, a5, a6]
  have af : a.plain.slots.filterMap id = [100] := by
    rw [a7, show 25000 = 1 + 24999 from rfl, ← List.replicate_append_replicate, List.set_append_left _ _ (by decide),
      List.filterMap_append, List.filterMap_replicate_of_none rfl]
    rfl
  obtain ⟨b, b1, b2, b3, -, b5, b6, -⟩ := insert_fills exact_ a.begin 1 101 (by show 1 < a.plain.slots.length; omega) a5
  have bc : b.codes = grow a.codes a.plain.slots.length := b3
  have bt : b.todo = some [100] := b6.trans (congrArg some af)
  obtain ⟨t, k1, -, k3, k4, -, -, k7, k8⟩ := keepAll_spec (exact_ [100]) [100] [0] b (by decide) (by decide) (by
    rw [bc]; show 1 ≤ _; omega)
  refine ⟨{ t with enc := some (exact_ [100]), todo := none, plain := t.plain.clear }, ?_, ?_, code_of_at (k7 0 (by decide)).1, ?_⟩
  · have e : b.ev exact_ (.finish [0]) = some { t with enc := some (exact_ [100]), todo := none, plain := t.plain.clear } := by
      simp only [Sys.ev, Sys.finish, bt, k1]
      rfl
    simp only [Sys.run, a1, ab, b1, e]
  · show t.source 1 = _
    rw [k3, b2]; rfl
  · show code t.codes 1 = _
    rw [code_eq (by rw [k4, bc]; omega), (k8 1 (by decide)).1, bc, ac]

/-! ## examples -/

/-- the hypotheses of `shifted` and of the left-to-right part of `right_iff_gapless`: the index of `restart_mixes_up` has an empty place
before a vector -/
example : ∃ s : Sys Nat Nat, (start Nat ten 25000 1000000000000).run exact_ [.look 5, .look 7] = some s ∧ s.enc = none ∧ s.todo = none ∧
    [1, 0].Perm (List.range (s.plain.slots.filterMap id).length) ∧ ¬ s.Gapless := by
  obtain ⟨s, h1, h2, h3, -, h5, h6, h7⟩ := two_looked_up
  exact ⟨s, h1, h2, h3, by rw [h5]; decide, fun hg => by have := hg 0 5 (by decide) h6; rw [h7] at this; cases this⟩

/-- The hypotheses of `codes_right_partial`: two vectors are inserted under 0 and 1; `Compress` handles them in reverse order; later one
more vector is inserted and one is removed.  The codes of 0 and 2 are right, 1 has none any more. -/
example : ∃ s : Sys Nat Nat, (start Nat (fun _ => none) 2 100000).run exact_ [.insert 0 100, .insert 1 101] = some s ∧
    s.enc = none ∧ s.todo = none ∧ s.Gapless ∧ [1, 0].Perm (List.range (s.plain.slots.filterMap id).length) ∧
    (∀ id v, s.source id = some v → s.cached id = some v) ∧
    ∃ u, s.run exact_ (.begin :: .finish [1, 0] :: [.insert 2 102, .remove 1]) = some u ∧
      (code u.codes 0, code u.codes 2, code u.codes 1) = (.ok (some 100), .ok (some 102), .fail .notImplemented) := by
  refine ⟨_, rfl, rfl, rfl, fun i j hij hi => ?_, by decide, fun id v h => ?_, Option.map_eq_some_iff.mp (by decide +kernel)⟩
  · match i, j, hij, hi with
    | 0, _, _, hi => cases hi
    | 1, _, _, hi => cases hi
    | i + 2, j + 3, _, _ => rfl
  · match id, h with
    | 0, h => exact h
    | 1, h => exact h

/-- the hypotheses of `small_limit_drops_all` and `dropped_for_good`: with a limit of 25002 the check drops the two codes -/
example : ∃ s : Sys Nat Nat, (start Nat (fun _ => none) 2 25002).run exact_ [.insert 0 100, .insert 1 101] = some s ∧
    ∃ t, s.run exact_ [.begin, .finish [1, 0], .tickCodes] = some t ∧
      (t.enc.isSome, t.todo, code t.codes 1) = (true, none, .fail .notImplemented) :=
  ⟨_, rfl, Option.map_eq_some_iff.mp (by decide +kernel)⟩

end Fave.C62
