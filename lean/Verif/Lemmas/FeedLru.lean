import Verif.Lemmas.Feed
/-! # What `documentCache` holds -/
namespace Fave.Feed
open Fave.Client (Str ns cacheKey)
variable {V : Type}

/-- the keys of `documentCache` -/
def Docs.keys (d : Docs V) : List Str := d.map Prod.fst

theorem keys_filter (d : Docs V) (k : Str) : Docs.keys (d.filter fun e => e.1 ≠ k) = d.keys.filter fun j => j ≠ k := by
  unfold Docs.keys
  induction d with
  | nil => rfl
  | cons e l ih =>
    rw [List.filter_cons, List.map_cons, List.filter_cons]
    by_cases h : e.1 = k
    · simp [h]
      simpa using ih
    · simp [h]
      simpa using ih

theorem front_nodup {d : Docs V} (h : d.keys.Nodup) (e : Str × V) : Docs.keys (e :: d.filter fun x => x.1 ≠ e.1) |>.Nodup := by
  have : Docs.keys (e :: d.filter fun x => x.1 ≠ e.1) = e.1 :: d.keys.filter fun j => j ≠ e.1 := by
    rw [← keys_filter]; rfl
  rw [this, List.nodup_cons]
  refine ⟨?_, h.filter _⟩
  intro hm
  have := (List.mem_filter.mp hm).2
  simp at this

theorem find_key {d : Docs V} {k : Str} {e : Str × V} (h : d.find? (fun e => e.1 = k) = some e) : e.1 = k := by
  have := List.find?_some h
  simpa using this

theorem add_nodup {d : Docs V} (h : d.keys.Nodup) (cap : Nat) (k : Str) (v : V) : (d.add cap k v).keys.Nodup := by
  unfold Docs.add
  have := front_nodup h (k, v)
  unfold Docs.keys at this ⊢
  rw [List.map_take]
  exact (List.take_sublist _ _).nodup this

theorem use_nodup {d : Docs V} (h : d.keys.Nodup) (k : Str) : (d.use k).keys.Nodup := by
  unfold Docs.use
  split
  · rename_i e hf
    have := front_nodup h e
    rw [find_key hf] at this
    exact this
  · exact h

theorem add_size (d : Docs V) (cap : Nat) (k : Str) (v : V) : (d.add cap k v).length ≤ cap := by
  unfold Docs.add
  rw [List.length_take]
  omega

theorem filter_size {d : Docs V} (hn : d.keys.Nodup) {e : Str × V} (he : e ∈ d) : (d.filter fun x => x.1 ≠ e.1).length + 1 ≤ d.length := by
  have h1 := front_nodup hn e
  have h2 := h1.length_le_of_subset (l₂ := d.keys) (by
    intro k hk
    obtain ⟨x, hx, rfl⟩ := List.mem_map.mp hk
    rcases List.mem_cons.mp hx with rfl | hx
    · exact List.mem_map_of_mem he
    · exact List.mem_map_of_mem (List.mem_filter.mp hx).1)
  unfold Docs.keys at h2
  simp only [List.length_map, List.length_cons] at h2
  exact h2

theorem use_size {d : Docs V} (hn : d.keys.Nodup) (k : Str) : (d.use k).length ≤ d.length := by
  unfold Docs.use
  split
  · rename_i e hf
    have := filter_size hn (List.mem_of_find?_eq_some hf)
    rw [find_key hf] at this
    simpa using this
  · exact Nat.le_refl _

theorem find_filter {d : Docs V} {j k : Str} (h : k ≠ j) : (d.filter fun x => x.1 ≠ j).find? (fun x => x.1 = k) = d.find? fun x => x.1 = k := by
  induction d with
  | nil => rfl
  | cons x l ih =>
    rw [List.filter_cons]
    by_cases hx : x.1 = j
    · rw [if_neg (by simp [hx]), ih, List.find?_cons_of_neg]
      simp only [decide_eq_true_eq]
      exact fun hk => h (hk.symm.trans hx)
    · rw [if_pos (by simp [hx])]
      by_cases hk : x.1 = k
      · rw [List.find?_cons_of_pos (by simp [hk]), List.find?_cons_of_pos (by simp [hk])]
      · rw [List.find?_cons_of_neg (by simp [hk]), List.find?_cons_of_neg (by simp [hk]), ih]

theorem get_front (d : Docs V) (e : Str × V) (k : Str) : Docs.get (e :: d.filter fun x => x.1 ≠ e.1) k = if k = e.1 then some e.2 else d.get k := by
  unfold Docs.get
  by_cases hk : k = e.1
  · rw [List.find?_cons_of_pos (by simp [hk]), if_pos hk]; rfl
  · rw [List.find?_cons_of_neg (by simpa using fun h => hk h.symm), find_filter hk, if_neg hk]

theorem get_use (d : Docs V) (j k : Str) : (d.use j).get k = d.get k := by
  unfold Docs.use
  split
  · rename_i e hf
    have hj := find_key hf
    subst hj
    rw [get_front]
    split
    · rename_i hk
      subst hk
      unfold Docs.get
      rw [hf]; rfl
    · rfl
  · rfl

theorem get_none {d : Docs V} {k : Str} (h : k ∉ d.keys) : d.get k = none := by
  cases hg : d.get k with
  | none => rfl
  | some v => exact absurd (List.mem_map_of_mem (f := Prod.fst) (get_mem hg)) h

/-- if all keys are among at most `cap` ones nothing is evicted -/
theorem add_fits {d : Docs V} {cap : Nat} {U : List Str} (hU : U.length ≤ cap) (hn : d.keys.Nodup) (hs : ∀ j ∈ d.keys, j ∈ U) {k : Str} {v : V} (hk : k ∈ U) :
    d.add cap k v = (k, v) :: d.filter fun x => x.1 ≠ k := by
  have h1 := (front_nodup hn (k, v)).length_le_of_subset (l₂ := U) (by
    intro j hj
    obtain ⟨x, hx, rfl⟩ := List.mem_map.mp hj
    rcases List.mem_cons.mp hx with rfl | hx
    · exact hk
    · exact hs _ (List.mem_map_of_mem (List.mem_filter.mp hx).1))
  unfold Docs.keys at h1
  rw [List.length_map] at h1
  unfold Docs.add
  exact List.take_of_length_le (Nat.le_trans h1 hU)

theorem mem_keys_add {d : Docs V} {cap : Nat} {k : Str} {v : V} {j : Str} (h : j ∈ (d.add cap k v).keys) : j = k ∨ j ∈ d.keys := by
  obtain ⟨x, hx, rfl⟩ := List.mem_map.mp h
  rcases mem_add hx with rfl | hx
  · exact .inl rfl
  · exact .inr (List.mem_map_of_mem hx)

theorem mem_keys_use {d : Docs V} {k j : Str} (h : j ∈ (d.use k).keys) : j ∈ d.keys := by
  obtain ⟨x, hx, rfl⟩ := List.mem_map.mp h
  exact List.mem_map_of_mem (mem_use hx)

/-! ## few vectors: all are found -/

/-- the vector last kept under a number since the process was started -/
def lastKept (name : Str) (id : Nat) : List (Ev V) → Option V
  | [] => none
  | .started :: _ => none
  | .kept m n v :: l => if m = name ∧ n = id then some v else lastKept name id l
  | _ :: l => lastKept name id l

/-- nothing was kept in this process except under the numbers in `U` -/
def Covers (U : List (Str × Nat)) (log : List (Ev V)) : Prop := ∀ name id v, .kept name id v ∈ current log → (name, id) ∈ U

/-- `documentCache` holds at most `cap` vectors under different keys; if all vectors kept in this process are under the at most `cap`
numbers in `U`, it has exactly those -/
structure Holding (pod : Str) (cap : Nat) (s : Sys V) : Prop where
  nodup : s.docs.keys.Nodup
  size : s.docs.length ≤ cap
  all : ∀ U : List (Str × Nat), U.length ≤ cap → Covers U s.log →
    (∀ k ∈ s.docs.keys, k ∈ U.map fun p => cacheKey pod (ns ++ p.1) p.2) ∧ ∀ name id, s.docs.get (cacheKey pod (ns ++ name) id) = lastKept name id s.log

/-- an event that is neither a start nor the keeping of a vector -/
def Ev.NoKeep (e : Ev V) : Prop := e ≠ .started ∧ ∀ name id v, e ≠ .kept name id v

theorem lastKept_cons {e : Ev V} (he : e.NoKeep) (name : Str) (id : Nat) (l : List (Ev V)) : lastKept name id (e :: l) = lastKept name id l := by
  cases e with
  | started => exact absurd rfl he.1
  | kept m n v => exact absurd rfl (he.2 _ _ _)
  | gave | returned | fetched | failed | deleted => rfl

theorem covers_of_cons {U : List (Str × Nat)} {e : Ev V} {l : List (Ev V)} (he : e ≠ .started) (h : Covers U (e :: l)) : Covers U l := by
  intro name id v hm
  exact h name id v (by rw [current_cons he]; exact List.mem_cons_of_mem _ hm)

theorem Holding.note {pod : Str} {cap : Nat} {s : Sys V} (h : Holding pod cap s) {s' : Sys V} {e : Ev V} (he : e.NoKeep) (hd : s'.docs = s.docs)
    (hl : s'.log = e :: s.log) : Holding pod cap s' := by
  refine ⟨by rw [hd]; exact h.nodup, by rw [hd]; exact h.size, fun U hU hc => ?_⟩
  rw [hl] at hc
  obtain ⟨h1, h2⟩ := h.all U hU (covers_of_cons he.1 hc)
  rw [hd, hl]
  exact ⟨h1, fun name id => by rw [h2, lastKept_cons he]⟩

theorem Holding.same {pod : Str} {cap : Nat} {s : Sys V} (h : Holding pod cap s) {s' : Sys V} (hd : s'.docs = s.docs) (hl : s'.log = s.log) :
    Holding pod cap s' := by
  refine ⟨by rw [hd]; exact h.nodup, by rw [hd]; exact h.size, fun U hU hc => ?_⟩
  rw [hd, hl]
  rw [hl] at hc
  exact h.all U hU hc

theorem holding_empty (pod : Str) (cap : Nat) {s : Sys V} (hd : s.docs = []) (l : List (Ev V)) (hl : s.log = .started :: l) : Holding pod cap s := by
  refine ⟨by rw [hd]; exact List.nodup_nil, by rw [hd]; exact Nat.zero_le _, fun U hU hc => ?_⟩
  rw [hd, hl]
  exact ⟨fun k hk => by simp [Docs.keys] at hk, fun name id => rfl⟩

theorem holding_step {norm : V → V} {pod : Str} {size cap : Nat} {s s' : Sys V} (h : Holding pod cap s) (hs : Step norm pod size cap s s') :
    Holding pod cap s' := by
  cases hs with
  | make | giveUp | call | missed | bump | tick => exact h.same rfl rfl
  | give | hit | fill | fetchFail | delete => exact h.note ⟨by simp, by intro _ _ _ he; cases he⟩ rfl rfl
  | restart => exact holding_empty pod cap rfl _ rfl
  | fetch t i x id v ht hx hv =>
    have h1 : Holding pod cap { s with docs := s.docs.use (cacheKey pod (ns ++ x.name) id) } := by
      refine ⟨use_nodup h.nodup _, Nat.le_trans (use_size h.nodup _) h.size, fun U hU hc => ?_⟩
      obtain ⟨h1, h2⟩ := h.all U hU hc
      exact ⟨fun k hk => h1 k (mem_keys_use hk), fun name n => by rw [get_use]; exact h2 name n⟩
    exact h1.note (e := .fetched x.name id) ⟨by simp, by intro _ _ _ he; cases he⟩ rfl rfl
  | keep t i x id v ht hx =>
    refine ⟨add_nodup h.nodup _ _ _, add_size _ _ _ _, fun U hU hc => ?_⟩
    have hc : Covers U (.kept x.name id v :: s.log) := hc
    obtain ⟨h1, h2⟩ := h.all U hU (covers_of_cons (by simp) hc)
    have hk : (x.name, id) ∈ U := hc x.name id v List.mem_cons_self
    have hk' : cacheKey pod (ns ++ x.name) id ∈ U.map fun p => cacheKey pod (ns ++ p.1) p.2 :=
      List.mem_map_of_mem (f := fun p : Str × Nat => cacheKey pod (ns ++ p.1) p.2) hk
    have heq := add_fits (cap := cap) (v := v) (by rw [List.length_map]; exact hU) h.nodup h1 hk'
    refine ⟨fun k hm => ?_, fun name n => ?_⟩
    · rcases mem_keys_add (show k ∈ (s.docs.add cap _ v).keys from hm) with rfl | hm
      · exact hk'
      · exact h1 k hm
    · show (s.docs.add cap (cacheKey pod (ns ++ x.name) id) v).get _ = if x.name = name ∧ id = n then some v else lastKept name n s.log
      rw [heq, get_front s.docs (cacheKey pod (ns ++ x.name) id, v)]
      by_cases hq : x.name = name ∧ id = n
      · rw [if_pos hq, if_pos (by rw [hq.1, hq.2])]
      · rw [if_neg hq, if_neg, h2]
        intro he
        obtain ⟨e1, e2⟩ := key_inj he
        exact hq ⟨e1.symm, e2.symm⟩

theorem holding_steps {norm : V → V} {pod : Str} {size cap : Nat} {s : Sys V} (hs : Steps norm pod size cap start s) : Holding pod cap s := by
  induction hs with
  | refl => exact holding_empty pod cap rfl _ rfl
  | step _ h2 ih => exact holding_step ih h2

theorem lastKept_mem {l : List (Ev V)} {name : Str} {id : Nat} {v : V} (h : .kept name id v ∈ current l) : lastKept name id l ≠ none := by
  induction l with
  | nil => simp [current] at h
  | cons e l ih =>
    by_cases he : e = .started
    · subst he; simp [current] at h
    · rw [current_cons he] at h
      cases e with
      | kept m n w =>
        show (if m = name ∧ n = id then some w else lastKept name id l) ≠ none
        split
        · simp
        · rcases List.mem_cons.mp h with h | h
          · cases h
            rename_i hc
            exact absurd ⟨rfl, rfl⟩ hc
          · exact ih h
      | started => exact absurd rfl he
      | gave | returned | fetched | failed | deleted =>
        rcases List.mem_cons.mp h with h | h
        · cases h
        · exact ih h

/-! ## many vectors: the older ones are dropped -/

/-- key `k` is not held, or held behind all keys in `T` -/
def Behind (k : Str) (T : List Str) (d : Docs V) : Prop :=
  k ∉ d.keys ∨ ∃ A v B, d = A ++ (k, v) :: B ∧ k ∉ Docs.keys A ∧ ∀ t ∈ T, t ∈ Docs.keys A

theorem behind_front {k : Str} {T : List Str} {d : Docs V} (h : Behind k T d) {e : Str × V} (he : e.1 ≠ k) :
    Behind k (e.1 :: T) (e :: d.filter fun x => x.1 ≠ e.1) := by
  rcases h with h | ⟨A, v, B, rfl, hA, hT⟩
  · left
    intro hm
    obtain ⟨x, hx, hxk⟩ := List.mem_map.mp hm
    rcases List.mem_cons.mp hx with rfl | hx
    · exact he hxk
    · exact h (hxk ▸ List.mem_map_of_mem (List.mem_filter.mp hx).1)
  · right
    refine ⟨e :: A.filter fun x => x.1 ≠ e.1, v, B.filter fun x => x.1 ≠ e.1, ?_, ?_, ?_⟩
    · rw [List.filter_append, List.filter_cons, if_pos (by simpa using fun h => he h.symm)]
      rfl
    · intro hm
      obtain ⟨x, hx, hxk⟩ := List.mem_map.mp hm
      rcases List.mem_cons.mp hx with rfl | hx
      · exact he hxk
      · exact hA (hxk ▸ List.mem_map_of_mem (List.mem_filter.mp hx).1)
    · intro t ht
      by_cases hte : t = e.1
      · subst hte; exact List.mem_map_of_mem List.mem_cons_self
      · rcases List.mem_cons.mp ht with rfl | ht
        · exact absurd rfl hte
        · obtain ⟨x, hx, rfl⟩ := List.mem_map.mp (hT t ht)
          exact List.mem_map_of_mem (List.mem_cons_of_mem _ (List.mem_filter.mpr ⟨hx, by simpa using hte⟩))

theorem behind_take {k : Str} {T : List Str} {d : Docs V} (hn : d.keys.Nodup) (h : Behind k T d) (cap : Nat) : Behind k T (d.take cap) := by
  rcases h with h | ⟨A, v, B, rfl, hA, hT⟩
  · left
    intro hm
    unfold Docs.keys at hm h
    rw [List.map_take] at hm
    exact h (List.mem_of_mem_take hm)
  · rcases Nat.lt_or_ge A.length cap with hl | hl
    · right
      refine ⟨A, v, B.take (cap - A.length - 1), ?_, hA, hT⟩
      rw [List.take_append, List.take_of_length_le (by omega)]
      congr 1
      obtain ⟨m, hm⟩ : ∃ m, cap - A.length = m + 1 := ⟨cap - A.length - 1, by omega⟩
      rw [hm, List.take_succ_cons]
      rfl
    · left
      rw [List.take_append, show cap - A.length = 0 by omega, List.take_zero, List.append_nil]
      intro hm
      unfold Docs.keys at hm hA
      rw [List.map_take] at hm
      exact hA (List.mem_of_mem_take hm)

theorem behind_mono {k : Str} {T T' : List Str} {d : Docs V} (h : Behind k T d) (hs : ∀ t ∈ T', t ∈ T) : Behind k T' d := by
  rcases h with h | ⟨A, v, B, rfl, hA, hT⟩
  · exact .inl h
  · exact .inr ⟨A, v, B, rfl, hA, fun t ht => hT t (hs t ht)⟩

theorem behind_use {k : Str} {T : List Str} {d : Docs V} (h : Behind k T d) {j : Str} (hj : j ≠ k) : Behind k T (d.use j) := by
  unfold Docs.use
  split
  · rename_i e hf
    have := find_key hf
    subst this
    exact behind_mono (behind_front h hj) fun t ht => List.mem_cons_of_mem _ ht
  · exact h

theorem behind_add {k : Str} {T : List Str} {d : Docs V} (hn : d.keys.Nodup) (h : Behind k T d) {j : Str} (hj : j ≠ k) (cap : Nat) (v : V) :
    Behind k (j :: T) (d.add cap j v) :=
  behind_take (front_nodup hn (j, v)) (behind_front (e := (j, v)) h hj) cap

theorem behind_full {k : Str} {T : List Str} {d : Docs V} (h : Behind k T d) (hT : T.Nodup) (hl : d.length ≤ T.length) : d.get k = none := by
  rcases h with h | ⟨A, v, B, rfl, hA, hs⟩
  · exact get_none h
  · have := hT.length_le_of_subset hs
    unfold Docs.keys at this
    simp only [List.length_map, List.length_append, List.length_cons] at this hl
    omega

/-- the numbers under which vectors were kept -/
def keptNumbers : List (Ev V) → List (Str × Nat)
  | [] => []
  | .kept m n _ :: l => (m, n) :: keptNumbers l
  | _ :: l => keptNumbers l

/-- an event that does not use the number in `documentCache` and is no start -/
def Ev.Away (name : Str) (id : Nat) (e : Ev V) : Prop := e ≠ .started ∧ e ≠ .fetched name id ∧ ∀ v, e ≠ .kept name id v

theorem behind_nil {k : Str} {d : Docs V} (hn : d.keys.Nodup) : Behind k [] d := by
  by_cases h : k ∈ d.keys
  · right
    obtain ⟨⟨k', v⟩, hx, hk⟩ := List.mem_map.mp h
    simp only at hk
    subst hk
    obtain ⟨A, B, rfl⟩ := List.append_of_mem hx
    refine ⟨A, v, B, rfl, ?_, by simp⟩
    unfold Docs.keys at hn ⊢
    rw [List.map_append, List.nodup_append] at hn
    intro hm
    exact hn.2.2 _ hm _ (List.mem_map_of_mem List.mem_cons_self) rfl
  · exact .inl h

/-- at every moment, and for every way of cutting the history in a recent part without use of the number and the rest: the number is
behind those kept in the recent part -/
theorem behind_steps {norm : V → V} {pod : Str} {size cap : Nat} {s : Sys V} (hs : Steps norm pod size cap start s) (name : Str) (id : Nat) :
    ∀ recent rest, s.log = recent ++ rest → (∀ e ∈ recent, e.Away name id) →
      Behind (cacheKey pod (ns ++ name) id) ((keptNumbers recent).map fun p => cacheKey pod (ns ++ p.1) p.2) s.docs := by
  induction hs with
  | refl =>
    intro recent rest hl ha
    exact .inl (by simp [start, Docs.keys])
  | @step u v h1 h2 ih =>
    have hold := holding_steps h1
    intro recent rest hl ha
    cases recent with
    | nil => exact behind_nil (holding_steps (.step h1 h2)).nodup
    | cons e recent =>
      have quiet : ∀ {l : List (Ev V)}, v.docs = u.docs → v.log = u.log →
          Behind (cacheKey pod (ns ++ name) id) ((keptNumbers (e :: recent)).map fun p => cacheKey pod (ns ++ p.1) p.2) v.docs := by
        intro l hd hl'
        rw [hd]
        exact ih _ rest (by rw [← hl', hl]) ha
      have noted : ∀ {e' : Ev V}, v.docs = u.docs → v.log = e' :: u.log → (∀ m n w, e' ≠ .kept m n w) →
          Behind (cacheKey pod (ns ++ name) id) ((keptNumbers (e :: recent)).map fun p => cacheKey pod (ns ++ p.1) p.2) v.docs := by
        intro e' hd hl' hk
        rw [hl', List.cons_append, List.cons.injEq] at hl
        obtain ⟨rfl, hl⟩ := hl
        rw [hd]
        have := ih recent rest hl fun x hx => ha x (List.mem_cons_of_mem _ hx)
        have hkn : keptNumbers (e' :: recent) = keptNumbers recent := by
          cases e' with
          | kept m n w => exact absurd rfl (hk m n w)
          | gave | returned | fetched | failed | deleted | started => rfl
        rw [hkn]
        exact this
      cases h2 with
      | make | giveUp | call | missed | bump | tick => exact quiet (l := []) rfl rfl
      | give | hit | fill | fetchFail | delete => exact noted rfl rfl (by intro _ _ _ he; cases he)
      | restart =>
        have hl : Ev.started :: u.log = e :: recent ++ rest := hl
        rw [List.cons_append, List.cons.injEq] at hl
        exact absurd hl.1.symm (ha e List.mem_cons_self).1
      | fetch t i x n w ht hx hv =>
        have hl1 : Ev.fetched x.name n :: u.log = e :: recent ++ rest := hl
        rw [List.cons_append, List.cons.injEq] at hl1
        obtain ⟨rfl, hl2⟩ := hl1
        have hne : cacheKey pod (ns ++ x.name) n ≠ cacheKey pod (ns ++ name) id := by
          intro hk
          obtain ⟨e1, e2⟩ := key_inj hk
          subst e1; subst e2
          exact (ha _ List.mem_cons_self).2.1 rfl
        exact behind_use (ih recent rest hl2 fun x hx => ha x (List.mem_cons_of_mem _ hx)) hne
      | keep t i x n w ht hx =>
        have hl1 : Ev.kept x.name n w :: u.log = e :: recent ++ rest := hl
        rw [List.cons_append, List.cons.injEq] at hl1
        obtain ⟨rfl, hl2⟩ := hl1
        have hne : cacheKey pod (ns ++ x.name) n ≠ cacheKey pod (ns ++ name) id := by
          intro hk
          obtain ⟨e1, e2⟩ := key_inj hk
          subst e1; subst e2
          exact (ha _ List.mem_cons_self).2.2 w rfl
        exact behind_add hold.nodup (ih recent rest hl2 fun x hx => ha x (List.mem_cons_of_mem _ hx)) hne cap w

end Fave.Feed
