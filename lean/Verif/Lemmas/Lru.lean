import Verif.Model.Lru
/-!
# Facts about the node cache with eviction
-/
namespace Fave.Lru
variable {α : Type}

/-- keys of the cache -/
def ckeys (s : Store α) : List Nat := s.ents.map Ent.key

/-- the keys are distinct and within the capacity -/
structure Ok (cap : Nat) (s : Store α) : Prop where
  nodup : (ckeys s).Nodup
  size : s.ents.length ≤ cap

theorem key_filter (l : List (Ent α)) (k : Nat) : (l.filter (fun x => x.key ≠ k)).map Ent.key = (l.map Ent.key).filter (fun j => j ≠ k) := by
  induction l with
  | nil => rfl
  | cons e l ih =>
    rw [List.filter_cons, List.map_cons, List.filter_cons]
    by_cases h : e.key = k
    · simp [h]
      simpa using ih
    · simp [h]
      simpa using ih

theorem ok_push {cap : Nat} {s : Store α} (h : (ckeys s).Nodup) (e : Ent α) : Ok cap (push cap s e) := by
  refine ⟨?_, ?_⟩
  · unfold ckeys push
    simp only
    rw [List.map_take]
    refine (List.take_sublist _ _).nodup ?_
    rw [List.map_cons, key_filter, List.nodup_cons]
    refine ⟨?_, h.filter _⟩
    intro hm
    have := (List.mem_filter.mp hm).2
    simp at this
  · unfold push
    simp only [List.length_take]
    omega

theorem lookup_some {s : Store α} {k : Nat} {e : Ent α} (h : lookup s k = some e) : e ∈ s.ents ∧ e.key = k := by
  unfold lookup at h
  exact ⟨List.mem_of_find?_eq_some h, by simpa using List.find?_some h⟩

theorem lookup_none {s : Store α} {k : Nat} (h : lookup s k = none) : k ∉ ckeys s := by
  unfold lookup at h
  intro hm
  obtain ⟨e, he, hk⟩ := List.mem_map.mp hm
  have := List.find?_eq_none.mp h e he
  simp [hk] at this

theorem ok_read {cap : Nat} {s : Store α} (h : Ok cap s) (k : Nat) : Ok cap (read cap s k).1 := by
  unfold read
  split
  · exact ok_push h.nodup _
  · split
    · exact h
    · exact ok_push h.nodup _

theorem ok_flushKey {cap : Nat} {s : Store α} (h : Ok cap s) (k : Nat) : Ok cap (flushKey cap s k) := by
  unfold flushKey
  split
  · exact h
  · rename_i e _
    have h1 := ok_push (cap := cap) h.nodup e
    simp only
    split
    · exact h1
    · exact ok_push (s := ⟨(push cap s e).ents, (push cap s e).kv.put k e.val⟩) h1.nodup _

/-! ## a complete flush -/

/-- committed copy -/
def done (e : Ent α) : Ent α := { e with committed := true }

theorem filter_ne_self {l : List (Ent α)} {k : Nat} (h : k ∉ l.map Ent.key) : l.filter (fun x => x.key ≠ k) = l := by
  rw [List.filter_eq_self]
  intro x hx
  simp only [ne_eq, decide_not, Bool.not_eq_true', decide_eq_false_iff_not]
  exact fun e => h (e ▸ List.mem_map_of_mem hx)

/-- flushing the key of an entry that stands behind `b` and before nothing: it moves to the front, committed -/
theorem flushKey_last {cap : Nat} {b p : List (Ent α)} {e : Ent α} {kv : Tab α} (hcap : (b ++ p ++ [e]).length ≤ cap)
    (hnd : ((b ++ p ++ [e]).map Ent.key).Nodup) :
    flushKey cap ⟨b ++ p ++ [e], kv⟩ e.key = ⟨done e :: (b ++ p), if e.committed then kv else kv.put e.key e.val⟩ := by
  have hne : e.key ∉ (b ++ p).map Ent.key := by
    rw [List.map_append, List.nodup_append] at hnd
    intro hm
    exact hnd.2.2 e.key hm e.key (by simp) rfl
  have hl : lookup ⟨b ++ p ++ [e], kv⟩ e.key = some e := by
    unfold lookup
    simp only
    rw [List.find?_append, List.find?_eq_none.mpr]
    · simp
    · intro x hx hk
      simp only [decide_eq_true_eq] at hk
      exact hne (hk ▸ List.mem_map_of_mem hx)
  have hf : (b ++ p ++ [e]).filter (fun x => x.key ≠ e.key) = b ++ p := by
    rw [List.filter_append, filter_ne_self hne]
    simp
  have hp : push cap ⟨b ++ p ++ [e], kv⟩ e = ⟨e :: (b ++ p), kv⟩ := by
    unfold push
    simp only [hf]
    rw [List.take_of_length_le]
    simp only [List.length_append, List.length_cons, List.length_nil] at hcap ⊢
    omega
  unfold flushKey
  rw [hl]
  simp only [hp]
  by_cases hc : e.committed = true
  · rw [if_pos hc, if_pos hc]
    congr
    cases e
    simp only [done]
    simp only at hc
    rw [hc]
  · rw [if_neg hc, if_neg hc]
    unfold push
    simp only
    have hf2 : (e :: (b ++ p)).filter (fun x => x.key ≠ e.key) = b ++ p := by
      rw [List.filter_cons, filter_ne_self hne]; simp
    rw [hf2, List.take_of_length_le]
    · rfl
    · simp only [List.length_append, List.length_cons, List.length_nil] at hcap ⊢
      omega

/-- what the table holds after the entries of `l` were written, oldest (last) first -/
def written (l : List (Ent α)) (kv : Tab α) : Tab α := l.foldr (fun e kv => if e.committed then kv else kv.put e.key e.val) kv

theorem flush_go {cap : Nat} (p b : List (Ent α)) (kv : Tab α) (hcap : (b ++ p).length ≤ cap) (hnd : ((b ++ p).map Ent.key).Nodup) :
    (p.map Ent.key).reverse.foldl (flushKey cap) ⟨b ++ p, kv⟩ = ⟨p.map done ++ b, written p kv⟩ := by
  induction hn : p.length generalizing p b kv with
  | zero =>
    obtain rfl : p = [] := List.eq_nil_of_length_eq_zero hn
    simp [written]
  | succ n ih =>
    obtain ⟨p, e, rfl⟩ : ∃ p' e, p = p' ++ [e] := by
      rcases List.eq_nil_or_concat p with rfl | ⟨p', e, h⟩
      · simp at hn
      · exact ⟨p', e, by simpa using h⟩
    rw [List.map_append, List.reverse_append, List.map_singleton, List.reverse_singleton, List.singleton_append, List.foldl_cons,
      ← List.append_assoc, flushKey_last (by simpa [List.append_assoc] using hcap) (by simpa [List.append_assoc] using hnd),
      ← List.cons_append, ih _ _ _ ?_ ?_ (by simpa using hn)]
    · simp [written]
    · simp only [List.length_append, List.length_cons, List.length_nil] at hcap ⊢; omega
    · have : ((done e :: b ++ p).map Ent.key).Perm ((b ++ (p ++ [e])).map Ent.key) := by
        have hk : (done e).key = e.key := rfl
        simp only [List.cons_append, List.map_cons, List.map_append, hk, List.map_nil]
        rw [← List.append_assoc]
        exact (List.perm_append_singleton _ _).symm
      exact this.nodup_iff.mpr hnd

/-- **A complete flush** keeps the order of the cache, marks everything committed and stores what was not committed. -/
theorem flush_eq {cap : Nat} {s : Store α} (h : Ok cap s) : flush cap s = ⟨s.ents.map done, written s.ents s.kv⟩ := by
  have := flush_go (cap := cap) s.ents [] s.kv (by simpa using h.size) (by simpa using (show (s.ents.map Ent.key).Nodup from h.nodup))
  unfold flush
  simpa using this

theorem written_get (l : List (Ent α)) (kv : Tab α) (hnd : (l.map Ent.key).Nodup) (k : Nat) :
    (k ∉ l.map Ent.key → (written l kv).get k = kv.get k) ∧
    (∀ e ∈ l, e.key = k → (written l kv).get k = if e.committed then kv.get k else some e.val) := by
  induction l with
  | nil => exact ⟨fun _ => rfl, nofun⟩
  | cons x l ih =>
    rw [List.map_cons, List.nodup_cons] at hnd
    obtain ⟨h1, h2⟩ := ih hnd.2
    have hw : written (x :: l) kv = if x.committed then written l kv else (written l kv).put x.key x.val := rfl
    constructor
    · intro hk
      rw [List.map_cons, List.mem_cons, not_or] at hk
      rw [hw]
      split
      · exact h1 hk.2
      · rw [Tab.get_put_ne _ _ hk.1]; exact h1 hk.2
    · intro e he hek
      rw [hw]
      rcases List.mem_cons.mp he with rfl | he
      · split
        · exact h1 (hek ▸ hnd.1)
        · rw [← hek, Tab.get_put_self]
      · have hne : k ≠ x.key := by
          rintro rfl
          exact hnd.1 (hek ▸ List.mem_map_of_mem he)
        split
        · exact h2 e he hek
        · rw [Tab.get_put_ne _ _ hne]; exact h2 e he hek

theorem ok_flush {cap : Nat} {s : Store α} (h : Ok cap s) : Ok cap (flush cap s) := by
  rw [flush_eq h]
  refine ⟨?_, by simpa using h.size⟩
  have : (s.ents.map done).map Ent.key = s.ents.map Ent.key := by rw [List.map_map]; rfl
  unfold ckeys
  rw [this]
  exact h.nodup

theorem ok_step {cap : Nat} {s : Store α} (h : Ok cap s) (o : Op α) : Ok cap (step cap s o) := by
  cases o with
  | read k => exact ok_read h k
  | write k a => exact ok_push h.nodup _
  | flush => exact ok_flush h

theorem ok_run {cap : Nat} {s : Store α} (h : Ok cap s) (ops : List (Op α)) : Ok cap (run cap s ops) := by
  induction ops generalizing s with
  | nil => exact h
  | cons o ops ih => exact ih (ok_step h o)

/-! ## an entry that is in use stays -/

/-- the entry of `k` is cached with value `a`, what is in front of it belongs to `T`, and if it counts as stored it is -/
def Holds (k : Nat) (a : α) (T : List Nat) (s : Store α) : Prop :=
  ∃ l1 c l2, s.ents = l1 ++ ⟨k, a, c⟩ :: l2 ∧ (∀ x ∈ l1, x.key ∈ T) ∧ (c = true → s.kv.get k = some a)

theorem holds_push_self {cap : Nat} (hcap : 0 < cap) {s : Store α} (k : Nat) (a : α) (c : Bool) (T : List Nat)
    (hc : c = true → s.kv.get k = some a) : Holds k a T (push cap s ⟨k, a, c⟩) := by
  refine ⟨[], c, (s.ents.filter (fun x => x.key ≠ k)).take (cap - 1), ?_, nofun, hc⟩
  unfold push
  obtain ⟨m, rfl⟩ : ∃ m, cap = m + 1 := ⟨cap - 1, by omega⟩
  simp [List.take_succ_cons]

theorem holds_push_other {cap : Nat} {s : Store α} (hok : Ok cap s) {k : Nat} {a : α} {T : List Nat} (hT : T.length < cap)
    (h : Holds k a T s) {e : Ent α} (he : e.key ∈ T) (hne : e.key ≠ k) : Holds k a T (push cap s e) := by
  obtain ⟨l1, c, l2, h1, h2, h3⟩ := h
  have hf : s.ents.filter (fun x => x.key ≠ e.key) =
      l1.filter (fun x => x.key ≠ e.key) ++ ⟨k, a, c⟩ :: l2.filter (fun x => x.key ≠ e.key) := by
    rw [h1, List.filter_append, List.filter_cons]
    rw [if_pos (by simpa using fun h : k = e.key => hne h.symm)]
  have hlen : (e :: l1.filter (fun x => x.key ≠ e.key)).length < cap := by
    have hnd : ((e :: l1.filter (fun x => x.key ≠ e.key)).map Ent.key).Nodup := by
      rw [List.map_cons, key_filter, List.nodup_cons]
      constructor
      · intro hm
        have := (List.mem_filter.mp hm).2
        simp at this
      · have := hok.nodup
        unfold ckeys at this
        rw [h1, List.map_append, List.nodup_append] at this
        exact this.1.filter _
    have := hnd.length_le_of_subset (l₂ := T) (by
      intro j hj
      obtain ⟨x, hx, rfl⟩ := List.mem_map.mp hj
      rcases List.mem_cons.mp hx with rfl | hx
      · exact he
      · exact h2 x (List.mem_filter.mp hx).1)
    rw [List.length_map] at this
    omega
  refine ⟨e :: l1.filter (fun x => x.key ≠ e.key), c, ((⟨k, a, c⟩ :: l2.filter (fun x => x.key ≠ e.key)).take (cap - (e :: l1.filter (fun x => x.key ≠ e.key)).length)).tail, ?_, ?_, h3⟩
  · unfold push
    simp only [hf]
    rw [← List.cons_append, List.take_append, List.take_of_length_le (by omega)]
    congr 1
    generalize hm : cap - (e :: l1.filter (fun x => x.key ≠ e.key)).length = m
    obtain ⟨m, rfl⟩ : ∃ m', m = m' + 1 := ⟨m - 1, by omega⟩
    simp [List.take_succ_cons]
  · intro x hx
    rcases List.mem_cons.mp hx with rfl | hx
    · exact he
    · exact h2 x (List.mem_filter.mp hx).1

theorem holds_lookup {s : Store α} {cap : Nat} (hok : Ok cap s) {k : Nat} {a : α} {T : List Nat} (h : Holds k a T s) :
    ∃ c, lookup s k = some ⟨k, a, c⟩ ∧ (c = true → s.kv.get k = some a) := by
  obtain ⟨l1, c, l2, h1, h2, h3⟩ := h
  refine ⟨c, ?_, h3⟩
  unfold lookup
  rw [h1, List.find?_append, List.find?_eq_none.mpr]
  · simp
  · intro x hx hk
    simp only [decide_eq_true_eq] at hk
    have := hok.nodup
    unfold ckeys at this
    rw [h1, List.map_append, List.nodup_append] at this
    exact this.2.2 x.key (List.mem_map_of_mem hx) k (by simp) hk

/-- the key an operation uses -/
def Op.key : Op α → Option Nat
  | .read k => some k
  | .write k _ => some k
  | .flush => none

theorem holds_step {cap : Nat} {s : Store α} (hok : Ok cap s) {k : Nat} {a : α} {T : List Nat} (hT : T.length < cap) (h : Holds k a T s)
    (o : Op α) (ho : ∀ j, o.key = some j → j = k ∨ j ∈ T) (hw : ∀ b, o = .write k b → b = a) : Holds k a T (step cap s o) := by
  have hcap : 0 < cap := by omega
  obtain ⟨c, hl, hc⟩ := holds_lookup hok h
  cases o with
  | read j =>
    show Holds k a T (read cap s j).1
    unfold read
    by_cases hj : j = k
    · subst hj; rw [hl]; exact holds_push_self hcap j a c T hc
    · have hjT : j ∈ T := (ho j rfl).resolve_left hj
      split
      · rename_i e he
        have hek := (lookup_some he).2
        exact holds_push_other hok hT h (by rw [hek]; exact hjT) (by rw [hek]; exact hj)
      · split
        · exact h
        · exact holds_push_other hok hT h hjT hj
  | write j b =>
    show Holds k a T (push cap s ⟨j, b, false⟩)
    by_cases hj : j = k
    · subst hj; obtain rfl := hw b rfl; exact holds_push_self hcap j b false T nofun
    · exact holds_push_other hok hT h ((ho j rfl).resolve_left hj) hj
  | flush =>
    show Holds k a T (flush cap s)
    rw [flush_eq hok]
    obtain ⟨l1, c', l2, h1, h2, h3⟩ := h
    refine ⟨l1.map done, true, l2.map done, ?_, ?_, ?_⟩
    · rw [h1]; simp [done]
    · intro x hx; obtain ⟨y, hy, rfl⟩ := List.mem_map.mp hx; exact h2 y hy
    · intro _
      show (written s.ents s.kv).get k = some a
      rw [(written_get s.ents s.kv hok.nodup k).2 ⟨k, a, c'⟩ (by rw [h1]; simp) rfl]
      split
      · rename_i hc'; exact h3 hc'
      · rfl

theorem holds_run {cap : Nat} {s : Store α} (hok : Ok cap s) {k : Nat} {a : α} {T : List Nat} (hT : T.length < cap) (h : Holds k a T s)
    (ops : List (Op α)) (ho : ∀ o ∈ ops, ∀ j, o.key = some j → j = k ∨ j ∈ T) (hw : ∀ b, .write k b ∈ ops → b = a) : Holds k a T (run cap s ops) := by
  induction ops generalizing s with
  | nil => exact h
  | cons o ops ih =>
    exact ih (ok_step hok o) (holds_step hok hT h o (ho o (by simp)) (fun b hb => hw b (by simp [hb])))
      (fun o' h' => ho o' (by simp [h'])) (fun b hb => hw b (by simp [hb]))

/-- after a flush a held entry is stored -/
theorem holds_flush {cap : Nat} {s : Store α} (hok : Ok cap s) {k : Nat} {a : α} {T : List Nat} (h : Holds k a T s) :
    (flush cap s).kv.get k = some a := by
  obtain ⟨c, hl, hc⟩ := holds_lookup hok h
  obtain ⟨hm, _⟩ := lookup_some hl
  rw [flush_eq hok]
  show (written s.ents s.kv).get k = some a
  rw [(written_get s.ents s.kv hok.nodup k).2 _ hm rfl]
  cases c with
  | true => simpa using hc rfl
  | false => rfl

/-! ## what can be stored at all -/

theorem mem_keys_iff (t : Tab α) (k : Nat) : k ∈ t.keys ↔ ∃ v, t.get k = some v :=
  ⟨Tab.get_of_mem_keys, fun ⟨_, h⟩ => Tab.mem_keys_of_get h⟩

theorem flush_stored {cap : Nat} {s : Store α} (hok : Ok cap s) {k : Nat} {a : α} (h : (flush cap s).kv.get k = some a) :
    k ∈ ckeys s ∨ s.kv.get k = some a := by
  rw [flush_eq hok] at h
  by_cases hk : k ∈ ckeys s
  · exact .inl hk
  · right
    rw [← (written_get s.ents s.kv hok.nodup k).1 hk]; exact h

theorem run_kv_same {cap : Nat} (ops : List (Op α)) (s : Store α) (h : .flush ∉ ops) : (run cap s ops).kv = s.kv := by
  induction ops generalizing s with
  | nil => rfl
  | cons o ops ih =>
    show (run cap (step cap s o) ops).kv = s.kv
    rw [ih _ (fun h' => h (by simp [h']))]
    cases o with
    | read k =>
      show (read cap s k).1.kv = s.kv
      unfold read
      split
      · rfl
      · split <;> rfl
    | write k a => rfl
    | flush => exact absurd (by simp) h

/-! ## everything fits -/

/-- what a look-up delivers -/
def view (s : Store α) (k : Nat) : Option α :=
  match lookup s k with
  | some e => some e.val
  | none => s.kv.get k

/-- an entry marked committed is what is stored -/
def Sync (s : Store α) : Prop := ∀ e ∈ s.ents, e.committed = true → s.kv.get e.key = some e.val

theorem push_fits {cap : Nat} {s : Store α} {U : List Nat} (hU : U.length ≤ cap) (hnd : (ckeys s).Nodup) (hs : ∀ k ∈ ckeys s, k ∈ U)
    {e : Ent α} (he : e.key ∈ U) : (push cap s e).ents = e :: s.ents.filter (fun x => x.key ≠ e.key) ∧ ∀ k ∈ ckeys (push cap s e), k ∈ U := by
  have hn : ((e :: s.ents.filter (fun x => x.key ≠ e.key)).map Ent.key).Nodup := by
    rw [List.map_cons, key_filter, List.nodup_cons]
    refine ⟨?_, hnd.filter _⟩
    intro hm
    have := (List.mem_filter.mp hm).2
    simp at this
  have hsub : ∀ k ∈ (e :: s.ents.filter (fun x => x.key ≠ e.key)).map Ent.key, k ∈ U := by
    intro k hk
    obtain ⟨x, hx, rfl⟩ := List.mem_map.mp hk
    rcases List.mem_cons.mp hx with rfl | hx
    · exact he
    · exact hs _ (List.mem_map_of_mem (List.mem_filter.mp hx).1)
  have hlen := hn.length_le_of_subset (l₂ := U) hsub
  rw [List.length_map] at hlen
  have heq : (push cap s e).ents = e :: s.ents.filter (fun x => x.key ≠ e.key) := by
    unfold push
    exact List.take_of_length_le (by omega)
  refine ⟨heq, ?_⟩
  unfold ckeys
  rw [heq]
  exact hsub

theorem find_filter_ne {l : List (Ent α)} {j k : Nat} (h : k ≠ j) : (l.filter (fun x => x.key ≠ j)).find? (fun x => x.key = k) = l.find? (fun x => x.key = k) := by
  induction l with
  | nil => rfl
  | cons x l ih =>
    rw [List.filter_cons]
    by_cases hx : x.key = j
    · rw [if_neg (by simp [hx]), ih, List.find?_cons_of_neg]
      simp only [decide_eq_true_eq]
      exact fun hk => h (hk.symm.trans hx)
    · rw [if_pos (by simp [hx])]
      by_cases hk : x.key = k
      · rw [List.find?_cons_of_pos (by simp [hk]), List.find?_cons_of_pos (by simp [hk])]
      · rw [List.find?_cons_of_neg (by simp [hk]), List.find?_cons_of_neg (by simp [hk]), ih]

theorem view_push {cap : Nat} {s : Store α} {e : Ent α} (h : (push cap s e).ents = e :: s.ents.filter (fun x => x.key ≠ e.key)) (k : Nat) :
    view (push cap s e) k = if k = e.key then some e.val else view s k := by
  unfold view lookup
  rw [h]
  by_cases hk : k = e.key
  · rw [List.find?_cons_of_pos (by simp [hk]), if_pos hk]
  · rw [List.find?_cons_of_neg (by simpa using fun h => hk h.symm), find_filter_ne hk, if_neg hk]
    rfl

end Fave.Lru
