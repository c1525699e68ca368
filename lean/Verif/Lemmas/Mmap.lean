import Verif.Spec.Mmap
import Verif.Lemmas.Codec
/-!
# Facts about the index of the memory-mapped condensor
-/
namespace Fave.Mmap
open Fave.Log (Bytes RErr LogOp encodeAll le readNum readFull le_length readNum_le leWords leWords_length)

theorem searchLoop_spec (f : Nat → Bool) (fuel i j : Nat) (hij : i ≤ j) (hf : j - i ≤ fuel)
    (hm : ∀ a b, a ≤ b → f a = true → f b = true) (hlo : ∀ k, k < i → f k = false) (hhi : ∀ k, j ≤ k → f k = true) :
    ∀ k, f k = true ↔ searchLoop f fuel i j ≤ k := by
  induction fuel generalizing i j with
  | zero =>
    have : i = j := by omega
    subst this
    intro k
    show _ ↔ i ≤ k
    constructor
    · intro h
      by_cases hk : k < i
      · rw [hlo k hk] at h; cases h
      · omega
    · intro h; exact hhi k h
  | succ fuel ih =>
    unfold searchLoop
    by_cases h : i < j
    · rw [if_pos h]
      dsimp only
      by_cases hf' : f ((i + j) / 2) = true
      · rw [hf']
        refine ih i ((i + j) / 2) (by omega) (by omega) hlo fun k hk => hm _ _ hk hf'
      · simp only [Bool.not_eq_true] at hf'
        rw [hf']
        refine ih ((i + j) / 2 + 1) j (by omega) (by omega) (fun k hk => ?_) hhi
        cases hfk : f k with
        | false => rfl
        | true =>
          have := hm k ((i + j) / 2) (by omega) hfk
          rw [hf'] at this; cases this
    · rw [if_neg h]
      have : i = j := by omega
      subst this
      intro k
      constructor
      · intro h
        by_cases hk : k < i
        · rw [hlo k hk] at h; cases h
        · omega
      · intro h; exact hhi k h

theorem search_ids {ns : List MNode} (hs : Sorted ns) (node : Nat) :
    sortSearch ns.length (atLeast ns node) ≤ ns.length ∧ (∀ x ∈ ns.take (sortSearch ns.length (atLeast ns node)), x.id < node) ∧
    ∀ x ∈ ns.drop (sortSearch ns.length (atLeast ns node)), node ≤ x.id := by
  have hm : ∀ a b, a ≤ b → atLeast ns node a = true → atLeast ns node b = true := by
    intro a b hab h
    unfold atLeast at h ⊢
    cases hb : ns[b]? with
    | none => rfl
    | some y =>
      obtain ⟨hbl, hy⟩ := List.getElem?_eq_some_iff.1 hb
      have ha : ns[a]? = some ns[a] := List.getElem?_eq_getElem (by omega)
      rw [ha] at h
      simp only [decide_eq_true_eq] at h ⊢
      by_cases hab' : a = b
      · subst hab'; rw [← hy]; exact h
      · have := List.pairwise_iff_getElem.1 hs a b (by omega) hbl (by omega)
        rw [hy] at this; omega
  have hend : ∀ k, ns.length ≤ k → atLeast ns node k = true := fun k hk => by
    unfold atLeast; rw [List.getElem?_eq_none hk]
  have key : ∀ k, _ ↔ sortSearch ns.length (atLeast ns node) ≤ k :=
    searchLoop_spec _ ns.length 0 ns.length (by omega) (by omega) hm (by omega) hend
  generalize sortSearch ns.length (atLeast ns node) = n at key
  refine ⟨?_, fun x hx => ?_, fun x hx => ?_⟩
  · exact (key ns.length).1 (hend _ (Nat.le_refl _))
  · obtain ⟨k, hk, rfl⟩ := List.getElem_of_mem hx
    rw [List.length_take] at hk
    have h1 := (fun h => (show ¬ n ≤ k by omega) ((key k).1 h) : ¬ _)
    unfold atLeast at h1
    rw [List.getElem?_eq_getElem (show k < ns.length by omega)] at h1
    rw [List.getElem_take]
    simpa using h1
  · obtain ⟨k, hk, rfl⟩ := List.getElem_of_mem hx
    rw [List.length_drop] at hk
    have h1 := (key (n + k)).2 (by omega)
    unfold atLeast at h1
    rw [List.getElem?_eq_getElem (show n + k < ns.length by omega)] at h1
    rw [List.getElem_drop]
    simpa using h1

theorem exact_empty : Exact [] [] :=
  ⟨List.Pairwise.nil, by simp, by simp, by simp, by simp⟩

theorem exact_insert {l r : List MNode} {obs : List (Nat × Nat)} (h : Exact (l ++ r) obs) {i lv o : Nat} (hl : ∀ x ∈ l, x.id < i)
    (hr : ∀ x ∈ r, i < x.id) (ho : o = 0) : Exact (l ++ ⟨i, o, lv⟩ :: r) (obs ++ [(i, lv)]) := by
  subst ho
  have hne : ∀ x ∈ l ++ r, x.id ≠ i := fun x hx => by
    rcases List.mem_append.1 hx with hx | hx
    · have := hl x hx; omega
    · have := hr x hx; omega
  have hs := h.sorted
  unfold Sorted at hs
  rw [List.pairwise_append] at hs
  refine ⟨?_, fun x hx => ?_, fun x hx k hk => ?_, fun j k hk => ?_, fun x hx => ?_⟩
  · unfold Sorted
    rw [List.pairwise_append, List.pairwise_cons]
    refine ⟨hs.1, ⟨hr, hs.2.1⟩, fun a ha b hb => ?_⟩
    rcases List.mem_cons.1 hb with hb | hb
    · subst hb; exact hl a ha
    · exact hs.2.2 a ha b hb
  · simp only [List.mem_append, List.mem_cons, List.not_mem_nil, or_false] at hx ⊢
    rcases hx with hx | hx | hx
    · exact .inl (h.seen x (by simp [hx]))
    · subst hx; exact .inr rfl
    · exact .inl (h.seen x (by simp [hx]))
  · simp only [List.mem_append, List.mem_cons, List.not_mem_nil, or_false, Prod.mk.injEq] at hx hk
    rcases hx with hx | hx | hx
    · rcases hk with hk | hk
      · exact h.largest x (by simp [hx]) k hk
      · exact absurd hk.1 (hne x (by simp [hx]))
    · subst hx
      rcases hk with hk | hk
      · obtain ⟨y, hy, e⟩ := h.all i k hk
        exact absurd e (hne y hy)
      · dsimp only at hk ⊢; omega
    · rcases hk with hk | hk
      · exact h.largest x (by simp [hx]) k hk
      · exact absurd hk.1 (hne x (by simp [hx]))
  · simp only [List.mem_append, List.mem_cons, List.not_mem_nil, or_false, Prod.mk.injEq] at hk
    rcases hk with hk | hk
    · obtain ⟨y, hy, e⟩ := h.all j k hk
      refine ⟨y, ?_, e⟩
      simp only [List.mem_append, List.mem_cons] at hy ⊢
      rcases hy with hy | hy
      · exact .inl hy
      · exact .inr (.inr hy)
    · exact ⟨⟨i, 0, lv⟩, by simp, hk.1.symm⟩
  · simp only [List.mem_append, List.mem_cons] at hx
    rcases hx with hx | hx | hx
    · exact h.unplaced x (by simp [hx])
    · subst hx; rfl
    · exact h.unplaced x (by simp [hx])

theorem exact_update {l r : List MNode} {y : MNode} {obs : List (Nat × Nat)} (h : Exact (l ++ y :: r) obs) {lv : Nat} :
    Exact (l ++ { y with maxLevel := max y.maxLevel lv } :: r) (obs ++ [(y.id, lv)]) := by
  have hs := h.sorted
  unfold Sorted at hs
  rw [List.pairwise_append, List.pairwise_cons] at hs
  have hne : ∀ x, x ∈ l ∨ x ∈ r → x.id ≠ y.id := fun x hx => by
    rcases hx with hx | hx
    · have := hs.2.2 x hx y (by simp); omega
    · have := hs.2.1.1 x hx; omega
  refine ⟨?_, fun x hx => ?_, fun x hx k hk => ?_, fun j k hk => ?_, fun x hx => ?_⟩
  · unfold Sorted
    rw [List.pairwise_append, List.pairwise_cons]
    refine ⟨hs.1, hs.2.1, fun a ha b hb => ?_⟩
    rcases List.mem_cons.1 hb with hb | hb
    · subst hb; exact hs.2.2 a ha y (by simp)
    · exact hs.2.2 a ha b (by simp [hb])
  · simp only [List.mem_append, List.mem_cons, List.not_mem_nil, or_false] at hx ⊢
    rcases hx with hx | hx | hx
    · exact .inl (h.seen x (by simp [hx]))
    · subst hx
      dsimp only
      rcases Nat.le_total y.maxLevel lv with hc | hc
      · right; rw [Nat.max_eq_right hc]
      · left; rw [Nat.max_eq_left hc]; exact h.seen y (by simp)
    · exact .inl (h.seen x (by simp [hx]))
  · simp only [List.mem_append, List.mem_cons, List.not_mem_nil, or_false, Prod.mk.injEq] at hx hk
    rcases hx with hx | hx | hx
    · rcases hk with hk | hk
      · exact h.largest x (by simp [hx]) k hk
      · exact absurd hk.1 (hne x (.inl hx))
    · subst hx
      dsimp only at hk ⊢
      rcases hk with hk | hk
      · have := h.largest y (by simp) k hk; omega
      · omega
    · rcases hk with hk | hk
      · exact h.largest x (by simp [hx]) k hk
      · exact absurd hk.1 (hne x (.inr hx))
  · simp only [List.mem_append, List.mem_cons, List.not_mem_nil, or_false, Prod.mk.injEq] at hk
    rcases hk with hk | hk
    · obtain ⟨z, hz, e⟩ := h.all j k hk
      simp only [List.mem_append, List.mem_cons] at hz
      rcases hz with hz | hz | hz
      · exact ⟨z, by simp [hz], e⟩
      · subst hz; exact ⟨{ z with maxLevel := max z.maxLevel lv }, by simp, e⟩
      · exact ⟨z, by simp [hz], e⟩
    · exact ⟨{ y with maxLevel := max y.maxLevel lv }, by simp, hk.1.symm⟩
  · simp only [List.mem_append, List.mem_cons] at hx
    rcases hx with hx | hx | hx
    · exact h.unplaced x (by simp [hx])
    · subst hx; exact h.unplaced y (by simp)
    · exact h.unplaced x (by simp [hx])

theorem exact_upsert {ns : List MNode} {obs : List (Nat × Nat)} (h : Exact ns obs) (i lv : Nat) :
    Exact (upsert ns i lv) (obs ++ [(i, lv)]) := by
  obtain ⟨h1, h2, h3⟩ := search_ids h.sorted i
  unfold upsert
  dsimp only
  generalize sortSearch ns.length (atLeast ns i) = n at h1 h2 h3
  have hsplit : ns.take n ++ ns.drop n = ns := List.take_append_drop n ns
  cases hx : ns[n]? with
  | none =>
    dsimp only
    have hn : ns.length ≤ n := List.getElem?_eq_none_iff.1 hx
    refine exact_insert (by rwa [hsplit]) h2 (fun x hm => ?_) rfl
    rw [List.drop_eq_nil_of_le hn] at hm; cases hm
  | some x =>
    dsimp only
    obtain ⟨hn, hxe⟩ := List.getElem?_eq_some_iff.1 hx
    have hd : ns.drop n = x :: ns.drop (n + 1) := by rw [List.drop_eq_getElem_cons hn, hxe]
    have hns : ns = ns.take n ++ x :: ns.drop (n + 1) := by rw [← hd, hsplit]
    have hxm : x ∈ ns := hxe ▸ List.getElem_mem hn
    by_cases he : x.id = i
    · rw [if_pos he]
      subst he
      have hE := h
      rw [hns] at hE
      have hu := exact_update hE (lv := lv)
      by_cases hlt : x.maxLevel < lv
      · rw [if_pos hlt, List.set_eq_take_append_cons_drop, if_pos hn]
        rwa [Nat.max_eq_right (by omega)] at hu
      · rw [if_neg hlt]
        rw [Nat.max_eq_left (by omega)] at hu
        rw [hns]; exact hu
    · rw [if_neg he]
      refine exact_insert (by rwa [hsplit]) h2 (fun y hm => ?_) (h.unplaced x hxm)
      have h4 := h3 y hm
      rw [hd] at hm
      have hxi := h3 x (by rw [hd]; simp)
      rcases List.mem_cons.1 hm with hm | hm
      · subst hm; omega
      · have hs := h.sorted
        rw [hns] at hs
        unfold Sorted at hs
        rw [List.pairwise_append, List.pairwise_cons] at hs
        have := hs.2.1.1 y hm
        omega

theorem skip_append {n : Nat} {b : Bytes} (h : b.length = n) (r : Bytes) : skip n (b ++ r) = .ok r := by
  unfold skip
  rw [if_pos (by simp; omega), ← h, List.drop_left]

theorem readRecord_tags (ns : List MNode) (bs : Bytes) :
    readRecord 0 ns bs = readNode ns bs ∧ readRecord 1 ns bs = (ns, skip 10 bs) ∧ readRecord 2 ns bs = readLink ns bs ∧
    readRecord 3 ns bs = readLinks ns bs ∧ readRecord 4 ns bs = (ns, skip 8 bs) ∧ readRecord 5 ns bs = (ns, skip 8 bs) ∧
    readRecord 6 ns bs = (ns, skip 8 bs) ∧ readRecord 7 ns bs = readDelete ns bs := by
  refine ⟨?_, ?_, ?_, ?_, ?_, ?_, ?_, ?_⟩ <;> unfold readRecord <;> rfl

theorem readRecord_known {ns : List MNode} {obs : List (Nat × Nat)} (h : Exact ns obs) (op : LogOp) (hk : Known op) (hr : op.InRange)
    (r : Bytes) : ∃ ns', readRecord op.tag ns (op.payload ++ r) = (ns', .ok r) ∧ Exact ns' (observe obs op) := by
  cases op with
  | addNode id l =>
    refine ⟨upsert ns id l, ?_, exact_upsert h id l⟩
    refine (readRecord_tags ns _).1.trans ?_
    simp only [readNode, LogOp.payload, List.append_assoc]
    rw [readNum_le (by have := hr.1; omega)]
    dsimp only
    rw [readNum_le (by have := hr.2; omega)]
  | setEntryPoint id l =>
    refine ⟨ns, ?_, h⟩
    refine (readRecord_tags ns _).2.1.trans ?_
    rw [skip_append (by simp [LogOp.payload, le_length])]
  | addLink s l t =>
    refine ⟨upsert ns s l, ?_, exact_upsert h s l⟩
    refine (readRecord_tags ns _).2.2.1.trans ?_
    simp only [readLink, LogOp.payload, List.append_assoc]
    rw [readNum_le (by have := hr.1; omega)]
    dsimp only
    rw [readNum_le (by have := hr.2.1; omega)]
    dsimp only
    rw [skip_append (le_length _ _)]
  | replaceLinks s l ts =>
    refine ⟨upsert ns s l, ?_, exact_upsert h s l⟩
    refine (readRecord_tags ns _).2.2.2.1.trans ?_
    simp only [readLinks, LogOp.payload, List.append_assoc]
    rw [readNum_le (by have := hr.1; omega)]
    dsimp only
    rw [readNum_le (by have := hr.2.1; omega)]
    dsimp only
    rw [readNum_le (by have := hr.2.2.1; omega)]
    dsimp only
    rw [skip_append (leWords_length ts)]
  | addTombstone id =>
    refine ⟨ns, ?_, h⟩
    refine (readRecord_tags ns _).2.2.2.2.1.trans ?_
    rw [skip_append (by simp [LogOp.payload, le_length])]
  | removeTombstone id =>
    refine ⟨ns, ?_, h⟩
    refine (readRecord_tags ns _).2.2.2.2.2.1.trans ?_
    rw [skip_append (by simp [LogOp.payload, le_length])]
  | clearLinks id =>
    refine ⟨ns, ?_, h⟩
    refine (readRecord_tags ns _).2.2.2.2.2.2.1.trans ?_
    rw [skip_append (by simp [LogOp.payload, le_length])]
  | deleteNode id =>
    refine ⟨ns, ?_, h⟩
    refine (readRecord_tags ns _).2.2.2.2.2.2.2.trans ?_
    simp only [readDelete, LogOp.payload]
    rw [readNum_le (show id < 256 ^ 8 from hr)]
  | resetIndex => exact ⟨[], rfl, exact_empty⟩
  | clearLinksAtLevel => exact hk.elim
  | addLinks => exact hk.elim
  | addPQ => exact hk.elim

theorem loop_known (ops : List LogOp) {fuel : Nat} {ns : List MNode} {obs : List (Nat × Nat)} (h : Exact ns obs)
    (hk : ∀ op ∈ ops, Known op) (hr : ∀ op ∈ ops, op.InRange) (tail : Bytes) (hf : ops.length ≤ fuel) :
    ∃ ns', loop fuel ns (encodeAll ops ++ tail) = loop (fuel - ops.length) ns' tail ∧ Exact ns' (ops.foldl observe obs) := by
  induction ops generalizing fuel ns obs with
  | nil => exact ⟨ns, rfl, h⟩
  | cons op ops ih =>
    obtain ⟨ns1, h1, h2⟩ := readRecord_known h op (hk op (by simp)) (hr op (by simp)) (encodeAll ops ++ tail)
    cases fuel with
    | zero => simp at hf
    | succ fuel =>
      obtain ⟨ns2, h3, h4⟩ := ih h2 (fun o ho => hk o (by simp [ho])) (fun o ho => hr o (by simp [ho]))
        (show ops.length ≤ fuel by simp at hf; omega)
      refine ⟨ns2, ?_, h4⟩
      have e : encodeAll (op :: ops) ++ tail = op.tag :: (op.payload ++ (encodeAll ops ++ tail)) := by
        simp [encodeAll, LogOp.encode]
      rw [e]
      simp only [loop, h1]
      rw [h3]
      congr 1
      simp

theorem length_le (ops : List LogOp) : ops.length ≤ (encodeAll ops).length := by
  induction ops with
  | nil => simp
  | cons op ops ih =>
    have : encodeAll (op :: ops) = op.encode ++ encodeAll ops := by simp [encodeAll]
    rw [this]; simp [LogOp.encode]; omega

theorem offsets_some {c : Nat} (ns : List MNode) (p : Nat) (h : p + totalSize c ns < 2 ^ 64) :
    (offsets c (some p) ns).length = ns.length ∧
    (∀ (k : Nat) (x : MNode), (offsets c (some p) ns)[k]? = some x → x.offset = p + totalSize c (ns.take k)) ∧
    ∀ k : Nat, (offsets c (some p) ns)[k]?.map (fun x : MNode => (x.id, x.maxLevel)) = ns[k]?.map (fun x : MNode => (x.id, x.maxLevel)) := by
  induction ns generalizing p with
  | nil => simp [offsets]
  | cons y ns ih =>
    have h' : p + (y.size c + totalSize c ns) < 2 ^ 64 := by simpa [totalSize] using h
    have hm : (p + y.size c) % 2 ^ 64 = p + y.size c := Nat.mod_eq_of_lt (by omega)
    obtain ⟨h1, h2, h3⟩ := ih (p + y.size c) (by omega)
    simp only [offsets, hm]
    refine ⟨by simp [h1], fun k x hx => ?_, fun k => ?_⟩
    · cases k with
      | zero => simp only [List.getElem?_cons_zero, Option.some.injEq] at hx; subst hx; simp [totalSize]
      | succ k =>
        rw [List.getElem?_cons_succ] at hx
        rw [h2 k x hx]
        simp [totalSize]; omega
    · cases k with
      | zero => rfl
      | succ k => simpa using h3 k

theorem offsets_spec {c : Nat} {ns : List MNode} (h0 : ∀ x ∈ ns, x.offset = 0) (h : totalSize c ns < 2 ^ 64) :
    (offsets c none ns).length = ns.length ∧
    (∀ (k : Nat) (x : MNode), (offsets c none ns)[k]? = some x → x.offset = totalSize c (ns.take k)) ∧
    ∀ k : Nat, (offsets c none ns)[k]?.map (fun x : MNode => (x.id, x.maxLevel)) = ns[k]?.map (fun x : MNode => (x.id, x.maxLevel)) := by
  cases ns with
  | nil => simp [offsets]
  | cons y ns =>
    have hy := h0 y (by simp)
    have : offsets c none (y :: ns) = offsets c (some 0) (y :: ns) := by
      simp only [offsets]
      rw [hy]
      congr 1
      cases y; simp only at hy; subst hy; rfl
    rw [this]
    have := offsets_some (c := c) (y :: ns) 0 (by omega)
    simpa using this

theorem total_split {c : Nat} {ns : List MNode} {k : Nat} {x : MNode} (h : ns[k]? = some x) :
    totalSize c (ns.take (k + 1)) = totalSize c (ns.take k) + x.size c := by
  unfold totalSize
  rw [List.take_add_one, h]
  simp

theorem total_mono {c : Nat} {ns : List MNode} {j k : Nat} (h : j ≤ k) : totalSize c (ns.take j) ≤ totalSize c (ns.take k) := by
  have : k = j + (k - j) := by omega
  rw [this, List.take_add]
  simp [totalSize]

end Fave.Mmap
