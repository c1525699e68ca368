import Verif.Model.Mem
/-!
# Lemmas on the memory behind the link lists
-/
namespace Fave.Mem

theorem alloc_cells (h : Heap) (c : List Nat) (a : Nat) (ha : a < h.next) : (h.alloc c).1.cells a = h.cells a := by
  have : a ≠ h.next := by omega
  simp [Heap.alloc, this]

theorem alloc_new (h : Heap) (c : List Nat) : (h.alloc c).1.cells (h.alloc c).2 = c := by
  simp [Heap.alloc]

theorem write_other (h : Heap) (a k : Nat) (l : List Nat) (b : Nat) (hb : b ≠ a) : (h.write a k l).cells b = h.cells b := by
  simp [Heap.write, hb]

theorem write_length (h : Heap) (a k : Nat) (l : List Nat) (b : Nat) : ((h.write a k l).cells b).length = (h.cells b).length := by
  unfold Heap.write
  by_cases hb : b = a
  · subst hb; simp; omega
  · simp [hb]

theorem write_next (h : Heap) (a k : Nat) (l : List Nat) : (h.write a k l).next = h.next := rfl

/-- writing behind the links appends -/
theorem read_write_append (h : Heap) (a n x : Nat) (hn : n < (h.cells a).length) :
    (h.write a n [x]).read ⟨a, n + 1⟩ = h.read ⟨a, n⟩ ++ [x] := by
  unfold Heap.write Heap.read
  simp only [if_true]
  rw [List.take_append]
  have h1 : ((h.cells a).take n).length = n := by simp; omega
  rw [h1]
  have h2 : n + 1 - n = 1 := by omega
  rw [h2, List.take_of_length_le (by rw [h1]; omega)]
  congr 1
  rw [List.take_take]
  have h3 : min 1 ((h.cells a).length - n) = 1 := by omega
  rw [h3]
  rfl

/-- writing from the beginning replaces -/
theorem read_write_set (h : Heap) (a : Nat) (l : List Nat) (hn : l.length ≤ (h.cells a).length) :
    (h.write a 0 l).read ⟨a, l.length⟩ = l := by
  unfold Heap.write Heap.read
  simp only [if_true, List.take_zero, List.nil_append, Nat.zero_add, Nat.sub_zero]
  rw [List.take_take]
  have h3 : min l.length (h.cells a).length = l.length := by omega
  rw [h3, List.take_left']
  rfl

/-- A change of the links of vertex `v` at one level, leaving `c` there: it writes into the array of these links or into new arrays, and nowhere
else. -/
structure Local (h : Heap) (v : Vert) (level : Nat) (h' : Heap) (v' : Vert) (c : List Nat) : Prop where
  next : h.next ≤ h'.next
  lengths : ∀ a, a < h.next → (h'.cells a).length = (h.cells a).length
  other : ∀ a, a < h.next → (∀ s, v.conns[level]? = some s → s.arr ≠ a) → h'.cells a = h.cells a
  unmade : ∀ a, h'.next ≤ a → h'.cells a = []
  lev : v'.level = v.level
  slice : ∃ old s, v.conns[level]? = some old ∧ v'.conns = v.conns.set level s ∧
    (s.arr = old.arr ∨ (h.next ≤ s.arr ∧ s.arr < h'.next)) ∧ s.len ≤ h'.cap s ∧ h'.read s = c ∧ s.len = c.length

/-- array bounds of one vertex -/
structure Fits (h : Heap) (v : Vert) : Prop where
  unmade : ∀ a, h.next ≤ a → h.cells a = []
  made : ∀ s ∈ v.conns, s.arr < h.next
  len : ∀ s ∈ v.conns, s.len ≤ h.cap s

theorem read_length (h : Heap) (s : Slice) (hs : s.len ≤ h.cap s) : (h.read s).length = s.len := by
  unfold Heap.read; unfold Heap.cap at hs; simp; omega

theorem getElem?_set_self' {α} (l : List α) (i : Nat) (x y : α) (h : l[i]? = some y) : (l.set i x)[i]? = some x := by
  have := (List.getElem?_eq_some_iff.mp h).1
  simp [this]

theorem setConns_local (F : Floats) (h : Heap) (v : Vert) (level : Nat) (l : List Nat) (hf : Fits h v) (h' : Heap) (v' : Vert)
    (he : setConns F (mkList h l).1 v level (mkList h l).2 = some (h', v')) : Local h v level h' v' l := by
  unfold setConns at he
  cases hold : v.conns[level]? with
  | none => rw [hold] at he; cases he
  | some old =>
    rw [hold] at he
    simp only at he
    have hm := hf.made old (List.mem_of_getElem? hold)
    have hr : (mkList h l).1.read (mkList h l).2 = l := by
      show List.take l.length ((h.alloc l).1.cells (h.alloc l).2) = l
      rw [alloc_new, List.take_length]
    have hnext : (mkList h l).1.next = h.next + 1 := rfl
    have hun : ∀ a, h.next + 1 ≤ a → (mkList h l).1.cells a = [] := by
      intro a ha
      have : a ≠ h.next := by omega
      simp [mkList, Heap.alloc, this, hf.unmade a (by omega)]
    split at he
    · simp only [Option.some.injEq, Prod.mk.injEq] at he
      obtain ⟨rfl, rfl⟩ := he
      refine ⟨by rw [hnext]; omega, ?_, ?_, hun, rfl, ⟨old, _, hold, rfl, .inr ⟨?_, ?_⟩, ?_, hr, rfl⟩⟩
      · intro a ha; rw [mkList]; simp only; rw [alloc_cells _ _ _ ha]
      · intro a ha _; rw [mkList]; simp only; rw [alloc_cells _ _ _ ha]
      · exact Nat.le_refl _
      · rw [hnext]; show h.next < _; omega
      · show l.length ≤ ((h.alloc l).1.cells (h.alloc l).2).length
        rw [alloc_new]; exact Nat.le_refl _
    · rename_i hc
      simp only [Option.some.injEq, Prod.mk.injEq] at he
      obtain ⟨rfl, rfl⟩ := he
      have hcap : l.length ≤ ((mkList h l).1.cells old.arr).length := by
        simp only [Bool.or_eq_true, decide_eq_true_eq, not_or] at hc
        have := hc.2
        show l.length ≤ (mkList h l).1.cap old
        have : ¬ (mkList h l).1.cap old < l.length := this
        omega
      rw [hr]
      refine ⟨by rw [write_next, hnext]; omega, ?_, ?_, ?_, rfl, ⟨old, _, hold, rfl, .inl rfl, ?_, ?_, rfl⟩⟩
      · intro a ha; rw [write_length, mkList]; simp only; rw [alloc_cells _ _ _ ha]
      · intro a ha hn
        rw [write_other _ _ _ _ _ (fun e => hn old hold e.symm), mkList]; simp only; rw [alloc_cells _ _ _ ha]
      · intro a ha
        rw [write_next, hnext] at ha
        rw [write_other _ _ _ _ _ (by omega)]
        exact hun a ha
      · show l.length ≤ (((mkList h l).1.write old.arr 0 l).cells old.arr).length
        rw [write_length]; exact hcap
      · exact read_write_set _ _ _ hcap

theorem appendConn_local (F : Floats) (h : Heap) (v : Vert) (level x max : Nat) (hf : Fits h v) (h' : Heap) (v' : Vert) (old : Slice)
    (hold : v.conns[level]? = some old) (he : appendConn F h v level x max = some (h', v')) :
    Local h v level h' v' (h.read old ++ [x]) := by
  unfold appendConn at he
  rw [hold] at he
  simp only at he
  have hmem := List.mem_of_getElem? hold
  have hm := hf.made old hmem
  have hl := hf.len old hmem
  have hrl := read_length h old hl
  split at he
  · rename_i hfull
    simp only [Option.some.injEq, Prod.mk.injEq] at he
    obtain ⟨rfl, rfl⟩ := he
    generalize ht : (if F.target old.len max < old.len + 1 then old.len + 1 else F.target old.len max) = tgt
    have htg : old.len + 1 ≤ tgt := by rw [← ht]; split <;> omega
    generalize hc : h.read old ++ List.replicate (tgt - old.len) 0 = c
    have hcl : c.length = tgt := by rw [← hc]; simp [hrl]; omega
    have h2 : (h.alloc c).2 = h.next := rfl
    have h1 : (h.alloc c).1.next = h.next + 1 := rfl
    have hne := alloc_new h c
    rw [h2] at hne
    refine ⟨by rw [write_next, h1]; omega, ?_, ?_, ?_, rfl, ⟨old, _, hold, rfl, .inr ⟨?_, ?_⟩, ?_, ?_, ?_⟩⟩
    · intro a ha; rw [write_length, alloc_cells _ _ _ ha]
    · intro a ha _
      rw [write_other _ _ _ _ _ (by rw [h2]; omega), alloc_cells _ _ _ ha]
    · intro a ha
      rw [write_next, h1] at ha
      rw [write_other _ _ _ _ _ (by rw [h2]; omega)]
      have : a ≠ h.next := by omega
      simp [Heap.alloc, this, hf.unmade a (by omega)]
    · exact Nat.le_refl _
    · rw [write_next, h1]; show h.next < _; omega
    · show old.len + 1 ≤ (((h.alloc c).1.write (h.alloc c).2 old.len [x]).cells (h.alloc c).2).length
      rw [write_length, alloc_new, hcl]; exact htg
    · rw [read_write_append _ _ _ _ (by rw [alloc_new, hcl]; omega)]
      congr 1
      show List.take old.len ((h.alloc c).1.cells (h.alloc c).2) = _
      rw [alloc_new, ← hc, ← hrl, List.take_left']
      rfl
    · show old.len + 1 = _
      simp [hrl]
  · rename_i hnf
    simp only [Option.some.injEq, Prod.mk.injEq] at he
    obtain ⟨rfl, rfl⟩ := he
    have hlt : old.len < (h.cells old.arr).length := by
      unfold Heap.cap at hl hnf; omega
    refine ⟨Nat.le_refl _, ?_, ?_, ?_, rfl, ⟨old, _, hold, rfl, .inl rfl, ?_, ?_, ?_⟩⟩
    · intro a _; rw [write_length]
    · intro a _ hn; rw [write_other _ _ _ _ _ (fun e => hn old hold e.symm)]
    · intro a ha
      rw [write_next] at ha
      rw [write_other _ _ _ _ _ (by omega)]
      exact hf.unmade a ha
    · show old.len + 1 ≤ ((h.write old.arr old.len [x]).cells old.arr).length
      rw [write_length]; exact hlt
    · rw [read_write_append _ _ _ _ hlt]
    · show old.len + 1 = _
      simp [hrl]

/-- a change keeps the bounds -/
theorem Local.fits {h : Heap} {v : Vert} {level : Nat} {h' : Heap} {v' : Vert} {c : List Nat} (hf : Fits h v)
    (hl : Local h v level h' v' c) : Fits h' v' := by
  obtain ⟨old, s, hold, hv, ha, hlen, hread, hcl⟩ := hl.slice
  have hm := hf.made old (List.mem_of_getElem? hold)
  refine ⟨hl.unmade, ?_, ?_⟩
  · intro t ht
    rw [hv] at ht
    rcases List.mem_or_eq_of_mem_set ht with ht | rfl
    · exact Nat.lt_of_lt_of_le (hf.made t ht) hl.next
    · rcases ha with ha | ha
      · rw [ha]; exact Nat.lt_of_lt_of_le hm hl.next
      · exact ha.2
  · intro t ht
    rw [hv] at ht
    rcases List.mem_or_eq_of_mem_set ht with ht | rfl
    · unfold Heap.cap
      rw [hl.lengths _ (hf.made t ht)]
      exact hf.len t ht
    · exact hlen

/-- one change after another, at the same level -/
theorem Local.trans {h : Heap} {v : Vert} {level : Nat} {h1 : Heap} {v1 : Vert} {c1 : List Nat} {h2 : Heap} {v2 : Vert} {c2 : List Nat}
    (hf : Fits h v) (a : Local h v level h1 v1 c1) (b : Local h1 v1 level h2 v2 c2) : Local h v level h2 v2 c2 := by
  obtain ⟨old, s, hold, hv, ha, hlen, hread, hcl⟩ := a.slice
  obtain ⟨old', s', hold', hv', ha', hlen', hread', hcl'⟩ := b.slice
  have hs : old' = s := by
    rw [hv, getElem?_set_self' _ _ _ _ hold] at hold'
    cases hold'; rfl
  subst hs
  have hm := hf.made old (List.mem_of_getElem? hold)
  refine ⟨Nat.le_trans a.next b.next, ?_, ?_, b.unmade, b.lev.trans a.lev, ⟨old, s', hold, ?_, ?_, hlen', hread', hcl'⟩⟩
  · intro x hx; rw [b.lengths x (Nat.lt_of_lt_of_le hx a.next), a.lengths x hx]
  · intro x hx hn
    rw [b.other x (Nat.lt_of_lt_of_le hx a.next), a.other x hx hn]
    intro t ht
    rw [hold'] at ht
    cases ht
    rcases ha with ha | ha
    · rw [ha]; exact hn old hold
    · omega
  · rw [hv', hv, List.set_set]
  · rcases ha' with ha' | ha'
    · rcases ha with ha | ha
      · exact .inl (ha'.trans ha)
      · exact .inr ⟨by rw [ha']; exact ha.1, by rw [ha']; exact Nat.lt_of_lt_of_le ha.2 b.next⟩
    · exact .inr ⟨Nat.le_trans a.next ha'.1, ha'.2⟩

theorem resetConn_local (h : Heap) (v : Vert) (level : Nat) (hf : Fits h v) (v' : Vert) (he : resetConn v level = some v') :
    Local h v level h v' [] := by
  unfold resetConn at he
  cases hold : v.conns[level]? with
  | none => rw [hold] at he; cases he
  | some old =>
    rw [hold] at he
    simp only [Option.some.injEq] at he
    subst he
    refine ⟨Nat.le_refl _, fun _ _ => rfl, fun _ _ _ => rfl, hf.unmade, rfl, ⟨old, _, hold, rfl, .inl rfl, Nat.zero_le _, ?_, rfl⟩⟩
    simp [Heap.read]

theorem appendConn_total (F : Floats) (h : Heap) (v : Vert) (level x max : Nat) (hlt : level < v.conns.length) :
    ∃ r, appendConn F h v level x max = some r := by
  unfold appendConn
  rw [List.getElem?_eq_getElem hlt]
  simp only
  split <;> exact ⟨_, rfl⟩

theorem appendAll_local (F : Floats) (level max : Nat) : ∀ (xs : List Nat) (h : Heap) (v : Vert), Fits h v → level < v.conns.length →
    ∃ h' v', appendAll F level max h v xs = some (h', v') ∧
      ∀ old, v.conns[level]? = some old → Local h v level h' v' (h.read old ++ xs) := by
  intro xs
  induction xs with
  | nil =>
    intro h v hf hlt
    refine ⟨h, v, rfl, fun old hold => ?_⟩
    have hset : v.conns.set level old = v.conns := by
      apply List.ext_getElem? 
      intro i
      by_cases hi : level = i
      · subst hi; rw [getElem?_set_self' _ _ _ _ hold, hold]
      · rw [List.getElem?_set_ne hi]
    refine ⟨Nat.le_refl _, fun _ _ => rfl, fun _ _ _ => rfl, hf.unmade, rfl,
      ⟨old, old, hold, hset.symm, .inl rfl, hf.len old (List.mem_of_getElem? hold), by simp, by
        simp [read_length h old (hf.len old (List.mem_of_getElem? hold))]⟩⟩
  | cons x xs ih =>
    intro h v hf hlt
    obtain ⟨⟨h1, v1⟩, h1e⟩ := appendConn_total F h v level x max hlt
    obtain ⟨old, hold⟩ : ∃ old, v.conns[level]? = some old := ⟨_, List.getElem?_eq_getElem hlt⟩
    have l1 := appendConn_local F h v level x max hf h1 v1 old hold h1e
    have hlt1 : level < v1.conns.length := by
      obtain ⟨_, s, _, hv, _⟩ := l1.slice
      rw [hv, List.length_set]; exact hlt
    obtain ⟨h2, v2, h2e, l2⟩ := ih h1 v1 (l1.fits hf) hlt1
    refine ⟨h2, v2, by unfold appendAll; rw [h1e]; exact h2e, fun old' hold' => ?_⟩
    rw [hold] at hold'
    cases hold'
    obtain ⟨o, s, ho, hv, ha, hlen, hread, hcl⟩ := l1.slice
    have hs : v1.conns[level]? = some s := by rw [hv]; exact getElem?_set_self' _ _ _ _ hold
    have l3 := l1.trans hf (l2 s hs)
    rw [hread, List.append_assoc] at l3
    exact l3

end Fave.Mem
