import Verif.Lemmas.Mem
import Verif.Spec.Lists
/-!
# Link lists share no memory
-/
namespace Fave.Mem

/-- no two link lists have a cell in common -/
structure Disjoint (s : St) : Prop where
  zero : s.heap.cells 0 = []
  pos : 0 < s.heap.next
  fits : ∀ i v, s.verts i = some v → Fits s.heap v
  unmade : ∀ a, s.heap.next ≤ a → s.heap.cells a = []
  sep : ∀ i j v w (l m : Nat) a b, s.verts i = some v → s.verts j = some w → v.conns[l]? = some a → w.conns[m]? = some b →
    a.arr = b.arr → ¬ (i = j ∧ l = m) → s.heap.cells a.arr = []

/-- freshly made lists -/
structure Fresh (h h' : Heap) (conns : List Slice) (ls : List (List Nat)) : Prop where
  next : h.next ≤ h'.next
  same : ∀ a, a < h.next → h'.cells a = h.cells a
  unmade : ∀ a, h'.next ≤ a → h'.cells a = []
  arr : ∀ s ∈ conns, h.next ≤ s.arr ∧ s.arr < h'.next
  len : ∀ s ∈ conns, s.len ≤ h'.cap s
  reads : conns.map h'.read = ls
  diff : ∀ (l m : Nat) a b, conns[l]? = some a → conns[m]? = some b → a.arr = b.arr → l = m

theorem alloc_unmade (h : Heap) (c : List Nat) (hu : ∀ a, h.next ≤ a → h.cells a = []) (a : Nat) (ha : h.next + 1 ≤ a) :
    (h.alloc c).1.cells a = [] := by
  have : a ≠ h.next := by omega
  simp [Heap.alloc, this, hu a (by omega)]

theorem mkAll_fresh (capOf : Nat → Nat) : ∀ (n : Nat) (h : Heap), (∀ a, h.next ≤ a → h.cells a = []) →
    Fresh h (mkAll capOf n h).1 (mkAll capOf n h).2 (List.replicate (n + 1) []) := by
  intro n
  induction n with
  | zero =>
    intro h hu
    refine ⟨Nat.le_succ _, fun a ha => alloc_cells _ _ _ ha, fun a ha => alloc_unmade _ _ hu a ha, ?_, ?_, ?_, ?_⟩
    · intro s hs
      simp only [mkAll, mk, List.mem_singleton] at hs
      subst hs
      exact ⟨Nat.le_refl _, Nat.lt_succ_self _⟩
    · intro s hs
      simp only [mkAll, mk, List.mem_singleton] at hs
      subst hs
      exact Nat.zero_le _
    · simp [mkAll, mk, Heap.read]
    · intro l m a b hl hm _
      have h1 := (List.getElem?_eq_some_iff.mp hl).1
      have h2 := (List.getElem?_eq_some_iff.mp hm).1
      simp [mkAll] at h1 h2
      omega
  | succ n ih =>
    intro h hu
    have hi := ih h hu
    have hn : (mkAll capOf (n + 1) h).1.next = (mkAll capOf n h).1.next + 1 := rfl
    have hs' : (mkAll capOf (n + 1) h).2 = (mkAll capOf n h).2 ++ [⟨(mkAll capOf n h).1.next, 0⟩] := rfl
    have hsame : ∀ a, a < (mkAll capOf n h).1.next → (mkAll capOf (n + 1) h).1.cells a = (mkAll capOf n h).1.cells a :=
      fun a ha => alloc_cells _ _ _ ha
    refine ⟨by rw [hn]; have := hi.next; omega, fun a ha => by rw [hsame a (Nat.lt_of_lt_of_le ha hi.next)]; exact hi.same a ha, ?_, ?_, ?_, ?_, ?_⟩
    · intro a ha; exact alloc_unmade _ _ hi.unmade a ha
    · intro s hs
      rw [hs', List.mem_append, List.mem_singleton] at hs
      rw [hn]
      rcases hs with hs | rfl
      · have := hi.arr s hs; omega
      · have := hi.next; exact ⟨this, Nat.lt_succ_self _⟩
    · intro s hs
      rw [hs', List.mem_append, List.mem_singleton] at hs
      rcases hs with hs | rfl
      · unfold Heap.cap; rw [hsame _ (hi.arr s hs).2]; exact hi.len s hs
      · exact Nat.zero_le _
    · rw [hs', List.map_append, List.replicate_succ', ← hi.reads]
      congr 1
      apply List.map_congr_left
      intro s hs
      unfold Heap.read; rw [hsame _ (hi.arr s hs).2]
    · intro l m a b hl hm hab
      rw [hs'] at hl hm
      rw [List.getElem?_append] at hl hm
      split at hl <;> split at hm
      · exact hi.diff l m a b hl hm hab
      · have h1 := (hi.arr a (List.mem_of_getElem? hl)).2
        rw [List.getElem?_singleton] at hm
        split at hm
        · cases hm; simp only at hab; omega
        · cases hm
      · have h1 := (hi.arr b (List.mem_of_getElem? hm)).2
        rw [List.getElem?_singleton] at hl
        split at hl
        · cases hl; simp only at hab; omega
        · cases hl
      · rw [List.getElem?_singleton] at hl hm
        split at hl
        · split at hm
          · omega
          · cases hm
        · cases hl

theorem loadAll_fresh (spare : Nat → Nat) : ∀ (ls : List (List Nat)) (n : Nat) (h : Heap), (∀ a, h.next ≤ a → h.cells a = []) →
    Fresh h (loadAll spare n ls h).1 (loadAll spare n ls h).2 ls := by
  intro ls
  induction ls with
  | nil =>
    intro n h hu
    exact ⟨Nat.le_refl _, fun _ _ => rfl, hu, nofun, nofun, rfl, nofun⟩
  | cons l ls ih =>
    intro n h hu
    have hu' := alloc_unmade h (l ++ List.replicate (spare n) 0) hu
    have hi := ih (n + 1) (h.alloc (l ++ List.replicate (spare n) 0)).1 hu'
    have hn : (h.alloc (l ++ List.replicate (spare n) 0)).1.next = h.next + 1 := rfl
    have hc : (loadAll spare n (l :: ls) h).2 = ⟨h.next, l.length⟩ :: (loadAll spare (n + 1) ls (h.alloc (l ++ List.replicate (spare n) 0)).1).2 := rfl
    have hh : (loadAll spare n (l :: ls) h).1 = (loadAll spare (n + 1) ls (h.alloc (l ++ List.replicate (spare n) 0)).1).1 := rfl
    rw [hc, hh]
    generalize (loadAll spare (n + 1) ls (h.alloc (l ++ List.replicate (spare n) 0)).1) = r at hi
    have hcell : r.1.cells h.next = l ++ List.replicate (spare n) 0 := by
      rw [hi.same _ (by rw [hn]; omega)]
      exact alloc_new h _
    have hnx := hi.next
    rw [hn] at hnx
    refine ⟨by omega, fun a ha => by rw [hi.same a (by rw [hn]; omega)]; exact alloc_cells _ _ _ ha, hi.unmade, ?_, ?_, ?_, ?_⟩
    · intro s hs
      rcases List.mem_cons.mp hs with rfl | hs
      · exact ⟨Nat.le_refl _, by simp only; omega⟩
      · have := hi.arr s hs; rw [hn] at this; omega
    · intro s hs
      rcases List.mem_cons.mp hs with rfl | hs
      · unfold Heap.cap; simp only; rw [hcell]; simp
      · exact hi.len s hs
    · rw [List.map_cons, hi.reads]
      congr 1
      unfold Heap.read; simp only; rw [hcell, List.take_left']; rfl
    · intro i j a b hia hjb hab
      cases i with
      | zero =>
        cases j with
        | zero => rfl
        | succ j =>
          have h1 := (hi.arr b (List.mem_of_getElem? hjb)).1
          cases hia
          simp only at hab; rw [hn] at h1; omega
      | succ i =>
        cases j with
        | zero =>
          have h1 := (hi.arr a (List.mem_of_getElem? hia)).1
          cases hjb
          simp only at hab; rw [hn] at h1; omega
        | succ j =>
          have := hi.diff i j a b hia hjb hab
          omega

/-- a new vertex keeps the lists apart -/
theorem Disjoint.fresh {s : St} (hd : Disjoint s) (i level : Nat) (h' : Heap) (conns : List Slice) (ls : List (List Nat))
    (hf : Fresh s.heap h' conns ls) :
    Disjoint (s.put i h' ⟨level, conns⟩) ∧ (s.put i h' ⟨level, conns⟩).lists = s.lists.put i level ls := by
  have hn := hf.next
  have hold : ∀ j w, s.verts j = some w → Fits h' w := by
    intro j w hw
    have hfit := hd.fits j w hw
    exact ⟨hf.unmade, fun t ht => Nat.lt_of_lt_of_le (hfit.made t ht) hn, fun t ht => by
      unfold Heap.cap; rw [hf.same _ (hfit.made t ht)]; exact hfit.len t ht⟩
  have hget : ∀ j, (s.put i h' ⟨level, conns⟩).verts j = if j = i then some ⟨level, conns⟩ else s.verts j := fun _ => rfl
  refine ⟨⟨by show h'.cells 0 = []; rw [hf.same 0 hd.pos]; exact hd.zero, Nat.lt_of_lt_of_le hd.pos hn, ?_, hf.unmade, ?_⟩, ?_⟩
  · intro j w hw
    rw [hget] at hw
    split at hw
    · cases hw; exact ⟨hf.unmade, fun t ht => (hf.arr t ht).2, hf.len⟩
    · exact hold j w hw
  · intro j k v w l m a b hv hw hl hm hab hne
    show h'.cells a.arr = []
    rw [hget] at hv hw
    split at hv <;> split at hw
    · cases hv; cases hw
      exact absurd ⟨by omega, hf.diff l m a b hl hm hab⟩ hne
    · cases hv
      have h1 := (hf.arr a (List.mem_of_getElem? hl)).1
      have h2 := (hd.fits k w hw).made b (List.mem_of_getElem? hm)
      omega
    · cases hw
      have h1 := (hf.arr b (List.mem_of_getElem? hm)).1
      have h2 := (hd.fits j v hv).made a (List.mem_of_getElem? hl)
      omega
    · rw [hf.same _ ((hd.fits j v hv).made a (List.mem_of_getElem? hl))]
      exact hd.sep j k v w l m a b hv hw hl hm hab hne
  · funext j
    unfold St.lists Lists.put
    rw [hget]
    split
    · simp only [Option.map_some]
      rw [← hf.reads]; rfl
    · cases hw : s.verts j with
      | none => simp only [hw, Option.map_none]
      | some w =>
        simp only [hw, Option.map_some]
        congr 2
        apply List.map_congr_left
        intro t ht
        show h'.read t = s.heap.read t
        unfold Heap.read
        rw [hf.same _ ((hd.fits j w hw).made t ht)]

/-- a change of one list keeps the lists apart and changes only this list -/
theorem Disjoint.change {s : St} (hd : Disjoint s) (i level : Nat) (v v' : Vert) (h' : Heap) (c : List Nat) (hv : s.verts i = some v)
    (hl : Local s.heap v level h' v' c) :
    Disjoint (s.put i h' v') ∧ (s.put i h' v').lists = s.lists.put i v.level ((v.conns.map s.heap.read).set level c) := by
  obtain ⟨old, t, hold, hset, harr, hlen, hread, hcl⟩ := hl.slice
  have hfit := hd.fits i v hv
  have hom := hfit.made old (List.mem_of_getElem? hold)
  have hget : ∀ j, (s.put i h' v').verts j = if j = i then some v' else s.verts j := fun _ => rfl
  have hlev : v'.level = v.level := hl.lev
  have hnil : ∀ a, a < s.heap.next → s.heap.cells a = [] → h'.cells a = [] := by
    intro a ha h0
    have := hl.lengths a ha
    rw [h0] at this
    exact List.eq_nil_of_length_eq_zero this
  -- any other list is unchanged
  have hother : ∀ j w (m : Nat) b, s.verts j = some w → w.conns[m]? = some b → ¬ (i = j ∧ level = m) → h'.cells b.arr = s.heap.cells b.arr := by
    intro j w m b hw hm hne
    have hb := (hd.fits j w hw).made b (List.mem_of_getElem? hm)
    by_cases he : old.arr = b.arr
    · have h0 := hd.sep i j v w level m old b hv hw hold hm he hne
      rw [he] at h0
      rw [h0, hnil _ hb h0]
    · apply hl.other _ hb
      intro o ho
      rw [hold] at ho; cases ho
      exact he
  -- the slices of v'
  have hv'get : ∀ (m : Nat) b, v'.conns[m]? = some b → (m = level ∧ b = t) ∨ (m ≠ level ∧ v.conns[m]? = some b) := by
    intro m b hm
    rw [hset] at hm
    by_cases he : m = level
    · subst he
      rw [getElem?_set_self' _ _ _ _ hold] at hm
      cases hm; exact .inl ⟨rfl, rfl⟩
    · rw [List.getElem?_set_ne (fun e => he e.symm)] at hm
      exact .inr ⟨he, hm⟩
  -- the new slice against an old one
  have hnew : ∀ j w (m : Nat) b, s.verts j = some w → w.conns[m]? = some b → ¬ (i = j ∧ level = m) → t.arr = b.arr → h'.cells b.arr = [] := by
    intro j w m b hw hm hne he
    have hb := (hd.fits j w hw).made b (List.mem_of_getElem? hm)
    rcases harr with harr | harr
    · have h0 := hd.sep i j v w level m old b hv hw hold hm (by rw [← harr]; exact he) hne
      rw [← harr, he] at h0
      exact hnil _ hb h0
    · omega
  have hfits' : ∀ j w, s.verts j = some w → Fits h' w := by
    intro j w hw
    have hf := hd.fits j w hw
    refine ⟨hl.unmade, fun u hu => Nat.lt_of_lt_of_le (hf.made u hu) hl.next, fun u hu => ?_⟩
    unfold Heap.cap
    rw [hl.lengths _ (hf.made u hu)]
    exact hf.len u hu
  refine ⟨⟨?_, Nat.lt_of_lt_of_le hd.pos hl.next, ?_, hl.unmade, ?_⟩, ?_⟩
  · exact hnil 0 hd.pos hd.zero
  · intro j w hw
    rw [hget] at hw
    split at hw
    · cases hw; exact hl.fits hfit
    · exact hfits' j w hw
  · intro j k x y l m a b hx hy hla hmb hab hne
    show h'.cells a.arr = []
    rw [hget] at hx hy
    split at hx
    · rename_i hji
      cases hx
      rcases hv'get l a hla with ⟨rfl, rfl⟩ | ⟨hlne, hla'⟩
      · -- a is the new slice
        rw [hab]
        split at hy
        · rename_i hki
          cases hy
          rcases hv'get m b hmb with ⟨rfl, rfl⟩ | ⟨hmne, hmb'⟩
          · exact absurd ⟨by omega, rfl⟩ hne
          · exact hnew i v m b hv hmb' (fun h => hmne h.2.symm) hab
        · exact hnew k y m b hy hmb (fun h => by omega) hab
      · split at hy
        · rename_i hki
          cases hy
          rcases hv'get m b hmb with ⟨rfl, rfl⟩ | ⟨hmne, hmb'⟩
          · exact hnew i v l a hv hla' (fun h => hlne h.2.symm) hab.symm
          · rw [hother i v l a hv hla' (fun h => hlne h.2.symm)]
            exact hd.sep i i v v l m a b hv hv hla' hmb' hab (fun h => hne ⟨by omega, h.2⟩)
        · rw [hother i v l a hv hla' (fun h => hlne h.2.symm)]
          exact hd.sep i k v y l m a b hv hy hla' hmb hab (fun h => by omega)
    · split at hy
      · rename_i hji hki
        cases hy
        rcases hv'get m b hmb with ⟨rfl, rfl⟩ | ⟨hmne, hmb'⟩
        · exact hnew j x l a hx hla (fun h => hji h.1.symm) hab.symm
        · rw [hother j x l a hx hla (fun h => hji h.1.symm)]
          exact hd.sep j i x v l m a b hx hv hla hmb' hab (fun h => hji h.1)
      · rename_i hji hki
        rw [hother j x l a hx hla (fun h => hji h.1.symm)]
        exact hd.sep j k x y l m a b hx hy hla hmb hab hne
  · funext j
    unfold St.lists Lists.put
    rw [hget]
    split
    · simp only [Option.map_some]
      rw [hlev]
      congr 2
      apply List.ext_getElem?
      intro m
      rw [List.getElem?_map, hset]
      by_cases he : m = level
      · subst he
        rw [getElem?_set_self' _ _ _ _ hold, getElem?_set_self' _ _ _ (s.heap.read old) (by rw [List.getElem?_map, hold]; rfl)]
        simp only [Option.map_some]
        rw [← hread]; rfl
      · rw [List.getElem?_set_ne (fun e => he e.symm), List.getElem?_set_ne (fun e => he e.symm), List.getElem?_map]
        cases hm : v.conns[m]? with
        | none => rfl
        | some b =>
          simp only [Option.map_some]
          congr 1
          show h'.read b = s.heap.read b
          unfold Heap.read
          rw [hother i v m b hv hm (fun h => he h.2.symm)]
    · rename_i hji
      cases hw : s.verts j with
      | none => simp only [hw, Option.map_none]
      | some w =>
        simp only [hw, Option.map_some]
        congr 2
        apply List.map_congr_left
        intro u hu
        obtain ⟨m, hm⟩ := List.getElem?_of_mem hu
        show h'.read u = s.heap.read u
        unfold Heap.read
        rw [hother j w m u hw hm (fun h => hji h.1.symm)]

/-- other headers on the same memory: nothing is written -/
theorem Disjoint.headers {s : St} (hd : Disjoint s) (i : Nat) (v v' : Vert) (hv : s.verts i = some v)
    (hsub : ∀ (m : Nat) b, v'.conns[m]? = some b → b.arr = 0 ∧ b.len = 0 ∨ ∃ a, v.conns[m]? = some a ∧ a.arr = b.arr ∧ b.len ≤ a.len) :
    Disjoint (s.put i s.heap v') ∧ (s.put i s.heap v').lists = s.lists.put i v'.level (v'.conns.map s.heap.read) := by
  have hget : ∀ j, (s.put i s.heap v').verts j = if j = i then some v' else s.verts j := fun _ => rfl
  refine ⟨⟨hd.zero, hd.pos, ?_, hd.unmade, ?_⟩, ?_⟩
  · intro j w hw
    rw [hget] at hw
    split at hw
    · cases hw
      have hf := hd.fits i v hv
      refine ⟨hd.unmade, fun b hb => ?_, fun b hb => ?_⟩
      · obtain ⟨m, hm⟩ := List.getElem?_of_mem hb
        rcases hsub m b hm with h | ⟨a, ha, he, _⟩
        · rw [h.1]; exact hd.pos
        · rw [← he]; exact hf.made a (List.mem_of_getElem? ha)
      · obtain ⟨m, hm⟩ := List.getElem?_of_mem hb
        rcases hsub m b hm with h | ⟨a, ha, he, hle⟩
        · rw [h.2]; exact Nat.zero_le _
        · have := hf.len a (List.mem_of_getElem? ha)
          show b.len ≤ s.heap.cap b
          unfold Heap.cap at this ⊢
          rw [← he]; omega
    · exact hd.fits j w hw
  · intro j k x y l m a b hx hy hla hmb hab hne
    show s.heap.cells a.arr = []
    rw [hget] at hx hy
    -- replace the slices of v' by those of v
    have key : ∀ j x (l : Nat) a, (if j = i then some v' else s.verts j) = some x → x.conns[l]? = some a →
        a.arr = 0 ∨ ∃ x' a', s.verts j = some x' ∧ x'.conns[l]? = some a' ∧ a'.arr = a.arr := by
      intro j x l a hx hla
      split at hx
      · rename_i hji
        cases hx
        subst hji
        rcases hsub l a hla with h | ⟨a', ha', he, _⟩
        · exact .inl h.1
        · exact .inr ⟨v, a', hv, ha', he⟩
      · exact .inr ⟨x, a, hx, hla, rfl⟩
    rcases key j x l a hx hla with h0 | ⟨x', a', hx', ha', he⟩
    · rw [h0]; exact hd.zero
    · rcases key k y m b hy hmb with h0 | ⟨y', b', hy', hb', he'⟩
      · rw [hab, h0]; exact hd.zero
      · rw [← he]
        exact hd.sep j k x' y' l m a' b' hx' hy' ha' hb' (by rw [he, he', hab]) hne
  · funext j
    unfold St.lists Lists.put
    rw [hget]
    split <;> rfl

end Fave.Mem
