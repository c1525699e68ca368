import Verif.Spec.Docs
import Verif.Lemmas.Stored
import Verif.Lemmas.DecimalInt
/-!
# Lemmas about documents as JSON texts
-/
namespace Fave.Docs
open Json F32

/-! ## Maps in the order of their keys -/

theorem before_irrefl (s : Text) : before s s = false := by
  induction s with
  | nil => rfl
  | cons a s ih => simp [before, ih]

theorem before_trans : ∀ {s t u : Text}, before s t = true → before t u = true → before s u = true
  | [], [], _, h, _ => by simp [before] at h
  | [], _ :: _, [], _, h => by simp [before] at h
  | [], _ :: _, _ :: _, _, _ => rfl
  | _ :: _, [], _, h, _ => by simp [before] at h
  | _ :: _, _ :: _, [], _, h => by simp [before] at h
  | a :: s, b :: t, c :: u, h, h' => by
    simp only [before, Bool.or_eq_true, Bool.and_eq_true, decide_eq_true_eq, beq_iff_eq] at h h' ⊢
    rcases h with h | ⟨rfl, h⟩
    · rcases h' with h' | ⟨rfl, -⟩
      · exact .inl (by omega)
      · exact .inl h
    · rcases h' with h' | ⟨rfl, h'⟩
      · exact .inl h'
      · exact .inr ⟨rfl, before_trans h h'⟩

theorem before_total : ∀ {s t : Text}, s ≠ t → before s t = false → before t s = true
  | [], [], h, _ => absurd rfl h
  | [], _ :: _, _, h => by simp [before] at h
  | _ :: _, [], _, _ => rfl
  | a :: s, b :: t, h, h' => by
    simp only [before, Bool.or_eq_false_iff, Bool.and_eq_false_iff, decide_eq_false_iff_not, Bool.or_eq_true, Bool.and_eq_true, decide_eq_true_eq,
      beq_iff_eq, beq_eq_false_iff_ne] at h' ⊢
    by_cases hab : a = b
    · subst hab
      refine .inr ⟨rfl, before_total (fun e => h (by rw [e])) ?_⟩
      rcases h'.2 with h2 | h2
      · exact absurd rfl h2
      · exact h2
    · refine .inl ?_
      have : a.toNat ≠ b.toNat := fun e => hab (Char.toNat_inj.1 e)
      omega

/-- the members are in the order of their keys, so that no key occurs twice -/
def Sorted {α : Type} (l : List (Text × α)) : Prop := l.Pairwise fun a b => before a.1 b.1 = true

theorem lookup_put {α : Type} (k : Text) (v : α) (l : List (Text × α)) (k' : Text) :
    (put k v l).lookup k' = if k' = k then some v else l.lookup k' := by
  induction l with
  | nil =>
    by_cases h : k' = k
    · simp [put, List.lookup, h]
    · simp [put, List.lookup, h, beq_eq_false_iff_ne.2 h]
  | cons m l ih =>
    obtain ⟨a, w⟩ := m
    unfold put
    split
    · rename_i h
      subst h
      by_cases h' : k' = k <;> simp [List.lookup, h']
      simp [beq_eq_false_iff_ne.2 h']
    · split
      · by_cases h' : k' = k
        · simp [List.lookup, h']
        · simp [List.lookup, h', beq_eq_false_iff_ne.2 h']
      · rename_i hne _
        by_cases h' : k' = a
        · subst h'
          have : ¬ k' = k := fun e => hne e.symm
          simp [List.lookup, this]
        · simp only [List.lookup, beq_eq_false_iff_ne.2 h', ih]

theorem mem_put {α : Type} {k : Text} {v : α} {l : List (Text × α)} {m : Text × α} (h : m ∈ put k v l) : m = (k, v) ∨ m ∈ l := by
  induction l with
  | nil => simpa [put] using h
  | cons a l ih =>
    obtain ⟨a, w⟩ := a
    unfold put at h
    split at h
    · simp only [List.mem_cons] at h ⊢; rcases h with h | h <;> simp [h]
    · split at h
      · simp only [List.mem_cons] at h ⊢; exact h
      · simp only [List.mem_cons] at h ⊢
        rcases h with h | h
        · simp [h]
        · rcases ih h with h | h <;> simp [h]

theorem sorted_put {α : Type} {k : Text} {v : α} {l : List (Text × α)} (h : Sorted l) : Sorted (put k v l) := by
  induction l with
  | nil => simp [put, Sorted]
  | cons m l ih =>
    obtain ⟨a, w⟩ := m
    obtain ⟨h1, h2⟩ := List.pairwise_cons.1 h
    unfold put
    split
    · rename_i e; subst e; exact List.pairwise_cons.2 ⟨h1, h2⟩
    · rename_i hne
      split
      · rename_i hb
        refine List.pairwise_cons.2 ⟨?_, h⟩
        intro x hx
        rcases List.mem_cons.1 hx with rfl | hx
        · exact hb
        · exact before_trans hb (h1 x hx)
      · rename_i hb
        refine List.pairwise_cons.2 ⟨?_, ih h2⟩
        intro x hx
        rcases mem_put hx with rfl | hx
        · exact before_total hne (by simpa using hb)
        · exact h1 x hx

theorem lookup_some_mem {α : Type} {l : List (Text × α)} {k : Text} {v : α} (h : l.lookup k = some v) : (k, v) ∈ l := by
  induction l with
  | nil => simp at h
  | cons m l ih =>
    obtain ⟨a, w⟩ := m
    by_cases e : k = a
    · subst e; simp [List.lookup] at h; simp [h]
    · simp only [List.lookup, beq_eq_false_iff_ne.2 e] at h
      exact List.mem_cons_of_mem _ (ih h)

theorem sorted_lookup {α : Type} {l : List (Text × α)} (h : Sorted l) {k : Text} {v : α} (hm : (k, v) ∈ l) : l.lookup k = some v := by
  induction l with
  | nil => simp at hm
  | cons m l ih =>
    obtain ⟨a, w⟩ := m
    obtain ⟨h1, h2⟩ := List.pairwise_cons.1 h
    rcases List.mem_cons.1 hm with e | hm'
    · simp only [Prod.mk.injEq] at e; simp [List.lookup, e.1, e.2]
    · have : k ≠ a := by
        rintro rfl
        have := h1 _ hm'
        simp [before_irrefl] at this
      simp only [List.lookup, beq_eq_false_iff_ne.2 this]
      exact ih h2 hm'

theorem last_mem {α : Type} {l : List (Text × α)} {k : Text} {v : α} (h : last l k = some v) : (k, v) ∈ l := by
  have := lookup_some_mem h
  simpa using this

theorem last_sorted {α : Type} {l : List (Text × α)} (h : Sorted l) (k : Text) : last l k = l.lookup k := by
  cases hk : last l k with
  | some v => exact (sorted_lookup h (last_mem hk)).symm
  | none =>
    cases hl : l.lookup k with
    | none => rfl
    | some v =>
      exfalso
      have h1 : (k, v) ∈ l.reverse := by simpa using lookup_some_mem hl
      unfold last at hk
      rw [List.lookup_eq_none_iff] at hk
      have := hk _ h1
      simp at this

theorem last_cons {α : Type} (k' : Text) (v : α) (l : List (Text × α)) (k : Text) :
    last ((k', v) :: l) k = (last l k).or (if k = k' then some v else none) := by
  unfold last
  rw [List.reverse_cons, List.lookup_append]
  congr 1
  by_cases h : k = k' <;> simp [List.lookup, h]
  rw [beq_eq_false_iff_ne.2 h]

theorem lookup_drop {α : Type} (k : Text) (l : List (Text × α)) (k' : Text) : (drop k l).lookup k' = if k' = k then none else l.lookup k' := by
  induction l with
  | nil => simp [drop]
  | cons m l ih =>
    obtain ⟨a, w⟩ := m
    unfold drop at ih ⊢
    by_cases h : a = k
    · subst h
      rw [List.filter_cons_of_neg (by simp), ih]
      by_cases e : k' = a
      · simp [e]
      · simp [e, List.lookup, beq_eq_false_iff_ne.2 e]
    · rw [List.filter_cons_of_pos (by simpa using h)]
      by_cases e : k' = a
      · subst e; simp [List.lookup, h]
      · simp only [List.lookup, beq_eq_false_iff_ne.2 e, ih]

theorem sorted_drop {α : Type} {k : Text} {l : List (Text × α)} (h : Sorted l) : Sorted (drop k l) := List.Pairwise.filter _ h

/-! ## Induction over values -/

/-- induction over JSON values -/
theorem J.induct {P : J → Prop} (null : P .null) (bool : ∀ b, P (.bool b)) (num : ∀ l, P (.num l)) (str : ∀ s, P (.str s))
    (arr : ∀ l, (∀ v ∈ l, P v) → P (.arr l)) (obj : ∀ l, (∀ m ∈ l, P m.2) → P (.obj l)) : (v : J) → P v
  | .null => null
  | .bool b => bool b
  | .num l => num l
  | .str s => str s
  | .arr l => arr l fun v hv => by
      have := List.sizeOf_lt_of_mem hv
      exact J.induct null bool num str arr obj v
  | .obj l => obj l fun m hm => by
      have := List.sizeOf_lt_of_mem hm
      obtain ⟨k, w⟩ := m
      exact J.induct null bool num str arr obj w
termination_by v => sizeOf v
decreasing_by all_goals (simp at this ⊢; omega)

theorem takeList_eq (l : List J) : takeList l = l.map take := by
  induction l with
  | nil => rfl
  | cons v l ih => rw [takeList, ih]; rfl

theorem lookup_takeMembers (l m : List (Text × J)) (k : Text) :
    (takeMembers m l).lookup k = ((last l k).map take).or (m.lookup k) := by
  induction l generalizing m with
  | nil => simp [takeMembers, last]
  | cons a l ih =>
    obtain ⟨k', v⟩ := a
    rw [takeMembers, ih, lookup_put, last_cons]
    by_cases h : k = k'
    · subst h; cases last l k <;> simp
    · cases last l k <;> simp [h]

theorem sorted_takeMembers {l m : List (Text × J)} (h : Sorted m) : Sorted (takeMembers m l) := by
  induction l generalizing m with
  | nil => exact h
  | cons a l ih => rw [takeMembers]; exact ih (sorted_put h)

theorem sorted_nil {α : Type} : Sorted ([] : List (Text × α)) := List.Pairwise.nil

/-- what a table made from the members of a text has for a key -/
theorem lookup_take (l : List (Text × J)) (k : Text) : (takeMembers [] l).lookup k = (last l k).map take := by
  rw [lookup_takeMembers]; cases last l k <;> simp

theorem take_ok (v : J) : v.Ok → (take v).Ok := by
  induction v using J.induct with
  | null => exact id
  | bool b => exact id
  | num l => exact id
  | str s => exact id
  | arr l ih =>
    intro h
    cases h with
    | arr _ h =>
      rw [take, takeList_eq]
      refine .arr _ fun v hv => ?_
      obtain ⟨w, hw, rfl⟩ := List.mem_map.1 hv
      exact ih w hw (h w hw)
  | obj l ih =>
    intro h
    cases h with
    | obj _ h =>
      rw [take]
      refine .obj _ fun m hm => ?_
      have := sorted_lookup (sorted_takeMembers sorted_nil) (k := m.1) (v := m.2) hm
      rw [lookup_take] at this
      obtain ⟨w, hw, e⟩ := Option.map_eq_some_iff.1 this
      rw [← e]
      exact ih _ (last_mem hw) (h _ (last_mem hw))

/-! ## Lists and tables of values -/

theorem floatsList_some {l : List J} (h : ∀ v ∈ l, ∃ g, floats v = some g) :
    ∃ r, floatsList l = some r ∧ r.length = l.length ∧ ∀ (i : Nat) v g, l[i]? = some v → r[i]? = some g → floats v = some g := by
  induction l with
  | nil => exact ⟨[], rfl, rfl, by simp⟩
  | cons v l ih =>
    obtain ⟨g, hg⟩ := h v (by simp)
    obtain ⟨r, h1, h2, h3⟩ := ih fun w hw => h w (by simp [hw])
    refine ⟨g :: r, by rw [floatsList, hg, h1], by simp [h2], ?_⟩
    intro i w x hw hx
    cases i with
    | zero => simp at hw hx; subst hw hx; exact hg
    | succ i => simp at hw hx; exact h3 i w x hw hx

theorem floatsList_mem {l : List J} {r : List G} (h : floatsList l = some r) : ∀ v ∈ l, ∃ g, floats v = some g := by
  induction l generalizing r with
  | nil => simp
  | cons v l ih =>
    rw [floatsList] at h
    split at h
    · rename_i g r' hg hr
      intro w hw
      rcases List.mem_cons.1 hw with rfl | hw
      · exact ⟨g, hg⟩
      · exact ih hr w hw
    · simp at h

theorem floatsMembers_some {l : List (Text × J)} (m : List (Text × G)) (hm : Sorted m) (h : ∀ x ∈ l, ∃ g, floats x.2 = some g) :
    ∃ r, floatsMembers m l = some r ∧ Sorted r ∧ ∀ k, r.lookup k = ((last l k).bind floats).or (m.lookup k) := by
  induction l generalizing m with
  | nil => exact ⟨m, rfl, hm, by simp [last]⟩
  | cons x l ih =>
    obtain ⟨k, v⟩ := x
    obtain ⟨g, hg⟩ := h (k, v) (by simp)
    obtain ⟨r, h1, h2, h3⟩ := ih (put k g m) (sorted_put hm) fun w hw => h w (by simp [hw])
    refine ⟨r, ?_, h2, fun k' => ?_⟩
    · simp only at hg; rw [floatsMembers, hg]; exact h1
    · rw [h3, lookup_put, last_cons]
      simp only at hg
      by_cases e : k' = k
      · subst e
        cases hl : last l k' with
        | none => simp [hg]
        | some w =>
          obtain ⟨y, hy⟩ := h (k', w) (List.mem_cons_of_mem _ (last_mem hl))
          simp only at hy
          simp [hy]
      · cases last l k' <;> simp [e]

theorem floatsMembers_mem {l : List (Text × J)} {m r : List (Text × G)} (h : floatsMembers m l = some r) : ∀ x ∈ l, ∃ g, floats x.2 = some g := by
  induction l generalizing m with
  | nil => simp
  | cons x l ih =>
    obtain ⟨k, v⟩ := x
    rw [floatsMembers] at h
    split at h
    · rename_i g hg
      intro w hw
      rcases List.mem_cons.1 hw with rfl | hw
      · exact ⟨g, hg⟩
      · exact ih h w hw
    · simp at h

/-- a table is read member by member -/
theorem table_read {p : List (Text × J)} (hs : Sorted p) (h : ∀ k w, p.lookup k = some w → ∃ g, floats w = some g) :
    ∃ r, floatsMembers [] p = some r ∧ Sorted r ∧ ∀ k, r.lookup k = (p.lookup k).bind floats := by
  obtain ⟨r, h1, h2, h3⟩ := floatsMembers_some [] sorted_nil fun (x : Text × J) hx => h x.1 x.2 (sorted_lookup hs hx)
  refine ⟨r, h1, h2, fun k => ?_⟩
  rw [h3, last_sorted hs]
  simp

theorem writeList_some {l : List G} (h : ∀ g ∈ l, ∃ j, write g = some j ∧ j.Ok) :
    ∃ r, writeList l = some r ∧ r.length = l.length ∧ (∀ j ∈ r, j.Ok) ∧ ∀ (i : Nat) g j, l[i]? = some g → r[i]? = some j → write g = some j := by
  induction l with
  | nil => exact ⟨[], rfl, rfl, by simp, by simp⟩
  | cons v l ih =>
    obtain ⟨g, hg, ho⟩ := h v (by simp)
    obtain ⟨r, h1, h2, h3, h4⟩ := ih fun w hw => h w (by simp [hw])
    refine ⟨g :: r, by rw [writeList, hg, h1], by simp [h2], ?_, ?_⟩
    · intro j hj
      rcases List.mem_cons.1 hj with rfl | hj
      · exact ho
      · exact h3 j hj
    · intro i w x hw hx
      cases i with
      | zero => simp at hw hx; subst hw hx; exact hg
      | succ i => simp at hw hx; exact h4 i w x hw hx

theorem writeMembers_some {l : List (Text × G)} (h : ∀ x ∈ l, ∃ j, write x.2 = some j ∧ j.Ok) :
    ∃ r, writeMembers l = some r ∧ r.map (·.1) = l.map (·.1) ∧ (∀ x ∈ r, x.2.Ok) ∧ ∀ k, r.lookup k = (l.lookup k).bind write := by
  induction l with
  | nil => exact ⟨[], rfl, rfl, by simp, by simp⟩
  | cons x l ih =>
    obtain ⟨k, g⟩ := x
    obtain ⟨j, hj, ho⟩ := h (k, g) (by simp)
    obtain ⟨r, h1, h2, h3, h4⟩ := ih fun w hw => h w (by simp [hw])
    simp only at hj
    refine ⟨(k, j) :: r, by rw [writeMembers, hj, h1], by simp [h2], ?_, ?_⟩
    · intro y hy
      rcases List.mem_cons.1 hy with rfl | hy
      · exact ho
      · exact h3 y hy
    · intro k'
      by_cases e : k' = k
      · subst e; simp [List.lookup, hj]
      · simp only [List.lookup, beq_eq_false_iff_ne.2 e, h4]

/-- a table is written member by member -/
theorem table_written {p : List (Text × G)} (hs : Sorted p) (h : ∀ k g, p.lookup k = some g → ∃ j, write g = some j ∧ j.Ok) :
    ∃ r, writeMembers p = some r ∧ Sorted r ∧ (∀ x ∈ r, x.2.Ok) ∧ ∀ k, r.lookup k = (p.lookup k).bind write := by
  obtain ⟨r, h1, h2, h3, h4⟩ := writeMembers_some fun (x : Text × G) hx => h x.1 x.2 (sorted_lookup hs hx)
  refine ⟨r, h1, ?_, h3, h4⟩
  have a : Sorted p ↔ (p.map (·.1)).Pairwise fun a b => before a b = true := by rw [List.pairwise_map]; rfl
  have b : Sorted r ↔ (r.map (·.1)).Pairwise fun a b => before a b = true := by rw [List.pairwise_map]; rfl
  rw [b, h2, ← a]
  exact hs

/-! ## There and back -/

/-- a value of which every number is in range is stored, read and written, and means the same in the end -/
theorem there_and_back (v : J) : v.Ok → InRange v → ∃ g j, floats (take v) = some g ∧ write g = some j ∧ j.Ok ∧ Same v j := by
  induction v using J.induct with
  | null => intro _ _; exact ⟨_, _, rfl, rfl, .null, .null⟩
  | bool b => intro _ _; exact ⟨_, _, rfl, rfl, .bool b, .bool b⟩
  | str s => intro _ _; exact ⟨_, _, rfl, rfl, .str s, .str s⟩
  | num l =>
    intro _ hr
    cases hr with
    | num _ x hx =>
      obtain ⟨l', h1, h2, h3⟩ := Fmt.lit_back f64_good (Fmt.read_is f64_good hx)
      exact ⟨.num x, .num l', by simp [take, floats, hx], by simp [write, h1], .num _ h2, .num _ _ x hx h3⟩
  | arr l ih =>
    intro ho hr
    cases ho with
    | arr _ ho =>
    cases hr with
    | arr _ hr =>
      obtain ⟨r, r1, r2, r3⟩ := floatsList_some (l := takeList l) fun v hv => by
        rw [takeList_eq] at hv
        obtain ⟨w, hw, rfl⟩ := List.mem_map.1 hv
        obtain ⟨g, j, h1, -⟩ := ih w hw (ho w hw) (hr w hw)
        exact ⟨g, h1⟩
      rw [takeList_eq] at r1 r2 r3
      simp only [List.length_map] at r2
      have look : ∀ (i : Nat) g, r[i]? = some g → ∃ w, l[i]? = some w ∧ floats (take w) = some g := by
        intro i g hg
        have hi : i < l.length := by rw [← r2]; exact (List.getElem?_eq_some_iff.1 hg).1
        refine ⟨l[i], List.getElem?_eq_getElem hi, r3 i _ g ?_ hg⟩
        rw [List.getElem?_map, List.getElem?_eq_getElem hi]; rfl
      obtain ⟨w, w1, w2, w3, w4⟩ := writeList_some (l := r) fun g hg => by
        obtain ⟨i, hi⟩ := List.mem_iff_getElem?.1 hg
        obtain ⟨v, hv, hf⟩ := look i g hi
        have hm := List.mem_of_getElem? hv
        obtain ⟨g', j, h1, h2, h3, -⟩ := ih v hm (ho v hm) (hr v hm)
        rw [hf, Option.some.injEq] at h1
        subst h1
        exact ⟨j, h2, h3⟩
      refine ⟨.arr r, .arr w, by rw [take, takeList_eq, floats, r1]; rfl, by rw [write, w1]; rfl, .arr _ w3, .arr _ _ (by omega) ?_⟩
      intro i v j hv hj
      have hi : i < r.length := by rw [← w2]; exact (List.getElem?_eq_some_iff.1 hj).1
      obtain ⟨v', hv', hf⟩ := look i r[i] (List.getElem?_eq_getElem hi)
      rw [hv, Option.some.injEq] at hv'
      subst hv'
      have hm := List.mem_of_getElem? hv
      obtain ⟨g', j', h1, h2, -, h4⟩ := ih v hm (ho v hm) (hr v hm)
      rw [hf, Option.some.injEq] at h1
      have := w4 i r[i] j (List.getElem?_eq_getElem hi) hj
      rw [h1, h2, Option.some.injEq] at this
      rw [← this]; exact h4
  | obj l ih =>
    intro ho hr
    cases ho with
    | obj _ ho =>
    cases hr with
    | obj _ hr =>
      have hT := sorted_takeMembers (l := l) (sorted_nil (α := J))
      have each : ∀ k v, last l k = some v → ∃ g j, floats (take v) = some g ∧ write g = some j ∧ j.Ok ∧ Same v j := fun k v hv =>
        ih _ (last_mem hv) (ho _ (last_mem hv)) (hr k v hv)
      obtain ⟨r, r1, r2, r3⟩ := table_read hT fun k w hw => by
        rw [lookup_take] at hw
        obtain ⟨v, hv, rfl⟩ := Option.map_eq_some_iff.1 hw
        obtain ⟨g, j, h1, -⟩ := each k v hv
        exact ⟨g, h1⟩
      simp only [lookup_take] at r3
      obtain ⟨w, w1, w2, w3, w4⟩ := table_written r2 fun k g hg => by
        rw [r3] at hg
        cases hv : last l k with
        | none => simp [hv] at hg
        | some v =>
          obtain ⟨g', j, h1, h2, h3, -⟩ := each k v hv
          simp only [hv, Option.map_some, Option.bind_some, h1, Option.some.injEq] at hg
          subst hg
          exact ⟨j, h2, h3⟩
      have key : ∀ k, last w k = (((last l k).map take).bind floats).bind write := fun k => by rw [last_sorted w2, w4, r3]
      refine ⟨.obj r, .obj w, by rw [take, floats, r1]; rfl, by rw [write, w1]; rfl, .obj _ w3, .obj _ _ ?_ ?_⟩
      · intro k
        rw [key]
        cases hv : last l k with
        | none => rfl
        | some v =>
          obtain ⟨g, j, h1, h2, -⟩ := each k v hv
          simp [h1, h2]
      · intro k v j hv hj
        obtain ⟨g, j', h1, h2, -, h4⟩ := each k v hv
        rw [key, hv] at hj
        simp only [Option.map_some, Option.bind_some, h1, h2, Option.some.injEq] at hj
        rw [← hj]; exact h4

/-- what can be read is in range -/
theorem inRange_of (v : J) : ∀ {g : G}, floats (take v) = some g → InRange v := by
  induction v using J.induct with
  | null => intro g _; exact .null
  | bool b => intro g _; exact .bool b
  | str s => intro g _; exact .str s
  | num l =>
    intro g h
    simp only [take, floats, Option.map_eq_some_iff] at h
    obtain ⟨x, hx, -⟩ := h
    exact .num l x hx
  | arr l ih =>
    intro g h
    rw [take, takeList_eq, floats] at h
    obtain ⟨r, hr, -⟩ := Option.map_eq_some_iff.1 h
    refine .arr _ fun v hv => ?_
    obtain ⟨y, hy⟩ := floatsList_mem hr (take v) (List.mem_map.2 ⟨v, hv, rfl⟩)
    exact ih v hv hy
  | obj l ih =>
    intro g h
    rw [take, floats] at h
    obtain ⟨r, hr, -⟩ := Option.map_eq_some_iff.1 h
    refine .obj _ fun k v hv => ?_
    have : (takeMembers [] l).lookup k = some (take v) := by rw [lookup_take, hv]; rfl
    obtain ⟨y, hy⟩ := floatsMembers_mem hr _ (lookup_some_mem this)
    exact ih _ (last_mem hv) hy

/-- values are read exactly if all their numbers are in range -/
theorem floats_iff (v : J) : (∃ g, floats v = some g) ↔ AllInRange v := by
  induction v using J.induct with
  | null => exact ⟨fun _ => .null, fun _ => ⟨_, rfl⟩⟩
  | bool b => exact ⟨fun _ => .bool b, fun _ => ⟨_, rfl⟩⟩
  | str s => exact ⟨fun _ => .str s, fun _ => ⟨_, rfl⟩⟩
  | num l =>
    constructor
    · rintro ⟨g, h⟩
      simp only [floats, Option.map_eq_some_iff] at h
      obtain ⟨x, hx, -⟩ := h
      exact .num l x hx
    · rintro (_ | _ | ⟨_, x, hx⟩)
      exact ⟨.num x, by simp [floats, hx]⟩
  | arr l ih =>
    constructor
    · rintro ⟨g, h⟩
      rw [floats] at h
      obtain ⟨r, hr, -⟩ := Option.map_eq_some_iff.1 h
      exact .arr _ fun v hv => (ih v hv).1 (floatsList_mem hr v hv)
    · intro h
      cases h with
      | arr _ h =>
        obtain ⟨r, hr, -⟩ := floatsList_some fun v hv => (ih v hv).2 (h v hv)
        exact ⟨.arr r, by rw [floats, hr]; rfl⟩
  | obj l ih =>
    constructor
    · rintro ⟨g, h⟩
      rw [floats] at h
      obtain ⟨r, hr, -⟩ := Option.map_eq_some_iff.1 h
      exact .obj _ fun m hm => (ih m hm).1 (floatsMembers_mem hr m hm)
    · intro h
      cases h with
      | obj _ h =>
        obtain ⟨r, hr, -⟩ := floatsMembers_some [] sorted_nil fun m hm => (ih m hm).2 (h m hm)
        exact ⟨.obj r, by rw [floats, hr]; rfl⟩

/-! ## Texts -/

/-- a text followed by the end of the line is read as well -/
theorem parse_line {html : Bool} {v : J} (hv : v.Ok) : parse (render html v ++ ['\n']) = some v := by
  have := value_render (html := html) v hv (n := (render html v ++ ['\n']).length + 1) (t := ['\n']) (by simp; omega)
    (stops_cons (by decide))
  simp only [parse, this]
  rfl

/-! ## The way of a document -/

theorem lookup_kept (id : Text) (n : Option Nat) (props : List (Text × J)) (k : Text) :
    (kept id n props).lookup k =
      if k = kIndex then some (indexJ n) else if k = kId then some (.str id)
      else if k = kVector ∧ hasVector (put kId (.str id) (takeMembers [] props)) = true then none else (last props k).map take := by
  have a1 : kIndex ≠ kId := by decide
  have a2 : kVector ≠ kId := by decide
  have a3 : kVector ≠ kIndex := by decide
  unfold kept
  simp only
  split
  · rename_i hv
    rw [lookup_drop, lookup_put, lookup_put, lookup_take]
    by_cases h1 : k = kVector
    · subst h1; simp [a2, a3, hv]
    · simp [h1]
  · rename_i hv
    rw [lookup_put, lookup_put, lookup_take]
    simp [hv]

theorem sorted_kept (id : Text) (n : Option Nat) (props : List (Text × J)) : Sorted (kept id n props) := by
  unfold kept
  simp only
  have := sorted_takeMembers (l := props) (sorted_nil (α := J))
  split
  · exact sorted_drop (sorted_put (sorted_put this))
  · exact sorted_put (sorted_put this)

theorem f64_int {n : ℤ} (h : |n| < 2 ^ 53) : f64.Is n := Fmt.is_int (F := f64) (by decide) (by decide) h

/-- a whole number below 2^53 is read as it is -/
theorem read_int {l : Lit} {n : ℤ} (hl : l.value = n) (h : |n| < 2 ^ 53) : f64.read l.value = some (n : ℚ) := by
  have hI := f64_int h
  unfold Fmt.read
  rw [hl, Fmt.round_is hI, if_pos hI.choose_spec.choose_spec.2.2.2]

theorem indexJ_value (n : Option Nat) : ∃ l, indexJ n = .num l ∧ l.Ok ∧ l.value = number n := by
  cases n with
  | none =>
    refine ⟨_, rfl, ⟨⟨by simp, by simp only [List.mem_singleton, forall_eq]; decide⟩, by simp, by simp, by simp⟩, ?_⟩
    simp [Lit.value, num, Nat.ofDigitChars_cons, Lit.ten, number]
  | some m =>
    refine ⟨_, rfl, ⟨nat_digits m, ?_, by simp, by simp⟩, ?_⟩
    · intro h
      by_cases h0 : m = 0
      · subst h0; rfl
      · exact absurd h (nat_head h0)
    · simp [Lit.value, num_nat, Lit.ten, number]

/-- the number in the index comes back as it is -/
theorem indexJ_back {n : Option Nat} (h : ∀ m, n = some m → m < 2 ^ 53) :
    ∃ x l, floats (indexJ n) = some (.num x) ∧ write (.num x) = some (.num l) ∧ l.Ok ∧ l.value = number n := by
  obtain ⟨z, hz, hb⟩ : ∃ z : ℤ, (z : ℚ) = (number n) ∧ |z| < 2 ^ 53 := by
    cases n with
    | none => exact ⟨-1, by norm_num [number], by norm_num⟩
    | some m => exact ⟨m, by norm_num [number], by rw [abs_of_nonneg (by positivity)]; exact_mod_cast h m rfl⟩
  obtain ⟨l, h1, -, h2⟩ := indexJ_value n
  rw [← hz] at h2 ⊢
  obtain ⟨l', l1, l2⟩ := Fmt.lit_int (F := f64) f64_good (by decide) (by decide) hb
  obtain ⟨l'', m1, m2, -⟩ := Fmt.lit_back f64_good (f64_int hb)
  rw [l1, Option.some.injEq] at m1
  subst m1
  exact ⟨z, l', by rw [h1, floats, read_int h2 hb]; rfl, by rw [write, l1]; rfl, m2, l2⟩

theorem answerJ_ok {id : Text} {w : List (Text × J)} (h : ∀ x ∈ w, x.2.Ok) : (answerJ id w).Ok := by
  refine .obj _ fun m hm => ?_
  rcases List.mem_append.1 hm with hm | hm
  · split at hm
    · simp at hm
    · rw [List.mem_singleton.1 hm]; exact .str _
  · rw [List.mem_singleton.1 hm]; exact .obj _ h

theorem kept_ok {id : Text} {n : Option Nat} {props : List (Text × J)} (h : ∀ m ∈ props, m.2.Ok) : (J.obj (kept id n props)).Ok := by
  refine .obj _ fun m hm => ?_
  have := sorted_lookup (sorted_kept id n props) (k := m.1) (v := m.2) hm
  rw [lookup_kept] at this
  split_ifs at this
  · simp only [Option.some.injEq] at this
    obtain ⟨l, h1, h2, -⟩ := indexJ_value n
    rw [← this, h1]; exact .num _ h2
  · simp only [Option.some.injEq] at this
    rw [← this]; exact .str _
  · obtain ⟨w, hw, e⟩ := Option.map_eq_some_iff.1 this
    rw [← e]; exact take_ok _ (h _ (last_mem hw))

/-- what is stored is read -/
theorem recalled_kept {id : Text} {n : Option Nat} {props : List (Text × J)} (h : ∀ m ∈ props, m.2.Ok) :
    recalled (stored (kept id n props)) = floatsMembers [] (kept id n props) := by
  simp only [recalled, stored, parse_render (kept_ok h)]

theorem hasVector_null {p : List (Text × J)} (h : hasVector p = false) : p.lookup kVector = none ∨ p.lookup kVector = some .null := by
  unfold hasVector at h
  split at h
  · left; assumption
  · right; assumption
  · simp at h

theorem take_null {v : J} (h : take v = .null) : v = .null := by
  cases v <;> simp_all [take]

/-- a document that can be read is shown with all its properties -/
theorem shown_kept (odd : Option G → Text) {id : Text} {n : Option Nat} {props : List (Text × J)} (hok : ∀ m ∈ props, m.2.Ok)
    (hn : ∀ m, n = some m → m < 2 ^ 53) (hr : ∀ k v, last props k = some v → k ∉ [kId, kVector, kIndex] → InRange v)
    {d : Option Num} (hd : ∀ x, d = some x → ∃ y l, x = .fin y ∧ f32.lit y = some l) :
    ∃ r w, recalled (stored (kept id n props)) = some r ∧ shown odd r d = some (answerJ id w) ∧ (∀ x ∈ w, x.2.Ok) ∧
      (∀ k, k ∉ [kId, kVector, kIndex] → (k = kDistance → d = none) → (last w k).isSome = (last props k).isSome ∧
        ∀ v j, last props k = some v → last w k = some j → Same v j) ∧
      last w kId = none ∧ last w kVector = none ∧
      (∃ l, last w kIndex = some (.num l) ∧ l.value = number n) ∧
      ∀ y, d = some (.fin y) → ∃ l, last w kDistance = some (.num l) ∧ f32.lit y = some l := by
  have a1 : kIndex ≠ kId := by decide
  have a2 : kVector ≠ kId := by decide
  have a3 : kVector ≠ kIndex := by decide
  have a4 : kDistance ≠ kId := by decide
  have a5 : kDistance ≠ kVector := by decide
  have a6 : kDistance ≠ kIndex := by decide
  obtain ⟨x, li, i1, i2, i3, i4⟩ := indexJ_back hn
  -- every member can be read and written
  have each : ∀ k w, (kept id n props).lookup k = some w → ∃ g j, floats w = some g ∧ write g = some j ∧ j.Ok ∧
      (k ∉ [kId, kVector, kIndex] → ∀ v, last props k = some v → Same v j) := by
    intro k w hw
    rw [lookup_kept] at hw
    split_ifs at hw with h1 h2 h3
    · simp only [Option.some.injEq] at hw
      subst hw h1
      exact ⟨_, _, i1, i2, .num _ i3, by simp⟩
    · simp only [Option.some.injEq] at hw
      subst hw h2
      exact ⟨_, _, rfl, rfl, .str _, by simp⟩
    · obtain ⟨v, hv, rfl⟩ := Option.map_eq_some_iff.1 hw
      by_cases h4 : k = kVector
      · subst h4
        have hnv : hasVector (put kId (.str id) (takeMembers [] props)) = false := by simpa using h3
        have := hasVector_null hnv
        rw [lookup_put, if_neg a2, lookup_take, hv] at this
        simp only [Option.map_some, reduceCtorEq, Option.some.injEq, false_or] at this
        rw [this]
        exact ⟨_, _, rfl, rfl, .null, by simp⟩
      · obtain ⟨g, j, g1, g2, g3, g4⟩ := there_and_back v (hok _ (last_mem hv)) (hr k v hv (by simp [h1, h2, h4]))
        refine ⟨g, j, g1, g2, g3, fun _ v' hv' => ?_⟩
        rw [hv, Option.some.injEq] at hv'
        rw [← hv']; exact g4
  obtain ⟨r, r1, r2, r3⟩ := table_read (sorted_kept id n props) fun k w hw => by
    obtain ⟨g, j, h, -⟩ := each k w hw
    exact ⟨g, h⟩
  -- the properties shown
  have qs : Sorted (withDistance (drop kVector (drop kId r)) d) := by
    cases d with
    | none => exact sorted_drop (sorted_drop r2)
    | some x => exact sorted_put (sorted_drop (sorted_drop r2))
  have ql : ∀ k, (withDistance (drop kVector (drop kId r)) d).lookup k =
      if k = kDistance ∧ d.isSome then d.map .single else if k = kVector ∨ k = kId then none else r.lookup k := by
    intro k
    cases d with
    | none =>
      simp only [withDistance, lookup_drop]
      by_cases h1 : k = kVector
      · simp [h1]
      · by_cases h2 : k = kId <;> simp [h1, h2]
    | some x =>
      simp only [withDistance, lookup_put, lookup_drop]
      by_cases h0 : k = kDistance
      · simp [h0]
      · by_cases h1 : k = kVector
        · simp [h0, h1]
        · by_cases h2 : k = kId <;> simp [h0, h1, h2]
  generalize hqd : withDistance (drop kVector (drop kId r)) d = q at qs ql
  obtain ⟨w, w1, w2, w3, w4⟩ := table_written qs fun k g hg => by
    rw [ql] at hg
    split_ifs at hg with h1 h2
    · obtain ⟨y, hy, rfl⟩ := Option.map_eq_some_iff.1 hg
      obtain ⟨z, l, rfl, l1⟩ := hd y hy
      exact ⟨.num l, by rw [write, l1]; rfl, .num _ (Fmt.lit_ok l1)⟩
    · rw [r3] at hg
      cases hk : (kept id n props).lookup k with
      | none => simp [hk] at hg
      | some u =>
        obtain ⟨g', j, e1, e2, e3, -⟩ := each k u hk
        rw [hk, Option.bind_some, e1, Option.some.injEq] at hg
        rw [← hg]
        exact ⟨j, e2, e3⟩
  have hid : r.lookup kId = some (.str id) := by
    rw [r3, lookup_kept, if_neg (by decide), if_pos rfl]; rfl
  have wl : ∀ k, last w k = (q.lookup k).bind write := fun k => by rw [last_sorted w2, w4]
  refine ⟨r, w, by rw [recalled_kept hok, r1], ?_, w3, ?_, ?_, ?_, ?_, ?_⟩
  · unfold shown
    simp only [hid, idOf]
    rw [hqd, w1]
    rfl
  · intro k hk hdist
    simp only [List.mem_cons, List.not_mem_nil, or_false, not_or] at hk
    obtain ⟨k1, k2, k3⟩ := hk
    have hq : q.lookup k = (kept id n props).lookup k >>= floats := by
      rw [ql, if_neg (by rintro ⟨h1, h2⟩; rw [hdist h1] at h2; simp at h2), if_neg (by simp [k1, k2]), r3]
      rfl
    have hkl : (kept id n props).lookup k = (last props k).map take := by
      rw [lookup_kept, if_neg k3, if_neg k1, if_neg (by simp [k2])]
    cases hv : last props k with
    | none =>
      rw [wl, hq, hkl, hv]
      exact ⟨rfl, by simp⟩
    | some v =>
      obtain ⟨g, j, e1, e2, -, e4⟩ := each k (take v) (by rw [hkl, hv]; rfl)
      have : last w k = some j := by rw [wl, hq, hkl, hv]; simp [e1, e2]
      rw [this]
      refine ⟨rfl, fun v' j' hv' hj' => ?_⟩
      simp only [Option.some.injEq] at hv' hj'
      rw [← hj', ← hv']
      exact e4 (by simp [k1, k2, k3]) v hv
  · rw [wl, ql, if_neg (by simp [a4.symm]), if_pos (by simp)]; rfl
  · rw [wl, ql, if_neg (by simp [a5.symm]), if_pos (by simp)]; rfl
  · refine ⟨li, ?_, i4⟩
    rw [wl, ql, if_neg (by simp [a6.symm]), if_neg (by simp [a1, a3.symm]), r3, lookup_kept, if_pos rfl]
    simp [i1, i2]
  · rintro y rfl
    obtain ⟨z, l, hz, l1⟩ := hd _ rfl
    simp only [Num.fin.injEq] at hz
    subst hz
    refine ⟨l, ?_, l1⟩
    rw [wl, ql, if_pos (by simp)]
    simp [write, l1]

/-- a document can be read only if its properties are in range -/
theorem inRange_of_recalled {id : Text} {n : Option Nat} {props : List (Text × J)} (hok : ∀ m ∈ props, m.2.Ok) {r : List (Text × G)}
    (h : recalled (stored (kept id n props)) = some r) : ∀ k v, last props k = some v → k ∉ [kId, kVector, kIndex] → InRange v := by
  intro k v hv hk
  simp only [List.mem_cons, List.not_mem_nil, or_false, not_or] at hk
  obtain ⟨k1, k2, k3⟩ := hk
  have hkl : (kept id n props).lookup k = some (take v) := by
    rw [lookup_kept, if_neg k3, if_neg k1, if_neg (by simp [k2]), hv]; rfl
  rw [recalled_kept hok] at h
  obtain ⟨g, hg⟩ := floatsMembers_mem h _ (lookup_some_mem hkl)
  exact inRange_of v hg

end Fave.Docs
