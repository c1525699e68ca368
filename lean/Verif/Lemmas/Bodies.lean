import Verif.Model.Bodies
import Verif.Lemmas.Docs
import Verif.Lemmas.JsonOk
/-!
# Request bodies: writing and reading
-/
namespace Fave.Bodies
open Json F32 Docs Stored

/-! ## Values that are already read -/

theorem before_put {α : Type} {k : Text} {v : α} {m : List (Text × α)} (h : ∀ a ∈ m, before a.1 k = true) : put k v m = m ++ [(k, v)] := by
  induction m with
  | nil => rfl
  | cons a m ih =>
    obtain ⟨k', v'⟩ := a
    have hb := h (k', v') (by simp)
    simp only at hb
    have hne : k ≠ k' := by
      rintro rfl
      rw [before_irrefl] at hb
      cases hb
    have hnb : before k k' = false := by
      cases hc : before k k' with
      | false => rfl
      | true => exact absurd ((before_trans hc hb).symm.trans (before_irrefl k)) (by simp)
    rw [put, if_neg hne, hnb]
    simp only [Bool.false_eq_true, if_false, List.cons_append]
    rw [ih fun a ha => h a (by simp [ha])]

/-- a table that is in order stays as it is -/
theorem takeMembers_sorted {l m : List (Text × J)} (hs : Sorted (m ++ l)) (hv : ∀ a ∈ l, take a.2 = a.2) : takeMembers m l = m ++ l := by
  induction l generalizing m with
  | nil => simp [takeMembers]
  | cons a l ih =>
    obtain ⟨k, v⟩ := a
    have h1 := hv (k, v) (by simp)
    simp only at h1
    rw [takeMembers, h1, before_put, ih]
    · simp
    · simpa using hs
    · exact fun b hb => hv b (by simp [hb])
    · intro b hb
      exact (List.pairwise_append.1 hs).2.2 b hb (k, v) (by simp)

theorem takeList_map (l : List J) : takeList l = l.map take := by
  induction l with
  | nil => rfl
  | cons v l ih => rw [takeList, ih]; rfl

/-- reading what was read changes nothing -/
theorem take_take (v : J) : take (take v) = take v := by
  induction v using J.induct with
  | null => rfl
  | bool b => rfl
  | num l => rfl
  | str s => rfl
  | arr l ih =>
    simp only [take, takeList_map, List.map_map]
    congr 1
    exact List.map_congr_left fun v hv => ih v hv
  | obj l ih =>
    simp only [take]
    rw [takeMembers_sorted (m := [])]
    · rfl
    · exact sorted_takeMembers sorted_nil
    · intro a ha
      have := sorted_lookup (sorted_takeMembers sorted_nil) (k := a.1) (v := a.2) ha
      rw [lookup_take] at this
      obtain ⟨w, hw, e⟩ := Option.map_eq_some_iff.1 this
      rw [← e]
      exact ih _ (last_mem hw)

/-! ## Bodies -/

theorem skip_render {html : Bool} (l : List (Text × J)) : skip (render html (.obj l)) ≠ [] := by
  cases l with
  | nil => simp [render, skip]
  | cons m l => obtain ⟨k, v⟩ := m; simp [render, skip]

/-- a written object is read -/
theorem bind_render {html : Bool} {S : Type} {f : J → Option S} {l : List (Text × J)} (h : (J.obj l).Ok) {s : S} (hs : f (.obj l) = some s) :
    bind f (render html (.obj l)) = .ok s := by
  have := value_render (html := html) (.obj l) h (n := (render html (.obj l)).length + 1) (t := []) (by omega) stops_nil
  rw [List.append_nil] at this
  unfold bind
  rw [if_neg (skip_render l), this]
  simp only [hs]

/-- what a body is read from -/
theorem bind_ok {S : Type} {f : J → Option S} {t : Text} {s : S} (h : bind f t = .ok s) : ∃ v r, value (t.length + 1) t = some (v, r) ∧ f v = some s := by
  unfold bind at h
  split at h
  · cases h
  · split at h
    · cases h
    · rename_i v r hv
      split at h
      · cases h
      · rename_i s' hs
        injection h with h
        exact ⟨v, r, hv, by rw [hs, h]⟩

theorem fold_append {S : Type} (f : S → Text × J → Option S) (s : S) (l l' : List (Text × J)) :
    fold f s (l ++ l') = (fold f s l).bind fun s => fold f s l' := by
  induction l generalizing s with
  | nil => rfl
  | cons m l ih =>
    simp only [List.cons_append, fold]
    cases f s m with
    | none => rfl
    | some s' => simp [ih]

theorem fold_inv {S : Type} {f : S → Text × J → Option S} {P : S → Prop} {l : List (Text × J)} (hf : ∀ s m s', m ∈ l → P s → f s m = some s' → P s')
    {s s' : S} (hs : P s) (h : fold f s l = some s') : P s' := by
  induction l generalizing s with
  | nil => simp only [fold, Option.some.injEq] at h; rwa [← h]
  | cons m l ih =>
    simp only [fold, Option.bind_eq_some_iff] at h
    obtain ⟨s1, h1, h2⟩ := h
    exact ih (fun s m s' hm => hf s m s' (by simp [hm])) (hf s m s1 (by simp) hs h1) h2

theorem struct_inv {S : Type} {f : S → Text × J → Option S} {zero : S} {P : S → Prop} {v : J} (hv : v.Ok)
    (hf : ∀ s m s', m.2.Ok → P s → f s m = some s' → P s') (hs : P zero) {s' : S} (h : structOf f zero v = some s') : P s' := by
  cases hv with
  | null => simp only [structOf, Option.some.injEq] at h; rwa [← h]
  | obj l hl => exact fold_inv (fun s m s' hm => hf s m s' (hl m hm)) hs h
  | _ => simp [structOf] at h

theorem every_inv {α : Type} {f : J → Option α} {P : α → Prop} {l : List J} (hf : ∀ v a, v ∈ l → f v = some a → P a) {r : List α}
    (h : every f l = some r) : ∀ a ∈ r, P a := by
  induction l generalizing r with
  | nil => simp only [every, Option.some.injEq] at h; simp [← h]
  | cons v l ih =>
    simp only [every] at h
    split at h
    · rename_i a r' h1 h2
      simp only [Option.some.injEq] at h
      subst h
      intro b hb
      rcases List.mem_cons.1 hb with rfl | hb
      · exact hf v _ (by simp) h1
      · exact ih (fun v a hv => hf v a (by simp [hv])) h2 b hb
    · cases h

theorem every_map {α β : Type} {f : J → Option α} {g : β → J} {k : β → α} {l : List β} (h : ∀ b ∈ l, f (g b) = some (k b)) :
    every f (l.map g) = some (l.map k) := by
  induction l with
  | nil => rfl
  | cons b l ih => simp [every, h b (by simp), ih fun b hb => h b (by simp [hb])]

/-! ## Documents -/

/-- properties as they are read: in order, proper numbers, and not `null` -/
def Read (p : J) : Prop := p.Ok ∧ take p = p ∧ p ≠ .null

theorem propOf_read {v p : J} (hv : v.Ok) (h : propOf v = some p) : Read p := by
  unfold propOf at h
  split at h
  · cases h
  · rename_i hn
    simp only [Option.some.injEq] at h
    subst h
    exact ⟨take_ok v hv, take_take v, fun e => hn (take_null e)⟩

theorem propOf_self {p : J} (h : Read p) : propOf p = some p := by
  unfold propOf
  split
  · exact absurd rfl h.2.2
  · rw [h.2.1]

/-- a document whose properties are as they are read -/
def DocB.Read (d : DocB) : Prop := ∀ p, d.props = some p → Bodies.Read p

/-- a request whose documents are as they are read -/
def AddB.Read (b : AddB) : Prop := ∀ l, b.docs = some l → ∀ d, some d ∈ l → DocB.Read d

theorem docOf_read {v : J} (hv : v.Ok) {d : DocB} (h : docOf v = some d) : d.Read := by
  refine struct_inv (P := DocB.Read) hv ?_ (by intro p hp; cases hp) h
  intro s m s' hm hs hf
  unfold docField at hf
  split at hf
  · obtain ⟨x, -, rfl⟩ := Option.map_eq_some_iff.1 hf
    exact hs
  · split at hf
    · simp only [Option.some.injEq] at hf
      subst hf
      intro p hp
      exact propOf_read hm hp
    · simp only [Option.some.injEq] at hf
      rwa [← hf]

theorem ok_arr {l : List J} (h : (J.arr l).Ok) : ∀ v ∈ l, v.Ok := by cases h; assumption
theorem ok_obj {l : List (Text × J)} (h : (J.obj l).Ok) : ∀ m ∈ l, m.2.Ok := by cases h; assumption

theorem addOf_read {v : J} (hv : v.Ok) {b : AddB} (h : addOf v = some b) : b.Read := by
  refine struct_inv (P := AddB.Read) hv ?_ (by intro l hl; cases hl) h
  intro s m s' hm hs hf
  unfold addField at hf
  split at hf
  · obtain ⟨x, hx, rfl⟩ := Option.map_eq_some_iff.1 hf
    intro l hl d hd
    simp only at hl
    subst hl
    unfold listOf at hx
    split at hx
    · cases hx
    · rename_i js hj
      obtain ⟨r, hr, e⟩ := Option.map_eq_some_iff.1 hx
      injection e with e
      subst e
      rw [hj] at hm
      refine every_inv (P := fun o => ∀ d, o = some d → DocB.Read d) ?_ hr _ hd d rfl
      intro w o hw ho d' hd'
      subst hd'
      unfold ptrOf at ho
      split at ho
      · cases ho
      · obtain ⟨d'', h1, h2⟩ := Option.map_eq_some_iff.1 ho
        injection h2 with h2
        subst h2
        exact docOf_read (ok_arr hm w hw) h1
    · cases hx
  · split at hf
    · obtain ⟨x, -, rfl⟩ := Option.map_eq_some_iff.1 hf
      exact hs
    · split at hf
      · obtain ⟨x, -, rfl⟩ := Option.map_eq_some_iff.1 hf
        exact hs
      · simp only [Option.some.injEq] at hf
        rwa [← hf]

theorem nonEmpty_ok {c : Bool} {k : Text} {v : J} (hv : v.Ok) : ∀ m ∈ nonEmpty c k v, m.2.Ok := by
  intro m hm
  unfold nonEmpty at hm
  split at hm
  · cases hm
  · rw [List.mem_singleton.1 hm]; exact hv

theorem docJ_ok {d : DocB} (h : d.Read) : (docJ d).Ok := by
  refine .obj _ fun m hm => ?_
  rcases List.mem_append.1 hm with hm | hm
  · exact nonEmpty_ok (.str _) m hm
  · cases hp : d.props with
    | none => rw [hp] at hm; cases hm
    | some p =>
      rw [hp] at hm
      rw [List.mem_singleton.1 hm]
      exact (h p hp).1

theorem listJ_ok {α : Type} {f : α → J} {o : Option (List α)} (h : ∀ l, o = some l → ∀ a ∈ l, (f a).Ok) : (listJ f o).Ok := by
  cases o with
  | none => exact .null
  | some l =>
    refine .arr _ fun v hv => ?_
    obtain ⟨a, ha, rfl⟩ := List.mem_map.1 hv
    exact h l rfl a ha

theorem ptrJ_ok {α : Type} {f : α → J} {o : Option α} (h : ∀ a, o = some a → (f a).Ok) : (ptrJ f o).Ok := by
  cases o with
  | none => exact .null
  | some a => exact h a rfl

theorem addJ_ok {b : AddB} (h : b.Read) : (addJ b).Ok := by
  refine .obj _ fun m hm => ?_
  simp only [List.mem_cons, List.mem_append, List.not_mem_nil, or_false] at hm
  rcases hm with rfl | hm | rfl
  · refine listJ_ok fun l hl o ho => ptrJ_ok fun d hd => ?_
    subst hd
    exact docJ_ok (h l hl d ho)
  · exact nonEmpty_ok (.str _) m hm
  · exact listJ_ok fun l _ s _ => .str _

theorem docOf_docJ {d : DocB} (h : d.Read) : docOf (docJ d) = some d := by
  obtain ⟨id, props⟩ := d
  have n1 : named kId kId = true := by decide
  have n2 : named kProperties kId = false := by decide
  have n3 : named kProperties kProperties = true := by decide
  unfold docOf docJ structOf
  simp only [fold_append]
  cases props with
  | none =>
    by_cases hid : id = []
    · subst hid; simp [nonEmpty, fold]
    · simp [nonEmpty, fold, hid, docField, n1, strOf]
  | some p =>
    have hp := propOf_self (h p rfl)
    by_cases hid : id = []
    · subst hid; simp [nonEmpty, fold, docField, n2, n3, hp]
    · simp [nonEmpty, fold, hid, docField, n1, n2, n3, strOf, hp]

theorem listOf_listJ {α β : Type} {f : J → Option α} {g : β → J} {k : β → α} {o : Option (List β)} (h : ∀ l, o = some l → ∀ b ∈ l, f (g b) = some (k b)) :
    listOf f (listJ g o) = some (o.map (List.map k)) := by
  cases o with
  | none => rfl
  | some l => simp [listOf, listJ, every_map (h l rfl)]

theorem ptrOf_ptrJ {S : Type} {f : J → Option S} {g : S → J} {o : Option S} (h : ∀ s, o = some s → f (g s) = some s ∧ g s ≠ .null) :
    ptrOf f (ptrJ g o) = some o := by
  cases o with
  | none => rfl
  | some s =>
    obtain ⟨h1, h2⟩ := h s rfl
    unfold ptrOf ptrJ
    split
    · rename_i hn; exact absurd hn h2
    · simp [h1]

theorem addOf_addJ {b : AddB} (h : b.Read) : addOf (addJ b) = some b := by
  obtain ⟨docs, name, toVec⟩ := b
  have n1 : named kDocuments kDocuments = true := by decide
  have n2 : named kName kDocuments = false := by decide
  have n3 : named kName kName = true := by decide
  have n4 : named kToVec kDocuments = false := by decide
  have n5 : named kToVec kName = false := by decide
  have n6 : named kToVec kToVec = true := by decide
  have e1 : listOf (ptrOf docOf) (listJ (ptrJ docJ) docs) = some docs := by
    rw [listOf_listJ (k := id)]
    · simp
    · intro l hl o ho
      refine ptrOf_ptrJ fun d hd => ?_
      subst hd
      exact ⟨docOf_docJ (h l hl d ho), by unfold docJ; simp⟩
  have e2 : listOf (strOf []) (listJ J.str toVec) = some toVec := by
    rw [listOf_listJ (k := id)]
    · simp
    · intro l _ s _; rfl
  unfold addOf addJ structOf
  simp only [fold, fold_append]
  by_cases hn : name = []
  · subst hn; simp [nonEmpty, fold, addField, n1, n4, n5, n6, e1, e2]
  · simp [nonEmpty, fold, hn, addField, n1, n2, n3, n4, n5, n6, e1, e2, strOf]

/-! ## Collections -/

theorem indexOf_indexB (i : IndexB) : structOf indexField ⟨[], []⟩ (indexB i) = some i := by
  obtain ⟨a, b⟩ := i
  have n1 : named kFieldName kFieldName = true := by decide
  have n2 : named kFieldType kFieldName = false := by decide
  have n3 : named kFieldType kFieldType = true := by decide
  unfold structOf indexB
  simp only [fold_append]
  by_cases ha : a = [] <;> by_cases hb : b = [] <;> simp [nonEmpty, fold, ha, hb, indexField, n1, n2, n3, strOf]

theorem collJ_ok (b : CollB) : (collJ b).Ok := by
  refine .obj _ fun m hm => ?_
  rcases List.mem_cons.1 hm with rfl | hm
  · refine listJ_ok fun l hl o ho => ptrJ_ok fun i hi => ?_
    refine .obj _ fun m hm => ?_
    rcases List.mem_append.1 hm with hm | hm <;> exact nonEmpty_ok (.str _) m hm
  · exact nonEmpty_ok (.str _) m hm

theorem collOf_collJ (b : CollB) : collOf (collJ b) = some b := by
  obtain ⟨ix, name⟩ := b
  have n1 : named kIndexes kIndexes = true := by decide
  have n2 : named kName kIndexes = false := by decide
  have n3 : named kName kName = true := by decide
  have e1 : listOf (ptrOf (structOf indexField ⟨[], []⟩)) (listJ (ptrJ indexB) ix) = some ix := by
    rw [listOf_listJ (k := id)]
    · simp
    · intro l _ o _
      exact ptrOf_ptrJ fun i _ => ⟨indexOf_indexB i, by unfold indexB; simp⟩
  unfold collOf collJ structOf
  simp only [fold]
  by_cases hn : name = []
  · subst hn; simp [nonEmpty, fold, collField, n1, e1]
  · simp [nonEmpty, fold, hn, collField, n1, n2, n3, e1, strOf]

/-! ## Searches -/

/-- a number that a `float32` can be read as -/
def Finite (n : Num) : Prop := ∃ x, n = .fin x ∧ IsFloat x

theorem float32_read {l : Lit} {n : Num} (h : (f32.read l.value).map Num.fin = some n) : Finite n := by
  obtain ⟨x, hx, rfl⟩ := Option.map_eq_some_iff.1 h
  exact ⟨x, rfl, Fmt.read_is f32_good hx⟩

theorem zero_finite : Finite (.fin 0) := ⟨0, rfl, 0, 0, by norm_num, by norm_num, by norm_num, by norm_num⟩

theorem float32Of_read {old n : Num} {v : J} (ho : Finite old) (h : float32Of old v = some n) : Finite n := by
  unfold float32Of at h
  split at h
  · simp only [Option.some.injEq] at h; rwa [← h]
  · exact float32_read h
  · cases h

theorem floatOf_read {n : Num} {v : J} (h : floatOf v = some n) : Finite n := by
  unfold floatOf at h
  split at h
  · simp only [Option.some.injEq] at h; rw [← h]; exact zero_finite
  · exact float32_read h
  · cases h

theorem int64Of_read {old n : Int} {v : J} (ho : -2 ^ 63 ≤ old ∧ old < 2 ^ 63) (h : int64Of old v = some n) : -2 ^ 63 ≤ n ∧ n < 2 ^ 63 := by
  unfold int64Of at h
  split at h
  · simp only [Option.some.injEq] at h; rwa [← h]
  · rename_i l
    generalize hn : (if l.neg = true then -(Json.num l.int : Int) else (Json.num l.int : Int)) = k at h
    simp only [Option.ite_none_left_eq_some, Option.some.injEq, Bool.or_eq_true, decide_eq_true_eq, not_or] at h
    omega
  · cases h

theorem num_nat (n : Nat) : Json.num (nat n) = n := Json.num_nat n

theorem intJ_ok (n : Int) : (intJ n).Ok := by
  refine .num _ ⟨nat_digits _, ?_, by simp, by simp⟩
  simp only
  intro h
  by_cases h0 : n.natAbs = 0
  · rw [h0]; rfl
  · exact absurd h (nat_head h0)

theorem int64Of_intJ (old : Int) {n : Int} (h : -2 ^ 63 ≤ n ∧ n < 2 ^ 63) : int64Of old (intJ n) = some n := by
  have e : (if decide (n < 0) = true then -((n.natAbs : Nat) : Int) else (n.natAbs : Int)) = n := by
    simp only [decide_eq_true_eq]
    split <;> omega
  simp only [int64Of, intJ, num_nat, e]
  rw [if_neg]
  simp only [Bool.or_eq_true, decide_eq_true_eq, not_or]
  simp
  omega

theorem distJ_back {n : Num} (h : Finite n) : ∃ d, distJ n = some d ∧ (∀ m ∈ d, m.2.Ok) ∧
    (d = [] ∧ n = .fin 0 ∨ ∃ l, d = [(kDistance, .num l)] ∧ float32Of (.fin 0) (.num l) = some n) := by
  obtain ⟨x, rfl, hx⟩ := h
  by_cases h0 : x = 0
  · exact ⟨[], by simp [distJ, h0], by simp, .inl ⟨rfl, by rw [h0]⟩⟩
  · obtain ⟨l, h1, h2, h3⟩ := Fmt.lit_back f32_good hx
    refine ⟨[(kDistance, .num l)], by simp [distJ, h0, h1], ?_, .inr ⟨l, rfl, by simp [float32Of, h3]⟩⟩
    intro m hm
    rw [List.mem_singleton.1 hm]
    exact .num _ h2

/-- a search for a text as it can be read -/
def NearB.Read (b : NearB) : Prop := Finite b.dist ∧ -2 ^ 63 ≤ b.limit ∧ b.limit < 2 ^ 63

theorem nearOf_read {v : J} (hv : v.Ok) {b : NearB} (h : nearOf v = some b) : b.Read := by
  refine struct_inv (P := NearB.Read) hv ?_ ⟨zero_finite, by norm_num, by norm_num⟩ h
  intro s m s' _ ⟨h1, h2⟩ hf
  unfold nearField at hf
  split at hf
  · obtain ⟨x, hx, rfl⟩ := Option.map_eq_some_iff.1 hf
    exact ⟨float32Of_read h1 hx, h2⟩
  split at hf
  · obtain ⟨x, hx, rfl⟩ := Option.map_eq_some_iff.1 hf
    exact ⟨h1, int64Of_read h2 hx⟩
  split at hf
  · obtain ⟨x, -, rfl⟩ := Option.map_eq_some_iff.1 hf
    exact ⟨h1, h2⟩
  split at hf
  · obtain ⟨x, -, rfl⟩ := Option.map_eq_some_iff.1 hf
    exact ⟨h1, h2⟩
  · simp only [Option.some.injEq] at hf
    rw [← hf]; exact ⟨h1, h2⟩

theorem nearJ_back {b : NearB} (h : b.Read) : ∃ l, nearJ b = some (.obj l) ∧ (J.obj l).Ok ∧ nearOf (.obj l) = some b := by
  obtain ⟨dist, limit, name, text⟩ := b
  obtain ⟨hd, hl⟩ := h
  obtain ⟨d, d1, d2, d3⟩ := distJ_back hd
  have n1 : named kDistance kDistance = true := by decide
  have n2 : named kLimit kDistance = false := by decide
  have n3 : named kLimit kLimit = true := by decide
  have n4 : named kName kDistance = false := by decide
  have n5 : named kName kLimit = false := by decide
  have n6 : named kName kName = true := by decide
  have n7 : named kText kDistance = false := by decide
  have n8 : named kText kLimit = false := by decide
  have n9 : named kText kName = false := by decide
  have n10 : named kText kText = true := by decide
  simp only at hd hl
  refine ⟨_, by simp only [nearJ, d1, Option.map_some]; rfl, ?_, ?_⟩
  · refine .obj _ fun m hm => ?_
    simp only [List.mem_append] at hm
    rcases hm with ((hm | hm) | hm) | hm
    · exact d2 m hm
    · exact nonEmpty_ok (intJ_ok _) m hm
    · exact nonEmpty_ok (.str _) m hm
    · exact nonEmpty_ok (.str _) m hm
  · have e0 : fold nearField ⟨.fin 0, 0, [], []⟩ d = some ⟨dist, 0, [], []⟩ := by
      rcases d3 with ⟨rfl, rfl⟩ | ⟨l, rfl, hl⟩
      · rfl
      · simp [fold, nearField, n1, hl]
    have e1 := int64Of_intJ 0 hl
    unfold nearOf structOf
    simp only [fold_append, e0, Option.bind_some]
    by_cases h1 : limit = 0 <;> by_cases h2 : name = [] <;> by_cases h3 : text = [] <;>
      simp [nonEmpty, fold, nearField, h1, h2, h3, n2, n3, n4, n5, n6, n7, n8, n9, n10, strOf, e1]

/-- a search for a vector as it can be read -/
def VecB.Read (b : VecB) : Prop := (Finite b.dist ∧ -2 ^ 63 ≤ b.limit ∧ b.limit < 2 ^ 63) ∧ ∀ v, b.vec = some v → ∀ n ∈ v, Finite n

theorem vecOf_read {v : J} (hv : v.Ok) {b : VecB} (h : vecOf v = some b) : b.Read := by
  refine struct_inv (P := VecB.Read) hv ?_ ⟨⟨zero_finite, by norm_num, by norm_num⟩, by intro v hv; cases hv⟩ h
  intro s m s' _ ⟨⟨h1, h2⟩, h3⟩ hf
  unfold vecField at hf
  split at hf
  · obtain ⟨x, hx, rfl⟩ := Option.map_eq_some_iff.1 hf
    exact ⟨⟨float32Of_read h1 hx, h2⟩, h3⟩
  split at hf
  · obtain ⟨x, hx, rfl⟩ := Option.map_eq_some_iff.1 hf
    exact ⟨⟨h1, int64Of_read h2 hx⟩, h3⟩
  split at hf
  · obtain ⟨x, -, rfl⟩ := Option.map_eq_some_iff.1 hf
    exact ⟨⟨h1, h2⟩, h3⟩
  split at hf
  · obtain ⟨x, hx, rfl⟩ := Option.map_eq_some_iff.1 hf
    refine ⟨⟨h1, h2⟩, fun w hw n hn => ?_⟩
    simp only at hw
    subst hw
    unfold listOf at hx
    split at hx
    · cases hx
    · obtain ⟨r, hr, e⟩ := Option.map_eq_some_iff.1 hx
      injection e with e
      subst e
      exact every_inv (P := Finite) (fun v a _ ha => floatOf_read ha) hr n hn
    · cases hx
  · simp only [Option.some.injEq] at hf
    rw [← hf]; exact ⟨⟨h1, h2⟩, h3⟩

theorem compsJ_back {v : List Num} (h : ∀ n ∈ v, Finite n) : ∃ l, compsJ v = some l ∧ (∀ j ∈ l, j.Ok) ∧ every floatOf l = some v := by
  induction v with
  | nil => exact ⟨[], rfl, by simp, rfl⟩
  | cons n v ih =>
    obtain ⟨l, h1, h2, h3⟩ := ih fun n hn => h n (by simp [hn])
    obtain ⟨x, rfl, hx⟩ := h n (by simp)
    obtain ⟨a, g1, g2, g3⟩ := Fmt.lit_back f32_good hx
    refine ⟨.num a :: l, by simp [compsJ, g1, h1], ?_, by simp [every, floatOf, g3, h3]⟩
    intro j hj
    rcases List.mem_cons.1 hj with rfl | hj
    · exact .num _ g2
    · exact h2 j hj

theorem vecJ_back {b : VecB} (h : b.Read) : ∃ l, vecJ b = some (.obj l) ∧ (J.obj l).Ok ∧ vecOf (.obj l) = some b := by
  obtain ⟨dist, limit, name, vec⟩ := b
  obtain ⟨⟨hd, hl⟩, hv⟩ := h
  obtain ⟨d, d1, d2, d3⟩ := distJ_back hd
  have n1 : named kDistance kDistance = true := by decide
  have n2 : named kLimit kDistance = false := by decide
  have n3 : named kLimit kLimit = true := by decide
  have n4 : named kName kDistance = false := by decide
  have n5 : named kName kLimit = false := by decide
  have n6 : named kName kName = true := by decide
  have n7 : named kVector kDistance = false := by decide
  have n8 : named kVector kLimit = false := by decide
  have n9 : named kVector kName = false := by decide
  have n10 : named kVector kVector = true := by decide
  simp only at hd hl hv d1
  obtain ⟨w, w1, w2, w3⟩ : ∃ w, (match vec with | none => some J.null | some v => (compsJ v).map .arr) = some w ∧ w.Ok ∧ listOf floatOf w = some vec := by
    cases vec with
    | none => exact ⟨.null, rfl, .null, rfl⟩
    | some v =>
      obtain ⟨l, h1, h2, h3⟩ := compsJ_back (hv v rfl)
      exact ⟨.arr l, by simp [h1], .arr _ h2, by simp [listOf, h3]⟩
  have e : vecJ ⟨dist, limit, name, vec⟩ =
      some (.obj (d ++ nonEmpty (limit == 0) kLimit (intJ limit) ++ nonEmpty (name == []) kName (.str name) ++ [(kVector, w)])) := by
    unfold vecJ
    simp only [d1]
    cases vec with
    | none => simp only [Option.some.injEq] at w1; subst w1; rfl
    | some v => simp only at w1 ⊢; rw [w1]
  refine ⟨_, e, ?_, ?_⟩
  · refine .obj _ fun m hm => ?_
    simp only [List.mem_append] at hm
    rcases hm with ((hm | hm) | hm) | hm
    · exact d2 m hm
    · exact nonEmpty_ok (intJ_ok _) m hm
    · exact nonEmpty_ok (.str _) m hm
    · rw [List.mem_singleton.1 hm]; exact w2
  · have e0 : fold vecField ⟨.fin 0, 0, [], none⟩ d = some ⟨dist, 0, [], none⟩ := by
      rcases d3 with ⟨rfl, rfl⟩ | ⟨l, rfl, hl⟩
      · rfl
      · simp [fold, vecField, n1, hl]
    have e1 := int64Of_intJ 0 hl
    unfold vecOf structOf
    simp only [fold_append, e0, Option.bind_some]
    by_cases h1 : limit = 0 <;> by_cases h2 : name = [] <;>
      simp [nonEmpty, fold, vecField, h1, h2, n2, n3, n4, n5, n6, n7, n8, n9, n10, strOf, e1, w3]

end Fave.Bodies
