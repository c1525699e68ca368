import Verif.Lemmas.Replies
import Verif.Lemmas.Texts
/-!
# The list someone keeps who sees requests and answers only
-/
namespace Fave.Replies
open Json F32 Docs Bodies Client Texts

/-- the indexes of a database as the list names them -/
def types (m : Map IxType) : Text → Option Text := fun f => (m.get f).bind Rest.typeName

theorem typeName_ixType {t : Str} {x : IxType} (h : Rest.ixType t = some (some x)) : Rest.typeName x = some t := by
  unfold Rest.ixType at h
  repeat' split at h
  all_goals first | (cases h; done) | (rename_i ht; subst ht; cases h; rfl) | skip
  all_goals simp_all

theorem ixType_none {t : Str} : Rest.ixType t = some none ↔ t = "bytes".toList := by
  have hb : Rest.tBytes = "bytes".toList := by decide
  constructor
  · intro h
    unfold Rest.ixType at h
    repeat' split at h
    all_goals first | (cases h; done) | (rename_i ht; rw [ht, hb])
  · rintro rfl; decide

/-- what `readIndexes` accepts -/
theorem readIndexes_inv {F D : Type} {l : List (Option (Str × Str))} {m m' : Map IxType} (h : Rest.readIndexes (F := F) (D := D) l m = .ok m') :
    ∃ l0 : List (Str × Str), l = l0.map some ∧ ∀ e ∈ l0, Rest.ixType e.2 ≠ none := by
  induction l generalizing m with
  | nil => exact ⟨[], rfl, by simp⟩
  | cons x l ih =>
    cases x with
    | none => cases h
    | some x =>
      obtain ⟨f, t⟩ := x
      simp only [Rest.readIndexes] at h
      have fin : ∀ {m}, Rest.readIndexes (F := F) (D := D) l m = .ok m' → Rest.ixType t ≠ none →
          ∃ l0 : List (Str × Str), some (f, t) :: l = l0.map some ∧ ∀ e ∈ l0, Rest.ixType e.2 ≠ none := by
        intro m hm ht
        obtain ⟨l0, rfl, h0⟩ := ih hm
        exact ⟨(f, t) :: l0, rfl, by intro e he; rcases List.mem_cons.1 he with rfl | he; exacts [ht, h0 e he]⟩
      split at h
      · cases h
      · rename_i ht; exact fin h (by rw [ht]; simp)
      · rename_i ht; exact fin h (by rw [ht]; simp)

theorem readIndexes_nodup {F D : Type} {l : List (Option (Str × Str))} {m m' : Map IxType} (h : Rest.readIndexes (F := F) (D := D) l m = .ok m')
    (hm : m.keys.Nodup) : m'.keys.Nodup := by
  induction l generalizing m with
  | nil => cases h; exact hm
  | cons x l ih =>
    cases x with
    | none => cases h
    | some x =>
      obtain ⟨f, t⟩ := x
      simp only [Rest.readIndexes] at h
      split at h
      · cases h
      · exact ih h hm
      · exact ih h (nodup_set hm _ _)

/-- the last type a list gives a field -/
theorem lastType_asked (l : List IndexB) (h : ∀ i ∈ l, Rest.ixType i.fieldType ≠ none) (f : Text) :
    (Rest.lastType (l.map fun i => (i.fieldName, i.fieldType)) f).bind Rest.typeName = asked (l.map some) f ∧
    ((Rest.lastType (l.map fun i => (i.fieldName, i.fieldType)) f) = none ↔ asked (l.map some) f = none) := by
  induction l with
  | nil => simp [Rest.lastType, asked]
  | cons i l ih =>
    obtain ⟨ih1, ih2⟩ := ih fun j hj => h j (by simp [hj])
    have hi := h i (by simp)
    have step : asked ((i :: l).map some) f = (asked (l.map some) f).or (if i.fieldName = f ∧ i.fieldType ≠ "bytes".toList then some i.fieldType else none) := by
      unfold asked
      simp only [List.map_cons, List.filterMap_cons, id]
      rw [List.filter_cons]
      by_cases hc : i.fieldName = f ∧ i.fieldType ≠ "bytes".toList
      · have : (decide (i.fieldName = f) && decide (i.fieldType ≠ "bytes".toList)) = true := by
          rw [Bool.and_eq_true, decide_eq_true_iff, decide_eq_true_iff]
          exact hc
        rw [if_pos this, if_pos hc, List.getLast?_cons]
        generalize (List.filter _ (List.filterMap _ (l.map some))).getLast? = z
        cases z <;> rfl
      · have : ¬ (decide (i.fieldName = f) && decide (i.fieldType ≠ "bytes".toList)) = true := by
          intro hx
          rw [Bool.and_eq_true, decide_eq_true_iff, decide_eq_true_iff] at hx
          exact hc hx
        rw [if_neg this, if_neg hc]
        simp
    rw [step]
    simp only [List.map_cons, Rest.lastType]
    cases hl : Rest.lastType (l.map fun i => (i.fieldName, i.fieldType)) f with
    | some x =>
      rw [hl] at ih1 ih2
      cases ha : asked (l.map some) f with
      | none => exact absurd (ih2.2 ha) (by simp)
      | some y => rw [ha] at ih1; simpa using ih1
    | none =>
      rw [ih2.1 hl]
      simp only [Option.none_or]
      by_cases hf : i.fieldName = f
      · simp only [hf, if_true, true_and]
        cases hx : Rest.ixType i.fieldType with
        | none => exact absurd hx hi
        | some o =>
          cases o with
          | none => rw [ixType_none] at hx; simp [hx]
          | some x =>
            have hb : i.fieldType ≠ "bytes".toList := fun e => by rw [ixType_none.2 e] at hx; cases hx
            rw [if_pos hb]
            simp [typeName_ixType hx]
      · simp [hf]

variable [Dist Num]

theorem types_new {l : List (Option IndexB)} {m : Map IxType}
    (h : (Rest.readIndexes (l.map fun i => i.map fun i => (i.fieldName, i.fieldType)) [] : Except (Rest.Resp Num Num) _) = .ok m) :
    types (m.set hnswName .number) = indexes l := by
  obtain ⟨l0, h1, h2⟩ := readIndexes_inv h
  obtain ⟨l1, rfl⟩ : ∃ l1 : List IndexB, l = l1.map some := by
    have : ∀ i ∈ l, i ≠ none := by
      intro i hi hn
      subst hn
      have : (none : Option (Str × Str)) ∈ l0.map some := h1 ▸ List.mem_map.2 ⟨none, hi, rfl⟩
      simp at this
    clear h h1
    induction l with
    | nil => exact ⟨[], rfl⟩
    | cons x l ih =>
      obtain ⟨l1, rfl⟩ := ih fun i hi => this i (by simp [hi])
      cases x with
      | none => exact absurd rfl (this none (by simp))
      | some x => exact ⟨x :: l1, rfl⟩
  have h0 : l0 = l1.map fun i => (i.fieldName, i.fieldType) := by
    have inj : Function.Injective (List.map (some : Str × Str → _)) := List.map_injective_iff.2 (Option.some_injective _)
    apply inj
    rw [← h1, List.map_map, List.map_map]
    rfl
  subst h0
  obtain ⟨m', e1, e2⟩ := Rest.readIndexes_ok (F := Num) (D := Num) _ h2 []
  rw [h1, e1] at h
  cases h
  funext f
  unfold types indexes
  rw [Map.get_set]
  have hk : "hnswId".toList = hnswName := by decide
  rw [hk]
  split
  · decide
  · rw [e2]
    have := (lastType_asked l1 (fun i hi => h2 (i.fieldName, i.fieldType) (List.mem_map.2 ⟨i, hi, rfl⟩)) f).1
    rw [← this]
    simp [Map.get]

/-- both lists agree -/
structure Tallies (s : Shown) (b : Str → Option (Map IxType)) : Prop where
  same : ∀ n, s n = (b n).map types
  good : ∀ n m, b n = some m → m.keys.Nodup ∧ n ≠ [] ∧ m.get hnswName = some .number

/-- what the client's book becomes -/
def next (E : Env Num Num) (w : World Num) (b : Str → Option (Map IxType)) : Option (Req Num Num) → (Str → Option (Map IxType))
  | some c => C21.book c (Client.serve E w c).2 b
  | none => b

theorem noted_id {r : TReq} {a : Out} (h : ∀ t, a ≠ .sent 200 t) (s : Shown) : noted r a s = s := by
  unfold noted
  split
  · exact absurd rfl (h _)
  · exact absurd rfl (h _)
  · rfl

theorem book_failed {c : Req Num Num} {e : Err} (b : Str → Option (Map IxType)) : C21.book c (.failed e : Ans Num Num) b = b := by
  unfold C21.book
  split <;> simp_all

theorem tallies_step {E : Env Num Num} {uuid : Str → Bool} {odd : Option G → Text} {err : Text} {w : World Num} {r : TReq} {s : Shown}
    {b : Str → Option (Map IxType)} (h : Tallies s b) :
    Tallies (noted r (answer E uuid odd err w r) s) (next E w b (meant uuid r)) := by
  by_cases hs : ∃ t, answer E uuid odd err w r = .sent 200 t
  · obtain ⟨t, ht⟩ := hs
    obtain ⟨c, hc, -, hne⟩ := sent_ok ht
    rw [ht, hc]
    cases r with
    | create o body =>
      simp only [meant] at hc
      simp only [noted]
      split at hc
      · rename_i bd hb
        rw [hb]
        split at hc
        · cases hc
        · rename_i hname
          cases hi : bd.indexes with
          | none => rw [hi] at hc; cases hc
          | some l =>
            rw [hi, Option.bind_some] at hc
            split at hc
            · rename_i m hm
              cases hc
              have hd : (Client.serve E w (.create o bd.name m)).2 = .done := by
                rcases ofErr_done (F := Num) (D := Num) (e := (Client.create o w bd.name m).2) with h | ⟨x, h⟩
                · exact h
                · exact absurd h (hne x)
              simp only [next, hd, C21.book, hi, Option.getD_some]
              constructor
              · intro n
                by_cases hn : n = bd.name
                · subst hn
                  simp only [if_true, h.same, Option.map_some]
                  cases b bd.name with
                  | none => simp [types_new hm]
                  | some x => rfl
                · simp only [if_neg hn, h.same]
              · intro n x hx
                by_cases hn : n = bd.name
                · subst hn
                  simp only [if_true, Option.some.injEq] at hx
                  cases hbn : b bd.name with
                  | none =>
                    rw [hbn] at hx
                    rw [← hx]
                    exact ⟨nodup_set (readIndexes_nodup hm (by simp [Map.keys])) _ _, hname, by simp [Map.get_set]⟩
                  | some y =>
                    rw [hbn] at hx
                    cases hx
                    exact h.good _ _ hbn
                · simp only [if_neg hn] at hx
                  exact h.good n x hx
            · cases hc
      · cases hc
    | delete o n =>
      cases hc
      have hd : (Client.serve E w (.delete o n)).2 = .done := by
        rcases ofErr_done (F := Num) (D := Num) (e := (Client.delete o w n).2) with h | ⟨x, h⟩
        · exact h
        · exact absurd h (hne x)
      simp only [next, hd, C21.book, noted]
      constructor
      · intro k
        by_cases hk : k = n
        · simp [hk]
        · simp only [if_neg hk, h.same]
      · intro k x hx
        by_cases hk : k = n
        · simp [hk] at hx
        · simp only [if_neg hk] at hx
          exact h.good k x hx
    | login ok => cases ht
    | openPod ok => cases ht
    | restart => cases ht
    | list o => cases hc; exact h
    | add o body =>
      have : ∃ o n ti docs, c = .add o n ti docs := by
        simp only [meant] at hc
        split at hc
        · split at hc
          · cases hc
          · rename_i bd _ _
            cases hi : bd.docs with
            | none => rw [hi] at hc; cases hc
            | some l =>
              rw [hi, Option.bind_some] at hc
              split at hc
              · cases hc
              · obtain ⟨ti, -, rfl⟩ := Option.map_eq_some_iff.1 hc
                exact ⟨_, _, _, _, rfl⟩
        · cases hc
      obtain ⟨o', n, ti, docs, rfl⟩ := this
      exact h
    | nearText o body =>
      simp only [meant] at hc
      split at hc
      · split at hc
        · cases hc
        · cases hc; exact h
      · cases hc
    | nearVector o body =>
      simp only [meant] at hc
      split at hc
      · split at hc
        · cases hc
        · obtain ⟨ti, -, rfl⟩ := Option.map_eq_some_iff.1 hc
          exact h
      · cases hc
    | get o sat n p v =>
      simp only [meant] at hc
      split at hc
      · cases hc
      · cases hc; exact h
  · rw [noted_id (fun t ht => hs ⟨t, ht⟩)]
    suffices hb : next E w b (meant uuid r) = b by rw [hb]; exact h
    cases hc : meant uuid r with
    | none => rfl
    | some c =>
      have hr := replied E uuid odd w r
      rw [hc] at hr
      have hr : (Texts.serve E uuid odd w r).2 = reply odd c (Client.serve E w c).2 := hr
      show C21.book c _ b = b
      cases c with
      | create o n ix =>
        rcases ofErr_done (F := Num) (D := Num) (e := (Client.create o w n ix).2) with hd | ⟨x, hd⟩
        · exfalso
          have hd : (Client.serve E w (.create o n ix)).2 = .done := hd
          rw [hd] at hr
          have hh : Http r := by
            cases r <;> first | trivial | cases hc
          exact hs ⟨some (line (messageJ (done r))), by rw [answer_eq _ _ _ _ _ hh, hr]; rfl⟩
        · have hd : (Client.serve E w (.create o n ix)).2 = .failed x := hd
          rw [hd, book_failed]
      | delete o n =>
        rcases ofErr_done (F := Num) (D := Num) (e := (Client.delete o w n).2) with hd | ⟨x, hd⟩
        · exfalso
          have hd : (Client.serve E w (.delete o n)).2 = .done := hd
          rw [hd] at hr
          have hh : Http r := by
            cases r <;> first | trivial | cases hc
          exact hs ⟨some (line (messageJ (done r))), by rw [answer_eq _ _ _ _ _ hh, hr]; rfl⟩
        · have hd : (Client.serve E w (.delete o n)).2 = .failed x := hd
          rw [hd, book_failed]
      | login ok => rfl
      | openPod ok => rfl
      | restart => rfl
      | list o => rfl
      | add o n ti docs => rfl
      | nearText o n q m l => rfl
      | nearVector o n q m l => rfl
      | get o sat n p v => rfl

theorem tallies_run {E : Env Num Num} {uuid : Str → Bool} {odd : Option G → Text} {err : Text} (rs : List TReq) {w : World Num} {s : Shown}
    {b : Str → Option (Map IxType)} (h : Tallies s b) :
    Tallies (notes E uuid odd err w s rs) (C21.books E w b (rs.filterMap (meant uuid))) := by
  induction rs generalizing w s b with
  | nil => exact h
  | cons r rs ih =>
    have := ih (w := (Texts.serve E uuid odd w r).1) (tallies_step (E := E) (uuid := uuid) (odd := odd) (err := err) (w := w) (r := r) h)
    rw [notes, List.filterMap_cons]
    have hw := serve_meant E uuid odd w r
    cases hc : meant uuid r with
    | none => rw [hc] at this hw; rw [hw] at this ⊢; exact this
    | some c => rw [hc] at this hw; rw [hw] at this ⊢; exact this

theorem steady_sound {uuid : Str → Bool} {rs : List TReq} (h : ∀ r ∈ rs, Steady r) : ∀ c ∈ rs.filterMap (meant uuid), C21.Sound c := by
  intro c hc
  obtain ⟨r, hr, hm⟩ := List.mem_filterMap.1 hc
  have hs := h r hr
  cases c with
  | create o n ix =>
    cases r with
    | create o' body =>
      simp only [meant] at hm
      split at hm
      · split at hm
        · cases hm
        · rename_i bd _ _
          cases hi : bd.indexes with
          | none => rw [hi] at hm; cases hm
          | some l =>
            rw [hi, Option.bind_some] at hm
            split at hm
            · cases hm; exact hs
            · cases hm
      · cases hm
    | _ =>
      simp only [meant] at hm
      repeat' split at hm
      all_goals simp_all [Option.bind_eq_some_iff, Option.map_eq_some_iff]
  | delete o n =>
    cases r with
    | delete o' n' => cases hm; exact hs
    | create o' body =>
      simp only [meant] at hm
      split at hm
      · split at hm
        · cases hm
        · rename_i bd _ _
          cases hi : bd.indexes with
          | none => rw [hi] at hm; cases hm
          | some l =>
            rw [hi, Option.bind_some] at hm
            split at hm
            · cases hm
            · cases hm
      · cases hm
    | _ =>
      simp only [meant] at hm
      repeat' split at hm
      all_goals simp_all [Option.bind_eq_some_iff, Option.map_eq_some_iff]
  | _ => trivial

/-! ## The entries of a list sent to another server -/

theorem mem_types {m : Map IxType} (h : m.keys.Nodup) (f ty : Text) :
    (⟨f, ty⟩ : IndexB) ∈ (m.filterMap fun e => (Rest.typeName e.2).map fun t => (e.1, t)).map (fun e => (⟨e.1, e.2⟩ : IndexB)) ↔ types m f = some ty := by
  unfold types
  rw [Option.bind_eq_some_iff, List.mem_map]
  constructor
  · rintro ⟨⟨a, b⟩, hm, e⟩
    cases e
    obtain ⟨⟨k, x⟩, hx, ht⟩ := List.mem_filterMap.1 hm
    obtain ⟨t, ht, e⟩ := Option.map_eq_some_iff.1 ht
    cases e
    exact ⟨x, Map.get_of_mem h hx, ht⟩
  · rintro ⟨x, hx, ht⟩
    exact ⟨(f, ty), List.mem_filterMap.2 ⟨(f, x), Map.mem_of_get hx, by simp [ht]⟩, rfl⟩

theorem nodup_types {m : Map IxType} (h : m.keys.Nodup) :
    (((m.filterMap fun e => (Rest.typeName e.2).map fun t => (e.1, t)).map (fun e => (⟨e.1, e.2⟩ : IndexB))).map IndexB.fieldName).Nodup := by
  induction m with
  | nil => simp
  | cons e m ih =>
    simp only [Map.keys, List.map_cons, List.nodup_cons] at h
    rw [List.filterMap_cons]
    cases ht : Rest.typeName e.2 with
    | none => exact ih h.2
    | some t =>
      simp only [Option.map_some, List.map_cons, List.nodup_cons]
      refine ⟨fun hx => h.1 ?_, ih h.2⟩
      obtain ⟨i, hi, he⟩ := List.mem_map.1 hx
      obtain ⟨x, hx, rfl⟩ := List.mem_map.1 hi
      obtain ⟨y, hy, hz⟩ := List.mem_filterMap.1 hx
      obtain ⟨t', -, e'⟩ := Option.map_eq_some_iff.1 hz
      subst e'
      exact List.mem_map.2 ⟨y, hy, he⟩

theorem typeName_known {x : IxType} {t : Str} (h : Rest.typeName x = some t) : Rest.ixType t = some (some x) := by
  cases x <;> cases h <;> decide

/-- a list without a name twice asks for what it says -/
theorem asked_mem {l : List IndexB} (hn : (l.map IndexB.fieldName).Nodup) (hb : ∀ i ∈ l, i.fieldType ≠ "bytes".toList) (f : Text) :
    asked (l.map some) f = (l.find? fun i => i.fieldName = f).map IndexB.fieldType := by
  unfold asked
  have : (l.map some).filterMap id = l := by simp [List.filterMap_map]
  rw [this]
  clear this
  induction l with
  | nil => rfl
  | cons i l ih =>
    simp only [List.map_cons, List.nodup_cons] at hn
    have ih := ih hn.2 fun j hj => hb j (by simp [hj])
    have hi := hb i (by simp)
    rw [List.filter_cons, List.find?_cons]
    by_cases hf : i.fieldName = f
    · have hnil : l.filter (fun i => decide (i.fieldName = f) && decide (i.fieldType ≠ "bytes".toList)) = [] := by
        rw [List.filter_eq_nil_iff]
        intro j hj hx
        rw [Bool.and_eq_true, decide_eq_true_iff] at hx
        exact hn.1 (List.mem_map.2 ⟨j, hj, by rw [hx.1, hf]⟩)
      have : (decide (i.fieldName = f) && decide (i.fieldType ≠ "bytes".toList)) = true := by
        rw [Bool.and_eq_true, decide_eq_true_iff, decide_eq_true_iff]
        exact ⟨hf, hi⟩
      rw [if_pos this, hnil]
      simp [hf]
    · simp only [hf, decide_false, Bool.false_and, Bool.false_eq_true, if_false]
      exact ih

theorem find_mem {l : List IndexB} (hn : (l.map IndexB.fieldName).Nodup) (f ty : Text) :
    (l.find? fun i => i.fieldName = f).map IndexB.fieldType = some ty ↔ (⟨f, ty⟩ : IndexB) ∈ l := by
  rw [Option.map_eq_some_iff]
  constructor
  · rintro ⟨i, hi, rfl⟩
    have h1 := List.mem_of_find?_eq_some hi
    have h2 := List.find?_some hi
    rw [decide_eq_true_iff] at h2
    rw [← h2]
    exact h1
  · intro h
    cases hx : l.find? fun i => i.fieldName = f with
    | none => simpa using List.find?_eq_none.1 hx _ h
    | some i =>
      refine ⟨i, rfl, ?_⟩
      have h1 := List.mem_of_find?_eq_some hx
      have h2 := List.find?_some hx
      rw [decide_eq_true_iff] at h2
      have : i = ⟨f, ty⟩ := List.inj_on_of_nodup_map hn h1 h (by simpa using h2)
      rw [this]

/-- a creation that nothing hinders -/
theorem create_works {E : Env Num Num} {uuid : Str → Bool} {odd : Option G → Text} {err : Text} {w : World Num} (hs : w.session = true) (hp : w.pod = true)
    {o : Oracle Num Num} (ho : o.docCreate = false ∧ o.createTable = false ∧ o.docOpen = false ∧ o.openTable = false ∧ o.newIndex = false) {n : Text}
    (hn : n ≠ []) {l : List IndexB} (hl : ∀ i ∈ l, Rest.ixType i.fieldType ≠ none) :
    (∃ t, answer E uuid odd err w (.create o (render false (collJ ⟨some (l.map some), n⟩))) = .sent 200 t) ∧
    (Texts.serve E uuid odd w (.create o (render false (collJ ⟨some (l.map some), n⟩)))).1.session = true ∧
    (Texts.serve E uuid odd w (.create o (render false (collJ ⟨some (l.map some), n⟩)))).1.pod = true := by
  have hb : Bodies.bind collOf (render false (collJ ⟨some (l.map some), n⟩)) = .ok ⟨some (l.map some), n⟩ := bind_render (collJ_ok _) (collOf_collJ _)
  obtain ⟨m, hm, -⟩ := Rest.readIndexes_ok (F := Num) (D := Num) (l.map fun i => (i.fieldName, i.fieldType)) (by
    intro e he
    obtain ⟨i, hi, rfl⟩ := List.mem_map.1 he
    exact hl i hi) []
  have hm' : (Rest.readIndexes ((l.map some).map fun i => i.map fun i => (i.fieldName, i.fieldType)) [] : Except (Rest.Resp Num Num) _) = .ok m := by
    rw [← hm, List.map_map, List.map_map]; rfl
  have hc : meant uuid (.create o (render false (collJ ⟨some (l.map some), n⟩))) = some (.create o n m) := by
    simp only [meant, hb, if_neg hn, Option.bind_some, hm']
  have hr := replied E uuid odd w (.create o (render false (collJ ⟨some (l.map some), n⟩)))
  rw [hc] at hr
  have hr : (Texts.serve E uuid odd w _).2 = reply odd (.create o n m) (Client.serve E w (.create o n m)).2 := hr
  have hw := serve_meant E uuid odd w (.create o (render false (collJ ⟨some (l.map some), n⟩)))
  rw [hc] at hw
  have hd : (Client.create o w n m).2 = none ∧ (Client.create o w n m).1.session = true ∧ (Client.create o w n m).1.pod = true := by
    obtain ⟨h1, h2, h3, h4, h5⟩ := ho
    have e1 : (w.withDb (ns ++ n) (m.set hnswName .number)).session = true := by unfold World.withDb; split <;> exact hs
    have e2 : (w.withDb (ns ++ n) (m.set hnswName .number)).pod = true := by unfold World.withDb; split <;> exact hp
    unfold Client.create
    simp only [hs, hp, h1, h2, h3, h4, h5, Bool.not_true, Bool.false_eq_true, if_false, Bool.and_false, setColl_session, setColl_pod, e1, e2, and_self]
  have hd' : (Client.serve E w (.create o n m)).2 = .done := by
    show Ans.ofErr (Client.create o w n m).2 = _
    rw [hd.1]; rfl
  have hw : (Texts.serve E uuid odd w (.create o (render false (collJ ⟨some (l.map some), n⟩)))).1 = (Client.create o w n m).1 := hw
  refine ⟨⟨_, by rw [answer_eq _ _ _ _ _ (by trivial), hr, hd']; rfl⟩, ?_, ?_⟩
  · rw [hw]; exact hd.2.1
  · rw [hw]; exact hd.2.2

/-- the collections of a list are created one after the other -/
theorem notes_creates {E : Env Num Num} {uuid : Str → Bool} {odd : Option G → Text} {err : Text}
    {o : Oracle Num Num} (ho : o.docCreate = false ∧ o.createTable = false ∧ o.docOpen = false ∧ o.openTable = false ∧ o.newIndex = false)
    (bs : List (Text × List IndexB)) (hb : ∀ b ∈ bs, b.1 ≠ [] ∧ ∀ i ∈ b.2, Rest.ixType i.fieldType ≠ none) (hd : (bs.map Prod.fst).Nodup)
    {w : World Num} (hs : w.session = true) (hp : w.pod = true) {s : Shown} (h0 : ∀ b ∈ bs, s b.1 = none) :
    (∀ b ∈ bs, notes E uuid odd err w s (bs.map fun b => .create o (render false (collJ ⟨some (b.2.map some), b.1⟩))) b.1 = some (indexes (b.2.map some))) ∧
    ∀ n, n ∉ bs.map Prod.fst → notes E uuid odd err w s (bs.map fun b => .create o (render false (collJ ⟨some (b.2.map some), b.1⟩))) n = s n := by
  induction bs generalizing w s with
  | nil => exact ⟨by simp, fun _ _ => rfl⟩
  | cons b bs ih =>
    obtain ⟨⟨t, ht⟩, hs', hp'⟩ := create_works (E := E) (uuid := uuid) (odd := odd) (err := err) hs hp ho (hb b (by simp)).1 (hb b (by simp)).2
    simp only [List.map_cons, List.nodup_cons] at hd
    have hnoted : ∀ n, noted (.create o (render false (collJ ⟨some (b.2.map some), b.1⟩))) (.sent 200 t) s n =
        if n = b.1 then some (indexes (b.2.map some)) else s n := by
      intro n
      have hbind : Bodies.bind collOf (render false (collJ ⟨some (b.2.map some), b.1⟩)) = .ok ⟨some (b.2.map some), b.1⟩ := bind_render (collJ_ok _) (collOf_collJ _)
      simp only [noted, hbind]
      split
      · rename_i e; subst e; rw [h0 b (by simp)]; rfl
      · rfl
    have hne : ∀ b' ∈ bs, b'.1 ≠ b.1 := fun b' hb' e => hd.1 (List.mem_map.2 ⟨b', hb', e⟩)
    obtain ⟨h1, h2⟩ := ih (fun b' hb' => hb b' (by simp [hb'])) hd.2 hs' hp'
      (s := noted (.create o (render false (collJ ⟨some (b.2.map some), b.1⟩))) (.sent 200 t) s)
      (fun b' hb' => by rw [hnoted, if_neg (hne b' hb')]; exact h0 b' (by simp [hb']))
    simp only [List.map_cons, notes, ht]
    constructor
    · intro b' hb'
      rcases List.mem_cons.1 hb' with rfl | hb'
      · rw [h2 _ hd.1, hnoted, if_pos rfl]
      · exact h1 b' hb'
    · intro n hn
      simp only [List.mem_cons, not_or] at hn
      rw [h2 n hn.2, hnoted, if_neg hn.1]

end Fave.Replies
