import Verif.Model.Wire
import Verif.Lemmas.Bodies
import Verif.Lemmas.JsonPrefix
import Verif.Props.C63
import Verif.Props.C66
/-!
# C81 — the vector of a text is the one the vectoriser computed

*A document or a search whose text is sent to the vectoriser gets the vector that the vectoriser wrote, component by component rounded to 32 bits; if there is
no such vector, the request fails.*

The first half is proved (`query_read`, `answer_back`, `answer_iff`).  The second is false: an answer without a member `vector` — `{}`, `null`, or a name in
capital letters — is the empty vector (`silent_iff`), the document is left out and the request succeeds (`full_claim_false`).
-/
namespace Fave.C81
open Json F32 Docs Stored Bodies Wire

/-! ## The question -/

/-- **C81**: the vectoriser reads the texts that were to be sent, whatever characters are in them. -/
theorem query_read (texts : List Text) : parse (query texts) = some (.obj [("query".toList, .arr (texts.map .str))]) := by
  refine parse_render (.obj _ fun m hm => ?_)
  rw [List.mem_singleton.1 hm]
  refine .arr _ fun v hv => ?_
  obtain ⟨t, -, rfl⟩ := List.mem_map.1 hv
  exact .str _

/-! ## The answer -/

theorem entries_iff {l : List (Text × J)} {m : List (Text × Option (List Num))} :
    (entries m l).isSome ↔ ∀ a ∈ l, (listOf floatOf a.2).isSome := by
  induction l generalizing m with
  | nil => simp [entries]
  | cons a l ih =>
    obtain ⟨k, v⟩ := a
    simp only [entries, List.forall_mem_cons]
    cases h : listOf floatOf v with
    | none => simp
    | some x => simp only [Option.bind_some, ih, Option.isSome_some, true_and]

theorem entries_lookup {l : List (Text × J)} {m m' : List (Text × Option (List Num))} (h : entries m l = some m') (k : Text) :
    m'.lookup k = ((last l k).bind (listOf floatOf)).or (m.lookup k) := by
  induction l generalizing m with
  | nil => simp only [entries, Option.some.injEq] at h; subst h; simp [last]
  | cons a l ih =>
    obtain ⟨k', v⟩ := a
    simp only [entries, Option.bind_eq_some_iff] at h
    obtain ⟨x, hx, h⟩ := h
    rw [ih h, last_cons, lookup_put]
    cases hl : last l k with
    | none => by_cases hk : k = k' <;> simp [hk, hx]
    | some w =>
      have hw : (listOf floatOf w).isSome := entries_iff.1 (by rw [h]; rfl) _ (last_mem hl)
      obtain ⟨y, hy⟩ := Option.isSome_iff_exists.1 hw
      simp [hy]

theorem listOf_isSome {v : J} : (listOf floatOf v).isSome ↔ v = .null ∨ ∃ l, v = .arr l ∧ ∀ x ∈ l, x = .null ∨ ∃ a, x = .num a ∧ (f32.read a.value).isSome := by
  have hf : ∀ x, (floatOf x).isSome ↔ x = .null ∨ ∃ a, x = .num a ∧ (f32.read a.value).isSome := by
    intro x
    cases x <;> simp [floatOf]
  cases v with
  | arr l =>
    simp only [listOf, Option.isSome_map, reduceCtorEq, J.arr.injEq, false_or, exists_eq_left']
    simp only [← hf]
    induction l with
    | nil => simp [every]
    | cons x l ih =>
      simp only [every, List.forall_mem_cons, ← ih]
      cases floatOf x <;> cases every floatOf l <;> simp
  | _ => simp [listOf]

/-- the members of an answer that is accepted: each is `null` or a list of numbers in range and of `null`s -/
def Acceptable (l : List (Text × J)) : Prop :=
  ∀ a ∈ l, a.2 = .null ∨ ∃ xs, a.2 = .arr xs ∧ ∀ x ∈ xs, x = .null ∨ ∃ n, x = .num n ∧ (f32.read n.value).isSome

/-- **C81**: exactly which answers give which vector: status 200 and, at the beginning of the text, `null` or an object all of whose members are acceptable; of
several members `vector` the last counts, and without one the vector is empty. -/
theorem answer_iff {o : Option (Nat × Text)} {v : List Num} :
    corpi o = .vec v ↔ ∃ t j r, o = some (200, t) ∧ value (t.length + 1) t = some (j, r) ∧
      (j = .null ∧ v = [] ∨ ∃ l, j = .obj l ∧ Acceptable l ∧
        (last l "vector".toList = none ∧ v = [] ∨ last l "vector".toList = some .null ∧ v = [] ∨
          ∃ xs, last l "vector".toList = some (.arr xs) ∧ every floatOf xs = some v)) := by
  have key : ∀ j m, mapOf j = some m → (((m.lookup kVector).getD none).getD [] = v ↔
      (j = .null ∧ v = [] ∨ ∃ l, j = .obj l ∧ Acceptable l ∧
        (last l "vector".toList = none ∧ v = [] ∨ last l "vector".toList = some .null ∧ v = [] ∨
          ∃ xs, last l "vector".toList = some (.arr xs) ∧ every floatOf xs = some v))) := by
    intro j m hm
    cases j with
    | null =>
      simp only [mapOf, Option.some.injEq] at hm
      subst hm
      simp [eq_comm]
    | obj l =>
      simp only [mapOf] at hm
      have hacc : Acceptable l := fun a ha => listOf_isSome.1 (entries_iff.1 (by rw [hm]; rfl) a ha)
      have hk := entries_lookup hm kVector
      simp only [List.lookup_nil, Option.or_none] at hk
      rw [hk]
      simp only [reduceCtorEq, false_and, false_or, J.obj.injEq, exists_eq_left', hacc, true_and]
      show _ ↔ last l kVector = none ∧ _ ∨ last l kVector = _ ∧ _ ∨ ∃ xs, last l kVector = _ ∧ _
      cases hl : last l kVector with
      | none => simp [eq_comm]
      | some x =>
        rcases hacc _ (last_mem hl) with h | ⟨xs, h, hx⟩ <;> simp only at h <;> subst h
        · simp [listOf, eq_comm]
        · have : (listOf floatOf (.arr xs)).isSome := listOf_isSome.2 (.inr ⟨xs, rfl, hx⟩)
          simp only [listOf, Option.isSome_map] at this
          obtain ⟨y, hy⟩ := Option.isSome_iff_exists.1 this
          simp [listOf, hy]
    | _ => simp [mapOf] at hm
  constructor
  · intro h
    unfold corpi at h
    split at h
    · cases h
    · rename_i status t
      split at h
      · cases h
      · rename_i hs
        split at h
        · rename_i m hb
          obtain ⟨j, r, h1, h2⟩ := bind_ok hb
          injection h with h
          exact ⟨t, j, r, by rw [not_not.1 hs], h1, (key j m h2).1 h⟩
        · cases h
  · rintro ⟨t, j, r, rfl, hv, h⟩
    have hm : ∃ m, mapOf j = some m := by
      rcases h with ⟨rfl, -⟩ | ⟨l, rfl, hacc, -⟩
      · exact ⟨[], rfl⟩
      · exact Option.isSome_iff_exists.1 ((entries_iff (m := [])).2 fun a ha => listOf_isSome.2 (hacc a ha))
    obtain ⟨m, hm⟩ := hm
    have hsk : skip t ≠ [] := by
      intro e
      rw [value, e] at hv
      cases hv
    have hb : Bodies.bind mapOf t = .ok m := by
      unfold Bodies.bind
      rw [if_neg hsk, hv]
      simp only [hm]
    simp only [corpi, ne_eq, not_true_eq_false, if_false, hb]
    rw [(key j m hm).2 h]

/-- **C81**: a vectoriser that writes a vector of 32-bit numbers with their shortest decimals — among other members, which are lists of numbers too — is
understood exactly. -/
theorem answer_back {html : Bool} {v : List ℚ} (hv : ∀ x ∈ v, IsFloat x) :
    ∃ js, compsJ (v.map .fin) = some js ∧ ∀ before after : List (Text × J), Acceptable (before ++ after) → (∀ a ∈ before ++ after, a.2.Ok) →
      (∀ a ∈ after, a.1 ≠ "vector".toList) → ∀ junk,
      corpi (some (200, render html (.obj (before ++ ("vector".toList, .arr js) :: after)) ++ junk)) = .vec (v.map .fin) := by
  obtain ⟨js, h1, h2, h3⟩ := compsJ_back (v := v.map .fin) (by
    intro n hn
    obtain ⟨x, hx, rfl⟩ := List.mem_map.1 hn
    exact ⟨x, rfl, hv x hx⟩)
  refine ⟨js, h1, fun before after ha hok hn junk => ?_⟩
  have hok' : (J.obj (before ++ ("vector".toList, .arr js) :: after)).Ok := by
    refine .obj _ fun m hm => ?_
    rcases List.mem_append.1 hm with hm | hm
    · exact hok m (by simp [hm])
    · rcases List.mem_cons.1 hm with rfl | hm
      · exact .arr _ h2
      · exact hok m (by simp [hm])
  have hval := value_render (html := html) _ hok' (n := (render html (.obj (before ++ ("vector".toList, .arr js) :: after))).length + 1) (t := []) (by omega)
    stops_nil
  rw [List.append_nil] at hval
  have hval' := ((ext _).1 hval).2 (.inr (by simp)) ((render html (.obj (before ++ ("vector".toList, .arr js) :: after)) ++ junk).length + 1) junk (by simp; omega)
  refine answer_iff.2 ⟨_, _, _, rfl, hval', .inr ⟨_, rfl, ?_, .inr (.inr ⟨js, ?_, h3⟩)⟩⟩
  · intro a ha'
    rcases List.mem_append.1 ha' with hm | hm
    · exact ha a (by simp [hm])
    · rcases List.mem_cons.1 hm with rfl | hm
      · refine listOf_isSome.1 ?_
        simp [listOf, h3]
      · exact ha a (by simp [hm])
  · have e : ∀ (b : List (Text × J)), last (b ++ ("vector".toList, .arr js) :: after) "vector".toList = some (.arr js) := by
      intro b
      induction b with
      | nil =>
        rw [List.nil_append, last_cons]
        cases hl : last after "vector".toList with
        | none => simp
        | some w => exact absurd rfl (hn _ (last_mem hl))
      | cons a b ih =>
        obtain ⟨k, w⟩ := a
        rw [List.cons_append, last_cons, ih]
        rfl
    exact e before

theorem read_round {F : Fmt} {x y : ℚ} (h : F.read x = some y) : F.round x = y := by
  unfold Fmt.read at h
  split at h
  · exact Option.some.inj h
  · cases h

/-- **C81**: a component is the 32-bit number nearest to the decimal that the vectoriser wrote. -/
theorem component_nearest {l : Lit} {x : Num} (h : floatOf (.num l) = some x) : ∃ y, x = .fin y ∧ IsFloat y ∧ ∀ z, IsFloat z → |l.value - y| ≤ |l.value - z| := by
  obtain ⟨y, hy, rfl⟩ := Option.map_eq_some_iff.1 h
  refine ⟨y, rfl, Fmt.read_is f32_good hy, ?_⟩
  rintro z ⟨m, e, rfl, hm, he, -⟩
  rw [← read_round hy, abs_sub_comm, abs_sub_comm l.value]
  exact Fmt.round_nearest f32_good _ hm he

/-! ## No vector -/

/-- **C81**: when no error is seen although the vectoriser gave no vector: a status other than 200 (and the server crashes on the missing vector, C70), or an
answer in which the member `vector` is missing, `null` or empty. -/
theorem silent_iff {o : Option (Nat × Text)} :
    (corpi o = .nil ↔ ∃ s t, o = some (s, t) ∧ s ≠ 200) ∧
    (corpi o = .vec [] ↔ ∃ t j r, o = some (200, t) ∧ value (t.length + 1) t = some (j, r) ∧
      (j = .null ∨ ∃ l, j = .obj l ∧ Acceptable l ∧ ∀ x, last l "vector".toList = some x → x = .null ∨ x = .arr [])) := by
  constructor
  · cases o with
    | none => simp [corpi]
    | some p =>
      obtain ⟨s, t⟩ := p
      by_cases hs : s = 200
      · subst hs
        constructor
        · intro h
          simp only [corpi, ne_eq, not_true_eq_false, if_false] at h
          split at h <;> cases h
        · rintro ⟨s, t', e, h⟩
          simp only [Option.some.injEq, Prod.mk.injEq] at e
          exact absurd e.1.symm h
      · simp [corpi, hs]
  · rw [answer_iff]
    refine exists_congr fun t => exists_congr fun j => exists_congr fun r => and_congr_right fun _ => and_congr_right fun _ => ?_
    have he : ∀ xs, every floatOf xs = some [] ↔ xs = [] := by
      intro xs
      cases xs with
      | nil => simp [every]
      | cons x xs => cases h1 : floatOf x <;> cases h2 : every floatOf xs <;> simp [every, h1, h2]
    constructor
    · rintro (⟨h, -⟩ | ⟨l, h1, h2, h⟩)
      · exact .inl h
      · refine .inr ⟨l, h1, h2, fun x hx => ?_⟩
        rcases h with ⟨h, -⟩ | ⟨h, -⟩ | ⟨xs, h, h'⟩ <;> rw [h] at hx
        · cases hx
        · exact .inl (Option.some.inj hx).symm
        · rw [(he xs).1 h'] at hx
          exact .inr (Option.some.inj hx).symm
    · rintro (h | ⟨l, h1, h2, h⟩)
      · exact .inl ⟨h, rfl⟩
      · refine .inr ⟨l, h1, h2, ?_⟩
        cases hl : last l "vector".toList with
        | none => exact .inl ⟨rfl, rfl⟩
        | some x =>
          rcases h x hl with rfl | rfl
          · exact .inr (.inl ⟨rfl, rfl⟩)
          · exact .inr (.inr ⟨[], rfl, rfl⟩)

/-- **C81**: the index refuses an empty vector; the document is passed over, nothing is stored and no error comes back. -/
theorem passed_over {D : Type} [Dist D] (E : Client.Env Num D) (hE : E.P.metric.len [] = 0) (o : Client.Oracle Num D) (ti : List Client.Str) (i : Nat)
    (b : Client.Batch Num) (d : Client.Doc Num) (hv : (d.props.set Client.idName (.str d.id)).get Client.vectorName = none) {text : Client.Str}
    (ht : Client.textOf (d.props.set Client.idName (.str d.id)) ti = .ok text) (hne : text ≠ []) (hc : o.corpi i text = .vec []) :
    Client.addOne E o true ti i b (some d) = ({ b with log := b.log ++ [.refused] }, none) := by
  simp [Client.addOne, hv, ht, hne, hc, Client.indexDoc, Index.add, hE]

local instance : Dist Num := numDist

/-- the properties that are vectorised -/
def title : Client.Str := ['t']
/-- a document with a title -/
def doc (id : Char) (t : Client.Str) : Option (Client.Doc Num) := some ⟨[id], [(title, .str t)]⟩
/-- an environment in which everything works and the vectoriser answers with this text -/
def answering (t : Text) : Client.Oracle Num Num := { C66.oracle [] with corpi := fun _ _ => corpi (some (200, t)) }

/-- **C81** is false: the vectoriser answers `{}`, the request to add the document succeeds, and the document is not there; with the answer
`{"vector":[1,0]}` it is. -/
theorem full_claim_false :
    let w := Client.run C66.E (Client.World.fresh true []) C66.opened
    let r := Client.serve C66.E w (.add (answering "{}".toList) C66.books [title] [doc 'a' ['x']])
    let r' := Client.serve C66.E w (.add (answering "{\"vector\":[1,0]}".toList) C66.books [title] [doc 'a' ['x']])
    r.2 = .done ∧ r.1.docs (Client.ns ++ C66.books) = [] ∧ r'.2 = .done ∧ (r'.1.docs (Client.ns ++ C66.books)).length = 1 := by
  decide +kernel

/-! ## Vectors -/

/-- `Equal` refuses vectors of different lengths; else it compares number by number, so that it is equality unless a component is not a number. -/
theorem equal_iff (a b : List Num) :
    (equal a b = none ↔ a.length ≠ b.length) ∧ (equal a b = some true ↔ a = b ∧ .nan ∉ a) := by
  have he : ∀ x y : Num, F32.eq y x = true ↔ x = y ∧ x ≠ .nan := by
    intro x y
    cases x <;> cases y <;> simp [F32.eq] <;> exact eq_comm
  unfold equal
  by_cases hl : a.length = b.length
  · rw [if_neg (not_not.2 hl)]
    refine ⟨by simp [hl], ?_⟩
    rw [Option.some.injEq, List.all_eq_true]
    simp only [he]
    constructor
    · intro h
      induction a generalizing b with
      | nil => cases b <;> simp_all
      | cons x a ih =>
        cases b with
        | nil => simp at hl
        | cons y b =>
          obtain ⟨h1, h2⟩ := h (x, y) (by simp)
          obtain ⟨h3, h4⟩ := ih b (by simpa using hl) fun p hp => h p (by simp [hp])
          simp only at h1 h2
          subst h1; subst h3
          exact ⟨rfl, by simp [h4, Ne.symm h2]⟩
    · rintro ⟨rfl, hn⟩ ⟨x, y⟩ hp
      have : x = y ∧ x ∈ a := by
        clear hl hn
        induction a with
        | nil => cases hp
        | cons z a ih =>
          simp only [List.zip_cons_cons, List.mem_cons, Prod.mk.injEq] at hp
          rcases hp with ⟨rfl, rfl⟩ | hp
          · simp
          · exact ⟨(ih hp).1, by simp [(ih hp).2]⟩
      exact ⟨this.1, fun e => hn (e ▸ this.2)⟩
  · rw [if_pos hl]
    refine ⟨by simp [hl], ?_⟩
    simp only [reduceCtorEq, false_iff, not_and]
    rintro rfl
    exact absurd rfl hl

theorem loop_squares (a b : List Num) (hl : a.length = b.length) (s : Num) :
    Distance.loop ops (Distance.term ops .l2) s a b =
      some ((a.zip b).foldl (fun s p => F32.add s (F32.mul (F32.sub p.1 p.2) (F32.sub p.1 p.2))) s) := by
  induction a generalizing b s with
  | nil => rfl
  | cons x a ih =>
    cases b with
    | nil => simp at hl
    | cons y b =>
      rw [Distance.loop, ih b (by simpa using hl)]
      rfl

/-- `Distance` is the root of the distance of the index's `l2` provider, as that computes it without vector instructions; so the bounds of C63 hold for it. -/
theorem distance_root (junk : ℕ → ℕ → Num) (a b : List Num) :
    (apart a b = none ↔ a.length ≠ b.length) ∧
    (∀ r, apart a b = some r ↔ ∃ s, Distance.distance ops false junk .l2 a b = .ok s ∧ r = F32.sqrt s) := by
  unfold apart Distance.distance
  by_cases hl : a.length = b.length
  · rw [if_neg (not_not.2 hl), if_neg (by simpa using hl)]
    have : Distance.impl ops false junk .l2 a b = some (squares a b) := loop_squares a b hl _
    rw [this]
    refine ⟨by simp [hl], fun r => ?_⟩
    simp only [Option.some.injEq]
    show _ ↔ ∃ s, (Except.ok (squares a b) : Except Distance.DErr Num) = .ok s ∧ _
    simp [eq_comm]
  · rw [if_pos hl, if_pos (by simpa using hl)]
    simp [hl]

/-- `Distance` does not depend on the order of the two vectors. -/
theorem distance_symmetric (a b : List Num) : apart a b = apart b a := by
  have h := distance_root (fun _ _ => .nan) a b
  have h' := distance_root (fun _ _ => .nan) b a
  cases hx : apart a b with
  | none => exact ((h'.1).2 (Ne.symm (h.1.1 hx))).symm
  | some r =>
    obtain ⟨s, hs, rfl⟩ := (h.2 r).1 hx
    rw [C63.symmetric] at hs
    exact ((h'.2 _).2 ⟨s, hs, rfl⟩).symm

/-- Vectors that are `Equal` and whose components are numbers have distance zero, but not only those: differences so small that their squares vanish. -/
theorem distance_zero : (∀ a : List ℚ, apart (a.map .fin) (a.map .fin) = some (.fin 0)) ∧
    apart [.fin 1, .fin (1 / 2 ^ 80)] [.fin 1, .fin 0] = some (.fin 0) ∧ equal [.fin 1, .fin (1 / 2 ^ 80)] [.fin 1, .fin 0] = some false := by
  refine ⟨fun a => ?_, by decide +kernel, by decide +kernel⟩
  have h := C63.self_zero false (fun _ _ => .nan) .l2 (.inl rfl) a
  refine ((distance_root (fun _ _ => .nan) _ _).2 _).2 ⟨_, h, ?_⟩
  decide +kernel

/-! ## The hypotheses are met -/

-- the text that is sent
example : query [['a', '"', '<', '\n']] = "{\"query\":[\"a\\\"\\u003c\\n\"]}".toList := by decide +kernel
-- an answer with another member, and with text after it
theorem kFull_acceptable : Acceptable [("model".toList, .arr []), ("vector".toList, .arr [.num ⟨true, ['0'], some ['1'], none⟩, .null, .num ⟨false, ['3'], none, some (false, ['2'])⟩])] := by
  intro a ha
  simp only [List.mem_cons, List.not_mem_nil, or_false] at ha
  rcases ha with rfl | rfl
  · exact .inr ⟨[], rfl, by simp⟩
  · refine .inr ⟨_, rfl, fun x hx => ?_⟩
    simp only [List.mem_cons, List.not_mem_nil, or_false] at hx
    rcases hx with rfl | rfl | rfl
    · exact .inr ⟨_, rfl, by decide +kernel⟩
    · exact .inl rfl
    · exact .inr ⟨_, rfl, by decide +kernel⟩
example : corpi (some (200, "{\"model\":[],\"vector\":[-0.1,null,3e2]} }".toList)) = .vec [.fin (-13421773 / 2 ^ 27), .fin 0, .fin 300] := by decide +kernel
-- answers that give no vector and no error, and some that are errors
example : corpi (some (200, "{}".toList)) = .vec [] ∧ corpi (some (200, "null".toList)) = .vec [] ∧ corpi (some (200, "{\"Vector\":[1]}".toList)) = .vec [] ∧
    corpi (some (503, "{\"vector\":[1]}".toList)) = .nil := by decide +kernel
example : corpi none = .fail ∧ corpi (some (200, " ".toList)) = .fail ∧ corpi (some (200, "{\"vector\":[1],\"model\":\"m\"}".toList)) = .fail ∧
    corpi (some (200, "{\"vector\":[1e39]}".toList)) = .fail ∧ corpi (some (200, "[1]".toList)) = .fail := by decide +kernel
-- a vector of 32-bit numbers
example : ∃ js, compsJ ([1, -1 / 2].map .fin) = some js ∧ corpi (some (200, render true (.obj [("vector".toList, .arr js)]))) = .vec ([1, -1 / 2].map .fin) := by
  obtain ⟨js, h, h'⟩ := answer_back (html := true) (v := [1, -1 / 2]) (by
    intro x hx
    simp only [List.mem_cons, List.not_mem_nil, or_false] at hx
    rcases hx with rfl | rfl
    · exact ⟨1, 0, by norm_num, by norm_num, by norm_num, by norm_num⟩
    · exact ⟨-1, -1, by norm_num, by norm_num, by norm_num, by norm_num⟩)
  exact ⟨js, h, by simpa using h' [] [] (by intro a ha; cases ha) (by simp) (by simp) []⟩
-- a document that is passed over
example : C66.E.P.metric.len [] = 0 ∧ Client.textOf (Client.Map.set ([(title, .str ['x'])] : Client.Props Num) Client.idName (.str ['a'])) [title] = .ok ['x', ' '] := by
  decide +kernel
-- vectors: the distance of [0, 0] and [3, 4] is 5; a vector with not-a-number is not equal to itself
example : apart [.fin 0, .fin 0] [.fin 3, .fin 4] = some (.fin 5) ∧ apart [.fin 0] [] = none ∧ equal [.nan] [.nan] = some false ∧
    equal [.fin 1, .inf true] [.fin 1, .inf true] = some true := by decide +kernel

end Fave.C81
