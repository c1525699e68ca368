import Verif.Lemmas.Docs
import Verif.Lemmas.JsonOk
/-!
# C78 — the properties of a document come back as they were sent

*Whatever properties a document is added with, a look-up or a search answers with them: every string, truth value, list and table as it was, and every
number with its value.*

This is false: numbers are read as 64-bit floats before they are answered (`full_claim_false`), and one number beyond their range makes the document,
and every search that finds it, unanswerable (`unreadable_iff`, `one_bad_document`).  What holds is that everything else survives exactly, that every
number comes back as a decimal with the same nearest float, and that whole numbers below 2^53 come back with their value.
-/
namespace Fave.C78
open Json F32 Docs

/-- **C78**: whatever text a request has, the numbers in it are proper, so that the values below are all there are. -/
theorem requests_ok {t : Text} {v : J} (h : parse t = some v) : v.Ok := parse_ok h

/-- **C78**: a value of which every number is in the range of 64-bit floats is stored as a text, read from it, answered as a text and read from that, and
means the same in the end. -/
theorem value_survives_partial {v : J} (ho : v.Ok) (hr : InRange v) :
    ∃ g j, (parse (render true (take v))).bind floats = some g ∧ write g = some j ∧ parse (render false j) = some j ∧ Same v j := by
  obtain ⟨g, j, h1, h2, h3, h4⟩ := there_and_back v ho hr
  exact ⟨g, j, by rw [parse_render (take_ok v ho)]; exact h1, h2, parse_render h3, h4⟩

/-- **C78**: a document comes back from a look-up with its id and its properties; those with the names that FaVe uses itself (`id`, `vector`, `hnswId`)
are replaced, removed, and set to the number in the index. -/
theorem looked_up_partial (odd : Option G → Text) {id : Text} {n : Option Nat} {props : List (Text × J)} (hok : ∀ m ∈ props, m.2.Ok)
    (hn : ∀ m, n = some m → m < 2 ^ 53) (hr : ∀ k v, last props k = some v → k ∉ [kId, kVector, kIndex] → InRange v) :
    ∃ w t, lookedUp odd (stored (kept id n props)) = .ok t ∧ parse t = some (answerJ id w) ∧
      (∀ k, k ∉ [kId, kVector, kIndex] → (last w k).isSome = (last props k).isSome ∧
        ∀ v j, last props k = some v → last w k = some j → Same v j) ∧
      last w kId = none ∧ last w kVector = none ∧ ∃ l, last w kIndex = some (.num l) ∧ l.value = number n := by
  obtain ⟨r, w, h1, h2, h3, h4, h5, h6, h7, -⟩ := shown_kept odd (id := id) hok hn hr (d := none) (by simp)
  refine ⟨w, render false (answerJ id w) ++ ['\n'], by simp only [lookedUp, h1, h2], parse_line (answerJ_ok h3), fun k hk => h4 k hk (by simp), h5, h6, h7⟩

/-- what was added: the id, the number in the index, and the members of the properties as they stood in the text of the request -/
structure Added where
  id : Text
  n : Option Nat
  props : List (Text × J)

/-- **C78**: a search answers with every document it found, in order, with its distance; a property named `distance` is replaced. -/
theorem found_partial (odd : Option G → Text) (name : Text) (docs : List (Added × ℚ)) (hok : ∀ a ∈ docs, ∀ m ∈ a.1.props, m.2.Ok)
    (hn : ∀ a ∈ docs, ∀ m, a.1.n = some m → m < 2 ^ 53)
    (hr : ∀ a ∈ docs, ∀ k v, last a.1.props k = some v → k ∉ [kId, kVector, kIndex] → InRange v) (hd : ∀ a ∈ docs, IsFloat a.2) :
    ∃ ws t, found odd name (docs.map fun a => stored (kept a.1.id a.1.n a.1.props)) (docs.map fun a => .fin a.2) = .ok t ∧
      parse t = some (.obj ([(kDocuments, .arr ((docs.zip ws).map fun a => answerJ a.1.1.id a.2))] ++ (if name = [] then [] else [(kName, .str name)]))) ∧
      ws.length = docs.length ∧
      ∀ a w, (a, w) ∈ docs.zip ws → (∀ k, k ∉ [kId, kVector, kIndex, kDistance] → (last w k).isSome = (last a.1.props k).isSome ∧
          ∀ v j, last a.1.props k = some v → last w k = some j → Same v j) ∧
        (∃ l, last w kDistance = some (.num l) ∧ f32.read l.value = some a.2) ∧ ∃ l, last w kIndex = some (.num l) ∧ l.value = number a.1.n := by
  suffices h : ∃ rs ws, hits (docs.map fun a => stored (kept a.1.id a.1.n a.1.props)) (docs.map fun a => .fin a.2) = .ok rs ∧
      showAll odd rs = some ((docs.zip ws).map fun a => answerJ a.1.1.id a.2) ∧ ws.length = docs.length ∧ (∀ w ∈ ws, ∀ x ∈ w, x.2.Ok) ∧
      ∀ a w, (a, w) ∈ docs.zip ws → (∀ k, k ∉ [kId, kVector, kIndex, kDistance] → (last w k).isSome = (last a.1.props k).isSome ∧
          ∀ v j, last a.1.props k = some v → last w k = some j → Same v j) ∧
        (∃ l, last w kDistance = some (.num l) ∧ f32.read l.value = some a.2) ∧ ∃ l, last w kIndex = some (.num l) ∧ l.value = number a.1.n by
    obtain ⟨rs, ws, h1, h2, h3, h4, h5⟩ := h
    refine ⟨ws, render false (.obj ([(kDocuments, .arr ((docs.zip ws).map fun a => answerJ a.1.1.id a.2))] ++
      (if name = [] then [] else [(kName, .str name)]))) ++ ['\n'], by simp only [found, h1, h2], parse_line ?_, h3, h5⟩
    refine .obj _ fun m hm => ?_
    rcases List.mem_append.1 hm with hm | hm
    · rw [List.mem_singleton.1 hm]
      refine .arr _ fun j hj => ?_
      obtain ⟨a, ha, rfl⟩ := List.mem_map.1 hj
      exact answerJ_ok (h4 _ (List.of_mem_zip ha).2)
    · split at hm
      · simp at hm
      · rw [List.mem_singleton.1 hm]; exact .str _
  induction docs with
  | nil => exact ⟨[], [], rfl, rfl, rfl, by simp, by simp⟩
  | cons a docs ih =>
    obtain ⟨rs, ws, h1, h2, h3, h4, h5⟩ := ih (fun b hb => hok b (by simp [hb])) (fun b hb => hn b (by simp [hb]))
      (fun b hb => hr b (by simp [hb])) (fun b hb => hd b (by simp [hb]))
    obtain ⟨r, w, g1, g2, g3, g4, -, -, g7, g8⟩ := shown_kept odd (id := a.1.id) (hok a (by simp)) (hn a (by simp)) (hr a (by simp))
      (d := some (.fin a.2)) (fun x hx => by
        obtain ⟨l, hl, -⟩ := Fmt.lit_back f32_good (hd a (by simp))
        exact ⟨a.2, l, by simpa using hx.symm, hl⟩)
    refine ⟨(r, .fin a.2) :: rs, w :: ws, ?_, ?_, by simp [h3], ?_, ?_⟩
    · simp only [List.map_cons, hits, g1, h1]; rfl
    · simp only [showAll, g2, h2, List.zip_cons_cons, List.map_cons]
    · intro w' hw'
      rcases List.mem_cons.1 hw' with rfl | hw'
      · exact g3
      · exact h4 w' hw'
    · intro b w' hb
      rw [List.zip_cons_cons] at hb
      rcases List.mem_cons.1 hb with e | hb
      · simp only [Prod.mk.injEq] at e
        obtain ⟨rfl, rfl⟩ := e
        obtain ⟨l, hl1, hl2⟩ := g8 _ rfl
        obtain ⟨l', hl', -, hr'⟩ := Fmt.lit_back f32_good (hd b (by simp))
        rw [hl2, Option.some.injEq] at hl'
        refine ⟨fun k hk => ?_, ⟨l, hl1, hl' ▸ hr'⟩, g7⟩
        simp only [List.mem_cons, List.not_mem_nil, or_false, not_or] at hk
        exact g4 k (by simp [hk.1, hk.2.1, hk.2.2.1]) (fun e => absurd e hk.2.2.2)
      · exact h5 b w' hb

/-- **C78**: a stored document cannot be read exactly if some number in its properties is beyond the range of 64-bit floats; a look-up of it is refused. -/
theorem unreadable_iff (odd : Option G → Text) {id : Text} {n : Option Nat} {props : List (Text × J)} (hok : ∀ m ∈ props, m.2.Ok)
    (hn : ∀ m, n = some m → m < 2 ^ 53) :
    lookedUp odd (stored (kept id n props)) = .bad ↔ ∃ k v, last props k = some v ∧ k ∉ [kId, kVector, kIndex] ∧ ¬ InRange v := by
  constructor
  · intro h
    by_contra hne
    simp only [not_exists, not_and, not_not] at hne
    obtain ⟨w, t, h1, -⟩ := looked_up_partial odd (id := id) hok hn hne
    rw [h] at h1
    simp at h1
  · rintro ⟨k, v, hv, hk, hr⟩
    unfold lookedUp
    cases h : recalled (stored (kept id n props)) with
    | none => rfl
    | some r => exact absurd (inRange_of_recalled hok h k v hv hk) hr

/-- **C78**: whatever text is found in the database — null aside —, it is a document exactly if it is a JSON object with numbers in range only. -/
theorem any_text_read (t : Text) (_ : parse t ≠ some .null) : recalled t ≠ none ↔ ∃ l, parse t = some (.obj l) ∧ AllInRange (.obj l) := by
  unfold recalled
  constructor
  · intro h
    split at h
    · rename_i l hl
      obtain ⟨r, hr⟩ := Option.ne_none_iff_exists'.1 h
      exact ⟨l, hl, .obj _ fun m hm => (floats_iff m.2).1 (floatsMembers_mem hr m hm)⟩
    · exact absurd rfl h
  · rintro ⟨l, hl, h⟩
    rw [hl]
    cases h with
    | obj _ h =>
      obtain ⟨r, hr, -⟩ := floatsMembers_some [] sorted_nil fun m hm => (floats_iff m.2).2 (h m hm)
      simp [hr]

/-- **C78**: one document that cannot be read is enough for a search that finds it to be refused, whatever else it finds — and nothing else is. -/
theorem one_bad_document (odd : Option G → Text) (name : Text) (ts : List Text) (ds : List Num) (h : ts.length = ds.length) :
    found odd name ts ds = .bad ↔ ∃ t ∈ ts, recalled t = none := by
  have key : ∀ (ts : List Text) (ds : List Num), ts.length = ds.length →
      (hits ts ds = .error .bad ∧ ∃ t ∈ ts, recalled t = none) ∨ ((∃ l, hits ts ds = .ok l) ∧ ∀ t ∈ ts, recalled t ≠ none) := by
    intro ts
    induction ts with
    | nil => intro ds _; exact .inr ⟨⟨[], rfl⟩, by simp⟩
    | cons t ts ih =>
      intro ds h
      cases ds with
      | nil => simp at h
      | cons d ds =>
        cases hr : recalled t with
        | none => exact .inl ⟨by simp only [hits, hr], t, by simp, hr⟩
        | some p =>
          rcases ih ds (by simpa using h) with ⟨h1, t', h2, h3⟩ | ⟨⟨l, h1⟩, h2⟩
          · exact .inl ⟨by simp only [hits, hr, h1]; rfl, t', by simp [h2], h3⟩
          · refine .inr ⟨⟨(p, d) :: l, by simp only [hits, hr, h1]; rfl⟩, fun t' ht' => ?_⟩
            rcases List.mem_cons.1 ht' with rfl | ht'
            · simp [hr]
            · exact h2 t' ht'
  rcases key ts ds h with ⟨h1, h2⟩ | ⟨⟨l, h1⟩, h2⟩
  · exact ⟨fun _ => h2, fun _ => by simp only [found, h1]⟩
  · refine ⟨fun hb => ?_, fun ⟨t, ht, e⟩ => absurd e (h2 t ht)⟩
    simp only [found, h1] at hb
    split at hb <;> simp at hb

/-- **C78**: a whole number below 2^53, however it is written, comes back with its value. -/
theorem whole_numbers {l : Lit} {n : ℤ} (hl : l.value = n) (hn : |n| < 2 ^ 53) :
    ∃ l', (floats (.num l)).bind write = some (.num l') ∧ l'.value = n := by
  obtain ⟨l', h1, h2⟩ := Fmt.lit_int (F := f64) f64_good (by decide) (by decide) hn
  exact ⟨l', by simp [floats, read_int hl hn, write, h1], h2⟩

/-- **C78**: every number comes back as one whose value is at least as near to what was sent as any other 64-bit float is, when it is read as one. -/
theorem numbers_rounded {l l' : Lit} {x : ℚ} (h : f64.read l.value = some x) (hw : (floats (.num l)).bind write = some (.num l')) :
    f64.read l'.value = some x ∧ f64.Is x ∧ ∀ y, f64.Is y → |x - l.value| ≤ |y - l.value| := by
  have hI := Fmt.read_is f64_good h
  obtain ⟨l'', h1, -, h3⟩ := Fmt.lit_back f64_good hI
  simp only [floats, h, Option.map_some, Option.bind_some, write, h1, Option.some.injEq, J.num.injEq] at hw
  subst hw
  refine ⟨h3, hI, ?_⟩
  rintro y ⟨m, e, rfl, hm, he, -⟩
  have hx : x = f64.round l.value := by
    unfold Fmt.read at h
    split at h
    · simpa using h.symm
    · simp at h
  rw [hx]
  exact Fmt.round_nearest f64_good _ hm he

theorem writeMembers_none {k : Text} {g : G} (hg : write g = none) : ∀ {l : List (Text × G)}, (k, g) ∈ l → writeMembers l = none := by
  intro l
  induction l with
  | nil => simp
  | cons a l ih =>
    intro h
    obtain ⟨k', g'⟩ := a
    rcases List.mem_cons.1 h with e | h
    · simp only [Prod.mk.injEq] at e
      rw [writeMembers, ← e.2, hg]
    · rw [writeMembers, ih h]
      cases write g' <;> rfl

theorem put_mem {α : Type} (k : Text) (v : α) : ∀ l : List (Text × α), (k, v) ∈ put k v l := by
  intro l
  induction l with
  | nil => simp [put]
  | cons a l ih =>
    obtain ⟨k', v'⟩ := a
    rw [put]
    split
    · simp
    · split
      · simp
      · simp [ih]

/-- **C78**: a search of which some distance is infinite or no number has no answer at all: the handler panics after the status 200 is sent, although
every document can be read. -/
theorem infinite_distance (odd : Option G → Text) (name : Text) (ts : List Text) (ds : List Num) (h : ts.length = ds.length)
    (hr : ∀ t ∈ ts, recalled t ≠ none) {d : Num} (hd : d ∈ ds) (hi : ∀ x, d ≠ .fin x) : found odd name ts ds = .crash := by
  have hw : write (.single d) = none := by
    cases d with
    | fin x => exact absurd rfl (hi x)
    | inf s => rfl
    | nan => rfl
  suffices hs : ∃ l, hits ts ds = .ok l ∧ showAll odd l = none by
    obtain ⟨l, h1, h2⟩ := hs
    simp only [found, h1, h2]
  induction ts generalizing ds with
  | nil =>
    rw [List.length_eq_zero_iff.1 (show ds.length = 0 by simpa using h.symm)] at hd
    simp at hd
  | cons t ts ih =>
    cases ds with
    | nil => simp at h
    | cons d' ds =>
      have htail : ∃ l, hits ts ds = .ok l := by
        clear ih hd
        have h' : ts.length = ds.length := by simpa using h
        have hr' : ∀ t ∈ ts, recalled t ≠ none := fun t ht => hr t (by simp [ht])
        clear h hr
        induction ts generalizing ds with
        | nil => exact ⟨[], rfl⟩
        | cons t ts ih =>
          cases ds with
          | nil => simp at h'
          | cons d ds =>
            obtain ⟨l, hl⟩ := ih ds (by simpa using h') (fun t ht => hr' t (by simp [ht]))
            obtain ⟨p, hp⟩ := Option.ne_none_iff_exists'.1 (hr' t (by simp))
            exact ⟨(p, d) :: l, by simp only [hits, hp, hl]; rfl⟩
      obtain ⟨p, hp⟩ := Option.ne_none_iff_exists'.1 (hr t (by simp))
      rcases List.mem_cons.1 hd with rfl | hd
      · obtain ⟨l, hl⟩ := htail
        refine ⟨(p, d) :: l, by simp only [hits, hp, hl]; rfl, ?_⟩
        have : shown odd p (some d) = none := by
          unfold shown
          rw [withDistance, writeMembers_none hw (put_mem kDistance _ _)]
          rfl
        rw [showAll, this]
      · obtain ⟨l, hl, hs⟩ := ih ds (by simpa using h) (fun t ht => hr t (by simp [ht])) hd
        refine ⟨(p, d') :: l, by simp only [hits, hp, hl]; rfl, ?_⟩
        rw [showAll, hs]
        cases shown odd p (some d') <;> rfl

/-- the number 9007199254740993 = 2^53 + 1 -/
def odd53 : Lit := ⟨false, "9007199254740993".toList, none, none⟩

/-- a document with that number -/
def withOdd : List (Text × J) := [(['n'], .num odd53)]

theorem odd53_ok : odd53.Ok := ⟨⟨by decide, by decide⟩, by decide, by simp [odd53], by simp [odd53]⟩

/-- the answer -/
def evenAnswer : J :=
  answerJ ['x'] [(kIndex, .num ⟨false, ['7'], none, none⟩), (['n'], .num ⟨false, "9007199254740992".toList, none, none⟩)]

/-- the whole answer to a look-up of it: the number is even -/
theorem odd_answer : lookedUp (fun _ => []) (stored (kept ['x'] (some 7) withOdd)) = .ok (render false evenAnswer ++ ['\n']) ∧
    render false evenAnswer = "{\"id\":\"x\",\"properties\":{\"hnswId\":7,\"n\":9007199254740992}}".toList := by decide +kernel

/-- the full claim is false: a number that is sent does not come back with its value -/
theorem full_claim_false : ¬ ∀ (props : List (Text × J)) (k : Text) (l : Lit), (∀ m ∈ props, m.2.Ok) → last props k = some (.num l) →
    k ∉ [kId, kVector, kIndex] → ∃ w t, lookedUp (fun _ => []) (stored (kept ['x'] (some 7) props)) = .ok t ∧ parse t = some (answerJ ['x'] w) ∧
      ∃ l', last w k = some (.num l') ∧ l'.value = l.value := by
  intro h
  obtain ⟨w, t, h1, h2, l', h3, h4⟩ := h withOdd ['n'] odd53 (by
    intro m hm
    rw [List.mem_singleton.1 hm]
    exact .num _ odd53_ok) rfl (by decide)
  rw [odd_answer.1, Answer.ok.injEq] at h1
  rw [← h1, parse_line (by
    refine answerJ_ok fun m hm => ?_
    simp only [List.mem_cons, List.not_mem_nil, or_false] at hm
    rcases hm with rfl | rfl
    · exact .num _ ⟨⟨by decide, by decide⟩, by decide, by simp, by simp⟩
    · exact .num _ ⟨⟨by decide, by decide⟩, by decide, by simp, by simp⟩)] at h2
  have hw : w = [(kIndex, .num ⟨false, ['7'], none, none⟩), (['n'], .num ⟨false, "9007199254740992".toList, none, none⟩)] := by
    simpa [evenAnswer, answerJ] using h2.symm
  rw [hw] at h3
  have : l' = ⟨false, "9007199254740992".toList, none, none⟩ := by
    simpa [last, kIndex] using h3.symm
  rw [this] at h4
  revert h4
  decide +kernel

/-- the number 1e400 -/
def huge : Lit := ⟨false, ['1'], none, some (false, ['4', '0', '0'])⟩

/-- properties as they may stand in a request: a key twice, a list, a table, names of FaVe -/
def someProps : List (Text × J) :=
  [(['s'], .num ⟨false, ['1'], none, none⟩), (['l'], .arr [.bool true, .null, .str "<é\"".toList]), (kIndex, .str ['?']),
   (['s'], .obj [(['b'], .num ⟨true, ['0'], some ['1', '0'], none⟩), (['a'], .num ⟨false, ['5'], none, some (true, ['3', '2', '4'])⟩)]),
   (kVector, .arr [.num ⟨false, ['1'], none, none⟩]), (kDistance, .bool false)]

theorem someProps_ok : ∀ m ∈ someProps, m.2.Ok := by
  intro m hm
  simp only [someProps, List.mem_cons, List.not_mem_nil, or_false] at hm
  rcases hm with rfl | rfl | rfl | rfl | rfl | rfl
  · exact .num _ (by simp [Lit.Ok, Digits])
  · refine .arr _ fun v hv => ?_
    simp only [List.mem_cons, List.not_mem_nil, or_false] at hv
    rcases hv with rfl | rfl | rfl
    · exact .bool _
    · exact .null
    · exact .str _
  · exact .str _
  · refine .obj _ fun v hv => ?_
    simp only [List.mem_cons, List.not_mem_nil, or_false] at hv
    rcases hv with rfl | rfl
    · exact .num _ (by simp [Lit.Ok, Digits])
    · exact .num _ (by simp [Lit.Ok, Digits])
  · refine .arr _ fun v hv => ?_
    simp only [List.mem_cons, List.not_mem_nil, or_false] at hv
    rw [hv]
    exact .num _ (by simp [Lit.Ok, Digits])
  · exact .bool _

-- the answers, letter by letter: the last `s` counts, keys are in order, 5e-324 is still 5e-324, the vector is gone and `hnswId` is the number
example : lookedUp (fun _ => []) (stored (kept ['x'] none someProps)) =
    .ok "{\"id\":\"x\",\"properties\":{\"distance\":false,\"hnswId\":-1,\"l\":[true,null,\"<é\\\"\"],\"s\":{\"a\":5e-324,\"b\":-0.1}}}\n".toList := by
  decide +kernel
example : stored (kept ['x'] none someProps) =
    "{\"distance\":false,\"hnswId\":-1,\"id\":\"x\",\"l\":[true,null,\"\\u003cé\\\"\"],\"s\":{\"a\":5e-324,\"b\":-0.10}}".toList := by
  decide +kernel
example : found (fun _ => []) ['c'] [stored (kept ['x'] none someProps), stored (kept ['y'] (some 3) [])] [.fin (13421773 / 2 ^ 27), .fin 2] =
    .ok ("{\"documents\":[{\"id\":\"x\",\"properties\":{\"distance\":0.1,\"hnswId\":-1,\"l\":[true,null,\"<é\\\"\"],\"s\":{\"a\":5e-324,\"b\":-0.1}}}," ++
      "{\"id\":\"y\",\"properties\":{\"distance\":2,\"hnswId\":3}}],\"name\":\"c\"}\n").toList := by
  decide +kernel
-- one number out of range: the document cannot be looked up, and a search that finds it beside a good one is refused; and an infinite distance
example : lookedUp (fun _ => []) (stored (kept ['x'] none [(['h'], .num huge)])) = .bad ∧
    found (fun _ => []) ['c'] [stored (kept ['y'] (some 3) []), stored (kept ['x'] none [(['h'], .num huge)])] [.fin 1, .fin 2] = .bad ∧
    found (fun _ => []) ['c'] [stored (kept ['y'] (some 3) []), stored (kept ['x'] none [])] [.fin 1, .inf false] = .crash := by decide +kernel

-- the hypotheses of the theorems are met: by the properties above, by the two documents of a search, by a whole number written in another way
theorem someProps_inRange : ∀ k v, last someProps k = some v → k ∉ [kId, kVector, kIndex] → InRange v := by
  obtain ⟨r, hr⟩ : ∃ r, recalled (stored (kept ['x'] none someProps)) = some r := by
    rw [← Option.isSome_iff_exists]
    decide +kernel
  exact inRange_of_recalled someProps_ok hr
example : recalled "[1]".toList = none ∧ recalled "{\"a\":1".toList = none ∧ recalled [] = none ∧
    recalled "{\"a\":1e400,\"a\":1}".toList = none ∧ (recalled "{\"a\":1}".toList).isSome := by decide +kernel
example : InRange (.num huge) → False := by
  intro h
  cases h with
  | num _ x h => simp [show f64.read huge.value = none by decide +kernel] at h
example (odd : Option G → Text) : ∃ w t, lookedUp odd (stored (kept ['x'] (some 7) someProps)) = .ok t ∧ parse t = some (answerJ ['x'] w) :=
  let ⟨w, t, h1, h2, _⟩ := looked_up_partial odd (id := ['x']) (n := some 7) someProps_ok (by rintro m ⟨⟩; norm_num) someProps_inRange
  ⟨w, t, h1, h2⟩
example (odd : Option G → Text) : ∃ ws t, found odd ['c'] [stored (kept ['x'] none someProps), stored (kept ['y'] (some 3) [])]
      [.fin (13421773 / 2 ^ 27), .fin 2] = .ok t ∧ ws.length = 2 ∧
    parse t = some (.obj [(kDocuments, .arr (([(['x'] : Text), ['y']].zip ws).map fun a => answerJ a.1 a.2)), (kName, .str ['c'])]) := by
  obtain ⟨ws, t, h1, h2, h3, -⟩ := found_partial odd ['c'] [(⟨['x'], none, someProps⟩, 13421773 / 2 ^ 27), (⟨['y'], some 3, []⟩, 2)]
    (by
      intro a ha
      simp only [List.mem_cons, List.not_mem_nil, or_false] at ha
      rcases ha with rfl | rfl
      · exact someProps_ok
      · simp)
    (by
      intro a ha
      simp only [List.mem_cons, List.not_mem_nil, or_false] at ha
      rcases ha with rfl | rfl <;> simp)
    (by
      intro a ha
      simp only [List.mem_cons, List.not_mem_nil, or_false] at ha
      rcases ha with rfl | rfl
      · exact someProps_inRange
      · simp [last])
    (by
      intro a ha
      simp only [List.mem_cons, List.not_mem_nil, or_false] at ha
      rcases ha with rfl | rfl
      · exact ⟨13421773, -27, by norm_num, by norm_num, by norm_num, by rw [abs_of_pos] <;> norm_num⟩
      · exact ⟨1, 1, by norm_num, by norm_num, by norm_num, by rw [abs_of_pos] <;> norm_num⟩)
  refine ⟨ws, t, h1, h3, ?_⟩
  match ws, h3 with
  | [w1, w2], _ => simpa using h2
example : ∃ l', (floats (.num ⟨true, ['1'], some ['5'], some (false, ['3'])⟩)).bind write = some (.num l') ∧ l'.value = (-1500 : ℤ) :=
  whole_numbers (by decide +kernel) (by norm_num)
example : f64.read odd53.value = some 9007199254740992 ∧
    (floats (.num odd53)).bind write = some (.num ⟨false, "9007199254740992".toList, none, none⟩) := by
  have h : f64.read odd53.value = some 9007199254740992 := by decide +kernel
  have h' : f64.lit 9007199254740992 = some ⟨false, "9007199254740992".toList, none, none⟩ := by decide +kernel
  exact ⟨h, by simp [floats, h, write, h']⟩

end Fave.C78
