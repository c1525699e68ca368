import Verif.Lemmas.Reads
import Verif.Spec.ExampleClient
/-!
# C88 — reading leaves no trace

The property: the list of collections, the searches and the look-up of a document do not change what any other request is answered.

It is false of the code.  A search makes the index start from the stored start vertex, where an index opened by an addition starts from
number 0 (`search_leaves_trace`); a look-up of a document opens the database without an index (`lookup_leaves_trace`); a search in whose
course the start vertex cannot be read makes the index start from number 0 (`failed_read_leaves_trace`).

What holds: reading requests are not affected by searches and listings before them, whatever state the server is in and whatever failed in
these (`reading_unaffected_partial`); and from an answered search or a successful addition on, until the next restart, deletion, creation
or failing addition, reading requests change nothing at all (`no_trace_partial`).  Missing: additions to collections just opened or
after a failed addition, where the claim is false.
-/
namespace Fave.C88
open Client
variable {F D : Type} [Dist D] [DecidableEq F]

/-- The answer to a reading request is the same whether or not there were searches, listings and look-ups in open collections before it —
in every state, and whatever calls of these earlier requests failed. -/
theorem reading_unaffected_partial (E : Env F D) (w : World F) (rs : List (Req F D))
    (hrs : ∀ r ∈ rs, r.search = true ∨ (∃ o, r = .list o) ∨
      (∃ o sat name p v, r = .get o sat name p v ∧ (w.coll (ns ++ name)).dbOpen = true))
    (r : Req F D) (hr : r.reads = true) (ho : ∀ o, r.oracle = some o → o.Opens) :
    (serve E (run E w rs) r).2 = (serve E w r).2 := by
  have key : ∀ (rs : List (Req F D)) (w1 : World F), (∀ c, (w.coll c).dbOpen = true → (w1.coll c).dbOpen = true) → Like w w1 →
      (∀ r ∈ rs, r.search = true ∨ (∃ o, r = .list o) ∨
        (∃ o sat name p v, r = .get o sat name p v ∧ (w.coll (ns ++ name)).dbOpen = true)) → Like w (run E w1 rs) := by
    intro rs
    induction rs with
    | nil => intro w1 _ h _; exact h
    | cons r rs ih =>
      intro w1 hop h hr
      rw [run_cons]
      have h1 : Like w1 (serve E w1 r).1 ∧ (∀ c, (w1.coll c).dbOpen = true → ((serve E w1 r).1.coll c).dbOpen = true) := by
        rcases hr r (by simp) with hs | ⟨o, rfl⟩ | ⟨o, sat, name, p, v, rfl, hd⟩
        · cases r with
          | nearVector o name q max limit => exact ⟨like_nearVector .., fun c hc => nearVector_dbOpen E o w1 name q max limit hc⟩
          | nearText o name text max limit => exact ⟨like_nearText .., fun c hc => nearText_dbOpen E o w1 name text max limit hc⟩
          | list o => cases hs
          | get o sat name p v => cases hs
          | login ok => cases hs
          | openPod ok => cases hs
          | create o name ix => cases hs
          | delete o name => cases hs
          | add o name ti docs => cases hs
          | restart => cases hs
        · exact ⟨.refl _, fun _ h => h⟩
        · exact ⟨like_getDocument o sat w1 name p v (hop _ hd), fun c hc => getDocument_dbOpen o sat w1 name p v hc⟩
      exact ih _ (fun c hc => h1.2 c (hop c hc)) (h.trans h1.1) (fun r' h' => hr r' (List.mem_cons_of_mem _ h'))
  exact reads_like E hr ho (key rs w (fun _ h => h) (.refl _) hrs)

/-- reading requests about one collection (or about none) -/
def readsOf (name : Str) (r : Req F D) : Bool := r.reads && (r.about == none || r.about == some name)

/-- the requests that may come meanwhile: no restart, and if they are about the collection, they read from it (and the start vertex can
be read) or add to it successfully -/
def Meanwhile (E : Env F D) (name : Str) : World F → List (Req F D) → Prop
  | _, [] => True
  | w, r :: rs =>
    ((r ≠ .restart ∧ r.about ≠ some name) ∨ (r.reads = true ∧ r.about = some name ∧ ∀ o, r.oracle = some o → o.entry = false) ∨
      (∃ o ti docs, r = .add o name ti docs ∧ (serve E w r).2 = .done)) ∧ Meanwhile E name (serve E w r).1 rs

theorem settled_meanwhile {E : Env F D} {name : Str} (rs : List (Req F D)) : ∀ {w : World F}, Settled w name → Meanwhile E name w rs →
    run E w (rs.filter (fun r => !readsOf name r)) = run E w rs ∧
    replies E w (rs.filter (fun r => !readsOf name r)) = ((rs.zip (replies E w rs)).filter (fun x => !readsOf name x.1)).map Prod.snd := by
  induction rs with
  | nil => intro w _ _; exact ⟨rfl, rfl⟩
  | cons r rs ih =>
    intro w hs hm
    obtain ⟨hr, hm⟩ := hm
    rw [List.filter_cons, replies, List.zip_cons_cons, List.filter_cons]
    by_cases hb : readsOf name r = true
    · have hw : (serve E w r).1 = w := by
        unfold readsOf at hb
        simp only [Bool.and_eq_true, Bool.or_eq_true, beq_iff_eq] at hb
        rcases hr with ⟨h1, h2⟩ | ⟨_, h2, h3⟩ | ⟨o, ti, docs, rfl, _⟩
        · rcases hb.2 with h | h
          · cases r with
            | list o => rfl
            | restart => exact absurd rfl h1
            | login ok => cases hb.1
            | openPod ok => cases hb.1
            | get o sat name p v => cases h
            | nearVector o name q max limit => cases h
            | nearText o name text max limit => cases h
            | create o name ix => cases h
            | delete o name => cases h
            | add o name ti docs => cases h
          · exact absurd h h2
        · exact hs.read E hb.1 (fun n hn => by rw [h2] at hn; cases hn; rfl) h3
        · cases hb.1
      simp only [hb, Bool.not_true, Bool.false_eq_true, if_false]
      rw [run_cons, hw]
      rw [hw] at hm
      exact ih hs hm
    · simp only [hb, Bool.not_false, if_true, List.map_cons]
      have hs' : Settled (serve E w r).1 name := by
        rcases hr with ⟨h1, h2⟩ | ⟨h1, h2, h3⟩ | ⟨o, ti, docs, rfl, hd⟩
        · exact hs.other E h2 h1
        · rw [hs.read E h1 (fun n hn => by rw [h2] at hn; cases hn; rfl) h3]; exact hs
        · exact add_settled hd
      obtain ⟨i1, i2⟩ := ih hs' hm
      exact ⟨by rw [run_cons, run_cons, i1], by rw [replies, i2]⟩

/-- After a search of the collection that was answered, or an addition that succeeded, as long as there is no restart, no deletion or
creation of this collection and no failing addition to it: taking away all reading requests changes neither the state nor the answer to any
other request, then or later. -/
theorem no_trace_partial (E : Env F D) (name : Str) (w : World F) (first : Req F D) (rs : List (Req F D))
    (hf : (first.search = true ∧ first.about = some name ∧ (∀ o, first.oracle = some o → o.entry = false) ∧
        ∃ docs ds, (serve E w first).2 = .near docs ds) ∨
      (∃ o ti docs, first = .add o name ti docs ∧ (serve E w first).2 = .done))
    (hm : Meanwhile E name (serve E w first).1 rs) :
    replies E (serve E w first).1 (rs.filter (fun r => !readsOf name r)) =
      ((rs.zip (replies E (serve E w first).1 rs)).filter (fun x => !readsOf name x.1)).map Prod.snd ∧
    ∀ later, replies E (run E w (first :: rs.filter (fun r => !readsOf name r))) later = replies E (run E w (first :: rs)) later := by
  have hs : Settled (serve E w first).1 name := by
    rcases hf with ⟨h1, h2, h3, docs, ds, h4⟩ | ⟨o, ti, docs, rfl, h⟩
    · exact search_settled h1 h2 h3 h4
    · exact add_settled h
  obtain ⟨h1, h2⟩ := settled_meanwhile rs hs hm
  exact ⟨h2, fun later => by rw [run_cons, run_cons, h1]⟩

/-! ## where it is false -/

/-- numbers on a line; 90 is far from the others, and becomes the start vertex (number 1, level 1) -/
def pts : List (List Nat) := [[6, 0], [90, 0], [3, 0], [24, 0], [1, 0], [31, 0], [15, 0]]
/-- the vector cache knows them -/
def o : Oracle Nat Nat :=
  { corpi := fun _ _ => .fail, vo := fun _ _ _ _ id => pts[id]?, sched := fun _ => Ex.sched, level := fun i => if i = 1 then 1 else 0 }
def docs : List (Option (Doc Nat)) := [ExC.docV 'a' [6, 0], ExC.docV 'z' [90, 0], ExC.docV 'b' [3, 0], ExC.docV 'c' [24, 0], ExC.docV 'd' [1, 0],
  ExC.docV 'e' [31, 0]]
/-- six documents are stored, then the server is started anew -/
def before : World Nat := run ExC.E (World.fresh true []) (ExC.setup ++ [.add o ExC.books [] docs, .restart, .login true, .openPod true])
def later : Oracle Nat Nat := { o with level := fun _ => 0 }
/-- a search for 90, all distances allowed -/
def look : Req Nat Nat := .nearVector later ExC.books [90, 0] 1000 0
/-- one more document -/
def more : Req Nat Nat := .add later ExC.books [] [ExC.docV 'f' [15, 0]]
/-- is document `z`, whose vector is 90, among the answers? -/
def hasZ : Ans Nat Nat → Bool
  | .near ds _ => ds.any (fun p => p.get idName = some (.str ['z']))
  | _ => false

/-- After a restart a document is added.  If there was a search between, document z is found afterwards; if not, it is not found — and
the start vertex stored is number 0 from then on.  (With the small limits of `Ex.P`: two links, three on the base layer.) -/
theorem search_leaves_trace :
    (serve ExC.E before more).2 = .done ∧ (serve ExC.E (run ExC.E before [look]) more).2 = .done ∧
    hasZ (serve ExC.E (run ExC.E before [look, more]) look).2 = true ∧
    hasZ (serve ExC.E (run ExC.E before [more]) look).2 = false ∧
    ((run ExC.E before [more]).coll (ns ++ ExC.books)).idx.kvEntry = some 0 ∧
    ((run ExC.E before [look, more]).coll (ns ++ ExC.books)).idx.kvEntry = some 1 := by
  refine ⟨?_, ?_, ?_, ?_, ?_, ?_⟩ <;> decide +kernel

/-- A search for which the stored start vertex cannot be read, before an addition, has the same effect in a collection that was in order:
the start vertex becomes 0, and the addition stores it. -/
theorem failed_read_leaves_trace :
    let w := run ExC.E before [look]
    let bad : Req Nat Nat := .nearVector { later with entry := true } ExC.books [90, 0] 1000 0
    hasZ (serve ExC.E (run ExC.E w [more]) look).2 = true ∧ hasZ (serve ExC.E (run ExC.E w [bad, more]) look).2 = false := by
  refine ⟨?_, ?_⟩ <;> decide +kernel

/-- A look-up of a document after a restart: the search behind it fails, without it the search is answered. -/
theorem lookup_leaves_trace :
    let g : Req Nat Nat := .get o (fun _ p => p.get idName = some (.str ['a'])) ExC.books idName ['a']
    hasZ (serve ExC.E before look).2 = true ∧ (serve ExC.E (run ExC.E before [g]) look).2 = .failed .panic ∧
    (∃ p, (serve ExC.E before g).2 = .doc p) := by
  refine ⟨by decide +kernel, by decide +kernel, [(idName, .str ['a']), (hnswName, .int 0)], by decide +kernel⟩

/-! Non-vacuity: after the restart two searches (one with a failing call) and a listing do not influence a third search that finds
something; after it an addition with a search and a look-up in between. -/
example : hasZ (serve ExC.E before look).2 = true ∧ look.reads = true ∧ later.Opens ∧
    (∀ r ∈ [look, .nearVector { later with newIndex := true } ExC.films [1, 0] 10 0, .list later], r.search = true ∨ (∃ o, r = .list o) ∨
      (∃ o sat name p v, r = .get o sat name p v ∧ (before.coll (ns ++ name)).dbOpen = true)) := by
  refine ⟨by decide +kernel, rfl, ⟨rfl, rfl, rfl, rfl, rfl, rfl⟩, ?_⟩
  intro r hr
  simp only [List.mem_cons, List.not_mem_nil, or_false] at hr
  rcases hr with rfl | rfl | rfl
  · exact .inl rfl
  · exact .inl rfl
  · exact .inr (.inl ⟨_, rfl⟩)

example : Meanwhile ExC.E ExC.books (serve ExC.E before look).1
    [look, .get later (fun _ p => p.get idName = some (.str ['a'])) ExC.books idName ['a'], more, look, .list later] ∧
    hasZ (serve ExC.E before look).2 = true ∧
    replies ExC.E (serve ExC.E before look).1 ([look, more, .list later].filter (fun r => !readsOf ExC.books r)) = [.done] := by
  refine ⟨⟨.inr (.inl ⟨rfl, rfl, fun _ h => by cases h; rfl⟩), .inr (.inl ⟨rfl, rfl, fun _ h => by cases h; rfl⟩),
    .inr (.inr ⟨_, _, _, rfl, by decide +kernel⟩), .inr (.inl ⟨rfl, rfl, fun _ h => by cases h; rfl⟩), .inl ⟨?_, ?_⟩, trivial⟩, by decide +kernel,
    by decide +kernel⟩
  · intro h; cases h
  · intro h; cases h

end Fave.C88
