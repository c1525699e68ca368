import Verif.Lemmas.FeedLru
/-!
# C87 — The vectors links are chosen by are those of the collection

Full statement: whenever an addition asks for the vector of a number of its collection, it gets the (normalised) vector that is stored
under that number in that collection.

False: `documentCache`, from which the vector caches are filled, keeps the vectors of deleted collections and of numbers that are given
again (`deleted_vector_delivered`, `replaced_vector_delivered`); it knows nothing after a restart (`nothing_after_restart`) and forgets
all but the 1000 vectors used last (`forgotten`).  Proved, whatever runs at the same time: a vector delivered by an index under a number
is the one last given to this index under this number or one kept for this collection and number in this process (`fed_right`); so it
is the right one if the number was only ever given one vector in this process (`own_vector_partial`), and as long as at most 1000
vectors were kept none of them is missed (`found_partial`).
-/
namespace Fave.C87
open Fave.Feed
open Fave.Client (Str)
variable {V : Type}

/-- An answer for a number of a collection is the normalised vector last given to this very index under this number, or the normalised
vector some addition to this collection kept under this number — in either case a vector given under this name and number since the
server was started; never one of another collection or another number. -/
theorem fed_right (norm : V → V) (pod : Str) (size cap : Nat) (s : Sys V) (h : Steps norm pod size cap start s)
    (later before : List (Ev V)) (i : Nat) (name : Str) (id : Nat) (u : V) (hl : s.log = later ++ .returned i name id u :: before) :
    ∃ w, u = norm w ∧ (∃ j, .gave j name id w ∈ current before) ∧ (lastGiven i id before = some w ∨ .kept name id w ∈ current before) := by
  have hs := sound_steps (sound_start norm pod) h
  have hkept : ∀ nm n v, .kept nm n v ∈ current before → ∃ j, .gave j nm n v ∈ current before := by
    clear hs
    induction h generalizing later with
    | refl =>
      cases later with
      | nil => cases hl
      | cons e l => simp [start] at hl
    | @step a b h1 h2 ih =>
      have grow : b.log = a.log ∨ ∃ e, b.log = e :: a.log := by
        cases h2 <;> first | exact .inl rfl | exact .inr ⟨_, rfl⟩
      rcases grow with hg | ⟨e, hg⟩
      · rw [hg] at hl; exact ih later hl
      · rw [hg] at hl
        cases later with
        | nil =>
          simp only [List.nil_append, List.cons.injEq] at hl
          rw [← hl.2]
          exact (sound_steps (sound_start norm pod) h1).kept
        | cons e' l =>
          simp only [List.cons_append, List.cons.injEq] at hl
          exact ih l hl.2
  rcases hs.log later before i name id u hl with ⟨w, h1, h2, h3⟩ | ⟨w, h1, h2⟩
  · exact ⟨w, h3, ⟨i, h2⟩, .inl h1⟩
  · exact ⟨w, h2, hkept name id w h1, .inr h1⟩

/-- If under a number of a collection only the vector `w` was given since the server was started, every answer for it is `w`,
normalised.  Missing for the full claim: numbers given again after a deletion or a failed request, and answers at all. -/
theorem own_vector_partial (norm : V → V) (pod : Str) (size cap : Nat) (s : Sys V) (h : Steps norm pod size cap start s)
    (later before : List (Ev V)) (i : Nat) (name : Str) (id : Nat) (u w : V) (hl : s.log = later ++ .returned i name id u :: before)
    (once : ∀ j v, .gave j name id v ∈ current before → v = w) : u = norm w := by
  obtain ⟨v, h1, ⟨j, h2⟩, -⟩ := fed_right norm pod size cap s h later before i name id u hl
  rw [h1, once j v h2]

/-- As long as vectors were kept under at most `cap` numbers (all collections together) since the server was started, `documentCache`
answers every one of them with the vector kept last, and a look-up fails only for numbers under which none was kept. -/
theorem found_partial (norm : V → V) (pod : Str) (size cap : Nat) (s : Sys V) (h : Steps norm pod size cap start s)
    (U : List (Str × Nat)) (hU : U.length ≤ cap) (few : ∀ name id v, .kept name id v ∈ current s.log → (name, id) ∈ U) :
    (∀ name id v, .kept name id v ∈ current s.log → s.docs.get (Client.cacheKey pod (Client.ns ++ name) id) = lastKept name id s.log ∧
      lastKept name id s.log ≠ none) ∧
    ∀ later before name id v, s.log = later ++ .failed name id :: before → .kept name id v ∈ current before → .started ∈ later := by
  refine ⟨fun name id v hm => ⟨((holding_steps h).all U hU few).2 name id, lastKept_mem hm⟩, ?_⟩
  induction h with
  | refl =>
    intro later before name id v hl
    cases later with
    | nil => cases hl
    | cons e l => simp [start] at hl
  | @step a b h1 h2 ih =>
    intro later before name id v hl hm
    by_cases hst : .started ∈ later
    · exact hst
    have other : ∀ e : Ev V, b.log = e :: a.log → (∀ nm n, e ≠ .failed nm n) → Ev.started ∈ later := by
      intro e hg he
      rw [hg] at hl
      cases later with
      | nil =>
        simp only [List.nil_append, List.cons.injEq] at hl
        exact absurd hl.1 (he _ _)
      | cons e' l =>
        simp only [List.cons_append, List.cons.injEq] at hl
        obtain ⟨rfl, hl⟩ := hl
        have hne : e ≠ .started := fun hc => hst (hc ▸ List.mem_cons_self)
        exact List.mem_cons_of_mem _ (ih (fun nm n w hw => few nm n w (by rw [hg, current_cons hne]; exact List.mem_cons_of_mem _ hw)) l before name id v hl hm)
    have same : b.log = a.log → Ev.started ∈ later := by
      intro hg
      exact ih (fun nm n w hw => few nm n w (by rw [hg]; exact hw)) later before name id v (hg ▸ hl) hm
    cases h2 with
    | make | giveUp | call | missed | bump | tick => exact same rfl
    | give | hit | fill | delete | fetch | keep | restart => exact other _ rfl (by intro _ _ he; cases he)
    | fetchFail t i x n ht hx hv =>
      have hl' : Ev.failed x.name n :: a.log = later ++ .failed name id :: before := hl
      cases later with
      | nil =>
        simp only [List.nil_append, List.cons.injEq, Ev.failed.injEq] at hl'
        obtain ⟨⟨rfl, rfl⟩, rfl⟩ := hl'
        have := ((holding_steps h1).all U hU (fun nm k w hw => few nm k w (List.mem_cons_of_mem _ hw))).2 x.name n
        rw [hv] at this
        exact absurd this.symm (lastKept_mem hm)
      | cons e' l =>
        simp only [List.cons_append, List.cons.injEq] at hl'
        obtain ⟨rfl, hl'⟩ := hl'
        exact List.mem_cons_of_mem _ (ih (fun nm k w hw => few nm k w (List.mem_cons_of_mem _ hw)) l before name id v hl' hm)

/-- Once vectors were kept under `cap` other numbers (of whatever collections) without this number being used, it is forgotten. -/
theorem forgotten (norm : V → V) (pod : Str) (size cap : Nat) (s : Sys V) (h : Steps norm pod size cap start s)
    (recent rest : List (Ev V)) (name : Str) (id : Nat) (hl : s.log = recent ++ rest)
    (away : ∀ e ∈ recent, e ≠ .started ∧ e ≠ .fetched name id ∧ ∀ v, e ≠ .kept name id v)
    (T : List (Str × Nat)) (hT : T.Nodup) (hn : cap ≤ T.length) (hk : ∀ p ∈ T, ∃ v, .kept p.1 p.2 v ∈ recent) :
    s.docs.get (Client.cacheKey pod (Client.ns ++ name) id) = none := by
  have hb := behind_steps h name id recent rest hl away
  have hsub : ∀ l : List (Ev V), ∀ m n v, .kept m n v ∈ l → (m, n) ∈ keptNumbers l := by
    intro l
    induction l with
    | nil => intro m n v hm; cases hm
    | cons e l ih =>
      intro m n v hm
      cases e with
      | kept m' n' v' =>
        rcases List.mem_cons.mp hm with hm | hm
        · cases hm; exact List.mem_cons_self
        · exact List.mem_cons_of_mem _ (ih m n v hm)
      | gave | returned | fetched | failed | deleted | started =>
        rcases List.mem_cons.mp hm with hm | hm
        · cases hm
        · exact ih m n v hm
  refine behind_full (T := T.map fun p => Client.cacheKey pod (Client.ns ++ p.1) p.2) (behind_mono hb ?_) ?_ ?_
  · intro k hm
    obtain ⟨p, hp, rfl⟩ := List.mem_map.mp hm
    obtain ⟨v, hv⟩ := hk p hp
    exact List.mem_map_of_mem (f := fun p : Str × Nat => Client.cacheKey pod (Client.ns ++ p.1) p.2) (hsub recent p.1 p.2 v hv)
  · unfold List.Nodup
    rw [List.pairwise_map]
    refine List.Pairwise.imp ?_ hT
    intro a b hab hc
    obtain ⟨e1, e2⟩ := key_inj hc
    exact hab (Prod.ext e1 e2)
  · rw [List.length_map]
    exact Nat.le_trans (holding_steps h).size hn

/-- After a restart no look-up is answered for a number that was not given again since: the vectors of all documents added before are
stored, but out of reach. -/
theorem nothing_after_restart (norm : V → V) (pod : Str) (size cap : Nat) (s : Sys V) (h : Steps norm pod size cap start s)
    (later since before : List (Ev V)) (i : Nat) (name : Str) (id : Nat) (u : V)
    (hl : s.log = later ++ .returned i name id u :: (since ++ .started :: before)) :
    ∃ j w, .gave j name id w ∈ since := by
  obtain ⟨w, -, ⟨j, hj⟩, -⟩ := fed_right norm pod size cap s h later _ i name id u hl
  refine ⟨j, w, ?_⟩
  clear hl
  induction since with
  | nil => simp [current] at hj
  | cons e l ih =>
    by_cases he : e = .started
    · subst he; simp [current] at hj
    · rw [List.cons_append, current_cons he] at hj
      rcases List.mem_cons.mp hj with hj | hj
      · rw [hj]; exact List.mem_cons_self
      · exact List.mem_cons_of_mem _ (ih hj)

/-! ## what goes wrong -/

/-- a collection -/
def books : Str := ['b']

/-- the steps of a look-up that finds the slot empty and is served from `documentCache` -/
theorem fetched_look {s : Sys Nat} {t i : Nat} {x : Inst Nat} {id v : Nat} {c : VecCache.Cache Nat} {s0 : Sys Nat} {cap : Nat} (h : Steps (fun v => v) ['p'] 4 cap s0 s)
    (hp : s.pc t = .idle) (hx : s.insts[i]? = some x) (hs : x.cache.slots[id]? = some none)
    (hd : s.docs.get (Client.cacheKey ['p'] (Client.ns ++ x.name) id) = some v) (hc : x.cache.bump.write id (some v) = some c) :
    Steps (fun v => v) ['p'] 4 cap s0 { s with
      docs := s.docs.use (Client.cacheKey ['p'] (Client.ns ++ x.name) id)
      insts := s.insts.set i { x with cache := c }
      log := .returned i x.name id v :: .fetched x.name id :: s.log } := by
  have hi : i < s.insts.length := by
    rcases Nat.lt_or_ge i s.insts.length with h | h
    · exact h
    · rw [List.getElem?_eq_none h] at hx; cases hx
  have s1 := Steps.step h (.call s t i id hp)
  have s2 := Steps.step s1 (.missed _ t i x id (by simp [Sys.goto]) hx hs)
  have s3 := Steps.step s2 (.fetch _ t i x id v (by simp [Sys.goto]) hx hd)
  have s4 := Steps.step s3 (.bump _ t i x id v (by simp [Sys.goto, Sys.note]) hx)
  have s5 := Steps.step s4 (.fill _ t i { x with cache := x.cache.bump } id v c (by simp [Sys.goto, Sys.note, Sys.setCache])
    (by simp [Sys.setCache, Sys.goto, Sys.note, hi]) hc)
  refine cast ?_ s5
  congr 1
  simp only [Sys.goto, Sys.note, Sys.setCache, Sys.mk.injEq, List.set_set, and_true, true_and]
  funext u
  by_cases hu : u = t
  · simp [hu, hp]
  · simp [hu]

/-- A collection with one document (vector 1) is deleted and made again; a document with vector 2 is added.  The vector cache is emptied
while the addition is under way: the addition asks for the vector of its own document and gets 1, the vector of the deleted collection.
This answer stays in the vector cache: also after the addition, when `documentCache` has the new vector, the answer is 1, until the cache
is emptied again.  (Number 0 stands for any number: additions ask for vectors, their own included, when they choose among more than 30
candidates.) -/
theorem deleted_vector_delivered : ∃ s : Sys Nat, Steps (fun v => v) ['p'] 4 1000 start s ∧
    s.log = [.returned 1 books 0 2, .fetched books 0, .returned 1 books 0 1, .kept books 0 2, .returned 1 books 0 1, .fetched books 0,
      .gave 1 books 0 2, .deleted books, .kept books 0 1, .gave 0 books 0 1, .started] := by
  have s1 := Steps.step (.refl (start : Sys Nat)) (Step.make (norm := fun v => v) (pod := ['p']) (size := 4) (cap := 1000) _ books)
  have s2 := Steps.step s1 (.give _ 7 0 _ 0 1 _ rfl rfl rfl)
  have s3 := Steps.step s2 (.keep _ 7 0 _ 0 1 rfl rfl)
  have s4 := Steps.step s3 (.delete _ books)
  have s5 := Steps.step s4 (.make _ books)
  have s6 := Steps.step s5 (.give _ 7 1 _ 0 2 _ rfl rfl rfl)
  have s7 := Steps.step s6 (.tick _ 1 _ rfl)
  have s8 := fetched_look (t := 7) (i := 1) (id := 0) (v := 1) s7 rfl rfl rfl (by decide +kernel) rfl
  have s9 := Steps.step s8 (.keep _ 7 1 _ 0 2 rfl rfl)
  have s10 := Steps.step s9 (.call _ 7 1 0 rfl)
  have s11 := Steps.step s10 (.hit _ 7 1 _ 0 1 rfl rfl rfl)
  have s12 := Steps.step s11 (.tick _ 1 _ rfl)
  have s13 := fetched_look (t := 7) (i := 1) (id := 0) (v := 2) s12 rfl rfl rfl (by decide +kernel) rfl
  exact ⟨_, s13, rfl⟩

/-- The same without deletion: a request adds a document (vector 1) and fails afterwards, before the number of documents is stored
(`DocPut` or the flush fails); the next request gives the same number to another document (vector 2) and is delivered vector 1 for it. -/
theorem replaced_vector_delivered : ∃ s : Sys Nat, Steps (fun v => v) ['p'] 4 1000 start s ∧
    s.log = [.returned 0 books 0 1, .fetched books 0, .gave 0 books 0 2, .kept books 0 1, .gave 0 books 0 1, .started] := by
  have s1 := Steps.step (.refl (start : Sys Nat)) (Step.make (norm := fun v => v) (pod := ['p']) (size := 4) (cap := 1000) _ books)
  have s2 := Steps.step s1 (.give _ 7 0 _ 0 1 _ rfl rfl rfl)
  have s3 := Steps.step s2 (.keep _ 7 0 _ 0 1 rfl rfl)
  have s4 := Steps.step s3 (.give _ 7 0 _ 0 2 _ rfl rfl rfl)
  have s5 := Steps.step s4 (.tick _ 0 _ rfl)
  have s6 := fetched_look (t := 7) (i := 0) (id := 0) (v := 1) s5 rfl rfl rfl (by decide +kernel) rfl
  exact ⟨_, s6, rfl⟩

/-! ## examples -/

/-- room for two: three vectors are kept under 0, 1, 2; the cache is emptied; 1 is found, 0 is not -/
theorem three_of_two : ∃ s : Sys Nat, Steps (fun v => v) ['p'] 4 2 start s ∧
    s.log = [.failed books 0, .returned 0 books 1 11, .fetched books 1, .kept books 2 12, .gave 0 books 2 12, .kept books 1 11,
      .gave 0 books 1 11, .kept books 0 10, .gave 0 books 0 10, .started] := by
  have s1 := Steps.step (.refl (start : Sys Nat)) (Step.make (norm := fun v => v) (pod := ['p']) (size := 4) (cap := 2) _ books)
  have s2 := Steps.step s1 (.give _ 7 0 _ 0 10 _ rfl rfl rfl)
  have s3 := Steps.step s2 (.keep _ 7 0 _ 0 10 rfl rfl)
  have s4 := Steps.step s3 (.give _ 7 0 _ 1 11 _ rfl rfl rfl)
  have s5 := Steps.step s4 (.keep _ 7 0 _ 1 11 rfl rfl)
  have s6 := Steps.step s5 (.give _ 7 0 _ 2 12 _ rfl rfl rfl)
  have s7 := Steps.step s6 (.keep _ 7 0 _ 2 12 rfl rfl)
  have s8 := Steps.step s7 (.tick _ 0 _ rfl)
  have s9 := fetched_look (t := 7) (i := 0) (id := 1) (v := 11) s8 rfl rfl rfl (by decide +kernel) rfl
  have s10 := Steps.step s9 (.call _ 7 0 0 rfl)
  have s11 := Steps.step s10 (.missed _ 7 0 _ 0 rfl rfl rfl)
  have s12 := Steps.step s11 (.fetchFail _ 7 0 _ 0 rfl rfl (by decide +kernel))
  exact ⟨_, s12, rfl⟩

/-- `own_vector_partial` and `forgotten` on this execution -/
example : ∃ s : Sys Nat, Steps (fun v => v) ['p'] 4 2 start s ∧ (∃ later before, s.log = later ++ .returned 0 books 1 11 :: before ∧
      ∀ j v, .gave j books 1 v ∈ current before → v = 11) ∧
    s.docs.get (Client.cacheKey ['p'] (Client.ns ++ books) 0) = none := by
  obtain ⟨s, h, hl⟩ := three_of_two
  refine ⟨s, h, ⟨[.failed books 0], _, hl, ?_⟩, ?_⟩
  · intro j v hm
    simp [current] at hm
    exact hm.2
  · refine forgotten _ _ _ _ s h [.failed books 0, .returned 0 books 1 11, .fetched books 1, .kept books 2 12, .gave 0 books 2 12, .kept books 1 11,
      .gave 0 books 1 11] _ books 0 hl ?_ [(books, 1), (books, 2)] (by decide) (by decide) ?_
    · intro e he
      simp only [List.mem_cons, List.not_mem_nil, or_false] at he
      rcases he with rfl | rfl | rfl | rfl | rfl | rfl | rfl <;> simp
    · intro p hp
      simp only [List.mem_cons, List.not_mem_nil, or_false] at hp
      rcases hp with rfl | rfl
      · exact ⟨11, by simp⟩
      · exact ⟨12, by simp⟩

/-- `found_partial` on the execution of `deleted_vector_delivered`: one number, the vector kept last is found -/
example : ∃ s : Sys Nat, Steps (fun v => v) ['p'] 4 1000 start s ∧ s.docs.get (Client.cacheKey ['p'] (Client.ns ++ books) 0) = some 2 := by
  obtain ⟨s, h, hl⟩ := deleted_vector_delivered
  refine ⟨s, h, ?_⟩
  have := ((found_partial _ _ _ _ s h [(books, 0)] (by decide) (by
    intro name id v hm
    rw [hl] at hm
    simp [current] at hm
    rcases hm with ⟨rfl, rfl, -⟩ | ⟨rfl, rfl, -⟩ <;> simp)).1 books 0 2 (by rw [hl]; simp [current])).1
  rw [this, hl]
  rfl

/-- after a restart the vector is not found; the number, given again, is answered -/
example : ∃ s : Sys Nat, Steps (fun v => v) ['p'] 4 2 start s ∧
    s.log = [.returned 0 books 0 11, .gave 0 books 0 11, .failed books 0, .started, .kept books 0 10, .gave 0 books 0 10, .started] := by
  have s1 := Steps.step (.refl (start : Sys Nat)) (Step.make (norm := fun v => v) (pod := ['p']) (size := 4) (cap := 2) _ books)
  have s2 := Steps.step s1 (.give _ 7 0 _ 0 10 _ rfl rfl rfl)
  have s3 := Steps.step s2 (.keep _ 7 0 _ 0 10 rfl rfl)
  have s4 := Steps.step s3 (.restart _)
  have s5 := Steps.step s4 (.make _ books)
  have s6 := Steps.step s5 (.call _ 7 0 0 rfl)
  have s7 := Steps.step s6 (.missed _ 7 0 _ 0 rfl rfl rfl)
  have s8 := Steps.step s7 (.fetchFail _ 7 0 _ 0 rfl rfl (by decide +kernel))
  have s9 := Steps.step s8 (.give _ 7 0 _ 0 11 _ rfl rfl rfl)
  have s10 := Steps.step s9 (.call _ 7 0 0 rfl)
  have s11 := Steps.step s10 (.hit _ 7 0 _ 0 11 rfl rfl rfl)
  exact ⟨_, s11, rfl⟩

end Fave.C87
