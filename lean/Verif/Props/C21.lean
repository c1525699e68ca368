import Verif.Lemmas.ClientNear
import Verif.Spec.ExampleClient
/-!
# C21: collection listing reflects create and delete

The full statement is false of the code: a database of another application whose name happens to begin with "fave_" is listed as a
collection (`foreign_database_listed`), and a deletion whose storage call fails is answered with success although the collection stays
(`failed_deletion_answered_with_success`).
-/
namespace Fave.C21
open Client
variable {F D : Type} [Dist D] [DecidableEq F]

/-- The specified list of collections with their indexes, kept by looking at requests and answers only: a creation that succeeds adds
the name with the requested indexes and the internal number index unless it is there, a deletion that succeeds removes it. -/
def book (r : Req F D) (a : Ans F D) (s : Str → Option (Map IxType)) : Str → Option (Map IxType) :=
  match r, a with
  | .create _ n ix, .done => fun m => if m = n then some ((s n).getD (ix.set hnswName .number)) else s m
  | .delete _ n, .done => fun m => if m = n then none else s m
  | _, _ => s

/-- keeping the book along a sequence of requests -/
def books (E : Env F D) : World F → (Str → Option (Map IxType)) → List (Req F D) → (Str → Option (Map IxType))
  | _, s, [] => s
  | w, s, r :: rs => books E (serve E w r).1 (book r (serve E w r).2 s) rs

/-- the storage calls behind creation and deletion do not fail half-way: a creation fails at most in its first step, the deletion of
the database does not fail -/
def Sound : Req F D → Prop
  | .create o _ _ => o.docCreate = true ∨ (o.createTable = false ∧ o.docOpen = false ∧ o.openTable = false ∧ o.newIndex = false)
  | .delete o _ => o.docDelete = false
  | _ => True

theorem stripPrefix_some {p s n : Str} (h : stripPrefix p s = some n) : s = p ++ n := by
  induction p generalizing s with
  | nil => cases h; rfl
  | cons c p ih =>
    cases s with
    | nil => cases h
    | cons d s =>
      unfold stripPrefix at h
      split at h
      · rename_i e; subst e; rw [ih h]; rfl
      · cases h

theorem stripPrefix_append (p a : Str) : stripPrefix p (p ++ a) = some a := by
  induction p with
  | nil => rfl
  | cons c p ih => simp [stripPrefix, ih]

/-- what the list is read from -/
structure Agrees (w : World F) (s : Str → Option (Map IxType)) : Prop where
  nodup : w.dbs.keys.Nodup
  same : ∀ n, (w.dbs.get (ns ++ n)).map Db.indexes = s n

/-- requests other than creation and deletion neither change names nor indexes -/
theorem keeps_names (E : Env F D) (w : World F) (r : Req F D) (hc : ∀ o n ix, r ≠ .create o n ix) (hd : ∀ o n, r ≠ .delete o n) :
    (serve E w r).1.dbs.keys = w.dbs.keys ∧ ∀ k, ((serve E w r).1.dbs.get k).map Db.indexes = (w.dbs.get k).map Db.indexes := by
  have hsame : ∀ w' : World F, w'.dbs = w.dbs → w'.dbs.keys = w.dbs.keys ∧ ∀ k, (w'.dbs.get k).map Db.indexes = (w.dbs.get k).map Db.indexes := by
    intro w' h; rw [h]; exact ⟨rfl, fun _ => rfl⟩
  have hopen : ∀ (o : Oracle F D) (w : World F) c, (ensureOpen o w c).1.dbs = w.dbs := by
    intro o w c
    unfold ensureOpen
    simp only [setColl_self, setColl_setColl, setColl_session, setColl_dbs]
    split
    · rfl
    split
    · rfl
    split
    · rfl
    split
    · rfl
    split
    · rfl
    split <;> rfl
  have hnear : ∀ (o : Oracle F D) (w : World F) c q max ef limit, (nearWith E o w c q max ef limit).1.dbs = w.dbs := by
    intro o w c q max ef limit
    unfold nearWith
    split <;> rfl
  cases r with
  | create o n ix => exact absurd rfl (hc o n ix)
  | delete o n => exact absurd rfl (hd o n)
  | login ok => exact hsame _ (by simp only [serve, login]; split <;> rfl)
  | openPod ok =>
    apply hsame
    simp only [serve, openPod]
    split
    · rfl
    · split <;> rfl
  | list o => exact hsame _ rfl
  | restart => exact hsame _ rfl
  | get o sat n p v =>
    apply hsame
    simp only [serve, getDocument]
    split
    · rfl
    · split <;> rfl
  | nearVector o n q max limit =>
    apply hsame
    simp only [serve, nearVector]
    have := hopen o w (ns ++ n)
    split
    · rename_i w1 e he; rw [he] at this; exact this
    · rename_i w1 he; rw [he] at this; rw [hnear]; exact this
  | nearText o n text max limit =>
    apply hsame
    simp only [serve, nearText]
    have := hopen o w (ns ++ n)
    split
    · rename_i w1 e he; rw [he] at this; exact this
    · rename_i w1 he
      rw [he] at this
      split
      · exact this
      · split
        · exact this
        · exact this
        · rw [hnear]; exact this
  | add o n ti docs =>
    simp only [serve, addDocuments, addBegin]
    have := hopen o w (ns ++ n)
    split
    · rename_i w1 e he
      apply hsame
      split at he
      · rename_i h2; cases he; rw [h2] at this; exact this
      · rename_i h2
        rw [h2] at this
        split at he
        · cases he; exact this
        · cases he
    · rename_i w1 cnt he
      have h1 : w1.dbs = w.dbs := by
        split at he
        · cases he
        · rename_i h2
          rw [h2] at this
          split at he
          · cases he
          · cases he; exact this
      have key : ∀ (d : List (Props F)) (dbs : Map (Db F)),
          dbs = w1.dbs.map (fun e => if e.1 = ns ++ n then (ns ++ n, { e.2 with docs := d }) else e) →
          dbs.keys = w.dbs.keys ∧ ∀ k, (dbs.get k).map Db.indexes = (w.dbs.get k).map Db.indexes := by
        intro d dbs hdbs
        subst hdbs
        rw [h1]
        refine ⟨Map.keys_mapAt w.dbs (ns ++ n) (fun e => { e with docs := d }), fun k => ?_⟩
        rw [Map.get_mapAt w.dbs (ns ++ n) (fun e => { e with docs := d })]
        split
        · rename_i hk; subst hk; rw [Option.map_map]; rfl
        · rfl
      unfold addFinish
      simp only []
      split
      · exact key _ _ rfl
      · split
        · exact key _ _ rfl
        · exact key _ _ rfl

theorem agrees_step (E : Env F D) (w : World F) (s : Str → Option (Map IxType)) (h : Agrees w s) (r : Req F D) (hs : Sound r) :
    Agrees (serve E w r).1 (book r (serve E w r).2 s) := by
  by_cases hc : ∃ o n ix, r = .create o n ix
  · obtain ⟨o, n, ix, rfl⟩ := hc
    have hx : (create o w n ix = (w, some .error)) ∨ ((create o w n ix).2 = none ∧ (create o w n ix).1.dbs = (w.withDb (ns ++ n) (ix.set hnswName .number)).dbs) := by
      unfold create
      by_cases h1 : (!w.session) = true
      · rw [if_pos h1]; exact .inl rfl
      rw [if_neg h1]
      by_cases h2 : (!w.pod) = true
      · rw [if_pos h2]; exact .inl rfl
      rw [if_neg h2]
      rcases hs with h3 | ⟨h3, h4, h5, h6⟩
      · simp only [h3, if_true]; exact .inl trivial
      · by_cases h7 : o.docCreate = true
        · simp only [h7, if_true]; exact .inl trivial
        · right
          simp only [h7, h3, h4, h5, h6, Bool.false_eq_true, if_false, Bool.and_false]
          exact ⟨trivial, rfl⟩
    rcases hx with hx | ⟨hx1, hx2⟩
    · simp only [serve, hx, book, Ans.ofErr]; exact h
    · simp only [serve, hx1, book, Ans.ofErr]
      have hdbs : (w.withDb (ns ++ n) (ix.set hnswName .number)).dbs =
          if (w.dbs.get (ns ++ n)).isSome then w.dbs else w.dbs ++ [(ns ++ n, ⟨ix.set hnswName .number, []⟩)] := by
        unfold World.withDb; split <;> rfl
      rw [hdbs] at hx2
      by_cases he : (w.dbs.get (ns ++ n)).isSome = true
      · rw [if_pos he] at hx2
        refine ⟨by rw [hx2]; exact h.nodup, fun m => ?_⟩
        rw [hx2, h.same m]
        by_cases hm : m = n
        · subst hm
          rw [if_pos rfl]
          have := h.same m
          cases hg : w.dbs.get (ns ++ m) with
          | none => rw [hg] at he; cases he
          | some d => rw [hg] at this; rw [← this]; rfl
        · rw [if_neg hm]
      · rw [if_neg he] at hx2
        refine ⟨?_, fun m => ?_⟩
        · rw [hx2]
          unfold Map.keys
          rw [List.map_append, List.nodup_append]
          refine ⟨h.nodup, by simp, ?_⟩
          intro a ha b hb
          simp only [List.map_cons, List.map_nil, List.mem_singleton] at hb
          subst hb
          intro e
          subst e
          exact he (Map.get_isSome.mpr ha)
        · rw [hx2, Map.get_append, Map.get_cons]
          by_cases hm : m = n
          · subst hm
            rw [if_pos rfl]
            have hg : w.dbs.get (ns ++ m) = none := by simpa using he
            have := h.same m
            rw [hg] at this ⊢
            rw [← this]
            simp
          · rw [if_neg hm, if_neg (Ne.symm (ns_ne hm)), ← h.same m]
            simp
  · by_cases hd : ∃ o n, r = .delete o n
    · obtain ⟨o, n, rfl⟩ := hd
      have hdd : o.docDelete = false := hs
      by_cases h1 : (!w.session) = true
      · have : delete o w n = (w, some .error) := by unfold delete; rw [if_pos h1]
        simp only [serve, this, book, Ans.ofErr]; exact h
      by_cases h2 : (!w.pod) = true
      · have : delete o w n = (w, some .error) := by unfold delete; rw [if_neg h1, if_pos h2]
        simp only [serve, this, book, Ans.ofErr]; exact h
      have hx : (delete o w n).2 = none ∧ (delete o w n).1.dbs = w.dbs.del (ns ++ n) := by
        unfold delete
        rw [if_neg h1, if_neg h2]
        simp only [hdd, Bool.false_eq_true, if_false]
        constructor
        · trivial
        · rw [setColl_dbs]
          split
          · rfl
          · rw [setColl_dbs]
      simp only [serve, hx.1, book, Ans.ofErr]
      refine ⟨?_, fun m => ?_⟩
      · rw [hx.2, Map.keys_del]
        exact List.Pairwise.filter _ h.nodup
      · rw [hx.2, Map.get_del]
        by_cases hm : m = n
        · subst hm; simp
        · rw [if_neg (ns_ne hm), if_neg hm, h.same m]
    · have hk := keeps_names E w r (fun o n ix e => hc ⟨o, n, ix, e⟩) (fun o n e => hd ⟨o, n, e⟩)
      have hb : book r (serve E w r).2 s = s := by
        cases r with
        | create o n ix => exact absurd ⟨o, n, ix, rfl⟩ hc
        | delete o n => exact absurd ⟨o, n, rfl⟩ hd
        | login ok => rfl
        | openPod ok => rfl
        | list o => rfl
        | add o n ti docs => rfl
        | nearVector o n q max limit => rfl
        | nearText o n text max limit => rfl
        | get o sat n p v => rfl
        | restart => rfl
      rw [hb]
      exact ⟨by rw [hk.1]; exact h.nodup, fun m => by rw [hk.2]; exact h.same m⟩

theorem agrees_run (E : Env F D) (rs : List (Req F D)) (hrs : ∀ r ∈ rs, Sound r) (w : World F) (s : Str → Option (Map IxType)) (h : Agrees w s) :
    Agrees (run E w rs) (books E w s rs) := by
  induction rs generalizing w s with
  | nil => exact h
  | cons r rs ih =>
    rw [run_cons]
    exact ih (fun r' hr' => hrs r' (List.mem_cons_of_mem _ hr')) _ _ (agrees_step E w s h r (hrs r (by simp)))

/-- Starting with a pod in which nothing has the prefix, after any sequence of requests of all kinds (whose creations and deletions do
not fail half-way): the list of collections has each name once and consists exactly of the names created and not deleted since, each
with the indexes requested when it was created and the internal number index. -/
theorem listing_exact_partial (E : Env F D) (lookup : Bool) (dbs : Map (Db F)) (hn : dbs.keys.Nodup) (hf : ∀ k ∈ dbs.keys, stripPrefix ns k = none)
    (rs : List (Req F D)) (hrs : ∀ r ∈ rs, Sound r) (o : Oracle F D) (l : List (Str × Map IxType))
    (h : (serve E (run E (World.fresh lookup dbs) rs) (.list o)).2 = .names l) :
    (l.map Prod.fst).Nodup ∧ ∀ n ix, (n, ix) ∈ l ↔ books E (World.fresh lookup dbs) (fun _ => none) rs n = some ix := by
  have h0 : Agrees (World.fresh lookup dbs) (fun _ => none) := by
    refine ⟨hn, fun n => ?_⟩
    cases hg : (World.fresh lookup dbs).dbs.get (ns ++ n) with
    | none => rfl
    | some d =>
      have hm : ns ++ n ∈ dbs.keys := Map.get_isSome.mp (by show (Map.get (World.fresh lookup dbs).dbs (ns ++ n)).isSome = true; rw [hg]; rfl)
      have := hf _ hm
      rw [stripPrefix_append] at this
      cases this
  have hA := agrees_run E rs hrs _ _ h0
  generalize run E (World.fresh lookup dbs) rs = w at *
  generalize books E (World.fresh lookup dbs) (fun _ => none) rs = s at *
  have hl : l = w.dbs.filterMap (fun e => (stripPrefix ns e.1).map (fun n => (n, e.2.indexes))) := by
    simp only [serve, list] at h
    split at h
    · cases h
    · rename_i h1
      split at h1
      · cases h1
      · split at h1
        · cases h1
        · split at h1
          · cases h1
          · cases h1; cases h; rfl
  have hmem : ∀ n ix, (n, ix) ∈ l ↔ ∃ d, (ns ++ n, d) ∈ w.dbs ∧ d.indexes = ix := by
    intro n ix
    rw [hl, List.mem_filterMap]
    constructor
    · rintro ⟨⟨k, d⟩, hm, he⟩
      cases hp : stripPrefix ns k with
      | none => simp [hp] at he
      | some n' =>
        simp only [hp, Option.map_some, Option.some.injEq, Prod.mk.injEq] at he
        obtain ⟨rfl, rfl⟩ := he
        rw [stripPrefix_some hp] at hm
        exact ⟨d, hm, rfl⟩
    · rintro ⟨d, hm, rfl⟩
      exact ⟨_, hm, by simp [stripPrefix_append]⟩
  constructor
  · rw [hl]
    have := hA.nodup
    generalize w.dbs = m at this
    induction m with
    | nil => simp
    | cons e m ih =>
      simp only [Map.keys, List.map_cons, List.nodup_cons] at this
      rw [List.filterMap_cons]
      cases hp : stripPrefix ns e.1 with
      | none => exact ih this.2
      | some n =>
        simp only [Option.map_some, List.map_cons, List.nodup_cons]
        refine ⟨?_, ih this.2⟩
        intro hx
        obtain ⟨⟨n', ix⟩, hx', rfl⟩ := List.mem_map.mp hx
        obtain ⟨e', hm', he'⟩ := List.mem_filterMap.mp hx'
        cases hp' : stripPrefix ns e'.1 with
        | none => simp [hp'] at he'
        | some n'' =>
          simp only [hp', Option.map_some, Option.some.injEq, Prod.mk.injEq] at he'
          have e1 := stripPrefix_some hp
          have e2 := stripPrefix_some hp'
          apply this.1
          rw [e1, ← he'.1, ← e2]
          exact List.mem_map_of_mem (f := Prod.fst) hm'
  · intro n ix
    rw [hmem, ← hA.same n]
    constructor
    · rintro ⟨d, hm, rfl⟩
      rw [Map.get_of_mem hA.nodup hm]; rfl
    · intro hx
      cases hg : w.dbs.get (ns ++ n) with
      | none => rw [hg] at hx; cases hx
      | some d =>
        rw [hg] at hx
        exact ⟨d, Map.mem_of_get hg, by simpa using hx⟩

/-- what the indexes of a new entry are: the requested ones, except that "hnswId" is always a number index -/
theorem indexes_requested (ix : Map IxType) (k : Str) :
    (ix.set hnswName .number).get k = if k = hnswName then some .number else ix.get k := Map.get_set ..

/-- False in general: a foreign database is listed, although nothing was created. -/
theorem foreign_database_listed : ∃ (dbs : Map (Db Nat)), dbs.keys.Nodup ∧
    (serve ExC.E (run ExC.E (World.fresh true dbs) [.login true, .openPod true]) (.list ExC.o)).2 = .names [(['x'], [])] ∧
    books ExC.E (World.fresh true dbs) (fun _ => none) [.login true, .openPod true] ['x'] = none :=
  ⟨[(['f', 'a', 'v', 'e', '_', 'x'], ⟨[], []⟩)], by decide, by decide +kernel, rfl⟩

/-- False in general: a deletion that fails is answered with success, and the collection stays in the list. -/
theorem failed_deletion_answered_with_success :
    let o : Oracle Nat Nat := { ExC.o with docDelete := true }
    (serve ExC.E ExC.w0 (.delete o ExC.books)).2 = .done ∧
    (serve ExC.E (serve ExC.E ExC.w0 (.delete o ExC.books)).1 (.list ExC.o)).2 =
      .names [(ExC.books, [(ExC.title, .string), (hnswName, .number)]), (ExC.films, [(hnswName, .number)])] := by decide +kernel

/-! Non-vacuity: create "books" and "films", add, delete "books", create it again with other indexes; a foreign database stays hidden. -/
def story : List (Req Nat Nat) := ExC.setup ++ [.add ExC.o ExC.books [ExC.title] ExC.batch, .delete ExC.o ExC.books,
  .create ExC.o ExC.films [(ExC.year, .number)], .create ExC.o ExC.books [(ExC.year, .number)]]
example : (∀ r ∈ story, Sound r) ∧ (ExC.foreign.keys.Nodup ∧ ∀ k ∈ ExC.foreign.keys, stripPrefix ns k = none) ∧
    (serve ExC.E (run ExC.E (World.fresh true ExC.foreign) story) (.list ExC.o)).2 =
      .names [(ExC.films, [(hnswName, .number)]), (ExC.books, [(ExC.year, .number), (hnswName, .number)])] := by
  refine ⟨?_, by decide, by decide +kernel⟩
  intro r hr
  simp only [story, ExC.setup, List.cons_append, List.nil_append, List.mem_cons, List.not_mem_nil, or_false] at hr
  rcases hr with rfl | rfl | rfl | rfl | rfl | rfl | rfl | rfl
  · trivial
  · trivial
  · exact .inr ⟨rfl, rfl, rfl, rfl⟩
  · exact .inr ⟨rfl, rfl, rfl, rfl⟩
  · trivial
  · rfl
  · exact .inr ⟨rfl, rfl, rfl, rfl⟩
  · exact .inr ⟨rfl, rfl, rfl, rfl⟩

end Fave.C21
