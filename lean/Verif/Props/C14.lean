import Verif.Lemmas.ClientWorld
import Verif.Spec.ExampleClient
/-!
# C14 — vector numbers are unique and consecutive

True of sequences of requests in which no addition breaks off after giving a number, the stored count can be read and no deletion removes
the vectors only; false otherwise, and false for concurrent additions.
-/
namespace Fave.C14
open Client
variable {F D : Type} [Dist D] [DecidableEq F]

/-- One batch answered with success, in any state: the numbers given are consecutive from the stored count on, the new stored count is
the next number, there is an outcome for every document, and a document that is stored with a vector has the number given to it, one
that is stored without vector has −1. -/
theorem batch_numbers (E : Env F D) (hr : E.replace = false) (o : Oracle F D) (hc : o.count = false) (w w' : World F) (name : Str)
    (ho : (w.coll (ns ++ name)).dbOpen → (w.dbs.get (ns ++ name)).isSome) (hi : Index.Any E.P (w.coll (ns ++ name)).idx)
    (ti : List Str) (docs : List (Option (Doc F))) (log : List Res)
    (h : addDocuments E o w name ti docs = (w', log, none)) :
    log.length = docs.length ∧
    given log = List.range' (w.count (ns ++ name)) (given log).length ∧
    w'.count (ns ++ name) = w.count (ns ++ name) + (given log).length ∧
    ∀ (i : Nat) (r : Res), log[i]? = some r → ∃ d, docs[i]? = some (some d) ∧
      (∀ n, r = .indexed n → ∃ p ∈ w'.docs (ns ++ name), StoredAs d n p) ∧
      (r = .plain → ∃ p ∈ w'.docs (ns ++ name), StoredAs d (-1) p) := by
  rcases add_cases ho h with ⟨_, h1, _⟩ | ⟨idx0, b', lk, hm, _, hd, hl, h1 | ⟨fe, hloop, hf, hfe⟩⟩
  · exact absurd rfl h1
  · obtain ⟨_, _, h2, _⟩ := h1; cases h2
  · rw [hfe rfl] at hf
    rw [hc] at hloop
    obtain ⟨ds, rs, rfl, hs⟩ := addLoop_steps docs hloop
    have hlog : log = rs := by rw [hl, hs.log.1]; rfl
    subst hlog
    have hn := hs.numbers
    have ha := hs.any (hm.any hi)
    obtain ⟨s1, _, hs1⟩ := Index.flush_ok (Index.any_inv ha).1 (flushCut_ok hf)
    refine ⟨by rw [hs.log.2]; simp, hn.1, ?_, ?_⟩
    · unfold World.count
      rw [hs1]
      exact hn.2
    · rw [hd]
      clear hf hn ha hs1 hloop h hl hm hd
      have keep : ∀ {i ds b b' rs}, Steps E o ti i ds b b' rs → ∀ p ∈ b.docs, p ∈ b'.docs := by
        intro i ds b b' rs h
        induction h with
        | nil => exact fun _ h => h
        | cons h1 _ ih =>
          intro p hp
          refine ih p ?_
          cases h1 <;> simp [putDoc, hr, hp]
      have key : ∀ {i ds b b' rs}, Steps E o ti i ds b b' rs → ∀ (j : Nat) (r : Res), rs[j]? = some r → ∃ d, (ds.map some)[j]? = some (some d) ∧
          (∀ n, r = .indexed n → ∃ p ∈ b'.docs, StoredAs d n p) ∧ (r = .plain → ∃ p ∈ b'.docs, StoredAs d (-1) p) := by
        intro i ds b b' rs h
        induction h with
        | nil => intro j r hj; simp at hj
        | @cons i d ds b b1 b2 r0 rs h1 h2 ih =>
          intro j r hj
          cases j with
          | succ j => exact ih j r hj
          | zero =>
            have hj : r0 = r := by simpa using hj
            subst hj
            refine ⟨d, rfl, ?_, ?_⟩
            · intro n hn
              cases h1 with
              | indexed vec idx p _ _ _ hp => cases hn; exact ⟨p, keep h2 p (by simp [putDoc, hr]), hp⟩
              | _ => cases hn
            · intro hn
              cases h1 with
              | plain p _ _ _ hp => exact ⟨p, keep h2 p (by simp [putDoc, hr]), hp⟩
              | _ => cases hn
      intro i r hi
      exact key hs i r hi

/-- the numbers given in the collection since its vectors were last deleted -/
def givenNow (E : Env F D) (name : Str) (w : World F) (g : List Nat) : Req F D → List Nat
  | .add o n ti docs => if n = name then g ++ given (addDocuments E o w n ti docs).2.1 else g
  | .delete o n => if n = name ∧ (w.session && w.pod) = true ∧ o.deleteTable = false then [] else g
  | _ => g

/-- the same over a sequence of requests -/
def givenAll (E : Env F D) (name : Str) : World F → List Nat → List (Req F D) → List Nat
  | _, g, [] => g
  | w, g, r :: rs => givenAll E name (serve E w r).1 (givenNow E name w g r) rs

/-- an addition can read the stored count and is answered with success unless it has not given any number; a deletion does not remove
the vectors without the documents -/
def Orderly (E : Env F D) (name : Str) (w : World F) : Req F D → Prop
  | .add o n ti docs => n = name → o.count = false ∧ ((addDocuments E o w n ti docs).2.2 = none ∨ given (addDocuments E o w n ti docs).2.1 = [])
  | .delete o n => n = name → o.deleteTable = false → o.docDelete = false
  | _ => True

/-- the same for every request of a sequence -/
def OrderlyRun (E : Env F D) (name : Str) : World F → List (Req F D) → Prop
  | _, [] => True
  | w, r :: rs => Orderly E name w r ∧ OrderlyRun E name (serve E w r).1 rs

structure Inv (E : Env F D) (name : Str) (w : World F) (g : List Nat) : Prop where
  any : Index.Any E.P (w.coll (ns ++ name)).idx
  opened : (w.coll (ns ++ name)).dbOpen → (w.dbs.get (ns ++ name)).isSome
  range : g = List.range (w.count (ns ++ name))
  sub : (docNumbers (w.docs (ns ++ name))).Sublist g

theorem Inv.calm {E : Env F D} {name : Str} {w w' : World F} {g : List Nat} (h : Inv E name w g) (hc : Calm (ns ++ name) w w') : Inv E name w' g := by
  refine ⟨hc.move.any h.any, ?_, ?_, by rw [hc.docs]; exact h.sub⟩
  · intro ho
    rcases hc.opened ho with h1 | h1
    · exact hc.some (h.opened h1)
    · exact h1
  · unfold World.count; rw [hc.move.kvCount]; exact h.range

theorem append_range (m k : Nat) : List.range m ++ List.range' m k = List.range (m + k) := by
  rw [List.range_eq_range', List.range_eq_range']
  have := List.range'_append (s := 0) (m := m) (n := k) (step := 1)
  simpa using this

theorem inv_step {E : Env F D} {name : Str} {w : World F} {g : List Nat} (h : Inv E name w g) (r : Req F D) (hr : Orderly E name w r) :
    Inv E name (serve E w r).1 (givenNow E name w g r) := by
  by_cases ha : ∃ o ti docs, r = .add o name ti docs
  · obtain ⟨o, ti, docs, rfl⟩ := ha
    obtain ⟨hc, hr⟩ := hr rfl
    show Inv E name (addDocuments E o w name ti docs).1 (if name = name then _ else _)
    rw [if_pos rfl]
    cases hx : addDocuments E o w name ti docs with
    | mk w' le =>
    obtain ⟨log, e⟩ := le
    rw [hx] at hr
    simp only at hr ⊢
    rcases add_cases h.opened hx with ⟨rfl, _, h1⟩ | ⟨idx0, b', lk, hm, hsome, hd, hl, h1 | ⟨fe, hloop, hf, hfe⟩⟩
    · have := h.calm h1
      simpa [given] using this
    · obtain ⟨er, hloop, he, hidx⟩ := h1
      rw [hc] at hloop
      obtain ⟨ds, d, rest, b1, rs, _, hs, hd1, hl1, hi1⟩ := addLoop_failed docs hloop
      have hg : given log = [] := by
        rcases hr with h2 | h2
        · rw [h2] at he; cases he
        · exact h2
      have hrs : given rs = [] := by
        have : log = rs := by rw [hl, hl1, hs.log.1]; rfl
        rw [← this]; exact hg
      have ha1 := hs.any (hm.any h.any)
      have hk1 : b1.idx.kvCount = (w.coll (ns ++ name)).idx.kvCount := (hs.kvCount (hm.any h.any)).trans hm.kvCount
      rw [hg, List.append_nil]
      refine ⟨?_, fun _ => hsome, ?_, ?_⟩
      · rw [hidx]
        rcases hi1 with h3 | ⟨j, vec, h3⟩
        · rw [h3]; exact ha1
        · rw [h3]; exact ha1.add ..
      · rw [h.range]
        unfold World.count
        rw [hidx]
        rcases hi1 with h3 | ⟨j, vec, h3⟩
        · rw [h3, hk1]
        · rw [h3, add_kvCount ha1, hk1]
      · rw [hd, hd1]
        have := hs.docNumbers
        rw [hrs, List.append_nil] at this
        exact this.trans h.sub
    · rw [hc] at hloop
      obtain ⟨ds, rs, _, hs⟩ := addLoop_steps docs hloop
      have hlog : log = rs := by rw [hl, hs.log.1]; rfl
      have hn := hs.numbers
      have ha1 := hs.any (hm.any h.any)
      have hk1 : b'.idx.kvCount = (w.coll (ns ++ name)).idx.kvCount := (hs.kvCount (hm.any h.any)).trans hm.kvCount
      have hany : Index.Any E.P (w'.coll (ns ++ name)).idx := by
        have := flushCut_any (cut := o.cut) (order := o.order b'.idx.cache.keys) (n := b'.next) ha1
        rw [hf] at this; exact this
      have hcount : w'.count (ns ++ name) = w.count (ns ++ name) + (given rs).length := by
        rcases hr with h2 | h2
        · rw [hfe h2] at hf
          obtain ⟨s1, _, hs1⟩ := Index.flush_ok (Index.any_inv ha1).1 (flushCut_ok hf)
          unfold World.count
          rw [hs1]; exact hn.2
        · rw [hlog] at h2
          have hk := flushCut_kvCount (P := E.P) (cut := o.cut) (s := b'.idx) (order := o.order b'.idx.cache.keys) (n := b'.next)
          rw [hf] at hk
          rw [h2]
          unfold World.count
          rcases hk with hk | hk
          · rw [hk, hk1]; rfl
          · rw [hk]
            rw [h2] at hn
            exact hn.2
      refine ⟨hany, fun _ => hsome, ?_, ?_⟩
      · rw [hcount, hlog, h.range, hn.1, List.length_range']
        exact append_range ..
      · rw [hd, hlog]
        exact hs.docNumbers.trans (h.sub.append_right _)
  by_cases hdel : ∃ o, r = .delete o name
  · obtain ⟨o, rfl⟩ := hdel
    have hr := hr rfl
    show Inv E name (delete o w name).1 (if name = name ∧ (w.session && w.pod) = true ∧ o.deleteTable = false then [] else g)
    rcases delete_cases o w name with ⟨h1, h2⟩ | ⟨h1, h2, h3⟩
    · rw [h1, if_neg (by rw [h2]; simp)]
      exact h
    · have hopen : ((delete o w name).1.coll (ns ++ name)).dbOpen → ((delete o w name).1.dbs.get (ns ++ name)).isSome := by
        split at h2
        · rw [h2.1, h2.2]; exact h.opened
        · rw [h2.2]; simp
      cases ht : o.deleteTable with
      | false =>
        rw [ht] at h3 hr
        rw [if_pos ⟨rfl, h1, rfl⟩]
        rw [hr rfl] at h2
        simp only [Bool.false_eq_true, if_false] at h2 h3
        refine ⟨by rw [h3]; exact .init, hopen, ?_, ?_⟩
        · unfold World.count; rw [h3]; rfl
        · unfold World.docs; rw [h2.1]; exact List.Sublist.refl _
      | true =>
        rw [ht] at h3
        rw [if_neg (by simp)]
        simp only [if_true] at h3
        refine ⟨by rw [h3]; exact h.any.restart, hopen, ?_, ?_⟩
        · unfold World.count; rw [h3]; exact h.range
        · unfold World.docs
          split at h2
          · rw [h2.1]; exact h.sub
          · rw [h2.1]; exact List.nil_sublist _
  · have hcalm := calm_serve E w r name (fun o ti docs e => ha ⟨o, ti, docs, e⟩) (fun o e => hdel ⟨o, e⟩)
    have hg : givenNow E name w g r = g := by
      cases r with
      | add o n ti docs => exact if_neg (fun e => ha ⟨o, ti, docs, by rw [e]⟩)
      | delete o n => exact if_neg (fun e => hdel ⟨o, by rw [e.1]⟩)
      | _ => rfl
    rw [hg]
    exact h.calm hcalm

theorem inv_run {E : Env F D} {name : Str} (rs : List (Req F D)) {w : World F} {g : List Nat} (h : Inv E name w g) (hr : OrderlyRun E name w rs) :
    Inv E name (run E w rs) (givenAll E name w g rs) := by
  induction rs generalizing w g with
  | nil => exact h
  | cons r rs ih => rw [run_cons]; exact ih (inv_step h r hr.1) hr.2

theorem inv_fresh (E : Env F D) (name : Str) (lookup : Bool) (dbs : Map (Db F)) (hf : dbs.get (ns ++ name) = none) :
    Inv E name (World.fresh lookup dbs) [] := by
  refine ⟨.init, (fun h => by cases h), rfl, ?_⟩
  unfold World.docs World.fresh
  simp only [hf]
  exact List.nil_sublist _

/-- Any sequence of requests of all kinds, about this and other collections, with restarts and failures, provided additions to the
collection can read the count and do not break off after giving a number, and no deletion removes the vectors only: the numbers given in
the collection are 0, 1, 2, … in this order, none twice, and the numbers in the stored documents are among them, each at most once.
Missing from the full statement: additions that break off (see `broken_off_reuses`), an unreadable count (see `unread_count_restarts`),
concurrent additions (see `concurrent_collide`). -/
theorem numbers_consecutive_partial (E : Env F D) (name : Str) (lookup : Bool) (dbs : Map (Db F)) (hf : dbs.get (ns ++ name) = none)
    (rs : List (Req F D)) (hr : OrderlyRun E name (World.fresh lookup dbs) rs) (w : World F) (hw : w = run E (World.fresh lookup dbs) rs) :
    givenAll E name (World.fresh lookup dbs) [] rs = List.range (w.count (ns ++ name)) ∧
    (docNumbers (w.docs (ns ++ name))).Sublist (List.range (w.count (ns ++ name))) ∧
    (docNumbers (w.docs (ns ++ name))).Nodup := by
  subst hw
  have h := inv_run rs (inv_fresh E name lookup dbs hf) hr
  have h1 := h.sub
  rw [h.range] at h1
  exact ⟨h.range, h1, h1.nodup List.nodup_range⟩

/-! ## where the statement is false -/

/-- two stored documents of "books" have the same vector number -/
def twice (w : World Nat) : Bool := !decide (docNumbers (w.docs (ns ++ ExC.books))).Nodup

/-- Storing the second document fails; the request is answered with an error, the first document stays with number 0, and the next
request gives number 0 again. -/
theorem broken_off_reuses : ∃ rs : List (Req Nat Nat), twice (run ExC.E (World.fresh true ExC.foreign) rs) = true ∧
    rs = ExC.setup ++ [.add { ExC.o with put := fun i => i == 1 } ExC.books [ExC.title] [ExC.docV 'a' [10, 0], ExC.docV 'b' [12, 0]],
      .add ExC.o ExC.books [ExC.title] [ExC.docV 'c' [14, 0]]] := ⟨_, by decide +kernel, rfl⟩

/-- The count cannot be read: the numbers start at 0 again, with success reported. -/
theorem unread_count_restarts : ∃ rs : List (Req Nat Nat), twice (run ExC.E (World.fresh true ExC.foreign) rs) = true ∧
    rs = ExC.setup ++ [.add ExC.o ExC.books [ExC.title] [ExC.docV 'a' [10, 0]],
      .add { ExC.o with count := true } ExC.books [ExC.title] [ExC.docV 'b' [12, 0]]] ∧
    (serve ExC.E (run ExC.E (World.fresh true ExC.foreign) (rs.take 5)) (.add { ExC.o with count := true } ExC.books [ExC.title] [ExC.docV 'b' [12, 0]])).2 = .done :=
  ⟨_, by decide +kernel, rfl, by decide +kernel⟩

/-- Two concurrent requests that both read the count before one of them writes it back: both succeed, both give number 0. -/
theorem concurrent_collide : ∃ (w1 w2 w3 w4 : World Nat) (n1 n2 : Nat),
    addBegin ExC.o ExC.w0 ExC.books = (w1, .ok n1) ∧
    addBegin ExC.o w1 ExC.books = (w2, .ok n2) ∧
    addFinish ExC.E ExC.o w2 ExC.books [] [ExC.docV 'a' [10, 0]] n1 = (w3, [.indexed 0], none) ∧
    addFinish ExC.E ExC.o w3 ExC.books [] [ExC.docV 'b' [12, 0]] n2 = (w4, [.indexed 0], none) ∧ twice w4 = true := by
  refine ⟨(addBegin ExC.o ExC.w0 ExC.books).1, (addBegin ExC.o (addBegin ExC.o ExC.w0 ExC.books).1 ExC.books).1, _, _, 0, 0, ?_, ?_,
    Prod.ext rfl ?_, Prod.ext rfl ?_, ?_⟩
  · exact Prod.ext rfl (by decide +kernel)
  · exact Prod.ext rfl (by decide +kernel)
  · decide +kernel
  · decide +kernel
  · decide +kernel

/-! Non-vacuity: two batches with all kinds of documents, one of them passed over, an addition that breaks off without number, a restart
and a deleted collection in between.  The numbers given are 0, …, 6; two documents without text have −1. -/
def story : List (Req Nat Nat) := ExC.setup ++
  [.add ExC.o ExC.books [ExC.title] ExC.batch, .add ExC.o ExC.books [] [none], .delete ExC.o ExC.films, .restart, .login true, .openPod true,
   .nearVector ExC.o ExC.books [11, 0] 100 0, .add ExC.o ExC.books [ExC.title] (ExC.batch.drop 1)]

/-- decidable form of `OrderlyRun` -/
def orderlyB (E : Env F D) (name : Str) : World F → List (Req F D) → Bool
  | _, [] => true
  | w, r :: rs => (match r with
      | .add o n ti docs => !decide (n = name) || (!o.count && ((addDocuments E o w n ti docs).2.2 == none || given (addDocuments E o w n ti docs).2.1 == []))
      | .delete o n => !decide (n = name) || o.deleteTable || !o.docDelete
      | _ => true) && orderlyB E name (serve E w r).1 rs

theorem orderlyB_sound {E : Env F D} {name : Str} (rs : List (Req F D)) {w : World F} (h : orderlyB E name w rs = true) : OrderlyRun E name w rs := by
  induction rs generalizing w with
  | nil => trivial
  | cons r rs ih =>
    simp only [orderlyB, Bool.and_eq_true] at h
    refine ⟨?_, ih h.2⟩
    have h1 := h.1
    cases r with
    | add o n ti docs =>
      intro hn
      simpa [hn] using h1
    | delete o n =>
      intro hn ht
      simpa [hn, ht] using h1
    | _ => trivial

example : OrderlyRun ExC.E ExC.books (World.fresh true ExC.foreign) story ∧ ExC.foreign.get (ns ++ ExC.books) = none ∧
    givenAll ExC.E ExC.books (World.fresh true ExC.foreign) [] story = [0, 1, 2, 3, 4, 5, 6] ∧
    ((run ExC.E (World.fresh true ExC.foreign) story).docs (ns ++ ExC.books)).map (fun p => p.get hnswName) =
      [some (.int 0), some (.int 1), some (.int 2), some (.int (-1)), some (.int 3), some (.int 4), some (.int 5), some (.int (-1)), some (.int 6)] :=
  ⟨orderlyB_sound _ (by decide +kernel), by decide, by decide +kernel, by decide +kernel⟩

example : (addDocuments ExC.E ExC.o ExC.w0 ExC.books [ExC.title] ExC.batch).2 =
    ([.indexed 0, .indexed 1, .indexed 2, .plain, .refused, .indexed 3], none) := by decide +kernel

end Fave.C14
