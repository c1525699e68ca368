import Verif.Lemmas.Made
import Verif.Lemmas.CrashRest
import Verif.Spec.ExampleClient
/-!
# C91 — deleting a collection gives back what it used

The property: the indices in memory, with their goroutines, are those of the collections that exist; a server whose collections have been
deleted is as empty as a new one.

False of the code: `DeleteCollection` only forgets the index (C90: it would have to be closed), so every creation leaves two goroutines and
two caches behind for good (`cycles_leave_indices`).  Even requests that are answered with an error do: if a database is gone but the
key-value table is still there, every search makes an index before it fails to open the database (`failing_searches_leave_indices`,
`failing_searches_reachable`).  What holds: between restarts, without deletions and failures, there is at most one index for each creation
and each name (`few_indices_partial`); a collection whose database is open makes no further ones (`open_makes_none`).
-/
namespace Fave.C91
open Client
variable {F D : Type} [Dist D] [DecidableEq F]

/-- The calls of the storage in creating and deleting succeed. -/
structure Works (o : Oracle F D) : Prop where
  docCreate : o.docCreate = false
  createTable : o.createTable = false
  docOpen : o.docOpen = false
  openTable : o.openTable = false
  newIndex : o.newIndex = false
  docDelete : o.docDelete = false
  deleteTable : o.deleteTable = false

theorem cycle (E : Env F D) {o : Oracle F D} (ho : Works o) (name : Str) (ix : Map IxType) {w : World F} (hs : w.session = true) (hp : w.pod = true) :
    made w (.create o name ix : Req F D) = 1 ∧ (serve E w (.create o name ix)).2 = .done ∧
    (serve E (serve E w (.create o name ix)).1 (.delete o name)).2 = .done ∧
    (serve E (serve E w (.create o name ix)).1 (.delete o name)).1.session = true ∧
    (serve E (serve E w (.create o name ix)).1 (.delete o name)).1.pod = true ∧
    ((serve E (serve E w (.create o name ix)).1 (.delete o name)).1.dbs.get (ns ++ name)).isNone ∧
    ((serve E (serve E w (.create o name ix)).1 (.delete o name)).1.coll (ns ++ name)) = Coll.none := by
  have hws : ∀ i, (w.withDb (ns ++ name) i).session = true := by intro i; unfold World.withDb; split <;> exact hs
  have hwp : ∀ i, (w.withDb (ns ++ name) i).pod = true := by intro i; unfold World.withDb; split <;> exact hp
  refine ⟨?_, ?_, ?_, ?_, ?_, ?_, ?_⟩ <;>
    simp [made, madeCreating, serve, create, delete, hs, hp, hws, hwp, ho.docCreate, ho.createTable, ho.docOpen, ho.openTable, ho.newIndex,
      ho.docDelete, ho.deleteTable, Ans.ofErr, Map.get_del, Coll.none]
  rfl

/-- create and delete a collection, `n` times -/
def cycles (o : Oracle F D) (name : Str) (ix : Map IxType) : Nat → List (Req F D)
  | 0 => []
  | n + 1 => .create o name ix :: .delete o name :: cycles o name ix n

/-- Creating and deleting a collection any number of times: all is answered with success, the collection is gone, and as many indices are
still there. -/
theorem cycles_leave_indices (E : Env F D) {o : Oracle F D} (ho : Works o) (name : Str) (ix : Map IxType) (n : Nat) :
    ∀ (w : World F) (k : Nat), w.session = true → w.pod = true →
      alive E w k (cycles o name ix n) = k + n ∧ (∀ a ∈ replies E w (cycles o name ix n), a = .done) ∧
      (n ≠ 0 → ((run E w (cycles o name ix n)).dbs.get (ns ++ name)).isNone ∧ (run E w (cycles o name ix n)).coll (ns ++ name) = Coll.none) := by
  induction n with
  | zero => intro w k _ _; exact ⟨rfl, by simp [cycles, replies], fun h => absurd rfl h⟩
  | succ n ih =>
    intro w k hs hp
    obtain ⟨a1, a2, a3, a4, a5, a6, a7⟩ := cycle E ho name ix hs hp
    obtain ⟨b1, b2, b3⟩ := ih (serve E (serve E w (.create o name ix)).1 (.delete o name)).1 (k + 1) a4 a5
    refine ⟨?_, ?_, ?_⟩
    · simp only [cycles, alive, a1]
      simp only [made, Nat.add_zero]
      rw [b1]; omega
    · intro a ha
      simp only [cycles, replies, List.mem_cons] at ha
      rcases ha with rfl | rfl | ha
      · exact a2
      · exact a3
      · exact b2 a ha
    · intro _
      simp only [cycles, run_cons]
      cases n with
      | zero => exact ⟨a6, a7⟩
      | succ n => exact b3 (by omega)

/-- A table without database: searches fail and each leaves an index behind. -/
theorem failing_searches_leave_indices (E : Env F D) {o : Oracle F D} (h1 : o.kvCount = false) (h2 : o.isOpen = false) (h3 : o.newIndex = false)
    (name : Str) (q : List F) (max : D) (limit : Int) (n : Nat) :
    ∀ (w : World F) (k : Nat), w.session = true → w.pod = true → (w.coll (ns ++ name)).tableOpen = true →
      (w.coll (ns ++ name)).dbOpen = false → (w.dbs.get (ns ++ name)).isNone →
      alive E w k (List.replicate n (.nearVector o name q max limit)) = k + n ∧
      ∀ a ∈ replies E w (List.replicate n (.nearVector o name q max limit)), a = .failed .error := by
  induction n with
  | zero => intro w k _ _ _ _ _; exact ⟨rfl, by simp [replies]⟩
  | succ n ih =>
    intro w k hs hp ht hd hn
    have he : ensureOpen o w (ns ++ name) = (w.setColl (ns ++ name) { w.coll (ns ++ name) with
        tableOpen := true, idx := (w.coll (ns ++ name)).idx.reopen, hasIdx := true }, some .error) := by
      unfold ensureOpen
      simp only [hp, ht, h1, h2, h3, hs, hd, setColl_self, setColl_setColl, setColl_session, setColl_dbs, hn]
      simp
    have hm : made w (.nearVector o name q max limit : Req F D) = 1 := by
      simp [made, madeOpening, hp, h1, ht, h2, hs, hd, h3]
    have hsv : serve E w (.nearVector o name q max limit) = (w.setColl (ns ++ name) { w.coll (ns ++ name) with
        tableOpen := true, idx := (w.coll (ns ++ name)).idx.reopen, hasIdx := true }, .failed .error) := by
      simp only [serve, nearVector, he, Ans.ofNear]
    obtain ⟨a, b⟩ := ih (w.setColl (ns ++ name) { w.coll (ns ++ name) with
        tableOpen := true, idx := (w.coll (ns ++ name)).idx.reopen, hasIdx := true }) (k + 1) hs hp (by simp) (by simpa using hd) hn
    refine ⟨?_, ?_⟩
    · simp only [List.replicate_succ, alive, hm, hsv]
      rw [a]; omega
    · intro x hx
      simp only [List.replicate_succ, replies, hsv, List.mem_cons] at hx
      rcases hx with rfl | hx
      · rfl
      · exact b x hx

/-- The count is that of the model of the requests: for a collection without index, a request makes one if there is one afterwards. -/
theorem count_is_right (E : Env F D) (w : World F) (r : Req F D) (m : Str) (ha : r.about = some m) (h : (w.coll (ns ++ m)).hasIdx = false) :
    made w r = if ((serve E w r).1.coll (ns ++ m)).hasIdx then 1 else 0 := by
  have hopen : ∀ o : Oracle F D, madeOpening o w (ns ++ m) = if ((ensureOpen o w (ns ++ m)).1.coll (ns ++ m)).hasIdx then 1 else 0 := by
    intro o
    unfold madeOpening ensureOpen
    simp only [setColl_self, setColl_session]
    repeat' split
    all_goals simp_all
  have hnear : ∀ (o : Oracle F D) (v : World F) q mx ef l, ((nearWith E o v (ns ++ m) q mx ef l).1.coll (ns ++ m)).hasIdx = (v.coll (ns ++ m)).hasIdx := by
    intro o v q mx ef l
    unfold nearWith
    split
    · rfl
    · simp
  cases r with
  | create o m' ix =>
    simp only [Req.about, Option.some.injEq] at ha
    subst ha
    have hw : ∀ i, ((w.withDb (ns ++ m') i).coll (ns ++ m')) = w.coll (ns ++ m') := by intro i; unfold World.withDb; split <;> rfl
    unfold made madeCreating serve create
    cases h1 : w.session with
    | false => simp [h, h1]
    | true =>
    cases h2 : w.pod with
    | false => simp [h, h1, h2]
    | true =>
    cases h3 : o.docCreate with
    | true => simp [h, h1, h2, h3]
    | false =>
    cases h4 : o.createTable with
    | true => simp [hw, h, h1, h2, h3, h4]
    | false =>
    cases h5 : !(w.coll (ns ++ m')).dbOpen && o.docOpen with
    | true =>
      have h5' := Bool.and_eq_true_iff.mp h5
      simp only [Bool.not_eq_true'] at h5'
      simp [hw, h, h1, h2, h3, h4, h5']
    | false =>
    have h5' : ¬((w.coll (ns ++ m')).dbOpen = false ∧ o.docOpen = true) := by
      intro c; rw [c.1, c.2] at h5; cases h5
    cases h6 : o.openTable with
    | true => simp [hw, h, h1, h2, h3, h4, h5', h6]
    | false => cases h7 : o.newIndex <;> simp [hw, h, h1, h2, h3, h4, h5', h6, h7]
  | add o m' ti docs =>
    simp only [Req.about, Option.some.injEq] at ha
    subst ha
    simp only [made, hopen, serve]
    have hb : (addBegin o w m').1 = (ensureOpen o w (ns ++ m')).1 := by
      unfold addBegin
      simp only
      split
      · rename_i he; rw [he]
      · rename_i he; rw [he]; split <;> rfl
    have hk : ((addDocuments E o w m' ti docs).1.coll (ns ++ m')).hasIdx = ((ensureOpen o w (ns ++ m')).1.coll (ns ++ m')).hasIdx := by
      unfold addDocuments
      split
      · rename_i he; rw [he] at hb; rw [← hb]
      · rename_i he; rw [he] at hb; rw [← hb]; exact (addFinish_flags E o _ m' ti docs _).2
    simp only [hk]
  | nearVector o m' q mx l =>
    simp only [Req.about, Option.some.injEq] at ha
    subst ha
    simp only [made, hopen, serve]
    have hk : ((nearVector E o w m' q mx l).1.coll (ns ++ m')).hasIdx = ((ensureOpen o w (ns ++ m')).1.coll (ns ++ m')).hasIdx := by
      unfold nearVector
      split
      · rename_i he; rw [he]
      · rename_i he; rw [he]; exact hnear ..
    simp only [hk]
  | nearText o m' t mx l =>
    simp only [Req.about, Option.some.injEq] at ha
    subst ha
    simp only [made, hopen, serve]
    have hk : ((nearText E o w m' t mx l).1.coll (ns ++ m')).hasIdx = ((ensureOpen o w (ns ++ m')).1.coll (ns ++ m')).hasIdx := by
      unfold nearText
      split
      · rename_i he; rw [he]
      · rename_i he
        rw [he]
        simp only
        split
        · rfl
        · split
          · rfl
          · rfl
          · exact hnear ..
    simp only [hk]
  | delete o m' =>
    simp only [Req.about, Option.some.injEq] at ha
    subst ha
    simp only [made, serve, delete]
    repeat' split
    all_goals simp_all
  | get o sat m' p v =>
    simp only [Req.about, Option.some.injEq] at ha
    subst ha
    simp only [made, serve, getDocument]
    repeat' split
    all_goals simp_all
  | _ => cases ha

/-- A request for a collection whose database is open makes no index. -/
theorem open_makes_none (w : World F) (r : Req F D) (m : Str) (hc : ∀ o ix, r ≠ .create o m ix) (ha : r.about = some m)
    (h : (w.coll (ns ++ m)).dbOpen = true) : made w r = 0 := by
  cases r <;> simp only [made, Req.about, Option.some.injEq] at ha ⊢ <;> subst ha <;> first
    | exact madeOpening_open _ h
    | exact absurd rfl (hc _ _)

/-- A restart ends all indices: how many there are later does not depend on what was before it. -/
theorem restart_ends_all (E : Env F D) (rs rs' : List (Req F D)) :
    ∀ (w : World F) (k : Nat), alive E w k (rs ++ .restart :: rs') = alive E (run E w (rs ++ [.restart])) 0 rs' := by
  induction rs with
  | nil => intro w k; rfl
  | cons r rs ih => intro w k; exact ih _ _

/-- is it a creation? -/
def isCreate : Req F D → Bool
  | .create .. => true
  | _ => false

/-- Without deletion and restart, and if no request fails: at most one new index for each creation and one for each name used. -/
theorem few_indices_partial (E : Env F D) (names : List Str) (rs : List (Req F D)) :
    ∀ (w : World F) (k : Nat), (∀ r ∈ rs, r ≠ .restart ∧ (∀ o m, r ≠ .delete o m) ∧ ∀ m, r.about = some m → m ∈ names) →
      (∀ a ∈ replies E w rs, ∀ e, a ≠ .failed e) →
      alive E w k rs ≤ k + rs.countP isCreate + names.countP (fun m => !(w.coll (ns ++ m)).dbOpen) := by
  induction rs with
  | nil => intro w k _ _; simp only [alive]; omega
  | cons r rs ih =>
    intro w k hr hok
    obtain ⟨h1, h2, h3⟩ := hr r (by simp)
    have hal : alive E w k (r :: rs) = alive E (serve E w r).1 (k + made w r) rs := by
      cases r <;> first | rfl | exact absurd rfl h1
    have hkeep : ∀ m, (w.coll (ns ++ m)).dbOpen = true → ((serve E w r).1.coll (ns ++ m)).dbOpen = true :=
      fun m h => serve_dbOpen E w r (fun o m' e => absurd e (h2 o m')) h1 h
    have hmono : names.countP (fun m => !((serve E w r).1.coll (ns ++ m)).dbOpen) ≤ names.countP (fun m => !(w.coll (ns ++ m)).dbOpen) := by
      refine List.countP_mono_left ?_
      intro m _ hm
      cases hw : (w.coll (ns ++ m)).dbOpen with
      | false => rfl
      | true => rw [hkeep m hw] at hm; cases hm
    have hthis := ih (serve E w r).1 (k + made w r) (fun r' h' => hr r' (List.mem_cons_of_mem _ h'))
      (fun a ha => hok a (List.mem_cons_of_mem _ ha))
    rw [hal]
    have hle := made_le w r
    by_cases hc : isCreate r = true
    · rw [List.countP_cons_of_pos hc]
      omega
    · rw [List.countP_cons_of_neg hc]
      by_cases hm : made w r = 0
      · omega
      · -- it opened the database
        have hstrict : names.countP (fun m => !((serve E w r).1.coll (ns ++ m)).dbOpen) < names.countP (fun m => !(w.coll (ns ++ m)).dbOpen) := by
          have hkind : ∃ m, r.about = some m ∧ (r.search = true ∨ ∃ o ti docs, r = .add o m ti docs) ∧ ∃ o : Oracle F D, made w r = madeOpening o w (ns ++ m) := by
            cases r with
            | create o m ix => exact absurd rfl hc
            | add o m ti docs => exact ⟨m, rfl, .inr ⟨_, _, _, rfl⟩, o, rfl⟩
            | nearVector o m q mx l => exact ⟨m, rfl, .inl rfl, o, rfl⟩
            | nearText o m t mx l => exact ⟨m, rfl, .inl rfl, o, rfl⟩
            | _ => exact absurd rfl hm
          obtain ⟨m, ha, hk, o, ho⟩ := hkind
          have hopen := serve_opens E w r hk ha (hok _ (by simp [replies]))
          have hwas : (w.coll (ns ++ m)).dbOpen = false := by
            cases hw : (w.coll (ns ++ m)).dbOpen with
            | false => rfl
            | true => rw [ho, madeOpening_open o hw] at hm; exact absurd rfl hm
          have hmem := h3 m ha
          clear ih hthis hal hok hr hmono h3
          induction names with
          | nil => cases hmem
          | cons x xs ihx =>
            have hx : ∀ ys : List Str, ys.countP (fun m => !((serve E w r).1.coll (ns ++ m)).dbOpen) ≤ ys.countP (fun m => !(w.coll (ns ++ m)).dbOpen) := by
              intro ys
              refine List.countP_mono_left ?_
              intro m _ hm
              cases hw : (w.coll (ns ++ m)).dbOpen with
              | false => rfl
              | true => rw [hkeep m hw] at hm; cases hm
            rcases List.mem_cons.mp hmem with rfl | hmem
            · rw [List.countP_cons_of_neg (by simp [hopen]), List.countP_cons_of_pos (by simp [hwas])]
              have := hx xs
              omega
            · have := ihx hmem
              simp only [List.countP_cons]
              have hone := hx [x]
              simp only [List.countP_cons, List.countP_nil] at hone
              omega
        omega

/-- deleting the table fails -/
def half : Oracle Nat Nat := { ExC.o with deleteTable := true }
/-- a collection is deleted, but its table stays -/
def left : List (Req Nat Nat) := ExC.setup ++ [.delete half ExC.books]

/-- The state is reached from an empty pod by requests that are all answered with success; there is no collection of the name any more. -/
theorem failing_searches_reachable :
    (∀ a ∈ replies ExC.E (World.fresh true ExC.foreign) left, a = .done) ∧
    ((run ExC.E (World.fresh true ExC.foreign) left).dbs.get (ns ++ ExC.books)).isNone = true ∧
    ∀ n, alive ExC.E (run ExC.E (World.fresh true ExC.foreign) left) 2 (List.replicate n (.nearVector ExC.o ExC.books [1, 0] 100 3)) = 2 + n ∧
      ∀ a ∈ replies ExC.E (run ExC.E (World.fresh true ExC.foreign) left) (List.replicate n (.nearVector ExC.o ExC.books [1, 0] 100 3)), a = .failed .error := by
  refine ⟨by decide +kernel, by decide +kernel, fun n => ?_⟩
  exact failing_searches_leave_indices ExC.E rfl rfl rfl ExC.books [1, 0] 100 3 n _ 2 (by decide +kernel) (by decide +kernel)
    (by decide +kernel) (by decide +kernel) (by decide +kernel)

/-! The hypotheses are met. -/
example : Works ExC.o := ⟨rfl, rfl, rfl, rfl, rfl, rfl, rfl⟩
/-- the two collections of the example are there, and a hundred cycles leave a hundred more -/
example : alive ExC.E (World.fresh true ExC.foreign) 0 ExC.setup = 2 ∧ alive ExC.E ExC.w0 2 (cycles ExC.o ExC.books [] 100) = 102 :=
  ⟨by decide +kernel, (cycles_leave_indices ExC.E ⟨rfl, rfl, rfl, rfl, rfl, rfl, rfl⟩ ExC.books [] 100 ExC.w0 2 (by decide +kernel) (by decide +kernel)).1⟩
/-- after a restart the first search makes one, the second none: two requests, no creation, one name -/
def after : World Nat := run ExC.E (World.fresh true ExC.foreign) (ExC.setup ++ [.add ExC.o ExC.books [ExC.title] ExC.batch, .restart, .login true, .openPod true])
def searches : List (Req Nat Nat) := [.nearVector ExC.o ExC.books [1, 0] 100 3, .nearVector ExC.o ExC.books [2, 0] 100 3]
example : (∀ r ∈ searches, (∀ m, r.about = some m → m ∈ [ExC.books])) ∧ (∀ a ∈ replies ExC.E after searches, ∀ e, a ≠ .failed e) ∧
    alive ExC.E after 0 searches = 1 := by
  refine ⟨?_, ?_, by decide +kernel⟩
  · intro r hr m hm
    simp only [searches, List.mem_cons, List.not_mem_nil, or_false] at hr
    rcases hr with rfl | rfl <;> simp only [Req.about, Option.some.injEq] at hm <;> simp [hm]
  · have : (replies ExC.E after searches).all (fun a => match a with | .near _ ds => ds.length == 3 | _ => false) = true := by decide +kernel
    intro a ha e he
    have := List.all_eq_true.mp this a ha
    rw [he] at this
    cases this

end Fave.C91
