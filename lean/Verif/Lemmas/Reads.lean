import Verif.Spec.Reads
import Verif.Lemmas.ClientRun
import Verif.Lemmas.ClientWorld
/-! # What reading requests leave behind -/
namespace Fave.Client
variable {F D : Type} [Dist D]

/-- the index a request works with once the database is open, without its start vertex -/
def Coll.view (x : Coll F) : Index (List F) := { (if x.dbOpen then x.idx else x.idx.reopen) with entry := 0 }

/-- the two states are the same for requests that read -/
structure Like (w w' : World F) : Prop where
  session : w'.session = w.session
  pod : w'.pod = w.pod
  lookup : w'.lookup = w.lookup
  dbs : w'.dbs = w.dbs
  reach : ∀ c, ((w'.coll c).tableOpen || (w'.coll c).table) = ((w.coll c).tableOpen || (w.coll c).table)
  opens : ∀ c, ((w'.coll c).dbOpen || (w.dbs.get c).isSome) = ((w.coll c).dbOpen || (w.dbs.get c).isSome)
  has : ∀ c, (!(w'.coll c).dbOpen || (w'.coll c).hasIdx) = (!(w.coll c).dbOpen || (w.coll c).hasIdx)
  view : ∀ c, (w'.coll c).view = (w.coll c).view

theorem Like.refl (w : World F) : Like w w := ⟨rfl, rfl, rfl, rfl, fun _ => rfl, fun _ => rfl, fun _ => rfl, fun _ => rfl⟩
theorem Like.trans {w w' w'' : World F} (h : Like w w') (h' : Like w' w'') : Like w w'' :=
  ⟨h'.session.trans h.session, h'.pod.trans h.pod, h'.lookup.trans h.lookup, h'.dbs.trans h.dbs, fun c => (h'.reach c).trans (h.reach c),
   fun c => by have := h'.opens c; rw [h.dbs] at this; exact this.trans (h.opens c), fun c => (h'.has c).trans (h.has c),
   fun c => (h'.view c).trans (h.view c)⟩

theorem like_setColl {w : World F} {c : Str} {x : Coll F} (h1 : (x.tableOpen || x.table) = ((w.coll c).tableOpen || (w.coll c).table))
    (h2 : (x.dbOpen || (w.dbs.get c).isSome) = ((w.coll c).dbOpen || (w.dbs.get c).isSome))
    (h3 : (!x.dbOpen || x.hasIdx) = (!(w.coll c).dbOpen || (w.coll c).hasIdx)) (h4 : x.view = (w.coll c).view) : Like w (w.setColl c x) := by
  refine ⟨rfl, rfl, rfl, rfl, ?_, ?_, ?_, ?_⟩
  all_goals
    intro n
    by_cases hn : n = c
    · subst hn; simp only [setColl_self]; assumption
    · simp only [World.setColl, if_neg hn]

theorem like_ensureOpen (o : Oracle F D) (w : World F) (c : Str) : Like w (ensureOpen o w c).1 := by
  unfold ensureOpen
  by_cases h1 : (!w.pod) = true
  · rw [if_pos h1]; exact .refl _
  rw [if_neg h1]
  split
  · exact .refl _
  rename_i h2
  have hreach : ((w.coll c).tableOpen || (w.coll c).table) = true := by
    cases h : (w.coll c).tableOpen <;> cases h' : (w.coll c).table <;> simp [h, h'] at h2 ⊢
  have ht : Like w (w.setColl c { w.coll c with tableOpen := true }) := like_setColl (by simpa using hreach.symm) rfl rfl rfl
  simp only [setColl_self, setColl_setColl, setColl_dbs]
  split
  · exact ht
  split
  · exact ht
  rename_i h4
  have h4 : (w.coll c).dbOpen = false := by simpa using h4
  split
  · exact ht
  split
  · refine like_setColl (by simpa using hreach.symm) rfl (by simp [h4]) ?_
    simp [Coll.view, h4, Index.reopen]
  · rename_i h5
    have h5 : (w.dbs.get c).isSome = true := by
      cases h : w.dbs.get c with
      | none => simp [h] at h5
      | some _ => rfl
    refine like_setColl (by simpa using hreach.symm) (by simp [h4, h5]) (by simp [h4]) ?_
    simp [Coll.view, h4, Index.reopen]

theorem like_nearWith [DecidableEq F] (E : Env F D) (o : Oracle F D) (w : World F) (c : Str) (q : List F) (max : D) (ef limit : Int) :
    Like w (nearWith E o w c q max ef limit).1 := by
  unfold nearWith
  split
  · exact .refl _
  · refine like_setColl rfl rfl rfl ?_
    unfold Coll.view loaded
    by_cases h : (w.coll c).dbOpen = true
    · simp only [h, if_true]; split <;> rfl
    · simp only [h, if_false, Bool.false_eq_true]; split <;> rfl

theorem like_nearVector [DecidableEq F] (E : Env F D) (o : Oracle F D) (w : World F) (name : Str) (q : List F) (max : D) (limit : Int) :
    Like w (nearVector E o w name q max limit).1 := by
  have h := like_ensureOpen o w (ns ++ name)
  unfold nearVector
  split
  · rename_i he; rw [he] at h; exact h
  · rename_i he; rw [he] at h; exact h.trans (like_nearWith ..)

theorem like_nearText [DecidableEq F] (E : Env F D) (o : Oracle F D) (w : World F) (name text : Str) (max : D) (limit : Int) :
    Like w (nearText E o w name text max limit).1 := by
  have h := like_ensureOpen o w (ns ++ name)
  unfold nearText
  split
  · rename_i he; rw [he] at h; exact h
  · rename_i he
    rw [he] at h
    have h : Like w _ := h
    split
    · exact h
    · split
      · exact h
      · exact h
      · exact h.trans (like_nearWith ..)

theorem like_getDocument (o : Oracle F D) (sat : Str → Props F → Bool) (w : World F) (name p v : Str)
    (ho : (w.coll (ns ++ name)).dbOpen = true) : Like w (getDocument o sat w name p v).1 := by
  unfold getDocument
  simp only
  split
  · exact .refl _
  split
  · exact .refl _
  · exact like_setColl rfl (by simp [ho]) (by simp [ho]) (by simp [Coll.view, ho])

theorem setColl_dbOpen {w : World F} {c n : Str} {x : Coll F} (hx : (w.coll c).dbOpen = true → x.dbOpen = true)
    (h : (w.coll n).dbOpen = true) : ((w.setColl c x).coll n).dbOpen = true := by
  by_cases hn : n = c
  · subst hn; rw [setColl_self]; exact hx h
  · simpa [World.setColl, hn] using h

theorem ensureOpen_dbOpen (o : Oracle F D) (w : World F) (c : Str) {n : Str} (h : (w.coll n).dbOpen = true) :
    ((ensureOpen o w c).1.coll n).dbOpen = true := by
  unfold ensureOpen
  split
  · exact h
  split
  · exact h
  simp only [setColl_self, setColl_setColl, setColl_dbs]
  split
  · exact setColl_dbOpen (fun h => h) h
  split
  · exact setColl_dbOpen (fun h => h) h
  split
  · exact setColl_dbOpen (fun h => h) h
  split
  · exact setColl_dbOpen (fun h => h) h
  · exact setColl_dbOpen (fun _ => rfl) h

theorem nearWith_dbOpen [DecidableEq F] (E : Env F D) (o : Oracle F D) (w : World F) (c : Str) (q : List F) (max : D) (ef limit : Int) {n : Str}
    (h : (w.coll n).dbOpen = true) : ((nearWith E o w c q max ef limit).1.coll n).dbOpen = true := by
  unfold nearWith
  split
  · exact h
  · exact setColl_dbOpen (fun h => h) h

theorem nearVector_dbOpen [DecidableEq F] (E : Env F D) (o : Oracle F D) (w : World F) (name : Str) (q : List F) (max : D) (limit : Int) {n : Str}
    (h : (w.coll n).dbOpen = true) : ((nearVector E o w name q max limit).1.coll n).dbOpen = true := by
  have h' := ensureOpen_dbOpen o w (ns ++ name) h
  unfold nearVector
  split
  · rename_i he; rw [he] at h'; exact h'
  · rename_i he; rw [he] at h'; exact nearWith_dbOpen E o _ _ q max 800 limit h'

theorem nearText_dbOpen [DecidableEq F] (E : Env F D) (o : Oracle F D) (w : World F) (name text : Str) (max : D) (limit : Int) {n : Str}
    (h : (w.coll n).dbOpen = true) : ((nearText E o w name text max limit).1.coll n).dbOpen = true := by
  have h' := ensureOpen_dbOpen o w (ns ++ name) h
  unfold nearText
  split
  · rename_i he; rw [he] at h'; exact h'
  · rename_i he
    rw [he] at h'
    split
    · exact h'
    · split
      · exact h'
      · exact h'
      · exact nearWith_dbOpen E o _ _ _ max limit limit h'

theorem getDocument_dbOpen (o : Oracle F D) (sat : Str → Props F → Bool) (w : World F) (name p v : Str) {n : Str}
    (h : (w.coll n).dbOpen = true) : ((getDocument o sat w name p v).1.coll n).dbOpen = true := by
  unfold getDocument
  simp only
  split
  · exact h
  split
  · exact h
  · exact setColl_dbOpen (fun _ => rfl) h

/-- what the opening leaves to the rest of a reading request -/
theorem ensureOpen_like {o : Oracle F D} (ho : o.Opens) {w w' : World F} (h : Like w w') (c : Str) :
    (ensureOpen o w' c).2 = (ensureOpen o w c).2 ∧ ((ensureOpen o w c).2 = none →
      ((ensureOpen o w' c).1.coll c).hasIdx = ((ensureOpen o w c).1.coll c).hasIdx ∧
      ({ ((ensureOpen o w' c).1.coll c).idx with entry := 0 } : Index (List F)) = { ((ensureOpen o w c).1.coll c).idx with entry := 0 }) := by
  have hr := h.reach c
  have hp := h.opens c
  have hh := h.has c
  have hv := h.view c
  unfold ensureOpen
  rw [h.pod]
  by_cases h1 : (!w.pod) = true
  · simp [h1]
  simp only [h1, if_false, Bool.false_eq_true, ho.kvCount, ho.openTable, ho.isOpen, ho.newIndex, ho.docOpen, Bool.false_or, setColl_self,
    setColl_setColl, setColl_dbs, setColl_session, h.session, h.dbs]
  have hc : ∀ x : Coll F, (!x.tableOpen && !x.table) = !(x.tableOpen || x.table) := by intro x; simp
  rw [hc, hc, hr]
  by_cases h2 : (!((w.coll c).tableOpen || (w.coll c).table)) = true
  · simp [h2]
  simp only [h2, if_false, Bool.false_eq_true]
  by_cases h3 : (!w.session) = true
  · simp [h3]
  simp only [h3, if_false, Bool.false_eq_true]
  unfold Coll.view at hv
  cases d : (w.dbs.get c) <;> cases d1 : (w.coll c).dbOpen <;> cases d2 : (w'.coll c).dbOpen <;>
    simp only [d, d1, d2, Option.isSome_none, Option.isSome_some, Bool.or_true, Bool.or_false, Bool.false_eq_true, Bool.true_eq_false,
      Option.isNone_none, Option.isNone_some, if_true, if_false, setColl_self, Bool.not_true, Bool.not_false, Bool.false_or, Bool.true_or,
      true_and, reduceCtorEq, false_implies, true_implies] at hp hh hv ⊢ <;>
    first
    | trivial
    | exact ⟨hh, hv⟩
    | exact ⟨hh.symm ▸ rfl, hv⟩
    | exact ⟨rfl, hv⟩

theorem loaded_like {o : Oracle F D} (ho : o.entry = false) {s s' : Index (List F)}
    (h : ({ s' with entry := 0 } : Index (List F)) = { s with entry := 0 }) : loaded o s' = loaded o s := by
  unfold loaded
  rw [if_neg (by simp [ho]), if_neg (by simp [ho])]
  have := congrArg (fun t : Index (List F) => Index.loadEntry t) h
  exact this

theorem nearWith_like [DecidableEq F] {E : Env F D} {o : Oracle F D} (ho : o.entry = false) {w w' : World F} {c : Str} (hd : w'.dbs = w.dbs)
    (hh : (w'.coll c).hasIdx = (w.coll c).hasIdx) (hi : ({ (w'.coll c).idx with entry := 0 } : Index (List F)) = { (w.coll c).idx with entry := 0 })
    (q : List F) (max : D) (ef limit : Int) :
    (nearWith E o w' c q max ef limit).2 = (nearWith E o w c q max ef limit).2 := by
  unfold nearWith
  rw [hh]
  split
  · rfl
  · simp only [loaded_like ho hi, setColl_dbs, hd]

/-- the answer of a reading request depends on nothing else -/
theorem reads_like [DecidableEq F] (E : Env F D) {r : Req F D} (hr : r.reads = true) (ho : ∀ o, r.oracle = some o → o.Opens) {w w' : World F}
    (h : Like w w') : (serve E w' r).2 = (serve E w r).2 := by
  cases r with
  | list o => simp only [serve, list, h.session, h.pod, h.dbs]
  | get o sat name p v =>
    have ho := ho o rfl
    have hp := h.opens (ns ++ name)
    simp only [serve, getDocument, ho.isOpen, ho.docOpen, h.session, h.pod, h.dbs, Bool.false_or, setColl_dbs]
    by_cases h1 : (!w.session || !w.pod) = true
    · rw [if_pos h1, if_pos h1]
    rw [if_neg h1, if_neg h1]
    have e : (!(w'.coll (ns ++ name)).dbOpen && (w.dbs.get (ns ++ name)).isNone) = (!(w.coll (ns ++ name)).dbOpen && (w.dbs.get (ns ++ name)).isNone) := by
      cases d : w.dbs.get (ns ++ name) <;> simp [d] at hp ⊢
      rw [hp]
    rw [e]
    by_cases h2 : (!(w.coll (ns ++ name)).dbOpen && (w.dbs.get (ns ++ name)).isNone) = true
    · rw [if_pos h2, if_pos h2]
    · rw [if_neg h2, if_neg h2]
  | nearVector o name q max limit =>
    have ho := ho o rfl
    obtain ⟨h1, h2⟩ := ensureOpen_like ho h (ns ++ name)
    have l1 := like_ensureOpen o w (ns ++ name)
    have l2 := like_ensureOpen o w' (ns ++ name)
    simp only [serve, nearVector]
    cases e1 : ensureOpen o w (ns ++ name) with
    | mk w1 x1 =>
    cases e2 : ensureOpen o w' (ns ++ name) with
    | mk w2 x2 =>
    rw [e1, e2] at h1 h2
    rw [e1] at l1
    rw [e2] at l2
    simp only at h1 h2
    subst h1
    cases x2 with
    | some e => rfl
    | none =>
      obtain ⟨h3, h4⟩ := h2 rfl
      simp only
      rw [nearWith_like ho.entry (l2.dbs.trans (h.dbs.trans l1.dbs.symm)) h3 h4]
  | nearText o name text max limit =>
    have ho := ho o rfl
    obtain ⟨h1, h2⟩ := ensureOpen_like ho h (ns ++ name)
    have l1 := like_ensureOpen o w (ns ++ name)
    have l2 := like_ensureOpen o w' (ns ++ name)
    simp only [serve, nearText]
    cases e1 : ensureOpen o w (ns ++ name) with
    | mk w1 x1 =>
    cases e2 : ensureOpen o w' (ns ++ name) with
    | mk w2 x2 =>
    rw [e1, e2] at h1 h2
    rw [e1] at l1
    rw [e2] at l2
    simp only at h1 h2
    subst h1
    cases x2 with
    | some e => rfl
    | none =>
      obtain ⟨h3, h4⟩ := h2 rfl
      have hl : w2.lookup = w1.lookup := l2.lookup.trans (h.lookup.trans l1.lookup.symm)
      simp only [hl]
      split
      · rfl
      · split
        · rfl
        · rfl
        · rw [nearWith_like ho.entry (l2.dbs.trans (h.dbs.trans l1.dbs.symm)) h3 h4]
  | login ok => cases hr
  | openPod ok => cases hr
  | create o name ix => cases hr
  | delete o name => cases hr
  | add o name ti docs => cases hr
  | restart => cases hr

/-! ## Collections in step -/

/-- the collection is open, its index is there, and its start vertex is the stored one -/
structure Settled (w : World F) (name : Str) : Prop where
  tableOpen : (w.coll (ns ++ name)).tableOpen = true
  dbOpen : (w.coll (ns ++ name)).dbOpen = true
  hasIdx : (w.coll (ns ++ name)).hasIdx = true
  entry : (w.coll (ns ++ name)).idx.entry = (w.coll (ns ++ name)).idx.kvEntry.getD 0

theorem setColl_eq {w : World F} {c : Str} {x : Coll F} (h : x = w.coll c) : w.setColl c x = w := by rw [h]; exact setColl_same w c

theorem Settled.ensureOpen {w : World F} {name : Str} (h : Settled w name) (o : Oracle F D) : (ensureOpen o w (ns ++ name)).1 = w := by
  have e : w.setColl (ns ++ name) { w.coll (ns ++ name) with tableOpen := true } = w := setColl_eq (by
    have := h.tableOpen
    cases hc : w.coll (ns ++ name)
    rw [hc] at this
    simp only at this
    subst this; rfl)
  unfold Client.ensureOpen
  split
  · rfl
  split
  · rfl
  simp only
  rw [e, if_pos h.dbOpen]
  split <;> rfl

theorem loadEntry_eq {s : Index (List F)} (h : s.entry = s.kvEntry.getD 0) : s.loadEntry = s := by
  unfold Index.loadEntry; rw [← h]

theorem Settled.nearWith [DecidableEq F] {w : World F} {name : Str} (h : Settled w name) (E : Env F D) {o : Oracle F D} (ho : o.entry = false)
    (q : List F) (max : D) (ef limit : Int) : (nearWith E o w (ns ++ name) q max ef limit).1 = w := by
  unfold Client.nearWith
  simp only [h.hasIdx, Bool.not_true, Bool.false_eq_true, if_false]
  refine setColl_eq ?_
  unfold loaded
  rw [if_neg (by simp [ho]), loadEntry_eq h.entry, ← h.hasIdx]

/-- reading from a collection in step changes nothing at all -/
theorem Settled.read [DecidableEq F] {w : World F} {name : Str} (h : Settled w name) (E : Env F D) {r : Req F D} (hr : r.reads = true)
    (ha : ∀ n, r.about = some n → n = name) (ho : ∀ o, r.oracle = some o → o.entry = false) : (serve E w r).1 = w := by
  cases r with
  | list o => rfl
  | get o sat n p v =>
    have := ha n rfl
    subst this
    simp only [serve, getDocument]
    split
    · rfl
    split
    · rfl
    · exact setColl_eq (by
        have := h.dbOpen
        cases hc : w.coll (ns ++ n)
        rw [hc] at this
        simp only at this
        subst this; rfl)
  | nearVector o n q max limit =>
    have := ha n rfl
    subst this
    have hw := h.ensureOpen o
    simp only [serve, nearVector]
    split
    · rename_i he; rw [he] at hw; exact hw
    · rename_i he; rw [he] at hw; have hw : _ = w := hw; subst hw; exact h.nearWith E (ho o rfl) ..
  | nearText o n text max limit =>
    have := ha n rfl
    subst this
    have hw := h.ensureOpen o
    simp only [serve, nearText]
    split
    · rename_i he; rw [he] at hw; exact hw
    · rename_i he
      rw [he] at hw
      have hw : _ = w := hw
      subst hw
      split
      · rfl
      · split
        · rfl
        · rfl
        · exact h.nearWith E (ho o rfl) ..
  | login ok => cases hr
  | openPod ok => cases hr
  | create o name ix => cases hr
  | delete o name => cases hr
  | add o name ti docs => cases hr
  | restart => cases hr

/-- requests about other collections, logins and openings of the pod leave it in step -/
theorem Settled.other [DecidableEq F] {w : World F} {name : Str} (h : Settled w name) (E : Env F D) {r : Req F D} (ha : r.about ≠ some name)
    (hr : r ≠ .restart) : Settled (serve E w r).1 name := by
  have key : (serve E w r).1.coll (ns ++ name) = w.coll (ns ++ name) := by
    cases hab : r.about with
    | some n =>
      have hne : n ≠ name := fun e => ha (by rw [hab, e])
      exact (onlyAt_serve E w r hab).coll _ (ns_ne (Ne.symm hne))
    | none =>
      cases r with
      | login ok => simp only [serve, login]; split <;> rfl
      | openPod ok =>
        simp only [serve, openPod]
        split
        · rfl
        · split <;> rfl
      | list o => rfl
      | restart => exact absurd rfl hr
      | create o name ix => cases hab
      | delete o name => cases hab
      | add o name ti docs => cases hab
      | nearVector o name q max limit => cases hab
      | nearText o name text max limit => cases hab
      | get o sat name p v => cases hab
  exact ⟨by rw [key]; exact h.tableOpen, by rw [key]; exact h.dbOpen, by rw [key]; exact h.hasIdx, by rw [key]; exact h.entry⟩

theorem ensureOpen_open {o : Oracle F D} {w w' : World F} {c : Str} (h : ensureOpen o w c = (w', none)) :
    (w'.coll c).tableOpen = true ∧ (w'.coll c).dbOpen = true := by
  unfold ensureOpen at h
  split at h
  · cases h
  split at h
  · cases h
  simp only [setColl_self, setColl_setColl, setColl_dbs] at h
  split at h
  · cases h
  split at h
  · rename_i hd
    simp only [Prod.mk.injEq, and_true] at h
    subst h
    simp [setColl_self, hd]
  split at h
  · cases h
  split at h
  · cases h
  · simp only [Prod.mk.injEq, and_true] at h
    subst h
    simp [setColl_self]

/-- a search that was answered leaves its collection in step -/
theorem nearWith_settled [DecidableEq F] {E : Env F D} {o : Oracle F D} (ho : o.entry = false) {w : World F} {name : Str} {q : List F} {max : D} {ef limit : Int}
    (h1 : (w.coll (ns ++ name)).tableOpen = true) (h2 : (w.coll (ns ++ name)).dbOpen = true) {x : List (Props F) × List D}
    (h : (nearWith E o w (ns ++ name) q max ef limit).2 = .ok x) : Settled (nearWith E o w (ns ++ name) q max ef limit).1 name := by
  unfold nearWith at h ⊢
  split at h
  · cases h
  · rename_i hi
    rw [if_neg hi]
    have hl : loaded o (w.coll (ns ++ name)).idx = (w.coll (ns ++ name)).idx.loadEntry := by unfold loaded; rw [if_neg (by simp [ho])]
    refine ⟨?_, ?_, ?_, ?_⟩
    · simp [setColl_self, h1]
    · simp [setColl_self, h2]
    · simpa [setColl_self] using hi
    · simp only [setColl_self, hl]; rfl

theorem search_settled [DecidableEq F] {E : Env F D} {r : Req F D} (hr : r.search = true) {name : Str} (ha : r.about = some name)
    (ho : ∀ o, r.oracle = some o → o.entry = false) {w : World F} {docs : List (Props F)} {ds : List D} (h : (serve E w r).2 = .near docs ds) :
    Settled (serve E w r).1 name := by
  cases r with
  | nearVector o n q max limit =>
    cases ha
    simp only [serve, nearVector] at h ⊢
    split at h
    · cases h
    · rename_i w1 he
      obtain ⟨h1, h2⟩ := ensureOpen_open he
      cases hn : (nearWith E o w1 (ns ++ name) q max 800 limit).2 with
      | error e => rw [hn] at h; cases h
      | ok x => exact nearWith_settled (ho o rfl) h1 h2 hn
  | nearText o n text max limit =>
    cases ha
    simp only [serve, nearText] at h ⊢
    split at h
    · cases h
    · rename_i w1 he
      obtain ⟨h1, h2⟩ := ensureOpen_open he
      split at h
      · cases h
      · rename_i hl
        rw [if_neg hl]
        split at h
        · cases h
        · cases h
        · rename_i q hq
          cases hn : (nearWith E o w1 (ns ++ name) q max limit limit).2 with
          | error e => rw [hn] at h; cases h
          | ok x => exact nearWith_settled (ho o rfl) h1 h2 hn
  | list o => cases hr
  | get o sat name p v => cases hr
  | login ok => cases hr
  | openPod ok => cases hr
  | create o name ix => cases hr
  | delete o name => cases hr
  | add o name ti docs => cases hr
  | restart => cases hr

theorem applyWrite_entry (ws : List (Index.Write (List F))) (s : Index (List F)) : (ws.foldl Index.applyWrite s).entry = s.entry := by
  induction ws generalizing s with
  | nil => rfl
  | cons w ws ih => rw [List.foldl_cons, ih]; cases w <;> rfl

theorem flush_entry {P : Params (List F) D} {s s' : Index (List F)} {order : List Nat} {n : Nat} (h : Index.flush P s order n = (s', none)) :
    s'.entry = s'.kvEntry.getD 0 := by
  unfold Index.flush at h
  simp only [Prod.mk.injEq] at h
  obtain ⟨h1, h2⟩ := h
  rw [(Index.flushUpToBad_prefix P _).2 h2] at h1
  have he : s'.entry = s.entry := by rw [← h1]; exact applyWrite_entry _ _
  have hk : s'.kvEntry = some s.entry := by
    rw [← h1]
    unfold Index.flushWrites
    rw [List.foldl_append]; rfl
  rw [he, hk]; rfl

/-- so does an addition that succeeded -/
theorem add_settled [DecidableEq F] {E : Env F D} {o : Oracle F D} {w : World F} {name : Str} {ti : List Str} {docs : List (Option (Doc F))}
    (h : (serve E w (.add o name ti docs)).2 = .done) : Settled (serve E w (.add o name ti docs)).1 name := by
  simp only [serve, addDocuments, addBegin] at h ⊢
  cases he : ensureOpen o w (ns ++ name) with
  | mk w1 x =>
  rw [he] at h
  cases x with
  | some e => cases h
  | none =>
    obtain ⟨h1, h2⟩ := ensureOpen_open he
    simp only at h ⊢
    by_cases hi : (!(w1.coll (ns ++ name)).hasIdx) = true
    · rw [if_pos hi] at h; cases h
    rw [if_neg hi] at h ⊢
    simp only [addFinish] at h ⊢
    split at h
    · cases h
    · generalize hf : flushCut E.P _ _ _ _ = f at h
      obtain ⟨s, fe⟩ := f
      cases fe with
      | some e => cases h
      | none =>
        simp only
        refine ⟨?_, ?_, ?_, ?_⟩
        · rw [setColl_self]; show ((w1.setColl _ _).coll _).tableOpen = _; rw [setColl_self]; exact h1
        · rw [setColl_self]; show ((w1.setColl _ _).coll _).dbOpen = _; rw [setColl_self]; exact h2
        · rw [setColl_self]; show ((w1.setColl _ _).coll _).hasIdx = _; rw [setColl_self]; simpa using hi
        · rw [setColl_self]; exact flush_entry (flushCut_ok hf)

end Fave.Client
