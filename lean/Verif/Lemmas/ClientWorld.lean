import Verif.Lemmas.ClientAdd
/-! # What each request does to the documents, the index and the count of one collection -/
namespace Fave.Client
variable {F D : Type} [Dist D]

/-- index states that differ only by re-opening and loading the entry point -/
inductive Move {V : Type} : Index V → Index V → Prop where
  | refl (s : Index V) : Move s s
  | reopen {s t : Index V} : Move s t → Move s t.reopen
  | load {s t : Index V} : Move s t → Move s t.loadEntry
  | unread {s t : Index V} : Move s t → Move s { t with entry := 0 }

theorem Move.trans {V : Type} {a b c : Index V} (h : Move a b) (h' : Move b c) : Move a c := by
  induction h' with
  | refl => exact h
  | reopen _ ih => exact ih.reopen
  | load _ ih => exact ih.load
  | unread _ ih => exact ih.unread

theorem Move.loaded {s t : Index (List F)} (h : Move s t) (o : Oracle F D) : Move s (loaded o t) := by
  unfold Client.loaded
  split
  · exact h.unread
  · exact h.load

theorem Move.any {P : Params (List F) D} {s t : Index (List F)} (h : Move s t) (ha : Index.Any P s) : Index.Any P t := by
  induction h with
  | refl => exact ha
  | reopen _ ih => exact .restart ih
  | load _ ih => exact .load ih
  | unread _ ih => exact .unread ih

theorem Move.kvCount {V : Type} {s t : Index V} (h : Move s t) : t.kvCount = s.kvCount := by
  induction h with
  | refl => rfl
  | reopen _ ih => exact ih
  | load _ ih => exact ih
  | unread _ ih => exact ih

theorem Move.kv {V : Type} {s t : Index V} (h : Move s t) : t.kv = s.kv := by
  induction h with
  | refl => rfl
  | reopen _ ih => exact ih
  | load _ ih => exact ih
  | unread _ ih => exact ih

theorem Move.hist {P : Params (List F) D} {s t : Index (List F)} {vs : List (List F)} (h : Move s t) (hs : Index.Hist P s vs)
    (hc : s.kvCount.getD 0 = vs.length) : Index.Hist P t vs := by
  induction h with
  | refl => exact hs
  | reopen h ih =>
    have := ih.restart
    rw [h.kvCount, hc, List.take_length] at this
    exact this
  | load _ ih => exact .load ih
  | unread _ ih => exact .unread ih

/-- a request that neither adds to nor deletes the collection -/
structure Calm (c : Str) (w w' : World F) : Prop where
  docs : w'.docs c = w.docs c
  some : (w.dbs.get c).isSome → (w'.dbs.get c).isSome
  move : Move (w.coll c).idx (w'.coll c).idx
  opened : (w'.coll c).dbOpen → (w.coll c).dbOpen ∨ (w'.dbs.get c).isSome

theorem Calm.refl (c : Str) (w : World F) : Calm c w w := ⟨rfl, id, .refl _, .inl⟩

theorem Calm.trans {c : Str} {w w' w'' : World F} (h : Calm c w w') (h' : Calm c w' w'') : Calm c w w'' := by
  refine ⟨h'.docs.trans h.docs, fun h1 => h'.some (h.some h1), h.move.trans h'.move, ?_⟩
  intro h1
  rcases h'.opened h1 with h2 | h2
  · rcases h.opened h2 with h3 | h3
    · exact .inl h3
    · exact .inr (h'.some h3)
  · exact .inr h2

theorem calm_sameFor {c : Str} {w w' : World F} (h : SameFor w w' c) : Calm c w w' := by
  refine ⟨by unfold World.docs; rw [h.db], by rw [h.db]; exact id, by rw [h.coll]; exact .refl _, by rw [h.coll]; exact .inl⟩

theorem calm_setColl (w : World F) (c : Str) (x : Coll F) (hm : Move (w.coll c).idx x.idx)
    (ho : x.dbOpen → (w.coll c).dbOpen ∨ (w.dbs.get c).isSome) : Calm c w (w.setColl c x) :=
  ⟨rfl, id, by rw [setColl_self]; exact hm, by rw [setColl_self]; exact ho⟩

theorem calm_withDb (w : World F) (c : Str) (ix : Map IxType) : Calm c w (w.withDb c ix) ∧ ((w.withDb c ix).dbs.get c).isSome := by
  unfold World.withDb
  split
  · rename_i h; exact ⟨.refl _ _, h⟩
  · rename_i h
    have hn : w.dbs.get c = none := by simpa using h
    have hg : Map.get (w.dbs ++ [(c, (⟨ix, []⟩ : Db F))]) c = some ⟨ix, []⟩ := by rw [Map.get_append, hn, Map.get_cons]; simp
    refine ⟨⟨?_, fun _ => by rw [hg]; rfl, .refl _, .inl⟩, by rw [hg]; rfl⟩
    show ((Map.get (w.dbs ++ _) c).getD _).docs = _
    rw [hg]
    unfold World.docs
    rw [hn]; rfl

theorem calm_create (o : Oracle F D) (w : World F) (name : Str) (ix : Map IxType) : Calm (ns ++ name) w (create o w name ix).1 := by
  unfold create
  by_cases h1 : (!w.session) = true
  · rw [if_pos h1]; exact .refl _ _
  rw [if_neg h1]
  by_cases h2 : (!w.pod) = true
  · rw [if_pos h2]; exact .refl _ _
  rw [if_neg h2]
  by_cases h3 : o.docCreate = true
  · simp only [h3, if_true]; exact .refl _ _
  simp only [h3, if_false, Bool.false_eq_true]
  obtain ⟨hw, hs⟩ := calm_withDb w (ns ++ name) (ix.set hnswName .number)
  generalize w.withDb (ns ++ name) (ix.set hnswName .number) = w1 at hw hs
  by_cases h4 : o.createTable = true
  · simp only [h4, if_true]; exact hw
  simp only [h4, if_false, Bool.false_eq_true, setColl_self, setColl_setColl]
  split
  · exact hw.trans (calm_setColl _ _ _ (.refl _) (fun _ => .inr hs))
  · split
    · exact hw.trans (calm_setColl _ _ _ (.refl _) (fun _ => .inr hs))
    · split
      · exact hw.trans (calm_setColl _ _ _ (.refl _) (fun _ => .inr hs))
      · exact hw.trans (calm_setColl _ _ _ (Move.refl _).reopen (fun _ => .inr hs))

theorem calm_ensureOpen (o : Oracle F D) (w : World F) (c : Str) : Calm c w (ensureOpen o w c).1 := by
  unfold ensureOpen
  split
  · exact .refl _ _
  split
  · exact .refl _ _
  simp only [setColl_self, setColl_setColl, setColl_session, setColl_dbs]
  split
  · exact calm_setColl _ _ _ (.refl _) .inl
  split
  · exact calm_setColl _ _ _ (.refl _) .inl
  split
  · exact calm_setColl _ _ _ (.refl _) .inl
  split
  · exact calm_setColl _ _ _ (Move.refl _).reopen .inl
  · rename_i h
    refine calm_setColl _ _ _ (Move.refl _).reopen (fun _ => .inr ?_)
    simp only [Bool.or_eq_true, not_or, Option.isNone_iff_eq_none] at h
    exact Option.isSome_iff_ne_none.mpr h.2

/-- after a successful opening the database is there -/
theorem ensureOpen_some {o : Oracle F D} {w w' : World F} {c : Str} (ho : (w.coll c).dbOpen → (w.dbs.get c).isSome)
    (h : ensureOpen o w c = (w', none)) : (w'.dbs.get c).isSome ∧ (w'.coll c).dbOpen = true := by
  unfold ensureOpen at h
  split at h
  · cases h
  split at h
  · cases h
  simp only [setColl_self, setColl_setColl, setColl_session, setColl_dbs] at h
  split at h
  · cases h
  split at h
  · rename_i hd
    simp only [Prod.mk.injEq, and_true] at h
    subst h
    exact ⟨ho hd, by rw [setColl_self]; exact hd⟩
  split at h
  · cases h
  split at h
  · cases h
  · rename_i hx
    simp only [Prod.mk.injEq, and_true] at h
    subst h
    simp only [Bool.or_eq_true, not_or, Option.isNone_iff_eq_none] at hx
    exact ⟨Option.isSome_iff_ne_none.mpr hx.2, by rw [setColl_self]⟩

section
variable [DecidableEq F]

theorem calm_nearWith (E : Env F D) (o : Oracle F D) (w : World F) (c : Str) (q : List F) (max : D) (ef limit : Int) :
    Calm c w (nearWith E o w c q max ef limit).1 := by
  unfold nearWith
  split
  · exact .refl _ _
  · exact calm_setColl _ _ _ (Move.loaded (.refl _) o) .inl

theorem calm_nearVector (E : Env F D) (o : Oracle F D) (w : World F) (name : Str) (q : List F) (max : D) (limit : Int) :
    Calm (ns ++ name) w (nearVector E o w name q max limit).1 := by
  have := calm_ensureOpen o w (ns ++ name)
  unfold nearVector
  split
  · rename_i w1 e h; rw [h] at this; exact this
  · rename_i w1 h; rw [h] at this; exact this.trans (calm_nearWith ..)

theorem calm_nearText (E : Env F D) (o : Oracle F D) (w : World F) (name text : Str) (max : D) (limit : Int) :
    Calm (ns ++ name) w (nearText E o w name text max limit).1 := by
  have := calm_ensureOpen o w (ns ++ name)
  unfold nearText
  split
  · rename_i w1 e h; rw [h] at this; exact this
  · rename_i w1 h
    rw [h] at this
    split
    · exact this
    · split
      · exact this
      · exact this
      · exact this.trans (calm_nearWith ..)

theorem calm_getDocument (o : Oracle F D) (sat : Str → Props F → Bool) (w : World F) (name property value : Str) :
    Calm (ns ++ name) w (getDocument o sat w name property value).1 := by
  unfold getDocument
  simp only []
  split
  · exact .refl _ _
  · split
    · exact .refl _ _
    · rename_i h
      refine calm_setColl _ _ _ (.refl _) (fun _ => ?_)
      cases hd : (w.coll (ns ++ name)).dbOpen with
      | true => exact .inl rfl
      | false =>
        rw [hd] at h
        simp only [Bool.not_false, Bool.true_and, Bool.or_eq_true, not_or, Option.isNone_iff_eq_none] at h
        exact .inr (Option.isSome_iff_ne_none.mpr h.2)

/-- every request but an addition to and the deletion of the collection -/
theorem calm_serve (E : Env F D) (w : World F) (r : Req F D) (name : Str) (ha : ∀ o ti docs, r ≠ .add o name ti docs) (hd : ∀ o, r ≠ .delete o name) :
    Calm (ns ++ name) w (serve E w r).1 := by
  have other : ∀ n, r.about = some n → n ≠ name → Calm (ns ++ name) w (serve E w r).1 := by
    intro n hn hne
    exact calm_sameFor ((onlyAt_serve E w r hn).same (ns_ne (Ne.symm hne)))
  cases r with
  | login ok =>
    unfold serve login
    simp only
    split <;> exact ⟨rfl, id, .refl _, .inl⟩
  | openPod ok =>
    unfold serve openPod
    simp only
    split
    · exact ⟨rfl, id, .refl _, .inl⟩
    · split <;> exact ⟨rfl, id, .refl _, .inl⟩
  | list o => exact .refl _ _
  | restart => exact ⟨rfl, id, (Move.refl _).reopen, fun h => by cases h⟩
  | create o n ix =>
    by_cases h : n = name
    · subst h; exact calm_create ..
    · exact other n rfl h
  | delete o n =>
    by_cases h : n = name
    · subst h; exact absurd rfl (hd o)
    · exact other n rfl h
  | add o n ti docs =>
    by_cases h : n = name
    · subst h; exact absurd rfl (ha o ti docs)
    · exact other n rfl h
  | nearVector o n q max limit =>
    by_cases h : n = name
    · subst h; exact calm_nearVector ..
    · exact other n rfl h
  | nearText o n text max limit =>
    by_cases h : n = name
    · subst h; exact calm_nearText ..
    · exact other n rfl h
  | get o sat n p v =>
    by_cases h : n = name
    · subst h; exact calm_getDocument ..
    · exact other n rfl h

/-- what a deletion does -/
theorem delete_cases (o : Oracle F D) (w : World F) (name : Str) :
    ((delete o w name).1 = w ∧ (w.session && w.pod) = false) ∨
    ((w.session && w.pod) = true ∧
      (if o.docDelete then (delete o w name).1.dbs.get (ns ++ name) = w.dbs.get (ns ++ name) ∧
          ((delete o w name).1.coll (ns ++ name)).dbOpen = (w.coll (ns ++ name)).dbOpen
        else (delete o w name).1.dbs.get (ns ++ name) = none ∧ ((delete o w name).1.coll (ns ++ name)).dbOpen = false) ∧
      ((delete o w name).1.coll (ns ++ name)).idx = if o.deleteTable then (w.coll (ns ++ name)).idx.reopen else Index.init) := by
  unfold delete
  by_cases h1 : (!w.session) = true
  · rw [if_pos h1]; left; exact ⟨rfl, by simp at h1; simp [h1]⟩
  rw [if_neg h1]
  by_cases h2 : (!w.pod) = true
  · rw [if_pos h2]; left; exact ⟨rfl, by simp at h2; simp [h2]⟩
  rw [if_neg h2]
  right
  refine ⟨by simp at h1 h2; simp [h1, h2], ?_⟩
  by_cases h3 : o.docDelete = true <;> by_cases h4 : o.deleteTable = true
  all_goals simp only [h3, h4, if_true, if_false, Bool.false_eq_true, setColl_self, setColl_dbs, Map.get_del]
  all_goals (refine ⟨⟨?_, ?_⟩, ?_⟩ <;> first | rfl | trivial | simp [World.setColl])

/-- what an addition does -/
theorem add_cases {E : Env F D} {o : Oracle F D} {w w' : World F} {name : Str} {ti : List Str} {docs : List (Option (Doc F))} {log : List Res}
    {e : Option Err} (ho : (w.coll (ns ++ name)).dbOpen → (w.dbs.get (ns ++ name)).isSome)
    (h : addDocuments E o w name ti docs = (w', log, e)) :
    (log = [] ∧ e ≠ none ∧ Calm (ns ++ name) w w') ∨
    ∃ idx0 b' lk, Move (w.coll (ns ++ name)).idx idx0 ∧ (w'.dbs.get (ns ++ name)).isSome ∧ w'.docs (ns ++ name) = b'.docs ∧ log = b'.log ∧
      ((∃ er, addLoop E o lk ti 0 docs ⟨idx0, w.docs (ns ++ name), if o.count then 0 else w.count (ns ++ name), []⟩ = (b', some er) ∧
          e = some er ∧ (w'.coll (ns ++ name)).idx = b'.idx) ∨
       (∃ fe, addLoop E o lk ti 0 docs ⟨idx0, w.docs (ns ++ name), if o.count then 0 else w.count (ns ++ name), []⟩ = (b', none) ∧
          flushCut E.P o.cut b'.idx (o.order b'.idx.cache.keys) b'.next = ((w'.coll (ns ++ name)).idx, fe) ∧ (e = none → fe = none))) := by
  have hcalm := calm_ensureOpen o w (ns ++ name)
  unfold addDocuments addBegin at h
  simp only at h
  cases hop : ensureOpen o w (ns ++ name) with
  | mk w1 oe =>
  rw [hop] at h hcalm
  have hcalm : Calm (ns ++ name) w w1 := hcalm
  cases oe with
  | some er =>
    simp only [Prod.mk.injEq] at h
    obtain ⟨rfl, rfl, rfl⟩ := h
    exact .inl ⟨rfl, by simp, hcalm⟩
  | none =>
    simp only at h
    obtain ⟨hsome, _⟩ := ensureOpen_some ho hop
    by_cases hidx : (!(w1.coll (ns ++ name)).hasIdx) = true
    · simp only [hidx, if_true, Prod.mk.injEq] at h
      obtain ⟨rfl, rfl, rfl⟩ := h
      exact .inl ⟨rfl, by simp, hcalm⟩
    simp only [hidx, if_false, Bool.false_eq_true] at h
    right
    have hcount : (if o.count then 0 else (w1.coll (ns ++ name)).idx.docCount.getD 0) = if o.count then 0 else w.count (ns ++ name) := by
      unfold Index.docCount World.count; rw [hcalm.move.kvCount]
    rw [hcount] at h
    unfold addFinish at h
    simp only at h
    have hd1 : ((w1.dbs.get (ns ++ name)).getD ⟨[], []⟩).docs = w.docs (ns ++ name) := hcalm.docs
    rw [hd1] at h
    have hget : ∀ ds : List (Props F), Map.get (w1.dbs.map (fun e => if e.1 = ns ++ name then (ns ++ name, { e.2 with docs := ds }) else e)) (ns ++ name) =
        (w1.dbs.get (ns ++ name)).map (fun d => { d with docs := ds }) := by
      intro ds; rw [Map.get_mapAt w1.dbs (ns ++ name) (fun d => { d with docs := ds }), if_pos rfl]
    obtain ⟨d1, hd1⟩ := Option.isSome_iff_exists.mp hsome
    cases hloop : addLoop E o w1.lookup ti 0 docs ⟨(w1.coll (ns ++ name)).idx, w.docs (ns ++ name), if o.count then 0 else w.count (ns ++ name), []⟩ with
    | mk b' er =>
    rw [hloop] at h
    simp only at h
    refine ⟨(w1.coll (ns ++ name)).idx, b', w1.lookup, hcalm.move, ?_⟩
    cases er with
    | some er =>
      simp only [Prod.mk.injEq] at h
      obtain ⟨rfl, rfl, rfl⟩ := h
      refine ⟨?_, ?_, rfl, .inl ⟨er, hloop, rfl, ?_⟩⟩
      · show (Map.get _ _).isSome = true
        rw [hget, hd1]; rfl
      · unfold World.docs
        show (Option.getD (Map.get _ _) (⟨[], []⟩ : Db F)).docs = _
        rw [hget, hd1]; rfl
      · show ((w1.setColl _ _).coll _).idx = _
        rw [setColl_self]
    | none =>
      simp only at h
      cases hf : flushCut E.P o.cut b'.idx (o.order b'.idx.cache.keys) b'.next with
      | mk f fe =>
      rw [hf] at h
      have fin : ∀ e', w' = (World.setColl { (w1.setColl (ns ++ name) { w1.coll (ns ++ name) with idx := b'.idx }) with
            dbs := w1.dbs.map (fun e => if e.1 = ns ++ name then (ns ++ name, { e.2 with docs := b'.docs }) else e) } (ns ++ name)
            { (World.coll (w1.setColl (ns ++ name) { w1.coll (ns ++ name) with idx := b'.idx }) (ns ++ name)) with idx := f }) → log = b'.log → e = e' → (e' = none → fe = none) →
          (w'.dbs.get (ns ++ name)).isSome ∧ w'.docs (ns ++ name) = b'.docs ∧ log = b'.log ∧
          ((∃ er, addLoop E o w1.lookup ti 0 docs ⟨(w1.coll (ns ++ name)).idx, w.docs (ns ++ name), if o.count then 0 else w.count (ns ++ name), []⟩ = (b', some er) ∧
              e = some er ∧ (w'.coll (ns ++ name)).idx = b'.idx) ∨
           (∃ fe, addLoop E o w1.lookup ti 0 docs ⟨(w1.coll (ns ++ name)).idx, w.docs (ns ++ name), if o.count then 0 else w.count (ns ++ name), []⟩ = (b', none) ∧
              flushCut E.P o.cut b'.idx (o.order b'.idx.cache.keys) b'.next = ((w'.coll (ns ++ name)).idx, fe) ∧ (e = none → fe = none))) := by
        intro e' hw hl he hfe
        subst hw hl he
        refine ⟨?_, ?_, rfl, .inr ⟨fe, hloop, ?_, hfe⟩⟩
        · show (Map.get _ _).isSome = true
          rw [setColl_dbs, hget, hd1]; rfl
        · unfold World.docs
          rw [setColl_dbs]
          show (Option.getD (Map.get _ _) (⟨[], []⟩ : Db F)).docs = _
          rw [hget, hd1]; rfl
        · rw [setColl_self]; exact hf
      cases fe with
      | some er =>
        simp only [Prod.mk.injEq] at h
        have := fin (some er) h.1.symm h.2.1.symm h.2.2.symm (by simp)
        rw [hf] at this; exact this
      | none =>
        simp only [Prod.mk.injEq] at h
        have := fin _ h.1.symm h.2.1.symm h.2.2.symm (fun _ => rfl)
        rw [hf] at this; exact this

/-- a flush that reports success has written everything -/
theorem flushCut_ok {P : Params (List F) D} {cut : Option Nat} {s s' : Index (List F)} {order : List Nat} {n : Nat}
    (h : flushCut P cut s order n = (s', none)) : Index.flush P s order n = (s', none) := by
  unfold flushCut at h
  simp only at h
  split at h
  · exact h
  · split at h
    · cases h
    · exact h

theorem take_prefix {α : Type} {a b : List α} (k : Nat) (h : a <+: b) : a.take k <+: b := (List.take_prefix k a).trans h

theorem flushCut_any {P : Params (List F) D} {cut : Option Nat} {s : Index (List F)} {order : List Nat} {n : Nat} (h : Index.Any P s) :
    Index.Any P (flushCut P cut s order n).1 := by
  unfold flushCut
  simp only
  split
  · exact .flush _ _ h
  · split
    · exact .cut order n _ h (take_prefix _ (Index.flushUpToBad_prefix P _).1)
    · exact .flush _ _ h

theorem Step.any {E : Env F D} {o : Oracle F D} {ti : List Str} {i : Nat} {b b' : Batch F} {d : Doc F} {r : Res} (h : Step E o ti i b d b' r)
    (ha : Index.Any E.P b.idx) : Index.Any E.P b'.idx := by
  cases h with
  | plain => exact ha
  | lost => exact ha
  | noVector => exact ha
  | refused vec idx e _ hadd => have := ha.add (o.vo i) (o.sched i) b.next vec (o.level i); rw [hadd] at this; exact this
  | dropped vec idx _ hadd => have := ha.add (o.vo i) (o.sched i) b.next vec (o.level i); rw [hadd] at this; exact this
  | indexed vec idx p _ hadd => have := ha.add (o.vo i) (o.sched i) b.next vec (o.level i); rw [hadd] at this; exact this

theorem Steps.any {E : Env F D} {o : Oracle F D} {ti : List Str} {i : Nat} {ds : List (Doc F)} {b b' : Batch F} {rs : List Res}
    (h : Steps E o ti i ds b b' rs) (ha : Index.Any E.P b.idx) : Index.Any E.P b'.idx := by
  induction h with
  | nil => exact ha
  | cons h1 _ ih => exact ih (h1.any ha)

theorem add_kvCount {P : Params (List F) D} {vo : Index.VecOracle (List F)} {sched : Graph.Scheds D} {s : Index (List F)} {x : Nat} {vec : List F}
    {level : Nat} (ha : Index.Any P s) : (Index.add P vo sched s x vec level).1.kvCount = s.kvCount :=
  (Index.add_keeps (Index.any_inv ha).1).kvCount

theorem Step.kvCount {E : Env F D} {o : Oracle F D} {ti : List Str} {i : Nat} {b b' : Batch F} {d : Doc F} {r : Res} (h : Step E o ti i b d b' r)
    (ha : Index.Any E.P b.idx) : b'.idx.kvCount = b.idx.kvCount := by
  cases h with
  | plain => rfl
  | lost => rfl
  | noVector => rfl
  | refused vec idx e _ hadd => have := add_kvCount (vo := o.vo i) (sched := o.sched i) (x := b.next) (vec := vec) (level := o.level i) ha; rw [hadd] at this; exact this
  | dropped vec idx _ hadd => have := add_kvCount (vo := o.vo i) (sched := o.sched i) (x := b.next) (vec := vec) (level := o.level i) ha; rw [hadd] at this; exact this
  | indexed vec idx p _ hadd => have := add_kvCount (vo := o.vo i) (sched := o.sched i) (x := b.next) (vec := vec) (level := o.level i) ha; rw [hadd] at this; exact this

theorem Steps.kvCount {E : Env F D} {o : Oracle F D} {ti : List Str} {i : Nat} {ds : List (Doc F)} {b b' : Batch F} {rs : List Res}
    (h : Steps E o ti i ds b b' rs) (ha : Index.Any E.P b.idx) : b'.idx.kvCount = b.idx.kvCount := by
  induction h with
  | nil => rfl
  | cons h1 _ ih => rw [ih (h1.any ha), h1.kvCount ha]

/-- the writes of a flush leave the count or set it to the new one -/
theorem writes_kvCount (ws : List (Index.Write (List F))) (n : Nat) (s : Index (List F)) (h : ∀ m, Index.Write.count m ∈ ws → m = n) :
    (ws.foldl Index.applyWrite s).kvCount = s.kvCount ∨ (ws.foldl Index.applyWrite s).kvCount = some n := by
  induction ws generalizing s with
  | nil => exact .inl rfl
  | cons x ws ih =>
    rw [List.foldl_cons]
    rcases ih (Index.applyWrite s x) (fun m hm => h m (List.mem_cons_of_mem _ hm)) with h1 | h1
    · rw [h1]
      cases x with
      | node v => exact .inl rfl
      | entry e => exact .inl rfl
      | count m => rw [h m (by simp)]; exact .inr rfl
    · exact .inr h1

theorem flushWrites_count (s : Index (List F)) (order : List Nat) (n m : Nat) (h : Index.Write.count m ∈ s.flushWrites order n) : m = n := by
  unfold Index.flushWrites at h
  rw [List.mem_append] at h
  rcases h with h | h
  · obtain ⟨v, _, hv⟩ := List.mem_map.mp h; cases hv
  · simp at h; exact h

theorem flushCut_kvCount {P : Params (List F) D} {cut : Option Nat} {s : Index (List F)} {order : List Nat} {n : Nat} :
    (flushCut P cut s order n).1.kvCount = s.kvCount ∨ (flushCut P cut s order n).1.kvCount = some n := by
  have hp := (Index.flushUpToBad_prefix P (s.flushWrites order n)).1
  have key : ∀ ws, ws <+: s.flushWrites order n → (ws.foldl Index.applyWrite s).kvCount = s.kvCount ∨ (ws.foldl Index.applyWrite s).kvCount = some n := by
    intro ws hws
    exact writes_kvCount ws n s (fun m hm => flushWrites_count s order n m (hws.subset hm))
  unfold flushCut
  simp only
  split
  · exact key _ hp
  · split
    · exact key _ (take_prefix _ hp)
    · exact key _ hp

end
end Fave.Client
