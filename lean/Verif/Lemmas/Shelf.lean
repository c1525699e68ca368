import Verif.Lemmas.ShelfAdd
/-! # Orderly requests: the collection is what its users think it is -/
namespace Fave.Client
open Index
variable {F D : Type} [Dist D] [DecidableEq F]

/-- the collection is as on the shelf -/
structure EInv (E : Env F D) (L : Nat) (name : Str) (w : World F) (s : Shelf F) : Prop where
  tinv : TInv E L name w (s.entries.map Prod.snd)
  session : w.session = s.session
  pod : w.pod = s.pod
  both : s.pod = true → s.session = true
  table : (w.coll (ns ++ name)).table = s.there
  db : (w.dbs.get (ns ++ name)).isSome = s.there
  opened : (w.coll (ns ++ name)).dbOpen = true → (w.coll (ns ++ name)).hasIdx = true
  lookup : w.lookup = true
  docs : ∀ (i : Nat) (x : Doc F × List F), s.entries[i]? = some x → ∃ p ∈ w.docs (ns ++ name), StoredAs x.1 (i : Int) p

theorem einv_fresh (E : Env F D) (L : Nat) (name : Str) (dbs : Map (Db F)) (hf : dbs.get (ns ++ name) = none) :
    EInv E L name (World.fresh true dbs) Shelf.start :=
  ⟨tinv_fresh E L name true dbs hf, rfl, rfl, (fun h => by cases h), rfl, by show (Map.get dbs _).isSome = false; rw [hf]; rfl, (fun h => by cases h), rfl,
    (fun i x h => by simp [Shelf.start] at h)⟩

/-- what stays the same in the collection while a request merely opens it -/
structure Quiet (c : Str) (w w' : World F) : Prop where
  calm : Calm c w w'
  session : w'.session = w.session
  pod : w'.pod = w.pod
  lookup : w'.lookup = w.lookup
  table : (w'.coll c).table = (w.coll c).table
  db : w'.dbs.get c = w.dbs.get c
  opened : ((w.coll c).dbOpen = true → (w.coll c).hasIdx = true) → (w'.coll c).dbOpen = true → (w'.coll c).hasIdx = true

theorem Quiet.refl (c : Str) (w : World F) : Quiet c w w := ⟨.refl _ _, rfl, rfl, rfl, rfl, rfl, id⟩

theorem Quiet.trans {c : Str} {w w' w'' : World F} (h : Quiet c w w') (h' : Quiet c w' w'') : Quiet c w w'' :=
  ⟨h.calm.trans h'.calm, h'.session.trans h.session, h'.pod.trans h.pod, h'.lookup.trans h.lookup, h'.table.trans h.table, h'.db.trans h.db,
    fun ho => h'.opened (h.opened ho)⟩

theorem EInv.quiet {E : Env F D} {L : Nat} {name : Str} {w w' : World F} {s : Shelf F} (h : EInv E L name w s) (hq : Quiet (ns ++ name) w w') : EInv E L name w' s :=
  ⟨h.tinv.calm hq.calm, hq.session.trans h.session, hq.pod.trans h.pod, h.both, hq.table.trans h.table, by rw [hq.db]; exact h.db, hq.opened h.opened,
    hq.lookup.trans h.lookup, by rw [hq.calm.docs]; exact h.docs⟩

theorem quiet_setColl (w : World F) (c : Str) (x : Coll F) (hm : Move (w.coll c).idx x.idx) (ht : x.table = (w.coll c).table)
    (ho : x.dbOpen → (w.coll c).dbOpen ∨ (w.dbs.get c).isSome) (hi : ((w.coll c).dbOpen = true → (w.coll c).hasIdx = true) → x.dbOpen = true → x.hasIdx = true) :
    Quiet c w (w.setColl c x) :=
  ⟨calm_setColl w c x hm ho, rfl, rfl, rfl, by rw [setColl_self]; exact ht, rfl, by rw [setColl_self]; exact hi⟩

theorem quiet_ensureOpen (o : Oracle F D) (w : World F) (c : Str) : Quiet c w (ensureOpen o w c).1 := by
  unfold ensureOpen
  split
  · exact .refl _ _
  split
  · exact .refl _ _
  simp only [setColl_self, setColl_setColl, setColl_session, setColl_dbs]
  split
  · exact quiet_setColl _ _ _ (.refl _) rfl .inl id
  split
  · exact quiet_setColl _ _ _ (.refl _) rfl .inl id
  split
  · exact quiet_setColl _ _ _ (.refl _) rfl .inl id
  split
  · exact quiet_setColl _ _ _ (Move.refl _).reopen rfl .inl (fun _ _ => rfl)
  · rename_i h
    refine quiet_setColl _ _ _ (Move.refl _).reopen rfl (fun _ => .inr ?_) (fun _ _ => rfl)
    simp only [Bool.or_eq_true, not_or, Option.isNone_iff_eq_none] at h
    exact Option.isSome_iff_ne_none.mpr h.2

theorem quiet_nearWith (E : Env F D) (o : Oracle F D) (w : World F) (c : Str) (q : List F) (max : D) (ef limit : Int) :
    Quiet c w (nearWith E o w c q max ef limit).1 := by
  unfold nearWith
  split
  · exact .refl _ _
  · exact quiet_setColl _ _ _ (Move.loaded (.refl _) o) rfl .inl id

theorem quiet_nearVector (E : Env F D) (o : Oracle F D) (w : World F) (name : Str) (q : List F) (max : D) (limit : Int) :
    Quiet (ns ++ name) w (nearVector E o w name q max limit).1 := by
  have := quiet_ensureOpen o w (ns ++ name)
  unfold nearVector
  split
  · rename_i w1 e h; rw [h] at this; exact this
  · rename_i w1 h; rw [h] at this; exact this.trans (quiet_nearWith ..)

theorem quiet_nearText (E : Env F D) (o : Oracle F D) (w : World F) (name text : Str) (max : D) (limit : Int) :
    Quiet (ns ++ name) w (nearText E o w name text max limit).1 := by
  have := quiet_ensureOpen o w (ns ++ name)
  unfold nearText
  split
  · rename_i w1 e h; rw [h] at this; exact this
  · rename_i w1 h
    rw [h] at this
    split
    · exact this
    · split
      · exact this
      · exact this
      · exact this.trans (quiet_nearWith ..)

/-- with working storage the opening succeeds exactly if the collection is there -/
theorem ensureOpen_works {E : Env F D} {L : Nat} {name : Str} {w : World F} {s : Shelf F} (h : EInv E L name w s) {o : Oracle F D} (ho : o.Works) :
    if s.pod = true ∧ s.there = true then ∃ w1, ensureOpen o w (ns ++ name) = (w1, none) ∧ (w1.coll (ns ++ name)).hasIdx = true
    else ∃ e, (ensureOpen o w (ns ++ name)).2 = some e := by
  cases hp : s.pod with
  | false =>
    rw [if_neg (by simp)]
    exact ⟨.panic, by unfold ensureOpen; rw [if_pos (by rw [h.pod, hp]; rfl)]⟩
  | true =>
    have hs := h.both hp
    have hwp : w.pod = true := h.pod.trans hp
    have hws : w.session = true := h.session.trans hs
    cases ht : s.there with
    | true =>
      rw [if_pos ⟨rfl, rfl⟩]
      have htab : (w.coll (ns ++ name)).table = true := h.table.trans ht
      have hdb : (w.dbs.get (ns ++ name)).isNone = false := by
        have := h.db; rw [ht] at this
        cases hg : w.dbs.get (ns ++ name) with
        | none => rw [hg] at this; cases this
        | some d => rfl
      unfold ensureOpen
      rw [if_neg (by simp [hwp]), if_neg (by simp [ho.openTable, htab])]
      simp only [setColl_self, setColl_setColl, setColl_session, setColl_dbs, hws, ho.isOpen, ho.newIndex, ho.docOpen, hdb, Bool.not_true, Bool.or_false, Bool.false_eq_true, if_false]
      split
      · rename_i hd; exact ⟨_, rfl, by rw [setColl_self]; exact h.opened hd⟩
      · exact ⟨_, rfl, by rw [setColl_self]⟩
    | false =>
      rw [if_neg (by simp)]
      have hdb : (w.dbs.get (ns ++ name)).isNone = true := by
        have := h.db; rw [ht] at this
        cases hg : w.dbs.get (ns ++ name) with
        | none => rfl
        | some d => rw [hg] at this; cases this
      have hop : (w.coll (ns ++ name)).dbOpen = false := by
        cases hd : (w.coll (ns ++ name)).dbOpen with
        | false => rfl
        | true => have := h.tinv.opened hd; rw [h.db, ht] at this; cases this
      unfold ensureOpen
      rw [if_neg (by simp [hwp])]
      split
      · exact ⟨_, rfl⟩
      · simp only [setColl_self, setColl_setColl, setColl_session, setColl_dbs, hws, ho.isOpen, ho.newIndex, ho.docOpen, hdb, hop, Bool.not_true, Bool.or_true, Bool.or_false, Bool.false_eq_true, if_false, if_true]
        exact ⟨_, rfl⟩

theorem flushCut_works {P : Params (List F) D} (hj : ∀ v, P.jsonOk v = true) (s : Index (List F)) (order : List Nat) (n : Nat) :
    ∃ s', flushCut P none s order n = (s', none) := by
  have : ∀ ws : List (Write (List F)), (flushUpToBad P ws).2 = none := by
    intro ws
    induction ws with
    | nil => rfl
    | cons w ws ih =>
      cases w with
      | node v => unfold flushUpToBad; rw [hj]; exact ih
      | entry e => unfold flushUpToBad; exact ih
      | count c => unfold flushUpToBad; exact ih
  exact ⟨(flush P s order n).1, by unfold flushCut flush; simp only [this]⟩

/-- an orderly addition -/
theorem einv_add {E : Env F D} (hP : E.P.Ok) (hr : E.replace = false) (hj : ∀ v, E.P.jsonOk v = true)
    (hdi : ∀ a b, E.P.metric.len a = E.P.metric.len b → ∃ d, E.P.metric.dist a b = some d) (hroom : E.P.maxConn < E.P.cacheSize)
    {L : Nat} (hL : L ≠ 0) {name : Str} {w : World F} {s : Shelf F} (h : EInv E L name w s) {o : Oracle F D} {ti : List Str} {docs : List (Option (Doc F))}
    (ht : Orderly E.P.metric.len L E.P.maxConn name s (.add o name ti docs)) :
    EInv E L name (serve E w (.add o name ti docs)).1 (s.next E.P.metric.len L name (.add o name ti docs)) ∧
      (s.pod = true → s.there = true → (serve E w (.add o name ti docs)).2 = .done) := by
  obtain ⟨ho, hread, hfirst, hne, hmost⟩ := ht rfl
  have hop := ensureOpen_works h ho
  by_cases hc : s.pod = true ∧ s.there = true
  · rw [if_pos hc] at hop
    obtain ⟨w1, hw1, hidx⟩ := hop
    have hq := quiet_ensureOpen o w (ns ++ name)
    rw [hw1] at hq
    have h1 : EInv E L name w1 s := h.quiet hq
    have hcount : ((w1.coll (ns ++ name)).idx.docCount.getD 0) = s.entries.length := by
      have := h1.tinv.count; unfold World.count at this; rw [List.length_map] at this; exact this
    have hb : BInv E L ⟨(w1.coll (ns ++ name)).idx, w1.docs (ns ++ name), s.entries.length, []⟩ (s.entries.map Prod.snd) :=
      ⟨h1.tinv.hist, by simp, h1.tinv.numbers, h1.tinv.len⟩
    obtain ⟨b', hloop, hb', hkeep, hst⟩ := addLoop_orderly hP hr hdi hroom hL ho docs (i := 0) hread hb
      (fun e j d v hj' hv => hfirst (by simpa using e) j d v hj' (by rw [Nat.zero_add] at hv; exact hv))
      (by rw [← List.map_append, List.length_map]; exact hmost)
    obtain ⟨f, hf⟩ := flushCut_works hj b'.idx (o.order b'.idx.cache.keys) b'.next
    have hbegin : addBegin o w name = (w1, .ok s.entries.length) := by
      unfold addBegin
      simp only [hw1, hidx, Bool.not_true, Bool.false_eq_true, if_false, ho.count, hcount]
    have hadd : addDocuments E o w name ti docs =
        (World.setColl { (w1.setColl (ns ++ name) { w1.coll (ns ++ name) with idx := b'.idx }) with
            dbs := w1.dbs.map (fun e => if e.1 = ns ++ name then (ns ++ name, { e.2 with docs := b'.docs }) else e) } (ns ++ name)
            { w1.coll (ns ++ name) with idx := f }, b'.log, none) := by
      unfold addDocuments
      rw [hbegin]
      simp only
      unfold addFinish
      have hd1 : ((w1.dbs.get (ns ++ name)).getD ⟨[], []⟩).docs = w1.docs (ns ++ name) := rfl
      simp only [hd1, h1.lookup, hloop, ho.cut, hf, ho.commit, Bool.false_eq_true, if_false]
      simp [World.setColl]
    have hget : ∀ ds : List (Props F), Map.get (w1.dbs.map (fun e => if e.1 = ns ++ name then (ns ++ name, { e.2 with docs := ds }) else e)) (ns ++ name) =
        (w1.dbs.get (ns ++ name)).map (fun d => { d with docs := ds }) := by
      intro ds; rw [Map.get_mapAt w1.dbs (ns ++ name) (fun d => { d with docs := ds }), if_pos rfl]
    have hsome : ∃ d1, w1.dbs.get (ns ++ name) = some d1 := by
      have := h1.db; rw [hc.2] at this; exact Option.isSome_iff_exists.mp this
    obtain ⟨d1, hd1⟩ := hsome
    have hnext : s.next E.P.metric.len L name (.add o name ti docs) = { s with entries := s.entries ++ taken E.P.metric.len L o ti 0 docs } := by
      simp [Shelf.next, hc.1, hc.2]
    rw [hnext]
    have hvs : (s.entries ++ taken E.P.metric.len L o ti 0 docs).map Prod.snd = s.entries.map Prod.snd ++ (taken E.P.metric.len L o ti 0 docs).map Prod.snd := List.map_append ..
    have hfl := flushCut_ok hf
    have hnn : s.entries.map Prod.snd ++ (taken E.P.metric.len L o ti 0 docs).map Prod.snd ≠ [] := by
      rw [← hvs]; simpa using hne
    rw [hb'.next] at hfl
    have hhist := Hist.flush _ hb'.hist hnn (fun id hid => o.order_mem _ _ hid) hfl
    constructor
    · have hw' : (serve E w (.add o name ti docs)).1 = World.setColl { (w1.setColl (ns ++ name) { w1.coll (ns ++ name) with idx := b'.idx }) with
            dbs := w1.dbs.map (fun e => if e.1 = ns ++ name then (ns ++ name, { e.2 with docs := b'.docs }) else e) } (ns ++ name)
            { w1.coll (ns ++ name) with idx := f } := by simp only [serve, hadd]
      rw [hw']
      have hdocs : World.docs (World.setColl { (w1.setColl (ns ++ name) { w1.coll (ns ++ name) with idx := b'.idx }) with
            dbs := w1.dbs.map (fun e => if e.1 = ns ++ name then (ns ++ name, { e.2 with docs := b'.docs }) else e) } (ns ++ name)
            { w1.coll (ns ++ name) with idx := f }) (ns ++ name) = b'.docs := by
        unfold World.docs
        rw [setColl_dbs]
        show (Option.getD (Map.get _ _) (⟨[], []⟩ : Db F)).docs = _
        rw [hget, hd1]; rfl
      refine ⟨⟨?_, ?_, ?_, ?_, ?_⟩, h1.session, h1.pod, h1.both, ?_, ?_, ?_, h1.lookup, ?_⟩
      · rw [setColl_self, hvs]; exact hhist
      · intro _
        rw [setColl_dbs]
        show (Map.get _ _).isSome = true
        rw [hget, hd1]; rfl
      · unfold World.count
        rw [setColl_self, hvs]
        obtain ⟨s1, _, hs1⟩ := flush_ok (hist_inv hP hb'.hist).ids hfl
        rw [hs1]; rfl
      · rw [hdocs, hvs]; exact hb'.numbers
      · rw [hvs]; exact hb'.len
      · rw [setColl_self]; exact h1.table
      · rw [setColl_dbs]
        show (Map.get _ _).isSome = _
        rw [hget, hd1]; exact hc.2.symm
      · rw [setColl_self]; exact h1.opened
      · intro i x hx
        rw [hdocs]
        simp only at hx
        rw [List.getElem?_append] at hx
        split at hx
        · obtain ⟨p, g1, g2⟩ := h1.docs i x hx
          exact ⟨p, hkeep p g1, g2⟩
        · obtain ⟨p, g1, g2⟩ := hst _ x hx
          refine ⟨p, g1, ?_⟩
          rw [List.length_map] at g2
          rw [show i = s.entries.length + (i - s.entries.length) by omega]
          exact g2
    · intro _ _
      simp only [serve, hadd]; rfl
  · rw [if_neg hc] at hop
    obtain ⟨e, he⟩ := hop
    have hq := quiet_ensureOpen o w (ns ++ name)
    have hw : (serve E w (.add o name ti docs)).1 = (ensureOpen o w (ns ++ name)).1 := by
      cases hx : ensureOpen o w (ns ++ name) with
      | mk w1 oe =>
        rw [hx] at he
        simp only at he
        subst he
        simp only [serve, addDocuments, addBegin, hx]
    have hnext : s.next E.P.metric.len L name (.add o name ti docs) = s := by
      simp only [Shelf.next]; rw [if_neg (fun hh => hc hh.2)]
    rw [hw, hnext]
    exact ⟨h.quiet hq, fun h1 h2 => absurd ⟨h1, h2⟩ hc⟩

/-- every orderly request -/
theorem einv_step {E : Env F D} (hP : E.P.Ok) (hr : E.replace = false) (hj : ∀ v, E.P.jsonOk v = true)
    (hdi : ∀ a b, E.P.metric.len a = E.P.metric.len b → ∃ d, E.P.metric.dist a b = some d) (hroom : E.P.maxConn < E.P.cacheSize)
    {L : Nat} (hL : L ≠ 0) {name : Str} {w : World F} {s : Shelf F} (h : EInv E L name w s) (r : Req F D)
    (ht : Orderly E.P.metric.len L E.P.maxConn name s r) : EInv E L name (serve E w r).1 (s.next E.P.metric.len L name r) := by
  have other : ∀ n, r.about = some n → n ≠ name → EInv E L name (serve E w r).1 s := by
    intro n hn hne
    have hs := (onlyAt_serve E w r hn).same (ns_ne (Ne.symm hne))
    exact h.quiet ⟨calm_sameFor hs, hs.session, hs.pod, hs.lookup, by rw [hs.coll], hs.db, by rw [hs.coll]; exact id⟩
  cases r with
  | login ok =>
    cases ok with
    | false => exact h
    | true => exact ⟨⟨h.tinv.hist, h.tinv.opened, h.tinv.count, h.tinv.numbers, h.tinv.len⟩, rfl, h.pod, fun _ => rfl, h.table, h.db, h.opened, h.lookup, h.docs⟩
  | openPod ok =>
    simp only [serve, openPod, Shelf.next]
    cases hs : s.session with
    | false =>
      rw [if_pos (by rw [h.session, hs]; rfl)]
      simp only [Bool.false_and, Bool.false_eq_true, if_false]; exact h
    | true =>
      rw [if_neg (by rw [h.session, hs]; simp)]
      cases ok with
      | false => simp only [Bool.and_false, Bool.false_eq_true, if_false]; exact h
      | true =>
        simp only [Bool.and_self, if_true]
        exact ⟨⟨h.tinv.hist, h.tinv.opened, h.tinv.count, h.tinv.numbers, h.tinv.len⟩, h.session.trans hs, rfl, fun _ => rfl, h.table, h.db, h.opened, h.lookup, h.docs⟩
  | list o => exact h
  | restart =>
    have hc := h.tinv.calm (calm_serve E w .restart name (by simp) (by simp))
    exact ⟨hc, rfl, rfl, (fun hh => by cases hh), h.table, h.db, (fun hh => by cases hh), h.lookup, h.docs⟩
  | nearVector o n q max limit =>
    by_cases hn : n = name
    · subst hn; exact h.quiet (quiet_nearVector ..)
    · exact other n rfl hn
  | nearText o n text max limit =>
    by_cases hn : n = name
    · subst hn; exact h.quiet (quiet_nearText ..)
    · exact other n rfl hn
  | get o sat n p v => exact other n rfl ht
  | add o n ti docs =>
    by_cases hn : n = name
    · subst hn; exact (einv_add hP hr hj hdi hroom hL h ht).1
    · simp only [Shelf.next]
      rw [if_neg (fun hh => hn hh.1)]
      exact other n rfl hn
  | create o n ix =>
    by_cases hn : n = name
    · subst hn
      have ho := ht rfl
      cases hp : s.pod with
      | false =>
        have hw : (serve E w (.create o n ix)).1 = w := by
          simp only [serve, create]
          split
          · rfl
          · rw [if_pos (by rw [h.pod, hp]; rfl)]
        rw [hw]
        simp only [Shelf.next, hp, Bool.false_eq_true, and_false, if_false]
        exact h
      | true =>
        have hs := h.both hp
        have hcalm := h.tinv.calm (calm_create o w n ix)
        have hw : (create o w n ix).1 = (w.withDb (ns ++ n) (ix.set hnswName .number)).setColl (ns ++ n)
            ⟨true, true, true, ((w.withDb (ns ++ n) (ix.set hnswName .number)).coll (ns ++ n)).idx.reopen, true⟩ := by
          simp only [create, h.session, h.pod, hs, hp, ho.docCreate, ho.createTable, ho.docOpen, ho.openTable, ho.newIndex, Bool.not_true, Bool.false_eq_true, if_false, Bool.and_false,
            setColl_self, setColl_setColl]
        obtain ⟨hc1, hc2⟩ := calm_withDb w (ns ++ n) (ix.set hnswName .number)
        have hws : (w.withDb (ns ++ n) (ix.set hnswName .number)).session = w.session ∧ (w.withDb (ns ++ n) (ix.set hnswName .number)).pod = w.pod ∧
            (w.withDb (ns ++ n) (ix.set hnswName .number)).lookup = w.lookup := by
          unfold World.withDb; split <;> exact ⟨rfl, rfl, rfl⟩
        have hnext : s.next E.P.metric.len L n (.create o n ix) = { s with there := true } := by simp [Shelf.next, hp]
        rw [hnext]
        have hdocs := (calm_create o w n ix).docs
        show EInv E L n (create o w n ix).1 _
        refine ⟨hcalm, ?_, ?_, h.both, ?_, ?_, ?_, ?_, by rw [hdocs]; exact h.docs⟩
        · rw [hw]; exact hws.1.trans h.session
        · rw [hw]; exact hws.2.1.trans h.pod
        · rw [hw, setColl_self]
        · rw [hw, setColl_dbs]; exact hc2
        · rw [hw, setColl_self]; exact fun _ => rfl
        · rw [hw]; exact hws.2.2.trans h.lookup
    · simp only [Shelf.next]
      rw [if_neg (fun hh => hn hh.1)]
      exact other n rfl hn
  | delete o n =>
    by_cases hn : n = name
    · subst hn
      have ho := ht rfl
      cases hp : s.pod with
      | false =>
        have hw : (serve E w (.delete o n)).1 = w := by
          simp only [serve, delete]
          split
          · rfl
          · rw [if_pos (by rw [h.pod, hp]; rfl)]
        rw [hw]
        simp only [Shelf.next, hp, Bool.false_eq_true, and_false, if_false]
        exact h
      | true =>
        have hs := h.both hp
        have hnext : s.next E.P.metric.len L n (.delete o n) = { s with there := false, entries := [] } := by simp [Shelf.next, hp]
        rw [hnext]
        have hw : (serve E w (.delete o n)).1 = World.setColl { w with dbs := w.dbs.del (ns ++ n) } (ns ++ n)
            { dbOpen := false, table := false, tableOpen := false, idx := (Index.init : Index (List F)).reopen, hasIdx := false } := by
          simp only [serve, delete, h.session, h.pod, hs, hp, ho.docDelete, ho.deleteTable, Bool.not_true, Bool.false_eq_true, if_false, setColl_self, setColl_setColl]
          simp [World.setColl]
          refine ⟨h.session.trans hs, h.pod.trans hp, ?_⟩
          funext m
          split
          · rfl
          · rfl
        rw [hw]
        have hg : Map.get (w.dbs.del (ns ++ n)) (ns ++ n) = none := by rw [Map.get_del, if_pos rfl]
        refine ⟨⟨?_, ?_, ?_, ?_, ?_⟩, h.session, h.pod, h.both, ?_, ?_, ?_, h.lookup, ?_⟩
        · rw [setColl_self]; exact .init
        · rw [setColl_self]; exact fun hh => by cases hh
        · unfold World.count; rw [setColl_self]; rfl
        · unfold World.docs; rw [setColl_dbs, hg]; rfl
        · simp
        · rw [setColl_self]
        · rw [setColl_dbs, hg]; rfl
        · rw [setColl_self]; exact fun hh => by cases hh
        · simp
    · simp only [Shelf.next]
      rw [if_neg (fun hh => hn hh.1)]
      exact other n rfl hn

theorem einv_run {E : Env F D} (hP : E.P.Ok) (hr : E.replace = false) (hj : ∀ v, E.P.jsonOk v = true)
    (hdi : ∀ a b, E.P.metric.len a = E.P.metric.len b → ∃ d, E.P.metric.dist a b = some d) (hroom : E.P.maxConn < E.P.cacheSize)
    {L : Nat} (hL : L ≠ 0) {name : Str} (rs : List (Req F D)) {w : World F} {s : Shelf F} (h : EInv E L name w s)
    (ht : OrderlyRun E.P.metric.len L E.P.maxConn name s rs) : EInv E L name (run E w rs) (s.after E.P.metric.len L name rs) := by
  induction rs generalizing w s with
  | nil => exact h
  | cons r rs ih => rw [run_cons]; exact ih (einv_step hP hr hj hdi hroom hL h r ht.1) ht.2

/-- the number of entries never exceeds the bound -/
theorem orderly_small {len : List F → Nat} {L most : Nat} {name : Str} (rs : List (Req F D)) {s : Shelf F} (hs : s.entries.length ≤ most)
    (ht : OrderlyRun len L most name s rs) : (s.after len L name rs).entries.length ≤ most := by
  induction rs generalizing s with
  | nil => exact hs
  | cons r rs ih =>
    refine ih ?_ ht.2
    have h1 := ht.1
    cases r with
    | add o n ti docs =>
      simp only [Shelf.next]
      split
      · rename_i hc; exact (h1 hc.1).2.2.2.2
      · exact hs
    | delete o n => simp only [Shelf.next]; split <;> simp [hs]
    | create o n ix => simp only [Shelf.next]; split <;> exact hs
    | login ok => simp only [Shelf.next]; split <;> exact hs
    | openPod ok => simp only [Shelf.next]; split <;> exact hs
    | _ => exact hs

end Fave.Client
