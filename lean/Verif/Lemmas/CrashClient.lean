import Verif.Lemmas.Crash
import Verif.Lemmas.PoisonClient
import Verif.Spec.Crash
/-!
# Which requests crash
-/
namespace Fave.Index
variable {V D : Type} [Dist D]

/-- after a successful addition, or one that has got beyond the check of the length, the index is no longer in its first state -/
theorem add_first {P : Params V D} (vo : VecOracle V) (sched : Graph.Scheds D) {s : Index V} (hi : IdsOk s) (x : Nat) (vec : V) (level : Nat) :
    First (add P vo sched s x vec level).1 → First s ∧ (add P vo sched s x vec level).2 ≠ none := by
  unfold add
  split
  · exact fun h => ⟨h, by simp⟩
  · have key : ∀ {t : Index V}, t.once = true → First t → False := fun h1 h2 => by rw [h2.1] at h1; cases h1
    unfold insertNode
    split
    · exact fun h => (key rfl h).elim
    · simp only
      split
      · exact fun h => (key rfl h).elim
      · intro h
        refine (key ?_ h).elim
        have h1 : IdsOk (({ s with once := true } : Index V).put (newNode x (P.norm vec) level)) :=
          idsOk_put (s := { s with once := true }) ⟨hi.cache, hi.kv⟩ _
        unfold connectNew
        split
        · rfl
        · rename_i ep _
          have h2 := (doLevels_ext P vo sched (P.norm vec) x (Nat.min level (({ s with once := true } : Index V).put (newNode x (P.norm vec) level)).maxLayer + 1) _ ep h1).same.once
          split
          · rename_i he; rw [he] at h2; exact h2
          · rename_i s1 he
            rw [he] at h2
            split
            · exact h2
            · simp only
              split <;> exact h2

end Fave.Index

namespace Fave.Client
variable {F D : Type} [Dist D] [DecidableEq F]
open Index (Sound First)

theorem storeDoc_calm (E : Env F D) (o : Oracle F D) (i : Nat) (b : Batch F) (p : Props F) (n : Option Nat) : (storeDoc E o i b p n).2 ≠ some .panic := by
  unfold storeDoc
  split
  · simp
  · split <;> simp

theorem indexDoc_panic (E : Env F D) (o : Oracle F D) (i : Nat) {b : Batch F} (h : Sound E.P.cacheSize b.idx) (p : Props F) (vec : List F) :
    (indexDoc E o i b p vec).2 = some .panic ↔ E.P.metric.len vec ≠ 0 ∧ E.P.cacheSize ≤ b.next := by
  rw [← (Index.add_calm (o.vo i) (o.sched i) h b.next vec (o.level i)).1]
  unfold indexDoc
  split
  · rename_i he; rw [he]
  · rename_i e hne he; rw [he]; constructor
    · intro hc; simp at hc
    · intro hc; exact absurd (Option.some.inj hc) hne
  · rename_i he; rw [he]; exact ⟨fun hc => absurd hc (storeDoc_calm _ _ _ _ _ _), fun hc => by simp at hc⟩

theorem textOf_error {p : Props F} {ks : List Str} {e : Err} (h : textOf p ks = .error e) : e = .panic ∧ ∃ k ∈ ks, ∃ v, p.get k = some v ∧ ∀ s, v ≠ .str s := by
  induction ks with
  | nil => cases h
  | cons k ks ih =>
    unfold textOf at h
    split at h
    · obtain ⟨h1, k', h2, h3⟩ := ih h; exact ⟨h1, k', List.mem_cons_of_mem _ h2, h3⟩
    · split at h
      · rename_i e' he
        cases h
        obtain ⟨h1, k', h2, h3⟩ := ih he; exact ⟨h1, k', List.mem_cons_of_mem _ h2, h3⟩
      · cases h
    · rename_i v hns hv
      cases h
      exact ⟨rfl, k, by simp, v, hv, fun s e => hns s e⟩

theorem textOf_ok {p : Props F} {ks : List Str} {t : Str} (h : textOf p ks = .ok t) : ∀ k ∈ ks, ∀ v, p.get k = some v → ∃ s, v = .str s := by
  induction ks generalizing t with
  | nil => intro k hk; cases hk
  | cons k ks ih =>
    intro k' hk' v hv
    unfold textOf at h
    split at h
    · rename_i hn
      rcases List.mem_cons.mp hk' with rfl | hk'
      · rw [hn] at hv; cases hv
      · exact ih h k' hk' v hv
    · rename_i s hs
      split at h
      · cases h
      · rename_i t' ht
        rcases List.mem_cons.mp hk' with rfl | hk'
        · rw [hs] at hv; cases hv; exact ⟨s, rfl⟩
        · exact ih ht k' hk' v hv
    · cases h

theorem idName_ne_vectorName : idName ≠ vectorName := by decide

theorem notText_iff (d : Doc F) (ti : List Str) (hn : NoVector d.props) :
    NotText ti d.props ↔ ∃ e, textOf (d.props.set idName (.str d.id)) ti = .error e := by
  constructor
  · rintro ⟨_, k, hk, hne, v, hv, hs⟩
    cases ht : textOf (d.props.set idName (.str d.id)) ti with
    | error e => exact ⟨e, rfl⟩
    | ok t =>
      obtain ⟨s, rfl⟩ := textOf_ok ht k hk v (by rw [Map.get_set, if_neg hne]; exact hv)
      exact absurd rfl (hs s)
  · rintro ⟨e, he⟩
    obtain ⟨_, k, hk, v, hv, hs⟩ := textOf_error he
    rw [Map.get_set] at hv
    split at hv
    · cases hv; exact absurd rfl (hs _)
    · rename_i hne; exact ⟨hn, k, hk, hne, v, hv, hs⟩

theorem map_numbersOf {l : List (Elem F)} {v : List F} (h : numbersOf l = some v) : l.map Elem.value = v.map some := by
  unfold numbersOf at h
  split at h
  · rename_i hall
    cases h
    induction l with
    | nil => rfl
    | cons e l ih =>
      obtain ⟨x, hx⟩ := Option.isSome_iff_exists.mp (hall e (by simp))
      have hrec := ih (fun e' he' => hall e' (List.mem_cons_of_mem _ he'))
      rw [List.filterMap_cons, hx, List.map_cons, hx, hrec]
      simp
  · cases h

/-- exactly when a document makes the request crash -/
theorem addOne_panic (E : Env F D) (o : Oracle F D) (lk : Bool) (ti : List Str) (i : Nat) {b : Batch F} (h : Sound E.P.cacheSize b.idx) (d : Option (Doc F)) :
    (addOne E o lk ti i b d).2 = some .panic ↔ DocCrash E o lk ti i b.next d := by
  cases d with
  | none => exact ⟨fun _ => trivial, fun _ => rfl⟩
  | some d =>
    have hget : (d.props.set idName (.str d.id)).get vectorName = d.props.get vectorName := by
      rw [Map.get_set, if_neg (Ne.symm idName_ne_vectorName)]
    have own : ∀ vec, ¬NoVector d.props → vectorOf o ti i d = some vec → (DocCrash E o lk ti i b.next (some d) ↔ E.P.metric.len vec ≠ 0 ∧ E.P.cacheSize ≤ b.next) := by
      intro vec hnv hvec
      unfold DocCrash NotText Unanswered
      constructor
      · rintro (⟨hc, _⟩ | ⟨hc, _⟩ | ⟨h1, _, vec', h2, h3⟩)
        · exact absurd hc hnv
        · exact absurd hc hnv
        · rw [hvec] at h2; cases h2; exact ⟨h3, h1⟩
      · rintro ⟨h1, h2⟩; exact .inr (.inr ⟨h2, .inr hnv, vec, hvec, h1⟩)
    have none' : ¬NoVector d.props → vectorOf o ti i d = none → ¬DocCrash E o lk ti i b.next (some d) := by
      intro hnv hvec
      unfold DocCrash NotText Unanswered
      rintro (⟨hc, _⟩ | ⟨hc, _⟩ | ⟨_, _, vec', h2, _⟩)
      · exact absurd hc hnv
      · exact absurd hc hnv
      · rw [hvec] at h2; cases h2
    have text : NoVector d.props → (vectorOf o ti i d = match textOf (d.props.set idName (.str d.id)) ti with
          | .ok (ch :: t) => (match o.corpi i (ch :: t) with | .vec v => some v | _ => none)
          | _ => none) →
        ((match textOf (d.props.set idName (.str d.id)) ti with
          | .error e => (b, some e)
          | .ok text =>
            if text = [] then storeDoc E o i b ((d.props.set idName (.str d.id)).set hnswName (.int (-1))) none
            else if !lk then (b, some .error)
            else
              match o.corpi i text with
              | .fail => ({ b with log := b.log ++ [Res.noVector] }, none)
              | .nil => (b, some .panic)
              | .vec vec => indexDoc E o i b ((d.props.set idName (.str d.id)).set hnswName (.int b.next)) vec).2 = some .panic ↔
          DocCrash E o lk ti i b.next (some d)) := by
      intro hn hv
      have hnt := notText_iff d ti hn
      cases ht : textOf (d.props.set idName (.str d.id)) ti with
      | error e =>
        rw [ht] at hnt
        have := (textOf_error ht).1
        subst this
        exact ⟨fun _ => .inl (hnt.mpr ⟨_, rfl⟩), fun _ => rfl⟩
      | ok t =>
        rw [ht] at hnt hv
        have hnt : ¬NotText ti d.props := fun hc => by obtain ⟨e, he⟩ := hnt.mp hc; cases he
        have hund : Unanswered o lk ti i d ↔ lk = true ∧ t ≠ [] ∧ o.corpi i t = .nil := by
          unfold Unanswered
          rw [ht]
          constructor
          · rintro ⟨_, h1, t', e, h2, h3⟩; cases e; exact ⟨h1, h2, h3⟩
          · rintro ⟨h1, h2, h3⟩; exact ⟨hn, h1, t, rfl, h2, h3⟩
        simp only [DocCrash, hund, hnt, false_or]
        cases t with
        | nil =>
          simp only at hv
          simp only [if_true, hv]
          exact ⟨fun hc => absurd hc (storeDoc_calm _ _ _ _ _ _), fun hc => by simp at hc⟩
        | cons ch t =>
          simp only at hv
          simp only [reduceCtorEq, if_false]
          cases lk with
          | false =>
            simp only [Bool.not_false, if_true, Bool.false_eq_true, false_and, false_or]
            exact ⟨fun hc => by simp at hc, fun hc => absurd hn hc.2.1⟩
          | true =>
            simp only [Bool.not_true, Bool.false_eq_true, if_false]
            cases hc : o.corpi i (ch :: t) with
            | fail => rw [hc] at hv; simp [hv]
            | nil => simp
            | vec vec =>
              rw [hc] at hv
              simp only at hv ⊢
              rw [indexDoc_panic E o i h, hv]
              simp [and_comm]
    unfold addOne
    simp only [hget]
    split
    · rename_i l hl
      have hnv : ¬NoVector d.props := by unfold NoVector; rw [hl]; simp
      split
      · rename_i hp
        refine ⟨fun hc => by simp at hc, fun hc => absurd hc (none' hnv ?_)⟩
        unfold vectorOf
        rw [hl]
        simp only
        cases hno : numbersOf l with
        | none => rfl
        | some vec =>
          rw [parseVec_map.mpr (map_numbersOf hno)] at hp
          cases hp
      · rename_i vec hvec
        rw [indexDoc_panic E o i h]
        exact (own vec hnv (by unfold vectorOf; rw [hl]; exact numbersOf_map (parseVec_map.mp hvec))).symm
    · rename_i vec hvec
      rw [indexDoc_panic E o i h]
      exact (own vec (by unfold NoVector; rw [hvec]; simp) (by unfold vectorOf; rw [hvec])).symm
    iterate 3
      rename_i hx
      exact ⟨fun hc => by simp at hc, fun hc => absurd hc (none' (by unfold NoVector; rw [hx]; simp) (by unfold vectorOf; rw [hx]))⟩
    · rename_i hx
      exact text (.inr hx) (by unfold vectorOf; rw [hx]; rfl)
    · rename_i hx
      exact text (.inl hx) (by unfold vectorOf; rw [hx]; rfl)

/-- a batch in progress -/
structure Going (E : Env F D) (b : Batch F) : Prop where
  sound : Sound E.P.cacheSize b.idx
  first : First b.idx → b.next = 0

theorem addOne_going {E : Env F D} (hc : 0 < E.P.cacheSize) (o : Oracle F D) (lk : Bool) (ti : List Str) (i : Nat) {b : Batch F} (h : Going E b)
    (d : Option (Doc F)) : Going E (addOne E o lk ti i b d).1 ∧ (addOne E o lk ti i b d).1.next ≤ b.next + 1 := by
  have index : ∀ p vec, Going E (indexDoc E o i b p vec).1 ∧ (indexDoc E o i b p vec).1.next ≤ b.next + 1 := by
    intro p vec
    have h1 := (Index.add_calm (o.vo i) (o.sched i) h.sound b.next vec (o.level i)).2 (fun hf => by rw [h.first hf]; exact hc)
    have h2 := Index.add_first (P := E.P) (o.vo i) (o.sched i) h.sound.ids b.next vec (o.level i)
    unfold indexDoc
    split
    · rename_i he; rw [he] at h1 h2; exact ⟨⟨h1, fun hf => h.first (h2 hf).1⟩, Nat.le_succ _⟩
    · rename_i he; rw [he] at h1 h2; exact ⟨⟨h1, fun hf => h.first (h2 hf).1⟩, Nat.le_succ _⟩
    · rename_i idx he
      rw [he] at h1 h2
      obtain ⟨e1, e2⟩ := storeDoc_idx E o i { b with idx := idx, next := b.next + 1 } p (some b.next)
      refine ⟨⟨by rw [e1]; exact h1, fun hf => ?_⟩, by rw [e2]; exact Nat.le_refl _⟩
      rw [e1] at hf
      exact absurd rfl (h2 hf).2
  have same : Going E b ∧ b.next ≤ b.next + 1 := ⟨h, Nat.le_succ _⟩
  have store : ∀ p n, Going E (storeDoc E o i b p n).1 ∧ (storeDoc E o i b p n).1.next ≤ b.next + 1 := by
    intro p n
    obtain ⟨e1, e2⟩ := storeDoc_idx E o i b p n
    exact ⟨⟨by rw [e1]; exact h.sound, by rw [e1, e2]; exact h.first⟩, by rw [e2]; exact Nat.le_succ _⟩
  cases d with
  | none => exact same
  | some d =>
    unfold addOne
    simp only
    split
    · split
      · exact same
      · exact index ..
    · exact index ..
    · exact same
    · exact same
    · exact same
    all_goals
      split
      · exact same
      · split
        · exact store ..
        · split
          · exact same
          · split
            · exact ⟨⟨h.sound, h.first⟩, Nat.le_succ _⟩
            · exact same
            · exact index ..

theorem addLoop_going {E : Env F D} (hc : 0 < E.P.cacheSize) (o : Oracle F D) (lk : Bool) (ti : List Str) (docs : List (Option (Doc F))) (i : Nat) {b : Batch F}
    (h : Going E b) : Going E (addLoop E o lk ti i docs b).1 ∧
      ((addLoop E o lk ti i docs b).2 = some .panic → ∃ j d n, docs[j]? = some d ∧ n ≤ b.next + j ∧ DocCrash E o lk ti (i + j) n d) := by
  induction docs generalizing i b with
  | nil => exact ⟨h, fun hc => by cases hc⟩
  | cons d docs ih =>
    obtain ⟨h1, h2⟩ := addOne_going hc o lk ti i h d
    have hp := addOne_panic E o lk ti i h.sound d
    unfold addLoop
    split
    · rename_i he
      rw [he] at h1 hp
      exact ⟨h1, fun hc => ⟨0, d, b.next, rfl, Nat.le_refl _, hp.mp hc⟩⟩
    · rename_i b1 he
      rw [he] at h1 h2
      have h2 : b1.next ≤ b.next + 1 := h2
      obtain ⟨h3, h4⟩ := ih (i + 1) h1
      refine ⟨h3, fun hc => ?_⟩
      obtain ⟨j, d', n, e1, e2, e3⟩ := h4 hc
      exact ⟨j + 1, d', n, e1, by omega, by rw [show i + (j + 1) = i + 1 + j by omega]; exact e3⟩

theorem Move.sound {n : Nat} {s t : Index (List F)} (h : Move s t) (hs : Sound n s) : Sound n t := by
  induction h with
  | refl => exact hs
  | reopen _ ih => exact ih.reopen
  | load _ ih => exact ih.scalars rfl rfl
  | unread _ ih => exact ih.scalars rfl rfl

theorem flushCut_sound {P : Params (List F) D} {n : Nat} {cut : Option Nat} {s : Index (List F)} {order : List Nat} {m : Nat} (h : Sound n s) :
    Sound n (flushCut P cut s order m).1 := by
  unfold flushCut
  simp only
  split
  · exact h.flush P order m
  · split
    · exact h.flushed ((List.take_prefix _ _).trans (Index.flushUpToBad_prefix P (s.flushWrites order m)).1)
    · exact h.flush P order m

theorem flushCut_calm {P : Params (List F) D} {cut : Option Nat} {s : Index (List F)} {order : List Nat} {m : Nat} :
    (flushCut P cut s order m).2 ≠ some .panic := by
  have hb : ∀ ws : List (Index.Write (List F)), (Index.flushUpToBad P ws).2 ≠ some .panic := by
    intro ws
    induction ws with
    | nil => simp [Index.flushUpToBad]
    | cons w ws ih =>
      cases w with
      | node v => unfold Index.flushUpToBad; split; exact ih; simp
      | entry _ => exact ih
      | count _ => exact ih
  unfold flushCut
  simp only
  split
  · exact hb _
  · split
    · simp
    · exact hb _

/-- the opening panics only without pod, and gives an index object unless the database was open without one -/
theorem ensureOpen_calm (o : Oracle F D) (w : World F) (name : Str) :
    ((ensureOpen o w (ns ++ name)).2 = some .panic → w.pod = false) ∧
    ((ensureOpen o w (ns ++ name)).2 = none → ((ensureOpen o w (ns ++ name)).1.coll (ns ++ name)).hasIdx = false → NoIndex w name) := by
  unfold ensureOpen
  split
  · rename_i h; exact ⟨fun _ => by simpa using h, fun hc => by cases hc⟩
  split
  · exact ⟨fun hc => by simp at hc, fun hc => by cases hc⟩
  simp only [setColl_self, setColl_setColl, setColl_session, setColl_dbs]
  split
  · exact ⟨fun hc => by simp at hc, fun hc => by cases hc⟩
  split
  · rename_i h
    refine ⟨fun hc => by simp at hc, fun _ hh => ?_⟩
    rw [setColl_self] at hh
    exact ⟨h, hh⟩
  split
  · exact ⟨fun hc => by simp at hc, fun hc => by cases hc⟩
  split
  · exact ⟨fun hc => by simp at hc, fun hc => by cases hc⟩
  · refine ⟨fun hc => by simp at hc, fun _ hh => ?_⟩
    rw [setColl_self] at hh
    cases hh

theorem addFinish_sound {E : Env F D} (hc : 0 < E.P.cacheSize) (o : Oracle F D) (w : World F) (name : Str) (ti : List Str) (docs : List (Option (Doc F)))
    (hs : Sound E.P.cacheSize (w.coll (ns ++ name)).idx) :
    Sound E.P.cacheSize ((addFinish E o w name ti docs (if o.count then 0 else (w.coll (ns ++ name)).idx.docCount.getD 0)).1.coll (ns ++ name)).idx ∧
    ((addFinish E o w name ti docs (if o.count then 0 else (w.coll (ns ++ name)).idx.docCount.getD 0)).2.2 = some .panic →
      ∃ j d n, docs[j]? = some d ∧ n ≤ (if o.count then 0 else w.count (ns ++ name)) + j ∧ DocCrash E o w.lookup ti j n d) := by
  have hg : Going E (⟨(w.coll (ns ++ name)).idx, ((w.dbs.get (ns ++ name)).getD ⟨[], []⟩).docs,
      if o.count then 0 else (w.coll (ns ++ name)).idx.docCount.getD 0, []⟩ : Batch F) := by
    refine ⟨hs, fun hf => ?_⟩
    have : (w.coll (ns ++ name)).idx.kvCount = none := by
      have := hf.2
      simp only [Index.isEmpty, Bool.and_eq_true, Option.isNone_iff_eq_none] at this
      exact this.2
    simp only [Index.docCount, this]
    split <;> rfl
  obtain ⟨h1, h2⟩ := addLoop_going hc o w.lookup ti docs 0 hg
  unfold addFinish
  simp only
  split
  · rename_i e he
    refine ⟨?_, fun hp => ?_⟩
    · show Sound _ ((World.setColl _ _ _).coll _).idx
      rw [setColl_self]; exact h1.sound
    · obtain ⟨j, d, n, e1, e2, e3⟩ := h2 (he.trans hp)
      exact ⟨j, d, n, e1, e2, by rw [Nat.zero_add] at e3; exact e3⟩
  · split
    · rename_i hr e he
      refine ⟨?_, fun hp => ?_⟩
      · rw [setColl_self]; exact flushCut_sound h1.sound
      · exact absurd (he.trans hp) flushCut_calm
    · refine ⟨?_, fun hp => ?_⟩
      · rw [setColl_self]; exact flushCut_sound h1.sound
      · simp only at hp; split at hp <;> simp at hp

theorem addDocuments_sound {E : Env F D} (hc : 0 < E.P.cacheSize) (o : Oracle F D) (w : World F) (name : Str) (ti : List Str) (docs : List (Option (Doc F)))
    (hs : Sound E.P.cacheSize (w.coll (ns ++ name)).idx) :
    Sound E.P.cacheSize ((addDocuments E o w name ti docs).1.coll (ns ++ name)).idx ∧
    ((addDocuments E o w name ti docs).2.2 = some .panic → Cause E w (.add o name ti docs)) := by
  have h1 := (calm_ensureOpen o w (ns ++ name)).move.sound hs
  have h2 := (calm_ensureOpen o w (ns ++ name)).move.kvCount
  have h3 := ensureOpen_calm o w name
  have h4 := (onlyAt_ensureOpen o w (ns ++ name)).lookup
  unfold addDocuments addBegin
  simp only
  cases hop : ensureOpen o w (ns ++ name) with
  | mk w1 oe =>
    rw [hop] at h1 h2 h3 h4
    cases oe with
    | some e => exact ⟨h1, fun hp => .inl (h3.1 hp)⟩
    | none =>
      simp only
      cases hh : (w1.coll (ns ++ name)).hasIdx with
      | false => exact ⟨h1, fun _ => .inr (.inl (h3.2 rfl hh))⟩
      | true =>
        obtain ⟨g1, g2⟩ := addFinish_sound hc o w1 name ti docs h1
        refine ⟨g1, fun hp => .inr (.inr ?_)⟩
        obtain ⟨j, d, n, e1, e2, e3⟩ := g2 hp
        have hcount : w1.count (ns ++ name) = w.count (ns ++ name) := congrArg (·.getD 0) h2
        have h4 : w1.lookup = w.lookup := h4
        rw [hcount] at e2
        rw [h4] at e3
        exact ⟨j, d, n, e1, e2, e3⟩

theorem lookupAll_calm (o : Oracle F D) (docs : List (Props F)) (i : Nat) (ids : List Nat) : lookupAll o docs i ids ≠ .error .panic := by
  induction ids generalizing i with
  | nil => simp [lookupAll]
  | cons id ids ih =>
    unfold lookupAll
    split
    · simp
    · split
      · simp
      · split
        · rename_i e he; intro hc; cases hc; exact ih _ he
        · simp

theorem nearWith_calm {E : Env F D} (o : Oracle F D) (w : World F) (c : Str) (hs : Sound E.P.cacheSize (w.coll c).idx) (q : List F) (max : D) (ef limit : Int)
    (hp : (nearWith E o w c q max ef limit).2 = .error .panic) : (w.coll c).hasIdx = false ∨ limit < 0 := by
  unfold nearWith at hp
  split at hp
  · rename_i h; exact .inl (by simpa using h)
  · simp only at hp
    right
    have hk := Graph.knnMaxDist_calm (Index.Sound.fits ((Move.loaded (.refl (w.coll c).idx) o).sound hs)) (o.sched 0) q max ef none
    split at hp
    · rename_i e he; cases hp; exact absurd he hk
    · rename_i ids dists _
      split at hp
      · rename_i e he
        cases hp
        unfold truncate at he
        split at he
        · split at he
          · assumption
          · cases he
        · cases he
      · split at hp
        · rename_i e he; cases hp; exact absurd he (lookupAll_calm _ _ _ _)
        · cases hp

/-- all collections of the pod have sound indices -/
def SoundAll (E : Env F D) (w : World F) : Prop := ∀ name, Sound E.P.cacheSize (w.coll (ns ++ name)).idx

theorem soundAll_serve {E : Env F D} (hc : 0 < E.P.cacheSize) {w : World F} (h : SoundAll E w) (r : Req F D) : SoundAll E (serve E w r).1 := by
  intro name
  have hw := h name
  by_cases ha : ∃ o ti docs, r = .add o name ti docs
  · obtain ⟨o, ti, docs, rfl⟩ := ha
    exact (addDocuments_sound hc o w name ti docs hw).1
  by_cases hd : ∃ o, r = .delete o name
  · obtain ⟨o, rfl⟩ := hd
    show Sound _ ((delete o w name).1.coll (ns ++ name)).idx
    rcases delete_cases o w name with ⟨h, _⟩ | ⟨_, _, h⟩
    · rw [h]; exact hw
    · rw [h]
      split
      · exact hw.reopen
      · exact Index.sound_init _
  exact (calm_serve E w r name (fun o ti docs h => ha ⟨o, ti, docs, h⟩) (fun o h => hd ⟨o, h⟩)).move.sound hw

theorem soundAll_run {E : Env F D} (hc : 0 < E.P.cacheSize) (rs : List (Req F D)) {w : World F} (h : SoundAll E w) : SoundAll E (run E w rs) := by
  induction rs generalizing w with
  | nil => exact h
  | cons r rs ih => rw [run_cons]; exact ih (soundAll_serve hc h r)

theorem soundAll_fresh (E : Env F D) (lookup : Bool) (dbs : Map (Db F)) : SoundAll E (World.fresh lookup dbs) := fun _ => Index.sound_init _

/-- a request crashes only for one of the causes -/
theorem serve_cause {E : Env F D} (hc : 0 < E.P.cacheSize) {w : World F} (h : SoundAll E w) (r : Req F D) (hp : (serve E w r).2 = .failed .panic) : Cause E w r := by
  have ofErr : ∀ e : Option Err, (Ans.ofErr e : Ans F D) = .failed .panic → e = some .panic := by
    intro e he
    cases e with
    | none => cases he
    | some e => cases he; rfl
  have ofNear : ∀ e : Except Err (List (Props F) × List D), (Ans.ofNear e : Ans F D) = .failed .panic → e = .error .panic := by
    intro e he
    cases e with
    | ok _ => cases he
    | error e => cases he; rfl
  have near : ∀ (o : Oracle F D) name, Sound E.P.cacheSize ((ensureOpen o w (ns ++ name)).1.coll (ns ++ name)).idx := fun o name =>
    (calm_ensureOpen o w (ns ++ name)).move.sound (h name)
  cases r with
  | login ok =>
    have := ofErr _ hp
    unfold login at this
    split at this <;> simp at this
  | openPod ok =>
    have := ofErr _ hp
    unfold openPod at this
    split at this
    · simp at this
    · split at this <;> simp at this
  | create o name ix =>
    have := ofErr _ hp
    unfold create at this
    simp only at this
    repeat' split at this
    all_goals simp at this
  | delete o name =>
    have := ofErr _ hp
    unfold delete at this
    simp only at this
    repeat' split at this
    all_goals simp at this
  | list o =>
    simp only [serve] at hp
    split at hp
    · rename_i e he
      cases hp
      unfold list at he
      repeat' split at he
      all_goals cases he
    · cases hp
  | add o name ti docs => exact (addDocuments_sound hc o w name ti docs (h name)).2 (ofErr _ hp)
  | nearVector o name q max limit =>
    have hp := ofNear _ hp
    have h1 := near o name
    have h3 := ensureOpen_calm o w name
    unfold nearVector at hp
    cases hop : ensureOpen o w (ns ++ name) with
    | mk w1 oe =>
      rw [hop] at h1 h3 hp
      cases oe with
      | some e => cases hp; exact .inl (h3.1 rfl)
      | none =>
        rcases nearWith_calm o w1 _ h1 q max 800 limit hp with h5 | h5
        · exact .inr (.inl (h3.2 rfl h5))
        · exact .inr (.inr h5)
  | nearText o name text max limit =>
    have hp := ofNear _ hp
    have h1 := near o name
    have h3 := ensureOpen_calm o w name
    have h4 := (onlyAt_ensureOpen o w (ns ++ name)).lookup
    unfold nearText at hp
    cases hop : ensureOpen o w (ns ++ name) with
    | mk w1 oe =>
      rw [hop] at h1 h3 hp h4
      cases oe with
      | some e => cases hp; exact .inl (h3.1 rfl)
      | none =>
        simp only at hp
        have h4 : w1.lookup = w.lookup := h4
        split at hp
        · cases hp
        · rename_i hl
          split at hp
          · cases hp
          · rename_i hn
            exact .inr (.inl ⟨by rw [← h4]; simpa using hl, hn⟩)
          · rcases nearWith_calm o w1 _ h1 _ max limit limit hp with h5 | h5
            · exact .inr (.inr (.inl (h3.2 rfl h5)))
            · exact .inr (.inr (.inr h5))
  | get o sat name p v =>
    simp only [serve] at hp
    split at hp
    · rename_i e he
      cases hp
      unfold getDocument at he
      simp only at he
      repeat' split at he
      all_goals cases he
    · cases hp
  | restart => cases hp

end Fave.Client
