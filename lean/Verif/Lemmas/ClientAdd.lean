import Verif.Lemmas.ClientRun
import Verif.Lemmas.History
import Verif.Spec.ClientAdd
/-! # Adding documents: what becomes of each document, numbers, flush -/
namespace Fave.Client
variable {F D : Type} [Dist D] [DecidableEq F]

theorem parseVec_map {l : List (Elem F)} {v : List F} : parseVec l = some v ↔ l.map Elem.value = v.map some := by
  induction l generalizing v with
  | nil => cases v <;> simp [parseVec]
  | cons e es ih =>
    cases v with
    | nil =>
      unfold parseVec
      constructor
      · intro h; split at h <;> cases h
      · intro h; cases h
    | cons x xs =>
      have hi := @ih xs
      unfold parseVec
      constructor
      · intro h
        split at h
        · rename_i a b ha hb
          cases h
          simp [ha, hi.mp hb]
        · cases h
      · intro h
        simp only [List.map_cons, List.cons.injEq] at h
        rw [h.1, hi.mpr h.2]

theorem numbersOf_map {l : List (Elem F)} {v : List F} (h : l.map Elem.value = v.map some) : numbersOf l = some v := by
  induction l generalizing v with
  | nil => cases v with | nil => simp [numbersOf] | cons => cases h
  | cons e es ih =>
    cases v with
    | nil => cases h
    | cons x xs =>
      simp only [List.map_cons, List.cons.injEq] at h
      have hi := ih h.2
      unfold numbersOf at hi ⊢
      split at hi
      · rename_i hall
        rw [if_pos (by intro y hy; rcases List.mem_cons.mp hy with rfl | hy; rw [h.1]; rfl; exact hall y hy)]
        rw [List.filterMap_cons, h.1]
        simp only [Option.some.injEq] at hi ⊢
        rw [hi]
      · cases hi

/-- the possible outcomes for a document that does not end the request -/
inductive Step (E : Env F D) (o : Oracle F D) (ti : List Str) (i : Nat) (b : Batch F) (d : Doc F) : Batch F → Res → Prop where
  | plain (p : Props F) : o.marshal i = false → vectorOf o ti i d = none → textOf (d.props.set idName (.str d.id)) ti = .ok [] → StoredAs d (-1) p →
      Step E o ti i b d { b with docs := putDoc E.replace b.docs p, log := b.log ++ [.plain] } .plain
  | lost : o.marshal i = true → vectorOf o ti i d = none → Step E o ti i b d { b with log := b.log ++ [.unmarshalled none] } (.unmarshalled none)
  | noVector (text : Str) : text ≠ [] → o.corpi i text = .fail → vectorOf o ti i d = none →
      Step E o ti i b d { b with log := b.log ++ [.noVector] } .noVector
  | refused (vec : List F) (idx : Index (List F)) (e : Err) : vectorOf o ti i d = some vec →
      Index.add E.P (o.vo i) (o.sched i) b.idx b.next vec (o.level i) = (idx, some e) → e ≠ .panic →
      Step E o ti i b d { b with idx := idx, log := b.log ++ [.refused] } .refused
  | dropped (vec : List F) (idx : Index (List F)) : vectorOf o ti i d = some vec →
      Index.add E.P (o.vo i) (o.sched i) b.idx b.next vec (o.level i) = (idx, none) → o.marshal i = true →
      Step E o ti i b d { b with idx := idx, next := b.next + 1, log := b.log ++ [.unmarshalled (some b.next)] } (.unmarshalled (some b.next))
  | indexed (vec : List F) (idx : Index (List F)) (p : Props F) : vectorOf o ti i d = some vec →
      Index.add E.P (o.vo i) (o.sched i) b.idx b.next vec (o.level i) = (idx, none) → o.marshal i = false → StoredAs d b.next p →
      Step E o ti i b d { b with idx := idx, next := b.next + 1, docs := putDoc E.replace b.docs p, log := b.log ++ [.indexed b.next] }
        (.indexed b.next)

theorem idName_ne_hnsw : idName ≠ hnswName := by decide
theorem idName_ne_vector : idName ≠ vectorName := by decide
theorem hnsw_ne_vector : hnswName ≠ vectorName := by decide

theorem storedAs_set (d : Doc F) (n : Int) : StoredAs d n ((d.props.set idName (.str d.id)).set hnswName (.int n)) := by
  refine ⟨?_, Map.get_set_self .., ?_⟩
  · rw [Map.get_set, if_neg idName_ne_hnsw, Map.get_set_self]
  · intro k h1 h2 _; rw [Map.get_set, if_neg h2, Map.get_set, if_neg h1]

theorem storedAs_del {d : Doc F} {n : Int} {p : Props F} (h : StoredAs d n p) : StoredAs d n (p.del vectorName) := by
  refine ⟨?_, ?_, ?_⟩
  · rw [Map.get_del, if_neg idName_ne_vector]; exact h.id
  · rw [Map.get_del, if_neg hnsw_ne_vector]; exact h.number
  · intro k h1 h2 h3; rw [Map.get_del, if_neg h3]; exact h.rest k h1 h2 h3

theorem indexDoc_step {E : Env F D} {o : Oracle F D} {ti : List Str} {i : Nat} {b b' : Batch F} {d : Doc F} {p : Props F} {vec : List F}
    (hv : vectorOf o ti i d = some vec) (hp : StoredAs d b.next p) (h : indexDoc E o i b p vec = (b', none)) : ∃ r, Step E o ti i b d b' r := by
  unfold indexDoc at h
  split at h
  · cases h
  · rename_i idx e hne hadd
    cases h
    exact ⟨_, .refused vec idx e hv hadd hne⟩
  · rename_i idx hadd
    unfold storeDoc at h
    split at h
    · rename_i hm; cases h; exact ⟨_, .dropped vec idx hv hadd hm⟩
    · rename_i hm
      split at h
      · cases h
      · cases h; exact ⟨_, .indexed vec idx p hv hadd (by simpa using hm) hp⟩

theorem addOne_step {E : Env F D} {o : Oracle F D} {lk : Bool} {ti : List Str} {i : Nat} {b b' : Batch F} {d : Option (Doc F)}
    (h : addOne E o lk ti i b d = (b', none)) : ∃ d0 r, d = some d0 ∧ Step E o ti i b d0 b' r := by
  cases d with
  | none => cases h
  | some d =>
    have hget : (d.props.set idName (.str d.id)).get vectorName = d.props.get vectorName := by
      rw [Map.get_set, if_neg (Ne.symm idName_ne_vector)]
    have hp := fun n => storedAs_set d n
    have key : ∀ (hvn : ∀ t, textOf (d.props.set idName (.str d.id)) ti = .ok t → vectorOf o ti i d =
          match t with | ch :: t => (match o.corpi i (ch :: t) with | .vec v => some v | _ => none) | [] => none),
        (match textOf (d.props.set idName (.str d.id)) ti with
          | .error e => (b, some e)
          | .ok text =>
            if text = [] then storeDoc E o i b ((d.props.set idName (.str d.id)).set hnswName (.int (-1))) none
            else if !lk then (b, some .error)
            else
              match o.corpi i text with
              | .fail => ({ b with log := b.log ++ [.noVector] }, none)
              | .nil => (b, some .panic)
              | .vec vec => indexDoc E o i b ((d.props.set idName (.str d.id)).set hnswName (.int b.next)) vec) = (b', none) →
        ∃ d0 r, some d = some d0 ∧ Step E o ti i b d0 b' r := by
      intro hvn h
      split at h
      · cases h
      · rename_i text htext
        have hvn := hvn text htext
        split at h
        · rename_i ht
          subst ht
          unfold storeDoc at h
          split at h
          · rename_i hm; cases h; exact ⟨d, _, rfl, .lost hm hvn⟩
          · rename_i hm
            split at h
            · cases h
            · cases h; exact ⟨d, _, rfl, .plain _ (by simpa using hm) hvn htext (hp _)⟩
        · rename_i ht
          split at h
          · cases h
          · cases text with
            | nil => exact absurd rfl ht
            | cons ch t =>
              simp only at hvn
              split at h
              · rename_i hc; cases h; rw [hc] at hvn; exact ⟨d, _, rfl, .noVector _ ht hc hvn⟩
              · cases h
              · rename_i vec hc
                rw [hc] at hvn
                obtain ⟨r, hr⟩ := indexDoc_step hvn (hp _) h
                exact ⟨d, r, rfl, hr⟩
    unfold addOne at h
    simp only [hget] at h
    split at h
    · rename_i l hl
      split at h
      · cases h
      · rename_i vec hvec
        obtain ⟨r, hr⟩ := indexDoc_step (ti := ti) (by unfold vectorOf; rw [hl]; exact numbersOf_map (parseVec_map.mp hvec)) (storedAs_del (hp _)) h
        exact ⟨d, r, rfl, hr⟩
    · rename_i vec hvec
      obtain ⟨r, hr⟩ := indexDoc_step (ti := ti) (by unfold vectorOf; rw [hvec]) (storedAs_del (hp _)) h
      exact ⟨d, r, rfl, hr⟩
    · cases h
    · cases h
    · cases h
    · rename_i hn
      refine key ?_ h
      intro t ht; unfold vectorOf; rw [hn]; simp only [ht]
      cases t <;> rfl
    · rename_i hn
      refine key ?_ h
      intro t ht; unfold vectorOf; rw [hn]; simp only [ht]
      cases t <;> rfl

/-- the steps of a batch that reaches its end -/
inductive Steps (E : Env F D) (o : Oracle F D) (ti : List Str) : Nat → List (Doc F) → Batch F → Batch F → List Res → Prop where
  | nil (i : Nat) (b : Batch F) : Steps E o ti i [] b b []
  | cons {i : Nat} {d : Doc F} {ds : List (Doc F)} {b b' b'' : Batch F} {r : Res} {rs : List Res} :
      Step E o ti i b d b' r → Steps E o ti (i + 1) ds b' b'' rs → Steps E o ti i (d :: ds) b b'' (r :: rs)

theorem addLoop_steps {E : Env F D} {o : Oracle F D} {lk : Bool} {ti : List Str} (docs : List (Option (Doc F))) {i : Nat} {b b' : Batch F}
    (h : addLoop E o lk ti i docs b = (b', none)) : ∃ ds rs, docs = ds.map some ∧ Steps E o ti i ds b b' rs := by
  induction docs generalizing i b with
  | nil => cases h; exact ⟨[], [], rfl, .nil _ _⟩
  | cons d docs ih =>
    unfold addLoop at h
    split at h
    · cases h
    · rename_i b1 h1
      obtain ⟨d0, r, rfl, hs⟩ := addOne_step h1
      obtain ⟨ds, rs, rfl, hss⟩ := ih h
      exact ⟨d0 :: ds, r :: rs, rfl, .cons hs hss⟩

theorem Step.log {E : Env F D} {o : Oracle F D} {ti : List Str} {i : Nat} {b b' : Batch F} {d : Doc F} {r : Res} (h : Step E o ti i b d b' r) :
    b'.log = b.log ++ [r] := by cases h <;> rfl

theorem Step.next {E : Env F D} {o : Oracle F D} {ti : List Str} {i : Nat} {b b' : Batch F} {d : Doc F} {r : Res} (h : Step E o ti i b d b' r) :
    r.number = none ∧ b'.next = b.next ∨ r.number = some b.next ∧ b'.next = b.next + 1 := by
  cases h <;> simp [Res.number]

theorem Steps.log {E : Env F D} {o : Oracle F D} {ti : List Str} {i : Nat} {ds : List (Doc F)} {b b' : Batch F} {rs : List Res}
    (h : Steps E o ti i ds b b' rs) : b'.log = b.log ++ rs ∧ rs.length = ds.length := by
  induction h with
  | nil => simp
  | cons h1 _ ih => rw [ih.1, h1.log]; simp [ih.2]

/-- the numbers are consecutive -/
theorem Steps.numbers {E : Env F D} {o : Oracle F D} {ti : List Str} {i : Nat} {ds : List (Doc F)} {b b' : Batch F} {rs : List Res}
    (h : Steps E o ti i ds b b' rs) : given rs = List.range' b.next (given rs).length ∧ b'.next = b.next + (given rs).length := by
  induction h with
  | nil => simp [given]
  | cons h1 _ ih =>
    rcases h1.next with ⟨h2, h3⟩ | ⟨h2, h3⟩
    · simp only [given, List.filterMap_cons, h2] at ih ⊢
      rw [h3] at ih; exact ih
    · simp only [given, List.filterMap_cons, h2] at ih ⊢
      rw [h3] at ih
      refine ⟨?_, by rw [ih.2, List.length_cons]; omega⟩
      rw [List.length_cons, List.range'_succ, ← ih.1]

theorem docNumber_int {p : Props F} {n : Nat} (h : p.get hnswName = some (.int n)) : docNumber p = some n := by
  unfold docNumber; rw [h]

theorem docNumber_neg {p : Props F} (h : p.get hnswName = some (.int (-1))) : docNumber p = none := by
  unfold docNumber; rw [h]; rfl

theorem docNumber_some {p : Props F} {n : Nat} (h : docNumber p = some n) : p.get hnswName = some (.int n) := by
  unfold docNumber at h
  split at h
  · rename_i m hm; cases h; exact hm
  · cases h

theorem docNumbers_put (replace : Bool) (docs : List (Props F)) (p : Props F) :
    (docNumbers (putDoc replace docs p)).Sublist (docNumbers docs ++ (docNumber p).toList) := by
  unfold putDoc docNumbers
  rw [List.filterMap_append]
  refine List.Sublist.append ?_ (by cases h : docNumber p <;> simp [h])
  split
  · exact List.Sublist.filterMap _ (List.filter_sublist)
  · exact List.Sublist.refl _

theorem Step.docNumbers {E : Env F D} {o : Oracle F D} {ti : List Str} {i : Nat} {b b' : Batch F} {d : Doc F} {r : Res}
    (h : Step E o ti i b d b' r) : (docNumbers b'.docs).Sublist (docNumbers b.docs ++ given [r]) := by
  cases h with
  | plain p _ _ _ hp => have := docNumbers_put E.replace b.docs p; rw [docNumber_neg hp.number] at this; exact this
  | lost => simp [given, Res.number]
  | noVector => simp [given, Res.number]
  | refused => simp [given, Res.number]
  | dropped => simp [given, Res.number]
  | indexed vec idx p _ _ _ hp => have := docNumbers_put E.replace b.docs p; rw [docNumber_int hp.number] at this; exact this

theorem given_cons (r : Res) (rs : List Res) : given (r :: rs) = given [r] ++ given rs := by
  unfold given; rw [← List.filterMap_append]; rfl

theorem Steps.docNumbers {E : Env F D} {o : Oracle F D} {ti : List Str} {i : Nat} {ds : List (Doc F)} {b b' : Batch F} {rs : List Res}
    (h : Steps E o ti i ds b b' rs) : (docNumbers b'.docs).Sublist (docNumbers b.docs ++ given rs) := by
  induction h with
  | nil => simp [given]
  | cons h1 _ ih =>
    refine ih.trans ?_
    rw [given_cons, ← List.append_assoc]
    exact h1.docNumbers.append_right _

/-- the loop stopped by an error: the documents before the one that failed have been treated; nothing of the failing one is stored -/
theorem addLoop_failed {E : Env F D} {o : Oracle F D} {lk : Bool} {ti : List Str} (docs : List (Option (Doc F))) {i : Nat} {b b' : Batch F} {e : Err}
    (h : addLoop E o lk ti i docs b = (b', some e)) :
    ∃ ds d rest b1 rs, docs = ds.map some ++ d :: rest ∧ Steps E o ti i ds b b1 rs ∧ b'.docs = b1.docs ∧ b'.log = b1.log ∧
      (b'.idx = b1.idx ∨ ∃ j vec, b'.idx = (Index.add E.P (o.vo j) (o.sched j) b1.idx b1.next vec (o.level j)).1) := by
  induction docs generalizing i b with
  | nil => cases h
  | cons d docs ih =>
    unfold addLoop at h
    split at h
    · rename_i b2 e2 h2
      simp only [Prod.mk.injEq, Option.some.injEq] at h
      obtain ⟨rfl, rfl⟩ := h
      refine ⟨[], d, docs, b, [], rfl, .nil _ _, ?_⟩
      have hix : ∀ p vec, indexDoc E o i b p vec = (b2, some e2) → b2.docs = b.docs ∧ b2.log = b.log ∧
          (b2.idx = b.idx ∨ ∃ j vec, b2.idx = (Index.add E.P (o.vo j) (o.sched j) b.idx b.next vec (o.level j)).1) := by
        intro p vec h
        unfold indexDoc at h
        split at h
        · rename_i idx hadd
          simp only [Prod.mk.injEq] at h
          obtain ⟨rfl, _⟩ := h
          exact ⟨rfl, rfl, .inr ⟨i, vec, by rw [hadd]⟩⟩
        · cases h
        · rename_i idx hadd
          unfold storeDoc at h
          split at h
          · cases h
          · split at h
            · simp only [Prod.mk.injEq] at h
              obtain ⟨rfl, _⟩ := h
              exact ⟨rfl, rfl, .inr ⟨i, vec, by rw [hadd]⟩⟩
            · cases h
      have hst : ∀ p, storeDoc E o i b p none = (b2, some e2) → b2 = b := by
        intro p h
        unfold storeDoc at h
        split at h
        · cases h
        · split at h
          · simp only [Prod.mk.injEq] at h; exact h.1.symm
          · cases h
      have triv : (b, some e2) = (b2, some e2) → b2.docs = b.docs ∧ b2.log = b.log ∧
          (b2.idx = b.idx ∨ ∃ j vec, b2.idx = (Index.add E.P (o.vo j) (o.sched j) b.idx b.next vec (o.level j)).1) := by
        intro h; simp only [Prod.mk.injEq] at h; obtain ⟨rfl, _⟩ := h; exact ⟨rfl, rfl, .inl rfl⟩
      have same : ∀ x, ((b, some x) : Batch F × Option Err) = (b2, some e2) → b2.docs = b.docs ∧ b2.log = b.log ∧
          (b2.idx = b.idx ∨ ∃ j vec, b2.idx = (Index.add E.P (o.vo j) (o.sched j) b.idx b.next vec (o.level j)).1) := by
        intro x h; simp only [Prod.mk.injEq] at h; obtain ⟨rfl, _⟩ := h; exact ⟨rfl, rfl, .inl rfl⟩
      cases d with
      | none => exact same _ h2
      | some d =>
        unfold addOne at h2
        simp only at h2
        have htx : ∀ x, (match textOf (d.props.set idName (.str d.id)) ti with
          | .error e => (b, some e)
          | .ok text =>
            if text = [] then storeDoc E o i b ((d.props.set idName (.str d.id)).set hnswName (.int (-1))) none
            else if !lk then (b, some .error)
            else
              match o.corpi i text with
              | .fail => ({ b with log := b.log ++ [.noVector] }, none)
              | .nil => (b, some .panic)
              | .vec vec => indexDoc E o i b ((d.props.set idName (.str d.id)).set hnswName (.int b.next)) vec) = x → x = (b2, some e2) →
            b2.docs = b.docs ∧ b2.log = b.log ∧
          (b2.idx = b.idx ∨ ∃ j vec, b2.idx = (Index.add E.P (o.vo j) (o.sched j) b.idx b.next vec (o.level j)).1) := by
          intro x h hx
          rw [hx] at h
          split at h
          · exact same _ h
          · split at h
            · have := hst _ h; subst this; exact ⟨rfl, rfl, .inl rfl⟩
            · split at h
              · exact same _ h
              · split at h
                · cases h
                · exact same _ h
                · exact hix _ _ h
        split at h2
        · split at h2
          · exact same _ h2
          · exact hix _ _ h2
        · exact hix _ _ h2
        · exact same _ h2
        · exact same _ h2
        · exact same _ h2
        · exact htx _ rfl h2
        · exact htx _ rfl h2
    · rename_i b2 h1
      obtain ⟨d0, r, rfl, hs⟩ := addOne_step h1
      obtain ⟨ds, d, rest, b1, rs, rfl, hss, h3⟩ := ih h
      exact ⟨d0 :: ds, d, rest, b1, r :: rs, rfl, .cons hs hss, h3⟩

end Fave.Client
