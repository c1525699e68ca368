import Verif.Lemmas.ClientWorld
/-!
# Where stored documents come from
-/
namespace Fave.Client
variable {F D : Type} [Dist D]

/-- a number, or -1 -/
def numberOf : Option Nat → Int
  | some m => m
  | none => -1

/-- is there no vector? -/
def noVector (p : Props F) : Bool :=
  match p.get vectorName with
  | none | some .null => true
  | _ => false

/-- the properties of a document as they are stored -/
def keptProps (d : Doc F) (n : Option Nat) : Props F :=
  let p := d.props.set idName (.str d.id)
  let q := p.set hnswName (.int (numberOf n))
  if noVector p then q else q.del vectorName

theorem add_small {P : Params (List F) D} {vo : Index.VecOracle (List F)} {sched : Graph.Scheds D} {s s' : Index (List F)} {x : Nat} {vec : List F}
    {level : Nat} (h : Index.add P vo sched s x vec level = (s', none)) : x < P.cacheSize := by
  unfold Index.add at h
  split at h
  · simp at h
  unfold Index.insertNode at h
  split at h
  · unfold Index.insertInitial at h
    simp only [Prod.mk.injEq, ite_eq_right_iff, reduceCtorEq, imp_false] at h
    omega
  · simp only at h
    split at h
    · simp at h
    · omega

section
variable [DecidableEq F]

/-- `p` is the document `d` as it is stored -/
def From (E : Env F D) (d : Doc F) (p : Props F) : Prop := ∃ n : Option Nat, p = keptProps d n ∧ ∀ m, n = some m → m < E.P.cacheSize

theorem storeDoc_docs {E : Env F D} {o : Oracle F D} {i : Nat} {b : Batch F} {p q : Props F} {n : Option Nat} (h : q ∈ (storeDoc E o i b p n).1.docs) :
    q ∈ b.docs ∨ q = p := by
  unfold storeDoc at h
  split at h
  · exact .inl h
  split at h
  · exact .inl h
  · simp only [putDoc, List.mem_append, List.mem_singleton] at h
    rcases h with h | h
    · split at h
      · exact .inl (List.mem_filter.1 h).1
      · exact .inl h
    · exact .inr h

theorem indexDoc_docs {E : Env F D} {o : Oracle F D} {i : Nat} {b : Batch F} {p q : Props F} {vec : List F} (h : q ∈ (indexDoc E o i b p vec).1.docs) :
    q ∈ b.docs ∨ (q = p ∧ b.next < E.P.cacheSize) := by
  unfold indexDoc at h
  split at h
  · exact .inl h
  · exact .inl h
  · rename_i hadd
    rcases storeDoc_docs h with h | h
    · exact .inl h
    · exact .inr ⟨h, add_small hadd⟩

theorem addOne_docs {E : Env F D} {o : Oracle F D} {lookup : Bool} {ti : List Str} {i : Nat} {b : Batch F} {x : Option (Doc F)} {q : Props F}
    (h : q ∈ (addOne E o lookup ti i b x).1.docs) : q ∈ b.docs ∨ ∃ d, x = some d ∧ From E d q := by
  unfold addOne at h
  split at h
  · exact .inl h
  rename_i d
  simp only at h
  split at h
  · rename_i l hv
    split at h
    · exact .inl h
    · rcases indexDoc_docs h with h | ⟨h, hn⟩
      · exact .inl h
      · refine .inr ⟨d, rfl, some b.next, ?_, by rintro m ⟨⟩; exact hn⟩
        simp [h, keptProps, noVector, hv, numberOf]
  · rename_i vec hv
    rcases indexDoc_docs h with h | ⟨h, hn⟩
    · exact .inl h
    · refine .inr ⟨d, rfl, some b.next, ?_, by rintro m ⟨⟩; exact hn⟩
      simp [h, keptProps, noVector, hv, numberOf]
  · exact .inl h
  · exact .inl h
  · exact .inl h
  all_goals
    rename_i hv
    split at h
    · exact .inl h
    split at h
    · rcases storeDoc_docs h with h | h
      · exact .inl h
      · refine .inr ⟨d, rfl, none, ?_, by simp⟩
        simp [h, keptProps, noVector, hv, numberOf]
    split at h
    · exact .inl h
    split at h
    · exact .inl h
    · exact .inl h
    · rcases indexDoc_docs h with h | ⟨h, hn⟩
      · exact .inl h
      · refine .inr ⟨d, rfl, some b.next, ?_, by rintro m ⟨⟩; exact hn⟩
        simp [h, keptProps, noVector, hv, numberOf]

theorem addLoop_docs {E : Env F D} {o : Oracle F D} {lookup : Bool} {ti : List Str} : ∀ {docs : List (Option (Doc F))} {i : Nat} {b : Batch F} {q : Props F},
    q ∈ (addLoop E o lookup ti i docs b).1.docs → q ∈ b.docs ∨ ∃ d, some d ∈ docs ∧ From E d q
  | [], _, _, _, h => .inl h
  | x :: ds, i, b, q, h => by
    unfold addLoop at h
    split at h
    · rename_i b' e hb
      rcases addOne_docs (b := b) (x := x) (q := q) (by rw [hb]; exact h) with h | ⟨d, rfl, h⟩
      · exact .inl h
      · exact .inr ⟨d, by simp, h⟩
    · rename_i b' hb
      rcases addLoop_docs h with h | ⟨d, hd, h⟩
      · rcases addOne_docs (b := b) (x := x) (q := q) (by rw [hb]; exact h) with h | ⟨d, rfl, h⟩
        · exact .inl h
        · exact .inr ⟨d, by simp, h⟩
      · exact .inr ⟨d, by simp [hd], h⟩

theorem docs_mapAt (w : World F) (c : Str) (ds : List (Props F)) (q : Props F)
    (h : q ∈ World.docs { w with dbs := w.dbs.map (fun e => if e.1 = c then (c, { e.2 with docs := ds }) else e) } c) : q ∈ ds := by
  unfold World.docs at h
  simp only [Map.get_mapAt w.dbs c (fun x => { x with docs := ds }), if_true] at h
  cases hg : w.dbs.get c with
  | none => simp [hg] at h
  | some db => simpa [hg] using h

theorem addDocuments_docs {E : Env F D} {o : Oracle F D} {w : World F} {name : Str} {ti : List Str} {docs : List (Option (Doc F))} {q : Props F}
    (h : q ∈ (addDocuments E o w name ti docs).1.docs (ns ++ name)) : q ∈ w.docs (ns ++ name) ∨ ∃ d, some d ∈ docs ∧ From E d q := by
  have hopen := calm_ensureOpen o w (ns ++ name)
  unfold addDocuments at h
  unfold addBegin at h
  simp only at h
  split at h
  · rename_i w1 e hb
    split at hb
    · rename_i w2 e2 he
      rw [he] at hopen
      simp only [Prod.mk.injEq] at hb
      rw [← hb.1] at h
      rw [← hopen.docs]
      exact .inl h
    · rename_i w2 he
      rw [he] at hopen
      split at hb
      · simp only [Prod.mk.injEq] at hb
        rw [← hb.1] at h
        rw [← hopen.docs]
        exact .inl h
      · simp at hb
  · rename_i w1 count hb
    split at hb
    · simp at hb
    · rename_i w2 he
      rw [he] at hopen
      split at hb
      · simp at hb
      · simp only [Prod.mk.injEq] at hb
        obtain ⟨rfl, -⟩ := hb
        have key : q ∈ (addLoop E o w2.lookup ti 0 docs ⟨(w2.coll (ns ++ name)).idx, w2.docs (ns ++ name), count, []⟩).1.docs := by
          unfold addFinish at h
          simp only at h
          split at h
          · exact docs_mapAt w2 _ _ _ h
          · split at h
            · exact docs_mapAt w2 _ _ _ h
            · exact docs_mapAt w2 _ _ _ h
        rcases addLoop_docs key with h | h
        · exact .inl (by rw [← hopen.docs]; exact h)
        · exact .inr h

/-- a request leaves only documents that were there or that it contains -/
theorem serve_docs {E : Env F D} {w : World F} {r : Req F D} {name : Str} {q : Props F} (h : q ∈ (serve E w r).1.docs (ns ++ name)) :
    (q ∈ w.docs (ns ++ name) ∧ ∀ o, r = .delete o name → ¬ (w.session = true ∧ w.pod = true ∧ o.docDelete = false)) ∨
      ∃ o ti docs d, r = .add o name ti docs ∧ some d ∈ docs ∧ From E d q := by
  by_cases ha : ∃ o ti docs, r = .add o name ti docs
  · obtain ⟨o, ti, docs, rfl⟩ := ha
    rcases addDocuments_docs h with h | ⟨d, hd, h⟩
    · exact .inl ⟨h, by simp⟩
    · exact .inr ⟨o, ti, docs, d, rfl, hd, h⟩
  by_cases hd : ∃ o, r = .delete o name
  · obtain ⟨o, rfl⟩ := hd
    refine .inl ?_
    unfold serve delete at h
    simp only at h
    split at h
    · rename_i hs
      exact ⟨h, fun o' _ => by simp_all⟩
    split at h
    · rename_i hs
      exact ⟨h, fun o' _ => by simp_all⟩
    · cases ho : o.docDelete with
      | true =>
        refine ⟨?_, fun o' ho' => by injection ho' with ho'; subst ho'; simp [ho]⟩
        simp only [ho, if_true] at h
        split at h <;> exact h
      | false =>
        simp only [ho, Bool.false_eq_true, if_false] at h
        split at h
        · simp [World.docs, World.setColl, Map.get_del] at h
        · simp [World.docs, World.setColl, Map.get_del] at h
  · refine .inl ⟨?_, fun o ho => absurd ⟨o, ho⟩ hd⟩
    rw [← (calm_serve E w r name (fun o ti docs e => ha ⟨o, ti, docs, e⟩) (fun o e => hd ⟨o, e⟩)).docs]
    exact h

/-- what holds of a collection whatever happens -/
structure Sane (E : Env F D) (name : Str) (w : World F) : Prop where
  any : Index.Any E.P (w.coll (ns ++ name)).idx
  opened : (w.coll (ns ++ name)).dbOpen → (w.dbs.get (ns ++ name)).isSome

theorem Sane.calm {E : Env F D} {name : Str} {w w' : World F} (h : Sane E name w) (hc : Calm (ns ++ name) w w') : Sane E name w' := by
  refine ⟨hc.move.any h.any, ?_⟩
  intro ho
  rcases hc.opened ho with h1 | h1
  · exact hc.some (h.opened h1)
  · exact h1

theorem sane_step {E : Env F D} {name : Str} {w : World F} (h : Sane E name w) (r : Req F D) : Sane E name (serve E w r).1 := by
  by_cases ha : ∃ o ti docs, r = .add o name ti docs
  · obtain ⟨o, ti, docs, rfl⟩ := ha
    show Sane E name (addDocuments E o w name ti docs).1
    cases hx : addDocuments E o w name ti docs with
    | mk w' le =>
    obtain ⟨log, e⟩ := le
    simp only
    rcases add_cases h.opened hx with ⟨rfl, _, h1⟩ | ⟨idx0, b', lk, hm, hsome, hd, hl, h1 | ⟨fe, hloop, hf, hfe⟩⟩
    · exact h.calm h1
    · obtain ⟨er, hloop, he, hidx⟩ := h1
      obtain ⟨ds, d, rest, b1, rs, _, hs, hd1, hl1, hi1⟩ := addLoop_failed docs hloop
      have ha1 := hs.any (hm.any h.any)
      refine ⟨?_, fun _ => hsome⟩
      rw [hidx]
      rcases hi1 with h3 | ⟨j, vec, h3⟩
      · rw [h3]; exact ha1
      · rw [h3]; exact ha1.add ..
    · obtain ⟨ds, rs, _, hs⟩ := addLoop_steps docs hloop
      have ha1 := hs.any (hm.any h.any)
      refine ⟨?_, fun _ => hsome⟩
      have := flushCut_any (cut := o.cut) (order := o.order b'.idx.cache.keys) (n := b'.next) ha1
      rw [hf] at this; exact this
  by_cases hdel : ∃ o, r = .delete o name
  · obtain ⟨o, rfl⟩ := hdel
    show Sane E name (delete o w name).1
    rcases delete_cases o w name with ⟨h1, h2⟩ | ⟨h1, h2, h3⟩
    · rw [h1]; exact h
    · refine ⟨?_, ?_⟩
      · rw [h3]
        split
        · exact h.any.restart
        · exact .init
      · split at h2
        · rw [h2.1, h2.2]; exact h.opened
        · rw [h2.2]; simp
  · exact h.calm (calm_serve E w r name (fun o ti docs e => ha ⟨o, ti, docs, e⟩) (fun o e => hdel ⟨o, e⟩))

theorem sane_run (E : Env F D) (name : Str) (lookup : Bool) (dbs : Map (Db F)) (rs : List (Req F D)) : Sane E name (run E (World.fresh lookup dbs) rs) := by
  suffices ∀ w : World F, Sane E name w → Sane E name (run E w rs) from this _ ⟨.init, (fun h => by cases h)⟩
  intro w h
  induction rs generalizing w with
  | nil => exact h
  | cons r rs ih => exact ih _ (sane_step h r)

end
end Fave.Client
