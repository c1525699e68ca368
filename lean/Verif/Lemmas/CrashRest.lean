import Verif.Lemmas.CrashClient
import Verif.Lemmas.ClientNear
import Verif.Lemmas.Shelf
import Verif.Lemmas.Rest
/-!
# Index objects, and crashes at the REST interface
-/
namespace Fave.Client
variable {F D : Type} [Dist D] [DecidableEq F]
open Index (Sound First)

/-- every open database has an index object -/
def Equipped (w : World F) : Prop := ∀ name, (w.coll (ns ++ name)).dbOpen = true → (w.coll (ns ++ name)).hasIdx = true

theorem Equipped.index {w : World F} (h : Equipped w) (name : Str) : ¬NoIndex w name := fun hn => by
  have := h name hn.1
  rw [hn.2] at this; cases this

theorem addFinish_flags (E : Env F D) (o : Oracle F D) (w : World F) (name : Str) (ti : List Str) (docs : List (Option (Doc F))) (n : Nat) :
    ((addFinish E o w name ti docs n).1.coll (ns ++ name)).dbOpen = (w.coll (ns ++ name)).dbOpen ∧
    ((addFinish E o w name ti docs n).1.coll (ns ++ name)).hasIdx = (w.coll (ns ++ name)).hasIdx := by
  unfold addFinish
  simp only
  split
  · simp only [World.setColl, if_true]; exact ⟨trivial, trivial⟩
  · split <;> simp only [World.setColl, if_true] <;> exact ⟨trivial, trivial⟩

theorem addFinish_panic (E : Env F D) (o : Oracle F D) (w : World F) (name : Str) (ti : List Str) (docs : List (Option (Doc F))) (n : Nat) :
    (addFinish E o w name ti docs n).2.2 = some .panic ↔
      (addLoop E o w.lookup ti 0 docs ⟨(w.coll (ns ++ name)).idx, ((w.dbs.get (ns ++ name)).getD ⟨[], []⟩).docs, n, []⟩).2 = some .panic := by
  unfold addFinish
  simp only
  split
  · rename_i e he; rw [he]
  · rename_i he
    rw [he]
    simp only [reduceCtorEq, iff_false]
    split
    · rename_i e he; intro hc; exact flushCut_calm (he.trans hc)
    · simp only; split <;> simp

theorem addLoop_one (E : Env F D) (o : Oracle F D) (lk : Bool) (ti : List Str) (b : Batch F) (d : Option (Doc F)) :
    (addLoop E o lk ti 0 [d] b).2 = (addOne E o lk ti 0 b d).2 := by
  unfold addLoop
  split
  · rename_i he; rw [he]
  · rename_i he; rw [he]; rfl

theorem equipped_serve (E : Env F D) {w : World F} (h : Equipped w) {r : Req F D} (hr : Steady w r) : Equipped (serve E w r).1 := by
  intro name
  have hw := h name
  by_cases ha : r.about = some name
  · cases r with
    | create o n ix =>
      cases ha
      obtain ⟨h1, h2⟩ := hr
      show ((create o w name ix).1.coll (ns ++ name)).dbOpen = true → ((create o w name ix).1.coll (ns ++ name)).hasIdx = true
      have hdb : ∀ ix, (w.withDb (ns ++ name) ix).coll = w.coll := by intro ix; unfold World.withDb; split <;> rfl
      unfold create
      split
      · exact hw
      split
      · exact hw
      simp only
      split
      · exact hw
      split
      · rw [hdb]; exact hw
      · simp only [setColl_self, setColl_setColl, h1, h2, hdb, Bool.false_eq_true, if_false]
        split
        · simp only [setColl_self]; exact hw
        · intro _; rw [setColl_self]
    | delete o n =>
      cases ha
      have hr : o.docDelete = false := hr
      show ((delete o w name).1.coll (ns ++ name)).dbOpen = true → ((delete o w name).1.coll (ns ++ name)).hasIdx = true
      rcases delete_cases o w name with ⟨h1, _⟩ | ⟨_, h1, _⟩
      · rw [h1]; exact hw
      · rw [hr] at h1
        intro hc
        rw [h1.2] at hc; cases hc
    | add o n ti docs =>
      cases ha
      show ((addDocuments E o w name ti docs).1.coll (ns ++ name)).dbOpen = true → ((addDocuments E o w name ti docs).1.coll (ns ++ name)).hasIdx = true
      have hq := (quiet_ensureOpen o w (ns ++ name)).opened hw
      unfold addDocuments addBegin
      simp only
      cases hop : ensureOpen o w (ns ++ name) with
      | mk w1 oe =>
        rw [hop] at hq
        cases oe with
        | some e => exact hq
        | none =>
          simp only
          cases hh : (w1.coll (ns ++ name)).hasIdx with
          | false => exact hq
          | true =>
            obtain ⟨e1, e2⟩ := addFinish_flags E o w1 name ti docs (if o.count then 0 else (w1.coll (ns ++ name)).idx.docCount.getD 0)
            intro _
            exact e2.trans hh
    | nearVector o n q max limit => cases ha; exact (quiet_nearVector E o w name q max limit).opened hw
    | nearText o n text max limit => cases ha; exact (quiet_nearText E o w name text max limit).opened hw
    | get o sat n p v =>
      cases ha
      show ((getDocument o sat w name p v).1.coll (ns ++ name)).dbOpen = true → ((getDocument o sat w name p v).1.coll (ns ++ name)).hasIdx = true
      unfold getDocument
      simp only
      split
      · exact hw
      split
      · exact hw
      · rename_i hx
        simp only [setColl_self]
        intro _
        rcases hr with hr | hr
        · exact hw hr
        · cases hd : (w.coll (ns ++ name)).dbOpen with
          | true => exact hw hd
          | false => rw [hd, hr] at hx; simp at hx
    | login ok => cases ha
    | openPod ok => cases ha
    | list o => cases ha
    | restart => cases ha
  · cases hb : r.about with
    | some n =>
      have hne : ns ++ name ≠ ns ++ n := fun he => ha (by rw [hb, List.append_cancel_left he])
      have := (onlyAt_serve E w r hb).coll _ hne
      rw [this]; exact hw
    | none =>
      cases r with
      | login ok => 
        show ((login ok w).1.coll _).dbOpen = true → ((login ok w).1.coll _).hasIdx = true
        unfold login; split <;> exact hw
      | openPod ok =>
        show ((openPod ok w).1.coll _).dbOpen = true → ((openPod ok w).1.coll _).hasIdx = true
        unfold openPod; split
        · exact hw
        · split <;> exact hw
      | list o => exact hw
      | restart => intro hc; cases hc
      | create o n ix => cases hb
      | delete o n => cases hb
      | add o n ti docs => cases hb
      | nearVector o n q max limit => cases hb
      | nearText o n text max limit => cases hb
      | get o sat n p v => cases hb

theorem equipped_run (E : Env F D) (rs : List (Req F D)) {w : World F} (h : Equipped w) (hr : SteadyRun E w rs) : Equipped (run E w rs) := by
  induction rs generalizing w with
  | nil => exact h
  | cons r rs ih => rw [run_cons]; exact ih (equipped_serve E h hr.1) hr.2

theorem near_answer {E : Env F D} {w : World F} {docs : List (Props F)} {ds : List D} :
    (∀ o name q max limit, (serve E w (.nearVector o name q max limit)).2 = .near docs ds → docs.length ≤ ds.length) ∧
    (∀ o name text max limit, (serve E w (.nearText o name text max limit)).2 = .near docs ds → docs.length ≤ ds.length) := by
  refine ⟨fun o name q max limit h => ?_, fun o name text max limit h => ?_⟩
  · simp only [serve] at h
    cases hx : (nearVector E o w name q max limit).2 with
    | error e => rw [hx] at h; cases h
    | ok r =>
      rw [hx] at h; cases h
      unfold nearVector at hx
      split at hx
      · cases hx
      · exact near_dists hx
  · simp only [serve] at h
    cases hx : (nearText E o w name text max limit).2 with
    | error e => rw [hx] at h; cases h
    | ok r =>
      rw [hx] at h; cases h
      unfold nearText at hx
      split at hx
      · cases hx
      · split at hx
        · cases hx
        · split at hx
          · cases hx
          · cases hx
          · exact near_dists hx

end Fave.Client

namespace Fave.Rest
open Client
variable {F D : Type} [Dist D] [DecidableEq F]

theorem showHits_calm (docs : List (Props F)) (ds : List D) (hl : docs.length ≤ ds.length) : showHits docs ds ≠ .error .crash := by
  induction docs generalizing ds with
  | nil => simp [showHits]
  | cons p ps ih =>
    unfold showHits
    split
    · simp
    · cases ds with
      | nil => simp at hl
      | cons d ds =>
        simp only
        split
        · rename_i e he; intro hc; cases hc; exact ih ds (by simpa using hl) he
        · simp

theorem refusal_crash {e : Err} (h : (refusal e : Resp F D) = .crash) : e = .panic := by
  cases e <;> first | rfl | cases h

theorem readIndexes_crash {l : List (Option (Str × Str))} {m : Map IxType} (h : (readIndexes l m : Except (Resp F D) _) = .error .crash) : none ∈ l := by
  induction l generalizing m with
  | nil => cases h
  | cons e l ih =>
    cases e with
    | none => simp
    | some e =>
      unfold readIndexes at h
      split at h
      · cases h
      · exact List.mem_cons_of_mem _ (ih h)
      · exact List.mem_cons_of_mem _ (ih h)

theorem readDocs_none {l : List (Option (RawDoc F))} (h : readDocs l = none) : none ∈ l := by
  induction l with
  | nil => cases h
  | cons e l ih =>
    cases e with
    | none => simp
    | some e => exact List.mem_cons_of_mem _ (ih (by simpa [readDocs] using h))

theorem readDocs_eq {l : List (Option (RawDoc F))} {ds : List (Option (Doc F))} (h : readDocs l = some ds) :
    ds = l.map fun d => d.bind fun d => d.props.map fun p => ⟨d.id, p⟩ := by
  induction l generalizing ds with
  | nil => cases h; rfl
  | cons e l ih =>
    cases e with
    | none => cases h
    | some e =>
      unfold readDocs at h
      cases hl : readDocs l with
      | none => rw [hl] at h; cases h
      | some r =>
        rw [hl] at h; cases h
        rw [ih hl]; rfl

theorem handle_cause {E : Env F D} (hc : 0 < E.P.cacheSize) (uuid : Str → Bool) {w : World F} (h : SoundAll E w) (r : HReq F D)
    (hp : (handle E uuid w r).2 = .crash) : RestCause E w r := by
  have okR : ∀ (x : Resp F D) (a : Ans F D), x ≠ .crash → okResp x a = .crash → a = .failed .panic := by
    intro x a hx ha
    unfold okResp at ha
    split at ha
    · rw [refusal_crash ha]
    · exact absurd ha hx
  have nearR : ∀ name (a : Ans F D), (∀ docs ds, a = .near docs ds → docs.length ≤ ds.length) → nearResp name a = .crash → a = .failed .panic := by
    intro name a hl ha
    unfold nearResp at ha
    split at ha
    · rename_i docs ds
      split at ha
      · cases ha
      · rename_i e he
        rw [ha] at he
        exact absurd he (showHits_calm docs ds (hl docs ds rfl))
    · rw [refusal_crash ha]
    · cases ha
  cases r with
  | create o name indexes =>
    simp only [handle] at hp
    split at hp
    · cases hp
    · split at hp
      · cases hp
      · rename_i l
        split at hp
        · rename_i e he
          have hp : e = .crash := hp
          subst hp
          exact ⟨l, rfl, readIndexes_crash he⟩
        · exact (serve_cause hc h _ (okR _ _ (by simp) hp)).elim
  | delete o name => exact (serve_cause hc h (.delete o name) (okR _ _ (by simp) hp)).elim
  | list o =>
    simp only [handle] at hp
    split at hp
    · cases hp
    · rename_i e he
      exact (serve_cause hc h (.list o) (by rw [he, refusal_crash hp])).elim
    · cases hp
  | add o name toIndex docs =>
    simp only [handle] at hp
    split at hp
    · cases hp
    split at hp
    · cases hp
    cases docs with
    | none => cases hp
    | some l =>
      cases toIndex with
      | none => cases hp
      | some ti =>
        simp only at hp
        refine ⟨l, ti, rfl, rfl, ?_⟩
        split at hp
        · rename_i hn; exact .inl (readDocs_none hn)
        · rename_i ds hds
          refine .inr ?_
          rw [← readDocs_eq hds]
          exact serve_cause hc h _ (okR _ _ (by simp) hp)
  | nearText o name text max limit =>
    simp only [handle] at hp
    split at hp
    · cases hp
    split at hp
    · cases hp
    · exact serve_cause hc h _ (nearR _ _ (fun docs ds he => near_answer.2 _ _ _ _ _ he) hp)
  | nearVector o name q max limit =>
    simp only [handle] at hp
    split at hp
    · cases hp
    split at hp
    · cases hp
    · rename_i q
      exact ⟨q, rfl, serve_cause hc h _ (nearR _ _ (fun docs ds he => near_answer.1 _ _ _ _ _ he) hp)⟩
  | get o sat name p v =>
    simp only [handle] at hp
    split at hp
    · cases hp
    · simp only at hp
      split at hp
      · split at hp <;> cases hp
      · rename_i e he
        exact (serve_cause hc h (.get o sat name p v) (by rw [he, refusal_crash hp])).elim
      · cases hp

end Fave.Rest

namespace Fave.Rest
open Client
variable {F D : Type} [Dist D] [DecidableEq F]

/-- a handler does nothing to the client but pass on at most one request about a collection -/
theorem handle_serve (E : Env F D) (uuid : Str → Bool) (w : World F) (r : HReq F D) :
    (handle E uuid w r).1 = w ∨ ∃ r', r' ≠ .restart ∧ (∀ b, r' ≠ .login b ∧ r' ≠ .openPod b) ∧ (handle E uuid w r).1 = (serve E w r').1 := by
  cases r with
  | create o name indexes =>
    simp only [handle]
    split
    · exact .inl rfl
    split
    · exact .inl rfl
    split
    · exact .inl rfl
    · exact .inr ⟨_, by simp, by simp, rfl⟩
  | delete o name => exact .inr ⟨_, by simp, by simp, rfl⟩
  | list o => exact .inl rfl
  | add o name toIndex docs =>
    simp only [handle]
    split
    · exact .inl rfl
    split
    · exact .inl rfl
    split
    · exact .inl rfl
    split
    · exact .inl rfl
    split
    · exact .inl rfl
    · exact .inr ⟨_, by simp, by simp, rfl⟩
  | nearText o name text max limit =>
    simp only [handle]
    split
    · exact .inl rfl
    split
    · exact .inl rfl
    · exact .inr ⟨_, by simp, by simp, rfl⟩
  | nearVector o name q max limit =>
    simp only [handle]
    split
    · exact .inl rfl
    split
    · exact .inl rfl
    · exact .inr ⟨_, by simp, by simp, rfl⟩
  | get o sat name p v =>
    simp only [handle]
    split
    · exact .inl rfl
    · exact .inr ⟨_, by simp, by simp, rfl⟩

theorem soundAll_handleAll {E : Env F D} (hc : 0 < E.P.cacheSize) (uuid : Str → Bool) (rs : List (HReq F D)) {w : World F} (h : SoundAll E w) :
    SoundAll E (handleAll E uuid w rs) := by
  induction rs generalizing w with
  | nil => exact h
  | cons r rs ih =>
    refine ih (w := (handle E uuid w r).1) ?_
    rcases handle_serve E uuid w r with h1 | ⟨r', _, _, h1⟩
    · rw [h1]; exact h
    · rw [h1]; exact soundAll_serve hc h r'

/-- session, pod and vectoriser are not touched by the handlers -/
theorem handleAll_logged (E : Env F D) (uuid : Str → Bool) (rs : List (HReq F D)) (w : World F) :
    (handleAll E uuid w rs).session = w.session ∧ (handleAll E uuid w rs).pod = w.pod ∧ (handleAll E uuid w rs).lookup = w.lookup := by
  induction rs generalizing w with
  | nil => exact ⟨rfl, rfl, rfl⟩
  | cons r rs ih =>
    have key : (handle E uuid w r).1.session = w.session ∧ (handle E uuid w r).1.pod = w.pod ∧ (handle E uuid w r).1.lookup = w.lookup := by
      rcases handle_serve E uuid w r with h1 | ⟨r', h2, h3, h1⟩
      · rw [h1]; exact ⟨rfl, rfl, rfl⟩
      · rw [h1]
        cases hb : r'.about with
        | some n => have := onlyAt_serve E w r' hb; exact ⟨this.session, this.pod, this.lookup⟩
        | none =>
          cases r' with
          | login ok => exact absurd rfl (h3 ok).1
          | openPod ok => exact absurd rfl (h3 ok).2
          | list o => exact ⟨rfl, rfl, rfl⟩
          | restart => exact absurd rfl h2
          | create o n ix => cases hb
          | delete o n => cases hb
          | add o n ti docs => cases hb
          | nearVector o n q max limit => cases hb
          | nearText o n text max limit => cases hb
          | get o sat n p v => cases hb
    obtain ⟨a, b, c⟩ := ih (handle E uuid w r).1
    exact ⟨a.trans key.1, b.trans key.2.1, c.trans key.2.2⟩

end Fave.Rest
