import Verif.Lemmas.ClientRun
import Verif.Spec.ExampleClient
/-!
# C22: no data access without login and open pod

The statement is not true of the code as a library: `AddDocuments` and the two searches do not look at `podInfo` before calling a method
on it, so without open pod they crash instead of returning an error (`add_crashes`).  They do no harm to stored data.
-/
namespace Fave.C22
open Client
variable {F D : Type} [Dist D] [DecidableEq F]

/-- requests about data -/
def Data : Req F D → Prop
  | .login _ | .openPod _ | .restart => False
  | _ => True

/-- requests that crash without pod -/
def Careless : Req F D → Prop
  | .add .. | .nearVector .. | .nearText .. => True
  | _ => False

theorem pod_needs_session (E : Env F D) (lookup : Bool) (dbs : Map (Db F)) (rs : List (Req F D)) :
    (run E (World.fresh lookup dbs) rs).pod = true → (run E (World.fresh lookup dbs) rs).session = true := by
  suffices ∀ w : World F, (w.pod = true → w.session = true) → ((run E w rs).pod = true → (run E w rs).session = true) from
    this _ (by simp [World.fresh])
  induction rs with
  | nil => exact fun w h => h
  | cons r rs ih =>
    intro w h
    rw [run_cons]
    apply ih
    cases ha : r.about with
    | some n => have := onlyAt_serve E w r ha; rw [this.pod, this.session]; exact h
    | none =>
      cases r with
      | login ok =>
        simp only [serve, login]
        split
        · exact fun _ => rfl
        · exact h
      | openPod ok =>
        simp only [serve, openPod]
        split
        · exact h
        · rename_i hs
          split
          · intro _; simpa using hs
          · exact h
      | list o => exact h
      | restart => simp [serve, restart]
      | create o name ix => cases ha
      | delete o name => cases ha
      | add o name ti docs => cases ha
      | nearVector o name q max limit => cases ha
      | nearText o name text max limit => cases ha
      | get o sat name p v => cases ha

/-- In every state that can be reached without a pod being open: every request about data leaves everything as it is; it is answered
with an error, or it crashes (additions and searches only). -/
theorem refused_partial (E : Env F D) (lookup : Bool) (dbs : Map (Db F)) (rs : List (Req F D)) (w : World F)
    (hw : w = run E (World.fresh lookup dbs) rs) (hp : w.session = false ∨ w.pod = false) (r : Req F D) (hr : Data r) :
    (serve E w r).1 = w ∧ ((serve E w r).2 = .failed .error ∨ (Careless r ∧ (serve E w r).2 = .failed .panic)) := by
  have hinv := pod_needs_session E lookup dbs rs
  rw [← hw] at hinv
  have hpod : w.pod = false := by
    rcases hp with h | h
    · cases hx : w.pod with
      | false => rfl
      | true => rw [hinv hx] at h; cases h
    · exact h
  have hopen : ∀ (o : Oracle F D) c, ensureOpen o w c = (w, some .panic) := by
    intro o c
    unfold ensureOpen
    rw [if_pos (by simp [hpod])]
  cases r with
  | login ok => exact hr.elim
  | openPod ok => exact hr.elim
  | restart => exact hr.elim
  | list o =>
    refine ⟨rfl, .inl ?_⟩
    simp only [serve, list, hpod]
    cases w.session <;> rfl
  | create o name ix =>
    simp only [serve, create, hpod]
    cases w.session <;> exact ⟨rfl, .inl rfl⟩
  | delete o name =>
    simp only [serve, delete, hpod]
    cases w.session <;> exact ⟨rfl, .inl rfl⟩
  | add o name ti docs =>
    have : addDocuments E o w name ti docs = (w, [], some .panic) := by
      unfold addDocuments addBegin
      simp only [hopen]
    simp only [serve, this, true_and]
    exact .inr (by first | exact ⟨trivial, rfl⟩ | exact ⟨trivial, trivial⟩)
  | nearVector o name q max limit =>
    have : nearVector E o w name q max limit = (w, .error .panic) := by unfold nearVector; simp only [hopen]
    simp only [serve, this, true_and]
    exact .inr (by first | exact ⟨trivial, rfl⟩ | exact ⟨trivial, trivial⟩)
  | nearText o name text max limit =>
    have : nearText E o w name text max limit = (w, .error .panic) := by unfold nearText; simp only [hopen]
    simp only [serve, this, true_and]
    exact .inr (by first | exact ⟨trivial, rfl⟩ | exact ⟨trivial, trivial⟩)
  | get o sat name p v =>
    have : getDocument o sat w name p v = (w, .error .error) := by
      unfold getDocument
      simp only [hpod]
      rw [if_pos (by simp)]
    simp only [serve, this, true_and]
    exact .inl trivial

/-- **In every state without session** (reachable or not, whatever pod is open) every request about data fails and leaves all documents,
vectors and counters as they are; at most a key-value table is opened. -/
theorem no_session_no_access (E : Env F D) (w : World F) (hs : w.session = false) (r : Req F D) (hr : Data r) :
    (∃ e, (serve E w r).2 = .failed e) ∧ (serve E w r).1.dbs = w.dbs ∧ ∀ c, ((serve E w r).1.coll c).idx = (w.coll c).idx := by
  have hopen : ∀ (o : Oracle F D) c, ∃ e, (ensureOpen o w c).2 = some e ∧ (ensureOpen o w c).1.dbs = w.dbs ∧
      ∀ d, ((ensureOpen o w c).1.coll d).idx = (w.coll d).idx := by
    intro o c
    unfold ensureOpen
    split
    · exact ⟨_, rfl, rfl, fun _ => rfl⟩
    · split
      · exact ⟨_, rfl, rfl, fun _ => rfl⟩
      · simp only [setColl_session, hs]
        rw [if_pos (by simp)]
        refine ⟨_, rfl, setColl_dbs .., fun d => ?_⟩
        unfold World.setColl
        simp only
        split
        · rename_i e; rw [e]
        · rfl
  cases r with
  | login ok => exact hr.elim
  | openPod ok => exact hr.elim
  | restart => exact hr.elim
  | list o => simp only [serve, list, hs]; exact ⟨⟨_, rfl⟩, by trivial, fun _ => by trivial⟩
  | create o name ix => simp only [serve, create, hs]; exact ⟨⟨_, rfl⟩, rfl, fun _ => rfl⟩
  | delete o name => simp only [serve, delete, hs]; exact ⟨⟨_, rfl⟩, rfl, fun _ => rfl⟩
  | add o name ti docs =>
    obtain ⟨e, h1, h2, h3⟩ := hopen o (ns ++ name)
    cases hx : ensureOpen o w (ns ++ name) with
    | mk w1 oe =>
    rw [hx] at h1 h2 h3
    have h1 : oe = some e := h1
    subst h1
    have : addDocuments E o w name ti docs = (w1, [], some e) := by
      unfold addDocuments addBegin
      simp only [hx]
    simp only [serve, this]
    exact ⟨⟨_, rfl⟩, h2, h3⟩
  | nearVector o name q max limit =>
    obtain ⟨e, h1, h2, h3⟩ := hopen o (ns ++ name)
    cases hx : ensureOpen o w (ns ++ name) with
    | mk w1 oe =>
    rw [hx] at h1 h2 h3
    have h1 : oe = some e := h1
    subst h1
    have : nearVector E o w name q max limit = (w1, .error e) := by unfold nearVector; simp only [hx]
    simp only [serve, this]
    exact ⟨⟨_, rfl⟩, h2, h3⟩
  | nearText o name text max limit =>
    obtain ⟨e, h1, h2, h3⟩ := hopen o (ns ++ name)
    cases hx : ensureOpen o w (ns ++ name) with
    | mk w1 oe =>
    rw [hx] at h1 h2 h3
    have h1 : oe = some e := h1
    subst h1
    have : nearText E o w name text max limit = (w1, .error e) := by unfold nearText; simp only [hx]
    simp only [serve, this]
    exact ⟨⟨_, rfl⟩, h2, h3⟩
  | get o sat name p v =>
    have : getDocument o sat w name p v = (w, .error .error) := by
      unfold getDocument
      simp only [hs]
      rw [if_pos (by simp)]
    simp only [serve, this]
    exact ⟨⟨_, rfl⟩, by trivial, fun _ => by trivial⟩

/-- As long as no login has succeeded, or no pod has been opened since the last restart, no pod is open. -/
theorem closed_until_opened (E : Env F D) (lookup : Bool) (dbs : Map (Db F)) (rs : List (Req F D))
    (h : Req.login true ∉ rs ∨ Req.openPod true ∉ rs) :
    (run E (World.fresh lookup dbs) rs).session = false ∨ (run E (World.fresh lookup dbs) rs).pod = false := by
  have key : ∀ (w : World F), (Req.login true ∉ rs → w.session = false → (run E w rs).session = false) ∧
      (Req.openPod true ∉ rs → w.pod = false → (run E w rs).pod = false) := by
    induction rs with
    | nil => exact fun w => ⟨fun _ h => h, fun _ h => h⟩
    | cons r rs ih =>
      intro w
      rw [run_cons]
      have ih := fun hh => ih hh (serve E w r).1
      have hstep : (r ≠ .login true → w.session = false → (serve E w r).1.session = false) ∧
          (r ≠ .openPod true → w.pod = false → (serve E w r).1.pod = false) := by
        cases ha : r.about with
        | some n =>
          have := onlyAt_serve E w r ha
          rw [this.pod, this.session]; exact ⟨fun _ h => h, fun _ h => h⟩
        | none =>
          cases r with
          | login ok =>
            cases ok with
            | true => exact ⟨fun h => absurd rfl h, fun _ h => h⟩
            | false => exact ⟨fun _ h => h, fun _ h => h⟩
          | openPod ok =>
            cases ok with
            | true =>
              refine ⟨fun _ h => ?_, fun h => absurd rfl h⟩
              simp only [serve, openPod, h]
              exact h
            | false =>
              simp only [serve, openPod]
              constructor
              · intro _ h; split <;> exact h
              · intro _ h; split <;> exact h
          | list o => exact ⟨fun _ h => h, fun _ h => h⟩
          | restart => simp [serve, restart]
          | create o name ix => cases ha
          | delete o name => cases ha
          | add o name ti docs => cases ha
          | nearVector o name q max limit => cases ha
          | nearText o name text max limit => cases ha
          | get o sat name p v => cases ha
      have ih : (Req.login true ∉ rs → (serve E w r).1.session = false → (run E (serve E w r).1 rs).session = false) ∧
          (Req.openPod true ∉ rs → (serve E w r).1.pod = false → (run E (serve E w r).1 rs).pod = false) := by
        constructor
        · intro h1; exact (ih (.inl h1)).1 h1
        · intro h1; exact (ih (.inr h1)).2 h1
      constructor
      · intro hn hs
        simp only [List.mem_cons, not_or] at hn
        exact ih.1 hn.2 (hstep.1 (Ne.symm hn.1) hs)
      · intro hn hs
        simp only [List.mem_cons, not_or] at hn
        exact ih.2 hn.2 (hstep.2 (Ne.symm hn.1) hs)
  rcases h with h | h
  · exact .inl ((key _).1 h rfl)
  · exact .inr ((key _).2 h rfl)

/-- The full statement is false: adding and searching without pod crash. -/
theorem add_crashes (E : Env F D) (lookup : Bool) (dbs : Map (Db F)) (o : Oracle F D) (name : Str) (ti : List Str)
    (docs : List (Option (Doc F))) (q : List F) (max : D) (limit : Int) (text : Str) :
    (serve E (World.fresh lookup dbs) (.add o name ti docs)).2 = .failed .panic ∧
    (serve E (World.fresh lookup dbs) (.nearVector o name q max limit)).2 = .failed .panic ∧
    (serve E (World.fresh lookup dbs) (.nearText o name text max limit)).2 = .failed .panic := ⟨rfl, rfl, rfl⟩

/-! Non-vacuity: a state with data in which the process has been restarted and only the login has been repeated. -/
example : let w := run ExC.E (World.fresh true ExC.foreign) (ExC.setup ++ [.add ExC.o ExC.books [ExC.title] ExC.batch, .restart, .login true])
    w.session = true ∧ w.pod = false ∧ (w.dbs.get (ns ++ ExC.books)).map (fun d => d.docs.length) = some 5 ∧
    (serve ExC.E w (.delete ExC.o ExC.books)).2 = .failed .error ∧
    (serve ExC.E w (.get ExC.o (fun _ _ => true) ExC.books [] [])).2 = .failed .error ∧
    (serve ExC.E w (.add ExC.o ExC.books [] [])).2 = .failed .panic := by decide +kernel
example : Req.openPod true ∉ [(.login true : Req Nat Nat), .openPod false] := by simp

end Fave.C22
