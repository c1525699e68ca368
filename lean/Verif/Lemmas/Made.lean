import Verif.Model.Made
import Verif.Lemmas.Reads
/-! # The indices requests make -/
namespace Fave.Client
variable {F D : Type} [Dist D]

theorem madeOpening_le (o : Oracle F D) (w : World F) (c : Str) : madeOpening o w c ≤ 1 := by
  unfold madeOpening; repeat' split
  all_goals omega

theorem madeCreating_le (o : Oracle F D) (w : World F) (name : Str) : madeCreating o w name ≤ 1 := by
  unfold madeCreating; repeat' split
  all_goals omega

theorem made_le (w : World F) (r : Req F D) : made w r ≤ 1 := by
  cases r <;> simp only [made] <;> first | exact madeOpening_le _ _ _ | exact madeCreating_le _ _ _ | omega

theorem madeOpening_open (o : Oracle F D) {w : World F} {c : Str} (h : (w.coll c).dbOpen = true) : madeOpening o w c = 0 := by
  unfold madeOpening; repeat' split
  all_goals simp_all

theorem create_dbOpen (o : Oracle F D) (w : World F) (name : Str) (ix : Map IxType) {n : Str} (h : (w.coll n).dbOpen = true) :
    ((create o w name ix).1.coll n).dbOpen = true := by
  have hw : ∀ i, ((w.withDb (ns ++ name) i).coll n).dbOpen = true := by
    intro i; unfold World.withDb; split <;> exact h
  unfold create
  split
  · exact h
  split
  · exact h
  simp only
  split
  · exact h
  split
  · exact hw _
  simp only [setColl_self, setColl_setColl]
  split
  · exact setColl_dbOpen (fun h => h) (hw _)
  split
  · exact setColl_dbOpen (fun _ => rfl) (hw _)
  split
  · exact setColl_dbOpen (fun _ => rfl) (hw _)
  · exact setColl_dbOpen (fun _ => rfl) (hw _)

theorem addFinish_dbOpen [DecidableEq F] (E : Env F D) (o : Oracle F D) (w : World F) (name : Str) (ti : List Str) (docs : List (Option (Doc F)))
    (k : Nat) {n : Str} (h : (w.coll n).dbOpen = true) : ((addFinish E o w name ti docs k).1.coll n).dbOpen = true := by
  have h1 : ∀ x : Index (List F), ((w.setColl (ns ++ name) { w.coll (ns ++ name) with idx := x }).coll n).dbOpen = true :=
    fun x => setColl_dbOpen (fun h => h) h
  unfold addFinish
  simp only
  split
  · exact h1 _
  · split
    · refine setColl_dbOpen (w := _) (fun h => ?_) (h1 _)
      exact h
    · refine setColl_dbOpen (w := _) (fun h => ?_) (h1 _)
      exact h

theorem add_dbOpen [DecidableEq F] (E : Env F D) (o : Oracle F D) (w : World F) (name : Str) (ti : List Str) (docs : List (Option (Doc F))) {n : Str}
    (h : ((ensureOpen o w (ns ++ name)).1.coll n).dbOpen = true) : ((addDocuments E o w name ti docs).1.coll n).dbOpen = true := by
  have hb : (addBegin o w name).1 = (ensureOpen o w (ns ++ name)).1 := by
    unfold addBegin
    simp only
    split
    · rename_i he; rw [he]
    · rename_i he; rw [he]; split <;> rfl
  unfold addDocuments
  split
  · rename_i he; rw [he] at hb; rw [← hb] at h; exact h
  · rename_i he; rw [he] at hb; rw [← hb] at h; exact addFinish_dbOpen E o _ name ti docs _ h

/-- requests other than a deletion and a restart close nothing -/
theorem serve_dbOpen [DecidableEq F] (E : Env F D) (w : World F) (r : Req F D) {n : Str} (hd : ∀ o m, r = .delete o m → ns ++ m ≠ n)
    (hr : r ≠ .restart) (h : (w.coll n).dbOpen = true) : ((serve E w r).1.coll n).dbOpen = true := by
  cases r with
  | login ok => simp only [serve, login]; split <;> exact h
  | openPod ok => simp only [serve, openPod]; repeat' split
                  all_goals exact h
  | create o m ix => exact create_dbOpen o w m ix h
  | delete o m =>
    have hne := hd o m rfl
    simp only [serve, delete]
    have : ∀ (w : World F) (x : Coll F), (w.coll n).dbOpen = true → ((w.setColl (ns ++ m) x).coll n).dbOpen = true := by
      intro w x hw
      simpa [World.setColl, hne.symm] using hw
    repeat' split
    all_goals first | exact h | skip
    · exact this _ _ h
    · exact this _ _ (this _ _ h)
    · exact this _ _ (this _ _ h)
    · exact this _ _ (this _ _ (this _ _ h))
  | list o => exact h
  | add o m ti docs => exact add_dbOpen E o w m ti docs (ensureOpen_dbOpen o w _ h)
  | nearVector o m q mx l => exact nearVector_dbOpen E o w m q mx l h
  | nearText o m t mx l => exact nearText_dbOpen E o w m t mx l h
  | get o sat m p v => exact getDocument_dbOpen o sat w m p v h
  | restart => exact absurd rfl hr

/-- a request that opens and is not answered with an error leaves the database open -/
theorem serve_opens [DecidableEq F] (E : Env F D) (w : World F) (r : Req F D) {m : Str} (hr : r.search = true ∨ ∃ o ti docs, r = .add o m ti docs)
    (ha : r.about = some m) (hok : ∀ e, (serve E w r).2 ≠ .failed e) : ((serve E w r).1.coll (ns ++ m)).dbOpen = true := by
  cases r with
  | add o m' ti docs =>
    simp only [Req.about, Option.some.injEq] at ha
    subst ha
    refine add_dbOpen E o w m' ti docs ?_
    cases he : ensureOpen o w (ns ++ m') with
    | mk w' e =>
      cases e with
      | none => exact (ensureOpen_open he).2
      | some e =>
        refine absurd ?_ (hok e)
        simp [serve, addDocuments, addBegin, he, Ans.ofErr]
  | nearVector o m' q mx l =>
    simp only [Req.about, Option.some.injEq] at ha
    subst ha
    simp only [serve] at hok ⊢
    unfold nearVector at hok ⊢
    cases he : ensureOpen o w (ns ++ m') with
    | mk w' e =>
      rw [he] at hok
      cases e with
      | none => exact nearWith_dbOpen E o _ _ _ _ _ _ (ensureOpen_open he).2
      | some e => exact absurd rfl (hok e)
  | nearText o m' t mx l =>
    simp only [Req.about, Option.some.injEq] at ha
    subst ha
    simp only [serve] at hok ⊢
    unfold nearText at hok ⊢
    cases he : ensureOpen o w (ns ++ m') with
    | mk w' e =>
      rw [he] at hok
      cases e with
      | none =>
        have hd := (ensureOpen_open he).2
        simp only
        split
        · exact hd
        · split
          · exact hd
          · exact hd
          · exact nearWith_dbOpen E o _ _ _ _ _ _ hd
      | some e => exact absurd rfl (hok e)
  | _ => rcases hr with hr | ⟨_, _, _, hr⟩ <;> cases hr

end Fave.Client
