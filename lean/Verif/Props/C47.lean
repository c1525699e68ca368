import Verif.Lemmas.ClientWorld
import Verif.Spec.ExampleClient
/-!
# C47 — a deleted collection leaves nothing behind

The full statement is false of the code: `DeleteCollection` answers with success even if one of the two deletions in storage has failed; then
the old vectors or the old documents are found in the collection created next under the same name (`vectors_survive`, `documents_survive`).
-/
namespace Fave.C47
open Client
variable {F D : Type} [Dist D] [DecidableEq F]

theorem same_run (E : Env F D) (n : Str) (ss : List (Req F D)) {w w' : World F} (h : SameFor w w' (ns ++ n)) :
    SameFor (run E w ss) (run E w' ss) (ns ++ n) := by
  induction ss generalizing w w' with
  | nil => exact h
  | cons r ss ih =>
    rw [run_cons, run_cons]
    apply ih
    cases ha : r.about with
    | none => exact same_serve_none E r ha h
    | some m =>
      by_cases hm : m = n
      · subst hm; exact (same_serve E r ha h).1
      · exact ((onlyAt_serve E w r ha).same (ns_ne (Ne.symm hm))).symm.trans (h.trans ((onlyAt_serve E w' r ha).same (ns_ne (Ne.symm hm))))

/-- **A deleted collection is as if it had never existed.**  Whatever the state, a deletion is answered with success and both storage calls
behind it succeed.  Then from now on, whatever requests are served in between (`ss`: creations, additions, restarts, …), every request about
this collection is answered exactly as in a pod `v` in which nothing was ever kept under its name. -/
theorem deleted_leaves_nothing_partial (E : Env F D) (w v : World F) (o : Oracle F D) (name : Str) (hd : o.docDelete = false) (ht : o.deleteTable = false)
    (hok : (serve E w (.delete o name)).2 = .done)
    (hv : v.session = w.session ∧ v.pod = w.pod ∧ v.lookup = w.lookup ∧ v.coll (ns ++ name) = Coll.none ∧ v.dbs.get (ns ++ name) = none)
    (ss : List (Req F D)) (r : Req F D) (hr : r.about = some name) :
    (serve E (run E (serve E w (.delete o name)).1 ss) r).2 = (serve E (run E v ss) r).2 := by
  obtain ⟨v1, v2, v3, v4, v5⟩ := hv
  have hsame : SameFor v (serve E w (.delete o name)).1 (ns ++ name) := by
    have hon := onlyAt_delete o w name
    have hserve : (serve E w (.delete o name)).1 = (delete o w name).1 := rfl
    have h2 : (delete o w name).2 = none := by
      cases hx : (delete o w name).2 with
      | none => rfl
      | some e => simp only [serve, hx, Ans.ofErr] at hok; cases hok
    rw [hserve]
    refine ⟨by rw [hon.session, v1], by rw [hon.pod, v2], by rw [hon.lookup, v3], ?_, ?_⟩
    · rw [v4]
      unfold delete at h2 ⊢
      by_cases h3 : (!w.session) = true
      · rw [if_pos h3] at h2; cases h2
      rw [if_neg h3] at h2 ⊢
      by_cases h4 : (!w.pod) = true
      · rw [if_pos h4] at h2; cases h2
      rw [if_neg h4]
      simp only [hd, ht, Bool.false_eq_true, if_false, setColl_self]
      simp [World.setColl, Coll.none, Index.init, Index.reopen]
    · rw [v5]
      rcases delete_cases o w name with ⟨_, h⟩ | ⟨_, h, _⟩
      · exfalso
        unfold delete at h2
        by_cases h3 : (!w.session) = true
        · rw [if_pos h3] at h2; cases h2
        rw [if_neg h3] at h2
        by_cases h4 : (!w.pod) = true
        · rw [if_pos h4] at h2; cases h2
        simp only [Bool.not_eq_true', Bool.not_eq_false] at h3 h4
        rw [h3, h4] at h; cases h
      · rw [hd] at h
        exact h.1
  exact (same_serve E r hr (same_run E name ss hsame)).2

/-! Non-vacuity: "books" has five documents; it is deleted, created again and filled with one document, which is the only one found. -/
def again : List (Req Nat Nat) := [.create ExC.o ExC.books [], .add ExC.o ExC.books [] [ExC.docV 'z' [12, 0]]]
example : (serve ExC.E ExC.w1 (.delete ExC.o ExC.books)).2 = .done ∧ (ExC.w1.dbs.get (ns ++ ExC.books)).map (fun d => d.docs.length) = some 5 ∧
    (serve ExC.E (run ExC.E (serve ExC.E ExC.w1 (.delete ExC.o ExC.books)).1 again) (.nearVector ExC.o ExC.books [10, 0] 100 5)).2 =
      .near [[(idName, .str ['z']), (hnswName, .int 0)]] [2] := by decide +kernel
/-- the comparison: a pod with the same session in which "books" never existed -/
example : let v := run ExC.E (World.fresh true []) [.login true, .openPod true]
    v.session = ExC.w1.session ∧ v.pod = ExC.w1.pod ∧ v.lookup = ExC.w1.lookup ∧ v.coll (ns ++ ExC.books) = Coll.none ∧
    v.dbs.get (ns ++ ExC.books) = none := ⟨by decide +kernel, by decide +kernel, by decide +kernel, rfl, rfl⟩

/-- False in general: the deletion of the table fails, the answer is success; after creating the collection anew a search fails, because
the old vectors are found and have no documents. -/
theorem vectors_survive : let o : Oracle Nat Nat := { ExC.o with deleteTable := true }
    (serve ExC.E ExC.w1 (.delete o ExC.books)).2 = .done ∧
    (serve ExC.E (run ExC.E (serve ExC.E ExC.w1 (.delete o ExC.books)).1 [.create ExC.o ExC.books []]) (.nearVector ExC.o ExC.books [10, 0] 100 5)).2 =
      .failed .error := by decide +kernel

/-- False in general: the deletion of the database fails, the answer is success; after creating the collection anew the old documents are
looked up. -/
theorem documents_survive : let o : Oracle Nat Nat := { ExC.o with docDelete := true }
    (serve ExC.E ExC.w1 (.delete o ExC.books)).2 = .done ∧
    (serve ExC.E (run ExC.E (serve ExC.E ExC.w1 (.delete o ExC.books)).1 [.create ExC.o ExC.books []])
      (.get ExC.o (fun _ p => p.get idName = some (.str ['a'])) ExC.books idName ['a'])).2 ≠
      .failed .error := by decide +kernel

end Fave.C47
