import Verif.Lemmas.ClientRun
import Verif.Spec.ExampleClient
/-!
# C20: collections are isolated from each other
-/
namespace Fave.C20
open Client
variable {F D : Type} [Dist D] [DecidableEq F]

/-- No request about one collection, whatever it does and however it fails, changes the documents, the index or anything else of
another collection. -/
theorem others_unchanged (E : Env F D) (w : World F) (r : Req F D) (n m : Str) (hr : r.about = some n) (hm : m ≠ n) :
    (serve E w r).1.coll (ns ++ m) = w.coll (ns ++ m) ∧ (serve E w r).1.dbs.get (ns ++ m) = w.dbs.get (ns ++ m) := by
  have := onlyAt_serve E w r hr
  exact ⟨this.coll _ (ns_ne hm), this.db _ (ns_ne hm)⟩

/-- The same for the databases other applications keep in the pod (their names do not begin with the prefix). -/
theorem foreign_unchanged (E : Env F D) (w : World F) (r : Req F D) (db : Str) (hdb : stripPrefix ns db = none) :
    (serve E w r).1.dbs.get db = w.dbs.get db := by
  have hp : ∀ (p a : Str), stripPrefix p (p ++ a) = some a := by
    intro p a
    induction p with
    | nil => rfl
    | cons c p ih => simp [stripPrefix, ih]
  cases ha : r.about with
  | some n =>
    refine (onlyAt_serve E w r ha).db _ ?_
    intro e
    rw [e, hp] at hdb
    cases hdb
  | none =>
    cases r with
    | login ok => simp only [serve, login]; split <;> rfl
    | openPod ok =>
      simp only [serve, openPod]
      split
      · rfl
      · split <;> rfl
    | list o => rfl
    | restart => rfl
    | create o name ix => cases ha
    | delete o name => cases ha
    | add o name ti docs => cases ha
    | nearVector o name q max limit => cases ha
    | nearText o name text max limit => cases ha
    | get o sat name p v => cases ha

/-- Whatever requests are served in between: a request about collection `m` gets the answer it would get if only the requests about
`m` itself (and logins, restarts, …) had been made. -/
theorem answers_independent (E : Env F D) (w : World F) (m : Str) (p : Req F D → Bool)
    (hp : ∀ r, p r = true ↔ ∀ n, r.about = some n → n = m) (rs : List (Req F D)) (r : Req F D) (hr : r.about = some m) :
    (serve E (run E w rs) r).2 = (serve E (run E w (rs.filter p)) r).2 :=
  (same_serve E r hr (run_filter E m p hp rs (.refl w _)).symm).2

/-- Cached vectors of different collections, or of different numbers, of one pod are kept under different keys. -/
theorem cache_keys_distinct (pod a b : Str) (i j : Nat) (h : cacheKey pod (ns ++ a) i = cacheKey pod (ns ++ b) j) : a = b ∧ i = j := by
  unfold cacheKey at h
  obtain ⟨h1, h2⟩ := last_slash (digits_no_slash i) (digits_no_slash j) h
  have h3 := List.append_cancel_left h1
  simp only [List.cons.injEq, true_and] at h3
  exact ⟨ns_inj h3, digits_inj h2⟩

/-- Two pods can share a key (the client uses one pod). -/
theorem cache_keys_of_two_pods : ∃ (pod pod' a b : Str), pod ≠ pod' ∧ ∀ i, cacheKey pod (ns ++ a) i = cacheKey pod' (ns ++ b) i :=
  ⟨['x'], ['x', '/', 'f', 'a', 'v', 'e', '_', 'y'], ['y', '/', 'f', 'a', 'v', 'e', '_', 'z'], ['z'], by decide, fun _ => rfl⟩

/-! Non-vacuity: "books" and "films" both exist; adding to "books" really changes it, "films" keeps its state, and the search in
"films" answers the same with and without the requests about "books". -/
example : (ExC.w1.dbs.get (ns ++ ExC.books)).map (fun d => d.docs.length) = some 5 ∧
    (ExC.w0.dbs.get (ns ++ ExC.books)).map (fun d => d.docs.length) = some 0 ∧
    ExC.w1.coll (ns ++ ExC.films) = ExC.w0.coll (ns ++ ExC.films) := by decide +kernel
example : (Req.add ExC.o ExC.books [ExC.title] ExC.batch).about = some ExC.books ∧ ExC.films ≠ ExC.books := by decide
example : stripPrefix ns ['n', 'o', 't', 'e', 's'] = none ∧ (ExC.w1.dbs.get ['n', 'o', 't', 'e', 's']).isSome := by decide +kernel
example : cacheKey ['p'] (ns ++ ExC.books) 12 = ['p', '/', 'f', 'a', 'v', 'e', '_', 'b', 'o', 'o', 'k', 's', '/', '1', '2'] := by decide +kernel
example : (serve ExC.E (run ExC.E ExC.w0 [.add ExC.o ExC.films [] [ExC.docV 'a' [1, 1]], .add ExC.o ExC.books [ExC.title] ExC.batch])
    (.nearVector ExC.o ExC.films [1, 2] 10 5)).2 = .near [[(idName, .str ['a']), (hnswName, .int 0)]] [1] := by decide +kernel

end Fave.C20
