import Verif.Lemmas.CrashRest
import Verif.Spec.ExampleClient
/-!
# C70 — a request ends in a panic only for one of a short list of reasons
-/
namespace Fave
namespace C70
open Client Index Rest
variable {F D : Type} [Dist D] [DecidableEq F]

/-- Whatever requests came before — with whatever failures of storage and vectoriser, schedules, layers and restarts — a request to the
client panics only for one of the reasons listed in `Cause`.  In particular the creation, deletion and listing of collections and the
look-up of a single document never panic, a search panics only without pod, without index object, for a negative limit, or if the
vectoriser does not answer, and an addition only without pod, without index object, or because of a document that is null, is to be
vectorised from a property that is no string, gets no answer from the vectoriser, or finds no place in the vector cache. -/
theorem crash_has_cause {E : Env F D} (hc : 0 < E.P.cacheSize) (lookup : Bool) (dbs : Map (Db F)) (rs : List (Req F D)) (r : Req F D)
    (hp : (serve E (run E (World.fresh lookup dbs) rs) r).2 = .failed .panic) : Cause E (run E (World.fresh lookup dbs) rs) r :=
  serve_cause hc (soundAll_run hc rs (soundAll_fresh E lookup dbs)) r hp

/-- On an open collection a document added by itself makes the request panic exactly if it is one of these documents. -/
theorem addition_crashes_exactly {E : Env F D} (hc : 0 < E.P.cacheSize) (lookup : Bool) (dbs : Map (Db F)) (rs : List (Req F D)) (o : Oracle F D) (name : Str)
    (ti : List Str) (d : Option (Doc F)) :
    let w := run E (World.fresh lookup dbs) rs
    w.pod = true → w.session = true → (w.coll (ns ++ name)).tableOpen = true → (w.coll (ns ++ name)).dbOpen = true → (w.coll (ns ++ name)).hasIdx = true →
    o.kvCount = false → o.isOpen = false →
    ((serve E w (.add o name ti [d])).2 = .failed .panic ↔ DocCrash E o w.lookup ti 0 (if o.count then 0 else w.count (ns ++ name)) d) := by
  intro w h1 h2 h3 h4 h5 h6 h7
  have hs : Sound E.P.cacheSize (w.coll (ns ++ name)).idx := soundAll_run hc rs (soundAll_fresh E lookup dbs) name
  have hop : ensureOpen o w (ns ++ name) = (w.setColl (ns ++ name) { w.coll (ns ++ name) with tableOpen := true }, none) := by
    unfold ensureOpen
    simp only [h1, h2, h3, h6, h7, setColl_self, setColl_session, h4]
    rfl
  simp only [serve, addDocuments, addBegin, hop, setColl_self, h5, Bool.not_true, Bool.false_eq_true, if_false]
  have e : ∀ x : Option Err, (Ans.ofErr x : Ans F D) = .failed .panic ↔ x = some .panic := by
    intro x
    cases x <;> simp [Ans.ofErr]
  rw [e, addFinish_panic, addLoop_one, setColl_self]
  exact addOne_panic E o w.lookup ti 0 (b := ⟨(w.coll (ns ++ name)).idx, ((w.dbs.get (ns ++ name)).getD ⟨[], []⟩).docs,
    if o.count then 0 else (w.coll (ns ++ name)).idx.docCount.getD 0, []⟩) hs d

/-- The insertion of a vector into the index of a collection panics exactly if its number is beyond the vector cache (and the vector not
empty); all links, layers and distances it meets are in range. -/
theorem insertion_crashes_exactly {E : Env F D} (hc : 0 < E.P.cacheSize) (lookup : Bool) (dbs : Map (Db F)) (rs : List (Req F D)) (name : Str)
    (vo : VecOracle (List F)) (sched : Graph.Scheds D) (x : Nat) (vec : List F) (level : Nat) :
    (Index.add E.P vo sched ((run E (World.fresh lookup dbs) rs).coll (ns ++ name)).idx x vec level).2 = some .panic ↔
      E.P.metric.len vec ≠ 0 ∧ E.P.cacheSize ≤ x :=
  (add_calm vo sched (soundAll_run hc rs (soundAll_fresh E lookup dbs) name) x vec level).1

/-- The search in the index of a collection does not panic. -/
theorem search_never_crashes {E : Env F D} (hc : 0 < E.P.cacheSize) (lookup : Bool) (dbs : Map (Db F)) (rs : List (Req F D)) (name : Str)
    (sched : Graph.Scheds D) (q : List F) (max : D) (ef : Int) (allow : Option (Nat → Bool)) :
    (((run E (World.fresh lookup dbs) rs).coll (ns ++ name)).idx.graph E.P).knnMaxDist sched q max ef allow ≠ .error .panic :=
  Graph.knnMaxDist_calm (soundAll_run hc rs (soundAll_fresh E lookup dbs) name).fits sched q max ef allow

/-- If no creation fails after it has opened the database, deletions delete the documents, and single documents are looked up only in
collections that are open or missing, then no collection is ever without index object. -/
theorem index_object_there (E : Env F D) (lookup : Bool) (dbs : Map (Db F)) (rs : List (Req F D)) (hs : SteadyRun E (World.fresh lookup dbs) rs) (name : Str) :
    ¬NoIndex (run E (World.fresh lookup dbs) rs) name :=
  (equipped_run E rs (fun _ h => by cases h) hs).index name

/-- The same at the REST interface: a request ends without answer only for one of the reasons listed in `RestCause`; further reasons are a
null among the indexes of a creation or among the documents of an addition. -/
theorem rest_crash_has_cause {E : Env F D} (hc : 0 < E.P.cacheSize) (uuid : Str → Bool) (lookup : Bool) (dbs : Map (Db F)) (rs : List (Req F D))
    (hs : List (HReq F D)) (r : HReq F D) (hp : (handle E uuid (handleAll E uuid (run E (World.fresh lookup dbs) rs) hs) r).2 = .crash) :
    RestCause E (handleAll E uuid (run E (World.fresh lookup dbs) rs) hs) r :=
  handle_cause hc uuid (soundAll_handleAll hc uuid hs (soundAll_run hc rs (soundAll_fresh E lookup dbs))) r hp

/-! ## each reason does occur -/
open ExC

/-- a vector cache with room for one vector -/
def E1 : Env Nat Nat := ⟨{ Ex.P with cacheSize := 1 }, false⟩
/-- a vectoriser that answers with a status other than 200 -/
def oNil : Oracle Nat Nat := { o with corpi := fun _ _ => .nil }
def back : List (Req Nat Nat) := [.restart, .login true, .openPod true]

/-- Without pod; a null document; a property to index that is a number; no answer of the vectoriser, for a document and for a search; a
second vector in a cache for one; a search and an addition after a look-up, following a restart, has opened the database without index; a
negative limit. -/
theorem each_reason_occurs :
    (serve E (World.fresh true []) (.add o books [] [])).2 = .failed .panic ∧
    (serve E w1 (.add o books [] [none])).2 = .failed .panic ∧
    (serve E w1 (.add o books [year] [some ⟨['d'], [(year, .int 1999)]⟩])).2 = .failed .panic ∧
    (serve E w1 (.add oNil books [title] [docT 'g' ['x']])).2 = .failed .panic ∧
    (serve E w1 (.nearText oNil books ['x'] 100 1)).2 = .failed .panic ∧
    (serve E1 (run E1 (World.fresh true []) (setup ++ [.add o books [] [docV 'a' [10, 0]]])) (.add o books [] [docV 'b' [12, 0]])).2 = .failed .panic ∧
    (serve E (run E w1 (back ++ [.get o (fun _ _ => true) books title ['x']])) (.nearVector o books [10, 0] 100 1)).2 = .failed .panic ∧
    (serve E (run E w1 (back ++ [.get o (fun _ _ => true) books title ['x']])) (.add o books [] [docV 'g' [10, 0]])).2 = .failed .panic ∧
    (serve E w1 (.nearVector o books [10, 0] 100 (-1))).2 = .failed .panic := by
  decide +kernel

/-- null among the indexes and among the documents of a request at the REST interface -/
theorem rest_reasons_occur :
    (handle E (fun _ => true) w1 (.create o books (some [none]))).2 = .crash ∧
    (handle E (fun _ => true) w1 (.add o books (some []) (some [none]))).2 = .crash ∧
    (handle E (fun _ => true) w1 (.add o books (some []) (some [some ⟨[], none⟩]))).2 = .crash := by
  decide +kernel

/-- `addition_crashes_exactly`: the open collection of the example, of which the fourth document is stored without panic and the same with
its year to be vectorised is not -/
example : w1.pod = true ∧ w1.session = true ∧ (w1.coll (ns ++ books)).tableOpen = true ∧ (w1.coll (ns ++ books)).dbOpen = true ∧
    (w1.coll (ns ++ books)).hasIdx = true ∧ w1.count (ns ++ books) = 4 ∧
    (serve E w1 (.add o books [title] [some ⟨['d'], [(year, .int 1999)]⟩])).2 = .done ∧ DocCrash E o true [year] 0 4 (some ⟨['d'], [(year, .int 1999)]⟩) := by
  refine ⟨by decide +kernel, by decide +kernel, by decide +kernel, by decide +kernel, by decide +kernel, by decide +kernel, by decide +kernel, .inl ?_⟩
  exact ⟨.inl (by decide), year, by simp, by decide, .int 1999, by decide, by simp⟩

/-- `insertion_crashes_exactly`: the sixteenth number has a place, the seventeenth has none -/
example : (Index.add E.P Ex.vo Ex.sched (w1.coll (ns ++ books)).idx 15 [1, 1] 0).2 = none ∧
    (Index.add E.P Ex.vo Ex.sched (w1.coll (ns ++ books)).idx 16 [1, 1] 0).2 = some .panic := by
  decide +kernel

/-- `search_never_crashes`: the search of the example finds the four vectors -/
example : (((w1.coll (ns ++ books)).idx.graph E.P).knnMaxDist Ex.sched [11, 0] 100 8 none).toOption.map (·.1.length) = some 4 := by
  decide +kernel

/-- `index_object_there`: two creations, an addition, a deletion, a restart and a search -/
example : SteadyRun E (World.fresh true []) (setup ++ [.add o books [title] batch, .delete o films] ++ back ++ [.nearVector o books [10, 0] 100 1]) := by
  simp only [setup, back, List.cons_append, List.nil_append, SteadyRun, Steady]
  exact ⟨trivial, trivial, ⟨rfl, rfl⟩, ⟨rfl, rfl⟩, trivial, rfl, trivial, trivial, trivial, trivial, trivial⟩

end C70
end Fave
