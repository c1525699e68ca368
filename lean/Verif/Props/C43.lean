import Verif.Lemmas.ClientTidy
import Verif.Lemmas.ClientNear
import Verif.Props.C01
import Verif.Spec.ExampleClient
/-!
# C43 — every hit has its document

True of collections whose requests leave them in order (`Tidy`); false after a document that could not be marshalled, after an addition
broken off by a failing document write, and, should fairOS-dfs replace documents of equal id, after a second document with an id in use.
-/
namespace Fave.C43
open Client
variable {F D : Type} [Dist D] [DecidableEq F]

/-- the common part: the search on the opened collection -/
theorem near_total {E : Env F D} (hP : E.P.Ok) (hdi : ∀ a b, E.P.metric.len a = E.P.metric.len b → ∃ d, E.P.metric.dist a b = some d)
    (hsym : ∀ a b, E.P.metric.dist a b = E.P.metric.dist b a) {L : Nat} {name : Str} {w1 : World F} {vs : List (List F)}
    (h : TInv E L name w1 vs) (hn : vs ≠ []) (hidx : (w1.coll (ns ++ name)).hasIdx = true) {o : Oracle F D} (hfind : ∀ i, o.find i = false)
    {q : List F} (hq : E.P.metric.len q = L) (max : D) (ef limit : Int) (hl : 0 ≤ limit) :
    ∃ docs ds, (nearWith E o w1 (ns ++ name) q max ef limit).2 = .ok (docs, ds) ∧
      ∀ (j : Nat) (p : Props F) (d : D), docs[j]? = some p → ds[j]? = some d → p ∈ w1.docs (ns ++ name) ∧
        ∃ (n : Nat) (u : List F), p.get hnswName = some (.int n) ∧ vs[n]? = some u ∧ E.P.metric.dist (E.P.norm q) (E.P.norm u) = some d := by
  have hh : Index.Hist E.P (loaded o (w1.coll (ns ++ name)).idx) vs := (Move.loaded (.refl _) o).hist h.hist h.count
  have hi := Index.hist_inv hP hh
  have hq' : ∀ u ∈ vs, E.P.metric.len u = E.P.metric.len q := fun u hu => by rw [hq]; exact h.len u hu
  obtain ⟨r, hr⟩ := Index.hist_search_total hP hdi hsym hi hn hq' (o.sched 0) ef none
  obtain ⟨ids, dists, hk⟩ : ∃ ids dists, (Index.firstGraph E.P (loaded o (w1.coll (ns ++ name)).idx) vs.length).knnMaxDist (o.sched 0) q max ef none = .ok (ids, dists) := by
    have hr' : (Index.firstGraph E.P (loaded o (w1.coll (ns ++ name)).idx) vs.length).retained (o.sched 0)
        ((Index.firstGraph E.P (loaded o (w1.coll (ns ++ name)).idx) vs.length).norm q) ef none = .ok r := hr
    unfold Graph.knnMaxDist
    rw [hr']
    exact ⟨_, _, rfl⟩
  have hok := Index.firstGraph_ok hP hi
  have hgen := C01.max_dist_hits_genuine _ (o.sched 0) q max ef none ids dists hok.small hsym hk
  rw [← Index.firstGraph_search hP hi hn] at hk
  have hnum : ∀ id ∈ ids, id ∈ docNumbers ((w1.dbs.get (ns ++ name)).getD ⟨[], []⟩).docs := by
    intro id hid
    obtain ⟨j, hj, hjid⟩ := List.getElem_of_mem hid
    obtain ⟨v, d, h1, _⟩ := hgen.2 j id (by rw [List.getElem?_eq_getElem hj, hjid])
    have := (Index.firstGraph_get h1).1
    show id ∈ docNumbers (w1.docs (ns ++ name))
    rw [h.numbers]; exact List.mem_range.mpr this
  obtain ⟨ids', ds, ht, hpre⟩ : ∃ ids' ds, truncate limit ids dists = .ok (ids', ds) ∧ ids' <+: ids ∧ ds <+: dists := by
    unfold truncate
    split
    · rw [if_neg (by omega)]
      exact ⟨_, _, rfl, List.take_prefix .., List.take_prefix ..⟩
    · exact ⟨_, _, rfl, List.prefix_rfl, List.prefix_rfl⟩
  obtain ⟨docs, hd⟩ := lookupAll_total hfind ids' (fun id hid => hnum id (hpre.1.subset hid)) 0
  refine ⟨docs, ds, ?_, ?_⟩
  · rw [nearWith_of limit hidx hk, ht]
    simp only
    rw [hd]
  · intro j p d hj hdj
    have hlen := lookupAll_length hd
    have hjl : j < ids'.length := by rw [← hlen]; exact (List.getElem?_eq_some_iff.mp hj).1
    obtain ⟨p', hp', hf⟩ := lookupAll_get hd j ids'[j] (List.getElem?_eq_getElem hjl)
    rw [hj] at hp'; cases hp'
    obtain ⟨hm, hnm⟩ := findNumber_mem hf
    have hids : ids[j]? = some ids'[j] := by
      rw [List.prefix_iff_getElem?] at hpre
      exact hpre.1 j hjl
    obtain ⟨v, d', h1, h2, h3, _⟩ := hgen.2 j _ hids
    have hdd : d' = d := by
      have hjd : j < ds.length := (List.getElem?_eq_some_iff.mp hdj).1
      have := (List.prefix_iff_getElem?.mp hpre.2) j hjd
      rw [h2] at this
      rw [List.getElem?_eq_getElem hjd] at hdj
      simp only [Option.some.injEq] at this hdj
      rw [this, hdj]
    subst hdd
    obtain ⟨hlt, hget⟩ := Index.firstGraph_get h1
    have hu : vs[ids'[j]]? = some (vs[ids'[j]]'hlt) := List.getElem?_eq_getElem hlt
    refine ⟨hm, ids'[j], _, hnm, hu, ?_⟩
    rw [← hi.holds _ _ v hu hget]
    exact h3

/-- Any sequence of requests of all kinds (restarts, requests about other collections, searches, anything that fails there) in which the
additions to the collection and its deletions leave it in order: if the collection holds a vector, every search by vector that gets as far
as the index, with a query of the right length and a limit that is not negative, is answered with documents of the collection, each at
the true distance of the vector added under the document's number; it never fails for want of a document (provided reading them does not
fail).  Missing from the full statement: the disorderly additions of the theorems below. -/
theorem every_hit_has_document_partial (E : Env F D) (hr : E.replace = false) (hP : E.P.Ok)
    (hdi : ∀ a b, E.P.metric.len a = E.P.metric.len b → ∃ d, E.P.metric.dist a b = some d)
    (hsym : ∀ a b, E.P.metric.dist a b = E.P.metric.dist b a)
    (L : Nat) (name : Str) (lookup : Bool) (dbs : Map (Db F)) (hf : dbs.get (ns ++ name) = none)
    (rs : List (Req F D)) (ht : TidyRun E L name (World.fresh lookup dbs) rs) (w : World F) (hw : w = run E (World.fresh lookup dbs) rs)
    (hpos : 0 < w.count (ns ++ name))
    (o : Oracle F D) (hfind : ∀ i, o.find i = false) (w1 : World F) (hopen : ensureOpen o w (ns ++ name) = (w1, none))
    (hidx : (w1.coll (ns ++ name)).hasIdx = true) (q : List F) (hq : E.P.metric.len q = L) (max : D) (limit : Int) (hl : 0 ≤ limit) :
    ∃ docs ds, (serve E w (.nearVector o name q max limit)).2 = .near docs ds ∧
      ∀ (j : Nat) (p : Props F) (d : D), docs[j]? = some p → ds[j]? = some d → p ∈ w.docs (ns ++ name) ∧
        ∃ (n : Nat) (v : Vertex (List F)), p.get hnswName = some (.int n) ∧ (w1.coll (ns ++ name)).idx.get n = some v ∧
          E.P.metric.dist (E.P.norm q) v.vec = some d := by
  subst hw
  obtain ⟨vs, h, _⟩ := tinv_run hP hr rs (tinv_fresh E L name lookup dbs hf) ht
  have hc := calm_ensureOpen o (run E (World.fresh lookup dbs) rs) (ns ++ name)
  rw [hopen] at hc
  have h1 := h.calm hc
  have hn : vs ≠ [] := by
    intro e
    rw [h.count, e] at hpos
    simp at hpos
  obtain ⟨docs, ds, h2, h3⟩ := near_total hP hdi hsym h1 hn hidx hfind hq max 800 limit hl
  refine ⟨docs, ds, by rw [serve_nearVector_of hopen, h2]; rfl, ?_⟩
  intro j p d hj hd
  obtain ⟨g1, n, u, g2, g3, g4⟩ := h3 j p d hj hd
  have hi1 := Index.hist_inv hP h1.hist
  obtain ⟨v, hv, _⟩ := hi1.wf n (List.getElem?_eq_some_iff.mp g3).1
  refine ⟨by rw [← hc.docs]; exact g1, n, v, g2, hv, ?_⟩
  rw [hi1.holds n u v g3 hv]; exact g4

/-- The same for searches by text, whatever vector of the right length the vectoriser makes of the text. -/
theorem every_text_hit_has_document_partial (E : Env F D) (hr : E.replace = false) (hP : E.P.Ok)
    (hdi : ∀ a b, E.P.metric.len a = E.P.metric.len b → ∃ d, E.P.metric.dist a b = some d)
    (hsym : ∀ a b, E.P.metric.dist a b = E.P.metric.dist b a)
    (L : Nat) (name : Str) (lookup : Bool) (dbs : Map (Db F)) (hf : dbs.get (ns ++ name) = none)
    (rs : List (Req F D)) (ht : TidyRun E L name (World.fresh lookup dbs) rs) (w : World F) (hw : w = run E (World.fresh lookup dbs) rs)
    (hpos : 0 < w.count (ns ++ name))
    (o : Oracle F D) (hfind : ∀ i, o.find i = false) (w1 : World F) (hopen : ensureOpen o w (ns ++ name) = (w1, none))
    (hidx : (w1.coll (ns ++ name)).hasIdx = true) (hlook : w1.lookup = true) (text : Str) (q : List F) (hc : o.corpi 0 text = .vec q)
    (hq : E.P.metric.len q = L) (max : D) (limit : Int) (hl : 0 ≤ limit) :
    ∃ docs ds, (serve E w (.nearText o name text max limit)).2 = .near docs ds ∧ ∀ p ∈ docs, p ∈ w.docs (ns ++ name) := by
  subst hw
  obtain ⟨vs, h, _⟩ := tinv_run hP hr rs (tinv_fresh E L name lookup dbs hf) ht
  have hcalm := calm_ensureOpen o (run E (World.fresh lookup dbs) rs) (ns ++ name)
  rw [hopen] at hcalm
  have h1 := h.calm hcalm
  have hn : vs ≠ [] := by
    intro e
    rw [h.count, e] at hpos
    simp at hpos
  obtain ⟨docs, ds, h2, _⟩ := near_total hP hdi hsym h1 hn hidx hfind hq max limit limit hl
  refine ⟨docs, ds, ?_, ?_⟩
  · have h2 : (nearWith E o w1 (ns ++ name) q max limit limit).2 = .ok (docs, ds) := h2
    simp only [serve, nearText, hopen, hlook, hc, Bool.not_true, Bool.false_eq_true, if_false]
    rw [h2]; rfl
  · intro p hp
    obtain ⟨_, _, _, ids', _, _, _, _, hd⟩ := nearWith_ok h2
    obtain ⟨j, hj, hjp⟩ := List.getElem_of_mem hp
    have hlen := lookupAll_length hd
    obtain ⟨p', hp', hfn⟩ := lookupAll_get hd j (ids'[j]'(by omega)) (List.getElem?_eq_getElem (by omega))
    rw [List.getElem?_eq_getElem hj, hjp] at hp'
    cases hp'
    rw [← hcalm.docs]
    exact (findNumber_mem hfn).1

/-! ## where the statement is false -/

/-- the answer to a search by vector in "books" -/
def search (w : World Nat) : Ans Nat Nat := (serve ExC.E w (.nearVector ExC.o ExC.books [11, 0] 1000 0)).2

/-- A document that cannot be marshalled is passed over after its vector has been added; the request succeeds, and from then on every
search that meets the vector fails. -/
theorem unmarshalled_breaks_search :
    (serve ExC.E ExC.w0 (.add { ExC.o with marshal := fun i => i == 0 } ExC.books [] [ExC.docV 'a' [10, 0], ExC.docV 'b' [12, 0]])).2 = .done ∧
    search (serve ExC.E ExC.w0 (.add { ExC.o with marshal := fun i => i == 0 } ExC.books [] [ExC.docV 'a' [10, 0], ExC.docV 'b' [12, 0]])).1 =
      .failed .error := by decide +kernel

/-- Storing a document fails after its vector has been added to the index in memory: searches fail. -/
theorem failed_write_breaks_search :
    search (run ExC.E ExC.w0 [.add ExC.o ExC.books [] [ExC.docV 'a' [10, 0]]]) ≠ .failed .error ∧
    search (run ExC.E ExC.w0 [.add ExC.o ExC.books [] [ExC.docV 'a' [10, 0]],
      .add { ExC.o with put := fun _ => true } ExC.books [] [ExC.docV 'b' [12, 0]]]) = .failed .error := by decide +kernel

/-- If the store replaces a document by one with the same id, the old vector stays: searches fail after an ordinary update. -/
theorem replaced_breaks_search :
    (serve { ExC.E with replace := true } (run { ExC.E with replace := true } ExC.w0 [.add ExC.o ExC.books [] [ExC.docV 'a' [10, 0]],
      .add ExC.o ExC.books [] [ExC.docV 'a' [12, 0]]]) (.nearVector ExC.o ExC.books [11, 0] 1000 0)).2 = .failed .error := by decide +kernel

/-! Non-vacuity: batches with all kinds of documents, a restart in between. -/
def story : List (Req Nat Nat) := ExC.setup ++
  [.add ExC.o ExC.books [ExC.title] ExC.batch, .delete ExC.o ExC.films, .restart, .login true, .openPod true,
   .nearVector ExC.o ExC.books [11, 0] 100 0, .add ExC.o ExC.books [ExC.title] (ExC.batch.drop 1)]

example : TidyRun ExC.E 2 ExC.books (World.fresh true ExC.foreign) story ∧ ExC.foreign.get (ns ++ ExC.books) = none ∧ ExC.E.P.Ok ∧
    (∃ docs ds, search (run ExC.E (World.fresh true ExC.foreign) story) = .near docs ds ∧ docs.length = 7) := by
  refine ⟨tidyRunB_sound _ (by decide +kernel), by decide, Ex.P_ok, ?_⟩
  have : (match search (run ExC.E (World.fresh true ExC.foreign) story) with | .near docs _ => docs.length == 7 | _ => false) = true := by decide +kernel
  split at this
  · rename_i docs ds he; exact ⟨docs, ds, he, by simpa using this⟩
  · cases this

/-- the search reaches the index -/
example : (ensureOpen ExC.o (run ExC.E (World.fresh true ExC.foreign) story) (ns ++ ExC.books)).2 = none ∧
    (((ensureOpen ExC.o (run ExC.E (World.fresh true ExC.foreign) story) (ns ++ ExC.books)).1.coll (ns ++ ExC.books)).hasIdx) = true ∧
    ExC.o.corpi 0 ExC.title = .vec [5, 0] ∧ (World.lookup (run ExC.E (World.fresh true ExC.foreign) story)) = true := by decide +kernel

end Fave.C43
