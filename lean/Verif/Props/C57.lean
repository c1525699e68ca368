import Verif.Lemmas.Shelf
import Verif.Lemmas.ClientNear
import Verif.Props.C03
import Verif.Spec.ExampleClient
/-!
# C57 — end to end: what was put in is what is found

The contents of a collection are read off the requests alone (`Shelf`); for collections of at most `maxConn` (30) vectors and orderly
requests the answers to searches are exactly determined by them.  False in general: see the end.
-/
namespace Fave.C57
open Client
variable {F D : Type} [Dist D] [DecidableEq F]

/-- the hits an answer shows -/
def shown (limit : Int) (hits : List (Item D)) : List (Item D) := if limit = 0 then hits else hits.take limit.toNat

/-- the search in the opened collection -/
theorem near_exact [LawfulDist D] {E : Env F D} (hP : E.P.Ok) (hm : 0 < E.P.maxConn) (hef : 0 < E.P.efC)
    (hdi : ∀ a b, E.P.metric.len a = E.P.metric.len b → ∃ d, E.P.metric.dist a b = some d)
    (hsym : ∀ a b, E.P.metric.dist a b = E.P.metric.dist b a) {L : Nat} {name : Str} {w1 : World F} {s : Shelf F}
    (h : EInv E L name w1 s) (hn : s.entries ≠ []) (hsm : s.entries.length ≤ E.P.maxConn0 + 1) (hidx : (w1.coll (ns ++ name)).hasIdx = true)
    {o : Oracle F D} (hfind : ∀ i, o.find i = false) {q : List F} (hq : E.P.metric.len q = L) (max : D) (ef limit : Int)
    (hwide : (s.entries.length : Int) ≤ ef) (hl : 0 ≤ limit) :
    ∃ (hits : List (Item D)) (docs : List (Props F)) (ds : List D), (nearWith E o w1 (ns ++ name) q max ef limit).2 = .ok (docs, ds) ∧
      (hits.map Item.id).Nodup ∧ hits.Pairwise (fun a b => Dist.lt b.dist a.dist = false) ∧
      (∀ id d, (⟨id, d⟩ : Item D) ∈ hits ↔ ∃ x, s.entries[id]? = some x ∧ E.P.metric.dist (E.P.norm q) (E.P.norm x.2) = some d ∧
        Dist.lt d Dist.zero = false ∧ Dist.lt max d = false) ∧
      docs.length = (shown limit hits).length ∧
      ∀ (j : Nat) (x : Item D), (shown limit hits)[j]? = some x → ds[j]? = some x.dist ∧
        ∃ p e, docs[j]? = some p ∧ s.entries[x.id]? = some e ∧ StoredAs e.1 (x.id : Int) p := by
  have hh : Index.Hist E.P (loaded o (w1.coll (ns ++ name)).idx) (s.entries.map Prod.snd) := (Move.loaded (.refl _) o).hist h.tinv.hist h.tinv.count
  have hq' : ∀ u ∈ s.entries.map Prod.snd, E.P.metric.len u = E.P.metric.len q := fun u hu => by rw [hq]; exact h.tinv.len u hu
  obtain ⟨hits, dists, hk, hdists, hnd, hsorted, hmem⟩ := C03.small_collections_exact E.P hP hm hef hdi hsym _ _ hh (by simpa using hn) (by simpa using hsm)
    q hq' (o.sched 0) max ef (by simpa using hwide)
  have hmem' : ∀ id d, (⟨id, d⟩ : Item D) ∈ hits ↔ ∃ x, s.entries[id]? = some x ∧ E.P.metric.dist (E.P.norm q) (E.P.norm x.2) = some d ∧
        Dist.lt d Dist.zero = false ∧ Dist.lt max d = false := by
    intro id d
    rw [hmem]
    constructor
    · rintro ⟨u, h1, h2⟩
      rw [List.getElem?_map] at h1
      cases hx : s.entries[id]? with
      | none => rw [hx] at h1; cases h1
      | some x => rw [hx] at h1; cases h1; exact ⟨x, rfl, h2⟩
    · rintro ⟨x, h1, h2⟩
      exact ⟨x.2, by rw [List.getElem?_map, h1]; rfl, h2⟩
  have hpre : shown limit hits <+: hits := by
    unfold shown; split
    · exact List.prefix_rfl
    · exact List.take_prefix ..
  obtain ⟨ds, ht, hds⟩ : ∃ ds, truncate limit (hits.map Item.id) dists = .ok ((shown limit hits).map Item.id, ds) ∧
      ∀ (j : Nat) (x : Item D), (shown limit hits)[j]? = some x → ds[j]? = some x.dist := by
    have hall : ∀ (j : Nat) (x : Item D), hits[j]? = some x → dists[j]? = some x.dist := by
      intro j x hx
      have hj := (List.getElem?_eq_some_iff.mp hx).1
      have := congrArg (fun l => l[j]?) hdists
      simp only [List.getElem?_take, if_pos hj, List.getElem?_map, hx] at this
      exact this
    unfold truncate
    rw [List.length_map]
    split
    · rename_i hc
      rw [if_neg (by omega)]
      refine ⟨_, by unfold shown; rw [if_neg hc.1, List.map_take], ?_⟩
      intro j x hx
      unfold shown at hx
      rw [if_neg hc.1, List.getElem?_take] at hx
      split at hx
      · rename_i hj; rw [List.getElem?_take, if_pos hj]; exact hall j x hx
      · cases hx
    · rename_i hc
      have hsh : shown limit hits = hits := by
        unfold shown
        split
        · rfl
        · rw [List.take_of_length_le (by omega)]
      rw [hsh]
      exact ⟨_, rfl, hall⟩
  have hnum : ∀ id ∈ (shown limit hits).map Item.id, id ∈ docNumbers ((w1.dbs.get (ns ++ name)).getD ⟨[], []⟩).docs := by
    intro id hid
    obtain ⟨x, hx, rfl⟩ := List.mem_map.mp hid
    obtain ⟨e, h1, _⟩ := (hmem' x.id x.dist).mp (hpre.subset hx)
    show x.id ∈ docNumbers (w1.docs (ns ++ name))
    rw [h.tinv.numbers, List.length_map]
    exact List.mem_range.mpr (List.getElem?_eq_some_iff.mp h1).1
  obtain ⟨docs, hd⟩ := lookupAll_total hfind _ hnum 0
  refine ⟨hits, docs, ds, ?_, hnd, hsorted, hmem', by rw [lookupAll_length hd, List.length_map], ?_⟩
  · rw [nearWith_of limit hidx hk, ht]
    simp only
    rw [hd]
  · intro j x hx
    refine ⟨hds j x hx, ?_⟩
    obtain ⟨p, hp, hf⟩ := lookupAll_get hd j x.id (by rw [List.getElem?_map, hx]; rfl)
    obtain ⟨hm, hnm⟩ := findNumber_mem hf
    obtain ⟨e, h1, _⟩ := (hmem' x.id x.dist).mp (hpre.subset (List.mem_of_getElem? hx))
    obtain ⟨p', g1, g2⟩ := h.docs x.id e h1
    have hpp : p = p' := by
      refine number_inj (docs := w1.docs (ns ++ name)) (n := x.id) (by rw [h.tinv.numbers]; exact List.nodup_range) hm g1 ?_ ?_
      · unfold docNumber; rw [hnm]
      · unfold docNumber; rw [g2.number]
    subst hpp
    exact ⟨p, e, hp, h1, g2⟩

/-- A fresh process, any sequence of orderly requests (of all kinds, with restarts, deletions, failing log-ins, requests about other
collections that may do and fail as they like): the contents `entries` are what the requests say.  If a pod is open and the collection is
there and not empty, then every search by vector whose query has the right length and whose limit is not negative is answered, with the
stored documents of exactly the entries in range (cut to the limit), closest first, each with its true distance.  Missing from the full
statement: the disorderly requests below, and collections with more than `maxConn` vectors. -/
theorem found_as_put_partial [LawfulDist D] (E : Env F D) (hP : E.P.Ok) (hef : 0 < E.P.efC) (hr : E.replace = false)
    (hj : ∀ v, E.P.jsonOk v = true) (hdi : ∀ a b, E.P.metric.len a = E.P.metric.len b → ∃ d, E.P.metric.dist a b = some d)
    (hsym : ∀ a b, E.P.metric.dist a b = E.P.metric.dist b a) (hroom : E.P.maxConn < E.P.cacheSize) (h800 : E.P.maxConn ≤ 800)
    (L : Nat) (hL : L ≠ 0) (name : Str) (dbs : Map (Db F)) (hf : dbs.get (ns ++ name) = none) (rs : List (Req F D))
    (ht : OrderlyRun E.P.metric.len L E.P.maxConn name Shelf.start rs) (s : Shelf F) (hs : s = Shelf.start.after E.P.metric.len L name rs)
    (hp : s.pod = true) (hth : s.there = true) (hn : s.entries ≠ [])
    (o : Oracle F D) (ho : o.Works) (q : List F) (hq : E.P.metric.len q = L) (max : D) (limit : Int) (hl : 0 ≤ limit) :
    ∃ (hits : List (Item D)) (docs : List (Props F)) (ds : List D),
      (serve E (run E (World.fresh true dbs) rs) (.nearVector o name q max limit)).2 = .near docs ds ∧
      (hits.map Item.id).Nodup ∧ hits.Pairwise (fun a b => Dist.lt b.dist a.dist = false) ∧
      (∀ id d, (⟨id, d⟩ : Item D) ∈ hits ↔ ∃ x, s.entries[id]? = some x ∧ E.P.metric.dist (E.P.norm q) (E.P.norm x.2) = some d ∧
        Dist.lt d Dist.zero = false ∧ Dist.lt max d = false) ∧
      docs.length = (shown limit hits).length ∧
      ∀ (j : Nat) (x : Item D), (shown limit hits)[j]? = some x → ds[j]? = some x.dist ∧
        ∃ p e, docs[j]? = some p ∧ s.entries[x.id]? = some e ∧ StoredAs e.1 (x.id : Int) p := by
  have h := einv_run hP hr hj hdi hroom hL rs (einv_fresh E L name dbs hf) ht
  have hsm := orderly_small rs (by simp [Shelf.start]) ht
  rw [← hs] at h hsm
  have hm : 0 < E.P.maxConn := Nat.lt_of_lt_of_le (List.length_pos_iff.mpr hn) hsm
  have hop := ensureOpen_works h ho
  rw [if_pos ⟨hp, hth⟩] at hop
  obtain ⟨w1, hw1, hidx⟩ := hop
  have hquiet := quiet_ensureOpen o (run E (World.fresh true dbs) rs) (ns ++ name)
  rw [hw1] at hquiet
  obtain ⟨hits, docs, ds, h1, h2⟩ := near_exact hP hm hef hdi hsym (h.quiet hquiet) hn (by have := hP.conn; omega) hidx ho.find hq max 800 limit (by omega) hl
  exact ⟨hits, docs, ds, by rw [serve_nearVector_of hw1, h1]; rfl, h2⟩

/-- The same for searches by text with the vector the vectoriser makes of the text, if the limit is at least the number of entries (it is
also the width of the search there; with a smaller limit see C19). -/
theorem text_found_as_put_partial [LawfulDist D] (E : Env F D) (hP : E.P.Ok) (hef : 0 < E.P.efC) (hr : E.replace = false)
    (hj : ∀ v, E.P.jsonOk v = true) (hdi : ∀ a b, E.P.metric.len a = E.P.metric.len b → ∃ d, E.P.metric.dist a b = some d)
    (hsym : ∀ a b, E.P.metric.dist a b = E.P.metric.dist b a) (hroom : E.P.maxConn < E.P.cacheSize)
    (L : Nat) (hL : L ≠ 0) (name : Str) (dbs : Map (Db F)) (hf : dbs.get (ns ++ name) = none) (rs : List (Req F D))
    (ht : OrderlyRun E.P.metric.len L E.P.maxConn name Shelf.start rs) (s : Shelf F) (hs : s = Shelf.start.after E.P.metric.len L name rs)
    (hp : s.pod = true) (hth : s.there = true) (hn : s.entries ≠ [])
    (o : Oracle F D) (ho : o.Works) (text : Str) (q : List F) (hc : o.corpi 0 text = .vec q) (hq : E.P.metric.len q = L) (max : D) (limit : Int)
    (hl : (s.entries.length : Int) ≤ limit) :
    ∃ (hits : List (Item D)) (docs : List (Props F)) (ds : List D),
      (serve E (run E (World.fresh true dbs) rs) (.nearText o name text max limit)).2 = .near docs ds ∧
      (hits.map Item.id).Nodup ∧ hits.Pairwise (fun a b => Dist.lt b.dist a.dist = false) ∧
      (∀ id d, (⟨id, d⟩ : Item D) ∈ hits ↔ ∃ x, s.entries[id]? = some x ∧ E.P.metric.dist (E.P.norm q) (E.P.norm x.2) = some d ∧
        Dist.lt d Dist.zero = false ∧ Dist.lt max d = false) ∧
      docs.length = (shown limit hits).length ∧
      ∀ (j : Nat) (x : Item D), (shown limit hits)[j]? = some x → ds[j]? = some x.dist ∧
        ∃ p e, docs[j]? = some p ∧ s.entries[x.id]? = some e ∧ StoredAs e.1 (x.id : Int) p := by
  have h := einv_run hP hr hj hdi hroom hL rs (einv_fresh E L name dbs hf) ht
  have hsm := orderly_small rs (by simp [Shelf.start]) ht
  rw [← hs] at h hsm
  have hm : 0 < E.P.maxConn := Nat.lt_of_lt_of_le (List.length_pos_iff.mpr hn) hsm
  have hop := ensureOpen_works h ho
  rw [if_pos ⟨hp, hth⟩] at hop
  obtain ⟨w1, hw1, hidx⟩ := hop
  have hquiet := quiet_ensureOpen o (run E (World.fresh true dbs) rs) (ns ++ name)
  rw [hw1] at hquiet
  have h1 : EInv E L name w1 s := h.quiet hquiet
  obtain ⟨hits, docs, ds, h2, h3⟩ := near_exact hP hm hef hdi hsym h1 hn (by have := hP.conn; omega) hidx ho.find hq max limit limit hl (by omega)
  refine ⟨hits, docs, ds, ?_, h3⟩
  simp only [serve, nearText, hw1, h1.lookup, hc, Bool.not_true, Bool.false_eq_true, if_false]
  rw [h2]; rfl

/-- Under the same conditions every orderly addition to the open collection is answered with success. -/
theorem orderly_addition_succeeds_partial (E : Env F D) (hP : E.P.Ok) (hr : E.replace = false) (hj : ∀ v, E.P.jsonOk v = true)
    (hdi : ∀ a b, E.P.metric.len a = E.P.metric.len b → ∃ d, E.P.metric.dist a b = some d) (hroom : E.P.maxConn < E.P.cacheSize)
    (L : Nat) (hL : L ≠ 0) (name : Str) (dbs : Map (Db F)) (hf : dbs.get (ns ++ name) = none) (rs : List (Req F D))
    (ht : OrderlyRun E.P.metric.len L E.P.maxConn name Shelf.start rs) (s : Shelf F) (hs : s = Shelf.start.after E.P.metric.len L name rs)
    (hp : s.pod = true) (hth : s.there = true) (o : Oracle F D) (ti : List Str) (docs : List (Option (Doc F)))
    (ha : Orderly E.P.metric.len L E.P.maxConn name s (.add o name ti docs)) :
    (serve E (run E (World.fresh true dbs) rs) (.add o name ti docs)).2 = .done := by
  have h := einv_run hP hr hj hdi hroom hL rs (einv_fresh E L name dbs hf) ht
  rw [← hs] at h
  exact (einv_add hP hr hj hdi hroom hL h ha).2 hp hth

/-! ## where it is false -/

/-- A look-up of a single document after a restart opens the document database and makes no index; the next search panics, and so does
the next addition, though everything was stored. -/
theorem lookup_spoils_collection : let w := run ExC.E ExC.w1 [.restart, .login true, .openPod true]
    let w' := (serve ExC.E w (.get ExC.o (fun _ p => p.get idName = some (.str ['a'])) ExC.books idName ['a'])).1
    (∃ docs ds, (serve ExC.E w (.nearVector ExC.o ExC.books [11, 0] 1000 0)).2 = .near docs ds ∧ docs ≠ []) ∧
    (serve ExC.E w' (.nearVector ExC.o ExC.books [11, 0] 1000 0)).2 = .failed .panic ∧
    (serve ExC.E w' (.add ExC.o ExC.books [] [ExC.docV 'z' [10, 0]])).2 = .failed .panic := by
  refine ⟨?_, by decide +kernel, by decide +kernel⟩
  have : (match (serve ExC.E (run ExC.E ExC.w1 [.restart, .login true, .openPod true]) (.nearVector ExC.o ExC.books [11, 0] 1000 0)).2 with
    | .near docs _ => !docs.isEmpty | _ => false) = true := by decide +kernel
  split at this
  · rename_i docs ds he; exact ⟨docs, ds, he, by intro e; subst e; cases this⟩
  · cases this

/-- A search in a collection that is there and empty is answered with an error. -/
theorem empty_collection_fails : (serve ExC.E ExC.w0 (.nearVector ExC.o ExC.books [11, 0] 1000 0)).2 = .failed .error := by decide +kernel

/-- A creation that failed at making the index leaves the collection such that additions panic until it is created again. -/
theorem failed_creation_spoils_collection :
    let w := run ExC.E (World.fresh true []) [.login true, .openPod true, .create { ExC.o with newIndex := true } ExC.books []]
    (serve ExC.E w (.add ExC.o ExC.books [] [ExC.docV 'z' [10, 0]])).2 = .failed .panic := by decide +kernel

/-! Non-vacuity: a first life of the collection with one document, its deletion, a second creation, additions before and after a
restart (with documents without vector, with text, and with a vector of the wrong length), a failing creation of another collection. -/
def E : Env Nat Nat := ⟨Ex.PW, false⟩
def story : List (Req Nat Nat) := ExC.setup ++
  [.add ExC.o ExC.books [] [ExC.docV 'q' [10, 0]], .delete ExC.o ExC.books, .create ExC.o ExC.books [],
   .add ExC.o ExC.books [ExC.title] [ExC.docV 'a' [10, 0], ExC.docT 'c' ['x', 'y', 'z']],
   .create { ExC.o with newIndex := true } ExC.films [], .restart, .login false, .login true, .openPod true,
   .add ExC.o ExC.books [ExC.title] ExC.batch, .nearVector ExC.o ExC.books [11, 0] 100 0]

theorem works : ExC.o.Works := ⟨rfl, rfl, rfl, rfl, rfl, rfl, rfl, rfl, rfl, rfl, rfl, fun _ => rfl, fun _ => rfl, fun _ => rfl, rfl, fun _ _ => ⟨_, rfl⟩⟩

theorem readV (ti : List Str) (c : Char) (v : List Nat) : ∃ d, ExC.docV c v = some d ∧ Readable ti d := ⟨_, rfl, .inr (.inl ⟨v, rfl⟩)⟩

theorem orderly : OrderlyRun E.P.metric.len 2 E.P.maxConn ExC.books Shelf.start story := by
  refine ⟨trivial, trivial, fun _ => works, fun h => absurd h (by decide), fun _ => ⟨works, ?_, ?_, by decide +kernel, by decide +kernel⟩, fun _ => works,
    fun _ => works, fun _ => ⟨works, ?_, ?_, by decide +kernel, by decide +kernel⟩, fun h => absurd h (by decide), trivial, trivial, trivial, trivial,
    fun _ => ⟨works, ?_, ?_, by decide +kernel, by decide +kernel⟩, trivial, trivial⟩
  · intro x hx
    simp only [List.mem_singleton] at hx
    subst hx; exact readV ..
  · intro _ i d v h1 h2
    match i with
    | 0 => cases h1; cases h2; rfl
    | n + 1 => simp at h1
  · intro x hx
    simp only [List.mem_cons, List.not_mem_nil, or_false] at hx
    rcases hx with rfl | rfl
    · exact readV ..
    · exact ⟨_, rfl, .inr (.inr ⟨.inl rfl, _, rfl⟩)⟩
  · intro _ i d v h1 h2
    match i with
    | 0 => cases h1; cases h2; rfl
    | 1 => cases h1; cases h2; rfl
    | n + 2 => simp at h1
  · intro x hx
    simp only [ExC.batch, List.mem_cons, List.not_mem_nil, or_false] at hx
    rcases hx with rfl | rfl | rfl | rfl | rfl | rfl
    · exact readV ..
    · exact readV ..
    · exact ⟨_, rfl, .inr (.inr ⟨.inl rfl, _, rfl⟩)⟩
    · exact ⟨_, rfl, .inr (.inr ⟨.inl rfl, _, rfl⟩)⟩
    · exact readV ..
    · exact readV ..
  · intro h; exact absurd (congrArg List.length h) (by decide +kernel)

/-- all the hypotheses are met, six entries are in the collection, and this is the answer to a search -/
example : OrderlyRun E.P.metric.len 2 E.P.maxConn ExC.books Shelf.start story ∧ E.P.Ok ∧ 0 < E.P.efC ∧ E.P.maxConn < E.P.cacheSize ∧
    ExC.foreign.get (ns ++ ExC.books) = none ∧ ExC.o.Works ∧
    (let s := (Shelf.start : Shelf Nat).after E.P.metric.len 2 ExC.books story
     s.pod = true ∧ s.there = true ∧ s.entries.map Prod.snd = [[10, 0], [4, 0], [10, 0], [12, 0], [4, 0], [30, 1]]) ∧
    (serve E (run E (World.fresh true ExC.foreign) story) (.nearVector ExC.o ExC.books [11, 0] 5 2)).2 =
      .near [[(idName, .str ['b']), (hnswName, .int 3)], [(idName, .str ['a']), (hnswName, .int 0)]] [1, 1] ∧
    Orderly E.P.metric.len 2 E.P.maxConn ExC.books ((Shelf.start : Shelf Nat).after E.P.metric.len 2 ExC.books story)
      (.add ExC.o ExC.books [] [ExC.docV 'z' [4, 4]]) ∧ ExC.o.corpi 0 ExC.title = .vec [5, 0] := by
  refine ⟨orderly, Ex.PW_ok, by decide, by decide, by decide, works, by decide +kernel, by decide +kernel, fun _ => ⟨works, ?_, ?_, by decide +kernel, by decide +kernel⟩, rfl⟩
  · intro x hx
    simp only [List.mem_singleton] at hx
    subst hx; exact readV ..
  · intro h; exact absurd (congrArg List.length h) (by decide +kernel)

end Fave.C57
