import Verif.Lemmas.Rest
import Verif.Props.C15
/-!
# C24 — REST search answers keep the document intact

True up to what the JSON round trip and the added distance change (`hits_intact_partial`, `lookup_intact_partial`,
`added_document_comes_back_partial`).  False: a user property called "distance" is replaced by the distance (`distance_property_replaced`),
a user property called "hnswId" by the internal number (`hnswId_property_replaced`), and integers beyond 2^53 are rounded
(`large_integer_rounded`).
-/
namespace Fave.C24
open Client Rest
variable {F D : Type} [Dist D] [DecidableEq F]

/-- values that survive: null, strings, other values (Booleans, objects), integers of at most 53 bits -/
def Plain : Val F → Prop
  | .null | .str _ | .other _ => True
  | .int n => n.natAbs < 2 ^ 53
  | .list _ | .floats _ => False

theorem decode_plain {v : Val F} (h : Plain v) : decode v = some v := by
  cases v with
  | int n =>
    have h : n.natAbs < 2 ^ 53 := h
    have : float64Int n = some n := by
      unfold float64Int float64Nat
      rw [if_pos h]
      simp only
      rw [if_neg (by
        have : (2 : Nat) ^ 53 ≤ 2 ^ 1024 := Nat.pow_le_pow_right (by decide) (by decide)
        omega)]
      congr 1
      split <;> omega
    simp [decode, this]
  | null => rfl
  | str s => rfl
  | other t => rfl
  | list l => cases h
  | floats l => cases h

/-- what it means that the documents of an answer are the stored documents with their distances: the ids are the stored ids, each
document carries its distance, has no properties "id" and "vector", every other property is the stored one — exactly if it is null, a
string or an integer of at most 53 bits — and there are no further properties -/
def Intact (docs : List (RDoc F D)) (stored : List (Props F)) (ds : List D) : Prop :=
  docs.length = stored.length ∧
  ∀ (j : Nat) (p : Props F), stored[j]? = some p → ∃ (r : RDoc F D) (d : D), docs[j]? = some r ∧ ds[j]? = some d ∧
    (∀ id, p.get idName = some (.str id) → r.id = id) ∧
    r.props.get distanceName = some (.dist d) ∧ r.props.get idName = none ∧ r.props.get vectorName = none ∧
    ∀ k, k ≠ idName → k ≠ vectorName → k ≠ distanceName →
      (p.get k = none → r.props.get k = none) ∧ (∀ v, p.get k = some v → Plain v → r.props.get k = some (.val v)) ∧
      (∀ v, p.get k = some v → ∃ v', r.props.get k = some (.val v'))

theorem showHits_no_near (stored : List (Props F)) (ds : List D) (name : Str) (docs : List (RDoc F D)) : showHits stored ds ≠ .error (.near name docs) := by
  induction stored generalizing ds with
  | nil => intro hs; cases hs
  | cons p ps ih =>
    intro hs
    unfold showHits at hs
    split at hs
    · cases hs
    · split at hs
      · cases hs
      · split at hs
        · rename_i hx; cases hs; exact ih _ hx
        · cases hs

theorem nearResp_intact {name : Str} {a : Ans F D} {docs : List (RDoc F D)} (h : nearResp name a = .near name docs) :
    ∃ (stored : List (Props F)) (ds : List D), a = .near stored ds ∧ Intact docs stored ds := by
  cases a with
  | near stored ds =>
    refine ⟨stored, ds, rfl, ?_⟩
    simp only [nearResp] at h
    cases hs : showHits stored ds with
    | error e =>
      rw [hs] at h
      simp only at h
      subst h
      exact absurd hs (showHits_no_near _ _ _ _)
    | ok l =>
      rw [hs] at h
      cases h
      obtain ⟨h1, h2⟩ := showHits_ok stored ds hs
      refine ⟨h1, fun j p hj => ?_⟩
      obtain ⟨p', d, hd, hdj, hl⟩ := h2 j p hj
      have hg := decodeProps_get hd
      refine ⟨showHit p' d, d, hl, hdj, ?_, ?_, ?_, ?_, ?_⟩
      · intro id hid
        show idOf (p'.get idName) = id
        rw [hg, hid]; rfl
      · rw [showHit_get, if_pos rfl]
      · rw [showHit_get, if_neg (by decide), if_pos (.inl rfl)]
      · rw [showHit_get, if_neg (by decide), if_pos (.inr rfl)]
      · intro k h1 h2 h3
        have hk : (showHit p' d).props.get k = ((p.get k).bind decode).map .val := by
          rw [showHit_get, if_neg h3, if_neg (by simp [h1, h2]), hg]
        refine ⟨fun hv => by rw [hk, hv]; rfl, fun v hv hp => by rw [hk, hv]; simp [decode_plain hp], fun v hv => ?_⟩
        obtain ⟨v', hv'⟩ := decodeProps_some hd hv
        exact ⟨v', by rw [hk, hv]; simp [hv']⟩
  | done => cases h
  | failed e => cases e <;> cases h
  | names l => cases h
  | doc p => cases h

/-- Every document of the answer to a search by vector is the stored document in the same place of the client's answer. -/
theorem hits_intact_partial (E : Env F D) (uuid : Str → Bool) (w w' : World F) (o : Oracle F D) (name : Str) (q : List F) (max : D) (limit : Int)
    (docs : List (RDoc F D)) (h : handle E uuid w (.nearVector o name (some q) max limit) = (w', .near name docs)) :
    ∃ (stored : List (Props F)) (ds : List D), (serve E w (.nearVector o name q max limit)).2 = .near stored ds ∧ Intact docs stored ds := by
  have hn : name ≠ [] := by
    intro e; simp only [handle, if_pos e] at h; cases h
  simp only [handle, if_neg hn, Prod.mk.injEq] at h
  exact nearResp_intact h.2

/-- The same for a search by text. -/
theorem text_hits_intact_partial (E : Env F D) (uuid : Str → Bool) (w w' : World F) (o : Oracle F D) (name text : Str) (max : D) (limit : Int)
    (docs : List (RDoc F D)) (h : handle E uuid w (.nearText o name text max limit) = (w', .near name docs)) :
    ∃ (stored : List (Props F)) (ds : List D), (serve E w (.nearText o name text max limit)).2 = .near stored ds ∧ Intact docs stored ds := by
  have hn : name ≠ [] := by
    intro e; simp only [handle, if_pos e] at h; cases h
  have ht : text ≠ [] := by
    intro e; simp only [handle, if_neg hn, if_pos e] at h; cases h
  simp only [handle, if_neg hn, if_neg ht, Prod.mk.injEq] at h
  exact nearResp_intact h.2

/-- The handler itself never fails when the client delivers documents that can be unmarshalled: it does not run out of distances. -/
theorem hits_total (E : Env F D) (uuid : Str → Bool) (w : World F) (o : Oracle F D) (name : Str) (hn : name ≠ []) (q : List F) (max : D) (limit : Int)
    (stored : List (Props F)) (ds : List D) (h : (serve E w (.nearVector o name q max limit)).2 = .near stored ds)
    (hd : ∀ p ∈ stored, ∀ k v, (k, v) ∈ p → Plain v) :
    ∃ docs, (handle E uuid w (.nearVector o name (some q) max limit)).2 = .near name docs := by
  obtain ⟨w1, ho, hx⟩ := serve_nearVector h
  have hlen := near_dists hx
  obtain ⟨l, hl⟩ := showHits_total stored ds hlen (by
    intro p hp
    have := hd p hp
    clear hp
    induction p with
    | nil => rfl
    | cons e p ih =>
      obtain ⟨k, v⟩ := e
      obtain ⟨p', hp'⟩ := Option.isSome_iff_exists.mp (ih (fun k v hkv => this k v (by simp [hkv])))
      unfold decodeProps
      rw [decode_plain (this k v (by simp)), hp']
      rfl)
  refine ⟨l, ?_⟩
  simp only [handle, if_neg hn, h, nearResp, hl]

/-- The same for the look-up of a document. -/
theorem lookup_intact_partial (E : Env F D) (uuid : Str → Bool) (w w' : World F) (o : Oracle F D) (sat : Str → Props F → Bool) (name property value : Str)
    (r : RDoc F D) (h : handle E uuid w (.get o sat name property value) = (w', .doc r)) :
    ∃ p, (serve E w (.get o sat name property value)).2 = .doc p ∧ (∀ id, p.get idName = some (.str id) → r.id = id) ∧
      r.props.get idName = none ∧ r.props.get vectorName = none ∧
      ∀ k, k ≠ idName → k ≠ vectorName → (p.get k = none → r.props.get k = none) ∧ (∀ v, p.get k = some v → Plain v → r.props.get k = some (.val v)) := by
  have hn : ¬ (name = [] ∨ property = [] ∨ value = []) := by
    intro e; simp only [handle, if_pos e] at h; cases h
  simp only [handle, if_neg hn, Prod.mk.injEq] at h
  obtain ⟨_, h⟩ := h
  generalize (serve E w (.get o sat name property value)).2 = a at h
  cases a with
  | doc p =>
    simp only at h
    cases hd : decodeProps p with
    | none => rw [hd] at h; cases h
    | some p' =>
      rw [hd] at h
      simp only [Resp.doc.injEq] at h
      subst h
      have hg := decodeProps_get hd
      refine ⟨p, rfl, ?_, ?_, ?_, ?_⟩
      · intro id hid
        show idOf (p'.get idName) = id
        rw [hg, hid]; rfl
      · rw [showDoc_get, if_pos (.inl rfl)]
      · rw [showDoc_get, if_pos (.inr rfl)]
      · intro k h1 h2
        have hk : (showDoc (D := D) p').props.get k = ((p.get k).bind decode).map .val := by rw [showDoc_get, if_neg (by simp [h1, h2]), hg]
        exact ⟨fun hv => by rw [hk, hv]; rfl, fun v hv hp => by rw [hk, hv]; simp [decode_plain hp]⟩
  | done => cases h
  | failed e => cases e <;> cases h
  | names l => cases h
  | near a b => cases h

/-- From one REST request to another: a document added with its vector (as in C15) to a collection kept in order with at most 61 vectors
comes back from an unlimited REST search with its id, its distance and its plain properties, except such called "id", "vector",
"distance" or "hnswId". -/
theorem added_document_comes_back_partial [LawfulDist D] (E : Env F D) (hr : E.replace = false) (hP : E.P.Ok) (hm : 0 < E.P.maxConn) (hef : 0 < E.P.efC)
    (hdi : ∀ a b, E.P.metric.len a = E.P.metric.len b → ∃ d, E.P.metric.dist a b = some d)
    (hsym : ∀ a b, E.P.metric.dist a b = E.P.metric.dist b a)
    (L : Nat) (name : Str) (hn : name ≠ []) (lookup : Bool) (dbs : Map (Db F)) (hf : dbs.get (ns ++ name) = none)
    (rs rs' : List (Req F D)) (o : Oracle F D) (ti : List Str) (docs : List (Option (Doc F)))
    (ht : TidyRun E L name (World.fresh lookup dbs) (rs ++ .add o name ti docs :: rs')) (hnd : ∀ r ∈ rs', ∀ o, r ≠ .delete o name)
    (i n : Nat) (d : Doc F) (hd : docs[i]? = some (some d))
    (hlog : (addDocuments E o (run E (World.fresh lookup dbs) rs) name ti docs).2.1[i]? = some (.indexed n))
    (w : World F) (hw : w = run E (World.fresh lookup dbs) (rs ++ .add o name ti docs :: rs'))
    (hsm : w.count (ns ++ name) ≤ E.P.maxConn0 + 1) (h800 : w.count (ns ++ name) ≤ 800)
    (o' : Oracle F D) (hfind : ∀ i, o'.find i = false) (w1 : World F) (hopen : ensureOpen o' w (ns ++ name) = (w1, none))
    (hidx : (w1.coll (ns ++ name)).hasIdx = true) (q : List F) (hq : E.P.metric.len q = L) (max : D) (uuid : Str → Bool) :
    ∃ vec dist, vectorOf o ti i d = some vec ∧ E.P.metric.dist (E.P.norm q) (E.P.norm vec) = some dist ∧
      (Dist.lt dist Dist.zero = false → Dist.lt max dist = false →
        ∀ found, (handle E uuid w (.nearVector o' name (some q) max 0)).2 = .near name found →
          ∃ r ∈ found, r.id = d.id ∧ r.props.get distanceName = some (.dist dist) ∧
            ∀ k, k ≠ idName → k ≠ vectorName → k ≠ distanceName → k ≠ hnswName →
              (d.props.get k = none → r.props.get k = none) ∧ ∀ v, d.props.get k = some v → Plain v → r.props.get k = some (.val v)) := by
  obtain ⟨vec, dist, h1, h2, h3⟩ := C15.added_then_found_partial E hr hP hm hef hdi hsym L name lookup dbs hf rs rs' o ti docs ht hnd i n d hd hlog w hw hsm h800
    o' hfind w1 hopen hidx q hq max
  refine ⟨vec, dist, h1, h2, fun hz hm found hfound => ?_⟩
  obtain ⟨st, ds, hs, j, p, hj, hdj, hst⟩ := h3 hz hm
  obtain ⟨st', ds', hs', _, hall⟩ := hits_intact_partial E uuid w _ o' name q max 0 found (Prod.ext rfl hfound)
  rw [hs] at hs'
  cases hs'
  obtain ⟨r, dd, hr1, hr2, hr3, hr4, _, _, hr5⟩ := hall j p hj
  rw [hdj] at hr2
  cases hr2
  refine ⟨r, List.mem_of_getElem? hr1, hr3 d.id hst.id, hr4, fun k k1 k2 k3 k4 => ?_⟩
  obtain ⟨g1, g2, _⟩ := hr5 k k1 k2 k3
  have hrest := hst.rest k k1 k4 k2
  exact ⟨fun hv => g1 (by rw [hrest]; exact hv), fun v hv hp => g2 v (by rw [hrest]; exact hv) hp⟩

/-! ## where the statement is false -/

/-- a collection with one document -/
def with1 (props : Props Nat) : World Nat :=
  (handle ExC.E (fun _ => true) ExC.w0 (.add ExC.o ExC.books (some [ExC.title]) (some [some ⟨['a'], some ((vectorName, .floats [10, 0]) :: props)⟩]))).1

/-- the properties of the only hit of a search -/
def hit (props : Props Nat) : Option (Map (RVal Nat Nat)) :=
  match (handle ExC.E (fun _ => true) (with1 props) (.nearVector ExC.o ExC.books (some [12, 0]) 100 0)).2 with
  | .near _ [r] => some r.props
  | _ => none

/-- a user property "distance" does not come back -/
theorem distance_property_replaced : hit [(distanceName, .int 42)] = some [(hnswName, .val (.int 0)), (distanceName, .dist 2)] := by decide +kernel

/-- a user property "hnswId" does not come back -/
theorem hnswId_property_replaced : hit [(hnswName, .str ['m', 'i', 'n', 'e'])] = some [(hnswName, .val (.int 0)), (distanceName, .dist 2)] := by decide +kernel

/-- the integer 2^53 + 1 comes back as 2^53 -/
theorem large_integer_rounded : hit [(ExC.year, .int (2 ^ 53 + 1))] =
    some [(ExC.year, .val (.int (2 ^ 53))), (hnswName, .val (.int 0)), (distanceName, .dist 2)] := by decide +kernel

/-! Non-vacuity. -/
example : hit [(ExC.year, .int 1999), (ExC.title, .str ['t'])] =
    some [(ExC.year, .val (.int 1999)), (ExC.title, .val (.str ['t'])), (hnswName, .val (.int 0)), (distanceName, .dist 2)] := by decide +kernel
example : ∃ docs, (handle ExC.E (fun _ => true) ExC.w1 (.nearVector ExC.o ExC.books (some [11, 0]) 100 0)).2 = .near ExC.books docs ∧
    docs.map RDoc.id = [['b'], ['a'], ['c'], ['f']] := by
  refine ⟨(match (handle ExC.E (fun _ => true) ExC.w1 (.nearVector ExC.o ExC.books (some [11, 0]) 100 0)).2 with | .near _ d => d | _ => []), by decide +kernel, by decide +kernel⟩
/-- a search by text -/
example : (match (handle ExC.E (fun _ => true) ExC.w1 (.nearText ExC.o ExC.books ['a', 'b', 'c', 'd', 'e'] 100 2)).2 with
    | .near _ d => d.map (fun r => (r.id, r.props.get distanceName)) | _ => []) = [(['c'], some (.dist 1)), (['a'], some (.dist 5))] := by decide +kernel
/-- the look-up of a document by its id -/
example : (handle ExC.E (fun _ => true) ExC.w1 (.get ExC.o (fun e p => e = idName ++ '=' :: ['d'] && p.get idName = some (.str ['d'])) ExC.books idName ['d'])).2 =
    .doc ⟨['d'], [(ExC.year, .val (.int 1999)), (hnswName, .val (.int (-1)))]⟩ := by decide +kernel
/-- the hypotheses of `added_document_comes_back_partial` are those of C15, met by the example there; the answer through the handler: -/
example : ∃ docs, (handle C15.EW (fun _ => true) (run C15.EW (World.fresh true ExC.foreign) (C15.before ++ .add ExC.o ExC.books [ExC.title] (ExC.batch.drop 3) :: C15.after))
    (.nearVector ExC.o ExC.books (some [11, 0]) 1000 0)).2 = .near ExC.books docs ∧ docs.map RDoc.id = [['a'], ['b'], ['c'], ['f']] ∧
    docs.map (fun r => r.props.get distanceName) = [some (.dist 1), some (.dist 1), some (.dist 7), some (.dist 20)] := by
  refine ⟨(match (handle C15.EW (fun _ => true) (run C15.EW (World.fresh true ExC.foreign) (C15.before ++ .add ExC.o ExC.books [ExC.title] (ExC.batch.drop 3) :: C15.after))
    (.nearVector ExC.o ExC.books (some [11, 0]) 1000 0)).2 with | .near _ d => d | _ => []), by decide +kernel, by decide +kernel, by decide +kernel⟩

end Fave.C24
