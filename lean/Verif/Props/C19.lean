import Verif.Lemmas.ClientRun
import Verif.Lemmas.ClientNear
import Verif.Lemmas.SearchSize
import Verif.Props.C02
import Verif.Spec.ExampleClient
/-!
# C19: the limit is honoured and never crashes a search

Two parts of the statement are not true of the code: every negative limit crashes a search that would otherwise succeed
(`negative_limit_crashes`), and for text searches limit 0 does not mean "no limit" but at most one document
(`text_limit_zero_at_most_one`, `text_limit_zero_loses_documents`), because the limit is also used as the width of the search.
-/
namespace Fave.C19
open Client
variable {F D : Type} [Dist D] [DecidableEq F]

/-- A search by vector with a positive limit `n` answers with at most `n` documents, and they are the first `n` documents, with the
same distances, of the answer without limit (`limit = 0`), which is in ascending order of distance: no document left out is closer
than one listed. -/
theorem limit_honoured_partial [LawfulDist D] (E : Env F D) (o : Oracle F D) (w : World F) (name : Str) (q : List F) (max : D) (limit : Int)
    (hl : 0 < limit) (hsym : ∀ a b, E.P.metric.dist a b = E.P.metric.dist b a)
    (hsmall : ∀ id v, (w.coll (ns ++ name)).idx.get id = some v → id < E.P.visitedSize)
    (docs : List (Props F)) (ds : List D) (h : (serve E w (.nearVector o name q max 0)).2 = .near docs ds) :
    ∃ ds', (serve E w (.nearVector o name q max limit)).2 = .near (docs.take limit.toNat) ds' ∧
      ((docs.take limit.toNat).length : Int) ≤ limit ∧
      ds'.take (docs.take limit.toNat).length = ds.take (docs.take limit.toNat).length ∧
      ∀ i j a b, i < j → j < docs.length → ds[i]? = some a → ds[j]? = some b → Dist.lt b a = false := by
  obtain ⟨w1, ho, hn⟩ := serve_nearVector h
  obtain ⟨ds', h1, h2⟩ := near_limit limit hl hn
  refine ⟨ds', by rw [serve_nearVector_of ho, h1]; rfl, by rw [List.length_take]; omega, h2, ?_⟩
  obtain ⟨idx, ids, dists, ids', hi, hx, hk, ht, hd⟩ := nearWith_ok hn
  have hlen := lookupAll_length hd
  have hids : ids' = ids ∧ ds = dists := by
    rcases truncate_ok ht with ⟨h1, _⟩ | ⟨h1, _, _⟩
    · cases h1; exact ⟨rfl, rfl⟩
    · omega
  obtain ⟨rfl, rfl⟩ := hids
  have hget : ∀ id v, idx.get id = some v → (w.coll (ns ++ name)).idx.get id = some v ∨ ∃ v', (w.coll (ns ++ name)).idx.get id = some v' := by
    intro id v hv
    have e1 : idx.get id = (w1.coll (ns ++ name)).idx.get id := by subst hx; unfold loaded; split <;> rfl
    rw [e1] at hv
    right
    unfold ensureOpen at ho
    simp only [setColl_self, setColl_setColl, setColl_session, setColl_dbs] at ho
    split at ho
    · cases ho
    split at ho
    · cases ho
    split at ho
    · cases ho
    split at ho
    · cases ho; exact ⟨v, by simpa using hv⟩
    split at ho
    · cases ho
    split at ho
    · cases ho
    · cases ho
      simp only [setColl_self] at hv
      unfold Index.get Index.reopen at hv
      simp only [Tab.get_nil] at hv
      unfold Index.get
      cases hc : (w.coll (ns ++ name)).idx.cache.get id with
      | some x => exact ⟨x, rfl⟩
      | none =>
        cases hkv : (w.coll (ns ++ name)).idx.kv.get id with
        | none => rw [hkv] at hv; cases hv
        | some x => exact ⟨_, rfl⟩
  have hs : ∀ id v, (idx.graph E.P).get id = some v → id < (idx.graph E.P).visitedSize := by
    intro id v hv
    rcases hget id v hv with h | ⟨v', h⟩
    · exact hsmall _ _ h
    · exact hsmall _ _ h
  obtain ⟨_, hits, _, e1, e2, e3, _⟩ := C02.max_dist_hits_sorted_and_in_range _ _ _ _ _ _ _ _ hs hsym hk
  intro i j a b hij hj ha hb
  have hlh : ids'.length = hits.length := by rw [e1, List.length_map]
  have g : ∀ k x, k < docs.length → ds[k]? = some x → ∃ y, hits[k]? = some y ∧ y.dist = x := by
    intro k x hkl hx
    have : (ds.take ids'.length)[k]? = some x := by rw [List.getElem?_take, if_pos (by omega), hx]
    rw [e2, List.getElem?_map] at this
    cases hy : hits[k]? with
    | none => rw [hy] at this; cases this
    | some y => rw [hy] at this; exact ⟨y, rfl, by simpa using this⟩
  obtain ⟨x, hx1, hx2⟩ := g i a (by omega) ha
  obtain ⟨y, hy1, hy2⟩ := g j b hj hb
  rw [← hx2, ← hy2]
  obtain ⟨hi', hx1⟩ := List.getElem?_eq_some_iff.mp hx1
  obtain ⟨hj', hy1⟩ := List.getElem?_eq_some_iff.mp hy1
  have := List.pairwise_iff_getElem.mp e3 i j hi' hj' hij
  rw [hx1, hy1] at this
  exact this

/-- Both searches: an answer to a request with limit `n ≠ 0` has at most `n` documents, one distance or more per document. -/
theorem at_most_limit (E : Env F D) (o : Oracle F D) (w : World F) (name : Str) (max : D) (limit : Int) (hl : limit ≠ 0)
    (docs : List (Props F)) (ds : List D) (r : Req F D)
    (hr : (∃ q, r = .nearVector o name q max limit) ∨ (∃ text, r = .nearText o name text max limit))
    (h : (serve E w r).2 = .near docs ds) : (docs.length : Int) ≤ limit := by
  rcases hr with ⟨q, rfl⟩ | ⟨text, rfl⟩
  · obtain ⟨w1, _, hn⟩ := serve_nearVector h
    exact near_length hn hl
  · obtain ⟨w1, q, _, hn⟩ := serve_nearText h
    exact near_length hn hl

/-- A negative limit crashes every search by vector that succeeds without limit. -/
theorem negative_limit_crashes (E : Env F D) (o : Oracle F D) (w : World F) (name : Str) (q : List F) (max : D) (limit : Int) (hl : limit < 0)
    (docs : List (Props F)) (ds : List D) (h : (serve E w (.nearVector o name q max 0)).2 = .near docs ds) :
    (serve E w (.nearVector o name q max limit)).2 = .failed .panic := by
  obtain ⟨w1, ho, hn⟩ := serve_nearVector h
  rw [serve_nearVector_of ho, near_negative limit hl hn]; rfl

/-- A text search with limit 0 answers with at most one document. -/
theorem text_limit_zero_at_most_one (E : Env F D) (o : Oracle F D) (w : World F) (name text : Str) (max : D)
    (docs : List (Props F)) (ds : List D) (h : (serve E w (.nearText o name text max 0)).2 = .near docs ds) : docs.length ≤ 1 := by
  obtain ⟨w1, q, _, hn⟩ := serve_nearText h
  obtain ⟨idx, ids, dists, ids', hi, hx, hk, ht, hd⟩ := nearWith_ok hn
  rw [lookupAll_length hd]
  have hids : ids' = ids := by
    rcases truncate_ok ht with ⟨h1, _⟩ | ⟨h1, _, _⟩
    · cases h1; rfl
    · omega
  subst hids
  unfold Graph.knnMaxDist at hk
  split at hk
  · cases hk
  · rename_i res hres
    cases hk
    have hsz : (res.size : Int) ≤ 1 := by
      unfold Graph.retained at hres
      split at hres
      · cases hres
      · split at hres
        · cases hres
        · exact Search.searchLayer_size (m := 1) (by omega) (by simp) hres
    have h1 := (Graph.keepInRange_sublist max (Queue.drain Queue.lessMax res).reverse).length_le
    have h2 := (Queue.drain_perm Queue.lessMax res).length_eq
    rw [List.length_reverse, h2] at h1
    simp only [List.length_map]
    have : res.toList.length = res.size := by simp
    omega

/-- … although there are more: four documents are in range (limit 10 finds them), limit 0 finds one. -/
theorem text_limit_zero_loses_documents :
    (∃ docs ds, (serve ExC.E ExC.w1 (.nearText ExC.o ExC.books ['h', 'e', 'l', 'l', 'o'] 100 10)).2 = .near docs ds ∧ docs.length = 4) ∧
    (∃ docs ds, (serve ExC.E ExC.w1 (.nearText ExC.o ExC.books ['h', 'e', 'l', 'l', 'o'] 100 0)).2 = .near docs ds ∧ docs.length = 1) := by
  have h : ∀ (a : Ans Nat Nat) (n : Nat), (match a with | .near docs _ => docs.length == n | _ => false) = true →
      ∃ docs ds, a = .near docs ds ∧ docs.length = n := by
    intro a n ha
    cases a with
    | near docs ds => exact ⟨docs, ds, rfl, by simpa using ha⟩
    | done => cases ha
    | failed e => cases ha
    | names l => cases ha
    | doc p => cases ha
  exact ⟨h _ _ (by decide +kernel), h _ _ (by decide +kernel)⟩

/-! Non-vacuity: the collection of the example; limits 0, 2 and -1. -/
example : (serve ExC.E ExC.w1 (.nearVector ExC.o ExC.books [11, 0] 100 0)).2 =
    .near [[(idName, .str ['b']), (hnswName, .int 1)], [(idName, .str ['a']), (hnswName, .int 0)],
      [(ExC.title, .str ['x', 'y', 'z']), (idName, .str ['c']), (hnswName, .int 2)], [(idName, .str ['f']), (hnswName, .int 3)]] [1, 1, 7, 20] ∧
    (serve ExC.E ExC.w1 (.nearVector ExC.o ExC.books [11, 0] 100 2)).2 =
    .near [[(idName, .str ['b']), (hnswName, .int 1)], [(idName, .str ['a']), (hnswName, .int 0)]] [1, 1] ∧
    (serve ExC.E ExC.w1 (.nearVector ExC.o ExC.books [11, 0] 100 (-1))).2 = .failed .panic := by decide +kernel
example : ∀ id v, (ExC.w1.coll (ns ++ ExC.books)).idx.get id = some v → id < ExC.E.P.visitedSize := by
  intro id v h
  have hk : ∀ k ∈ (ExC.w1.coll (ns ++ ExC.books)).idx.cache.keys ++ (ExC.w1.coll (ns ++ ExC.books)).idx.kv.keys, k < ExC.E.P.visitedSize := by
    decide +kernel
  unfold Index.get at h
  split at h
  · rename_i x hx; exact hk _ (List.mem_append_left _ (Tab.mem_keys_of_get hx))
  · cases hx : (ExC.w1.coll (ns ++ ExC.books)).idx.kv.get id with
    | none => rw [hx] at h; cases h
    | some x => exact hk _ (List.mem_append_right _ (Tab.mem_keys_of_get hx))

end Fave.C19
