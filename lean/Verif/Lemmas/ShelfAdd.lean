import Verif.Lemmas.ClientTidy
import Verif.Lemmas.AddBlind
import Verif.Spec.Shelf
/-! # Orderly additions: what they do to the state of a batch -/
namespace Fave.Client
open Index
variable {F D : Type} [Dist D] [DecidableEq F]

/-- a readable document is added to the index or just stored -/
theorem addOne_readable {E : Env F D} {o : Oracle F D} (ho : o.Works) {ti : List Str} {i : Nat} {b : Batch F} {d : Doc F} (hd : Readable ti d) :
    (∃ v p, vectorOf o ti i d = some v ∧ StoredAs d b.next p ∧ addOne E o true ti i b (some d) = indexDoc E o i b p v) ∨
    (vectorOf o ti i d = none ∧ ∃ p, StoredAs d (-1) p ∧ addOne E o true ti i b (some d) = storeDoc E o i b p none) := by
  have hget : (d.props.set idName (.str d.id)).get vectorName = d.props.get vectorName := by
    rw [Map.get_set, if_neg (Ne.symm idName_ne_vector)]
  rcases hd with ⟨l, v, h1, h2⟩ | ⟨v, h1⟩ | ⟨h1, t, ht⟩
  · left
    refine ⟨v, _, by unfold vectorOf; rw [h1]; exact numbersOf_map h2, storedAs_del (storedAs_set d _), ?_⟩
    unfold addOne
    simp only [hget, h1, parseVec_map.mpr h2]
  · left
    refine ⟨v, _, by unfold vectorOf; rw [h1], storedAs_del (storedAs_set d _), ?_⟩
    unfold addOne
    simp only [hget, h1]
  · have hv : vectorOf o ti i d = match t with | ch :: t => (match o.corpi i (ch :: t) with | .vec v => some v | _ => none) | [] => none := by
      unfold vectorOf
      rcases h1 with h1 | h1 <;> rw [h1] <;> simp only [ht] <;> cases t <;> rfl
    have ha : addOne E o true ti i b (some d) =
        if t = [] then storeDoc E o i b ((d.props.set idName (.str d.id)).set hnswName (.int (-1))) none
        else match o.corpi i t with
          | .fail => ({ b with log := b.log ++ [.noVector] }, none)
          | .nil => (b, some .panic)
          | .vec vec => indexDoc E o i b ((d.props.set idName (.str d.id)).set hnswName (.int b.next)) vec := by
      unfold addOne
      rcases h1 with h1 | h1 <;> simp only [hget, h1, ht, Bool.not_true, Bool.false_eq_true, if_false] <;> rfl
    cases t with
    | nil =>
      right
      exact ⟨hv, _, storedAs_set d _, by rw [ha, if_pos rfl]⟩
    | cons ch t =>
      left
      obtain ⟨v, hc⟩ := ho.corpi i (ch :: t)
      simp only [hc] at hv
      exact ⟨v, _, hv, storedAs_set d _, by rw [ha, if_neg (by simp)]; simp only [hc]⟩

theorem storeDoc_works {E : Env F D} {o : Oracle F D} (ho : o.Works) (i : Nat) (b : Batch F) (p : Props F) (n : Option Nat) :
    storeDoc E o i b p n = ({ b with docs := putDoc E.replace b.docs p, log := b.log ++ [.stored n] }, none) := by
  unfold storeDoc
  rw [if_neg (by rw [ho.marshal]; simp), if_neg (by rw [ho.put]; simp)]

/-- one document -/
theorem addOne_orderly {E : Env F D} (hP : E.P.Ok) (hr : E.replace = false)
    (hdi : ∀ a b, E.P.metric.len a = E.P.metric.len b → ∃ d, E.P.metric.dist a b = some d) (hroom : E.P.maxConn ≤ E.P.cacheSize)
    {L : Nat} (hL : L ≠ 0) {o : Oracle F D} (ho : o.Works) {ti : List Str} {i : Nat} {b : Batch F} {d : Doc F} (hd : Readable ti d)
    {vs : List (List F)} (hb : BInv E L b vs) (hfirst : vs = [] → ∀ v, vectorOf o ti i d = some v → E.P.metric.len v = L)
    (hmost : (vs ++ (taken E.P.metric.len L o ti i [some d]).map Prod.snd).length ≤ E.P.maxConn) (hlt : vs.length < E.P.cacheSize) :
    ∃ b', addOne E o true ti i b (some d) = (b', none) ∧ BInv E L b' (vs ++ (taken E.P.metric.len L o ti i [some d]).map Prod.snd) ∧
      (∀ p ∈ b.docs, p ∈ b'.docs) ∧
      ∀ x ∈ taken E.P.metric.len L o ti i [some d], x.1 = d ∧ ∃ p ∈ b'.docs, StoredAs d vs.length p := by
  rcases addOne_readable (E := E) (i := i) (b := b) ho hd with ⟨v, p, hv, hp, ha⟩ | ⟨hv, p, hp, ha⟩
  · by_cases hl : E.P.metric.len v = L
    · have htk : taken E.P.metric.len L o ti i [some d] = [(d, v)] := by simp [taken, hv, hl]
      rw [htk] at hmost ⊢
      have hsm : vs.length < E.P.maxConn := by simp at hmost; omega
      have hadd := add_small hP hdi (hist_inv hP hb.hist) (vec := v) (by rw [hl]; exact hL) (fun u hu => by rw [hb.len u hu, hl]) hlt hsm (o.vo i) (o.sched i) (o.level i)
      have hadd' : Index.add E.P (o.vo i) (o.sched i) b.idx b.next v (o.level i) =
          ((Index.add E.P (o.vo i) (o.sched i) b.idx b.next v (o.level i)).1, none) := by
        rw [hb.next]; rw [← hadd]
      have hres : addOne E o true ti i b (some d) = ({ b with idx := (Index.add E.P (o.vo i) (o.sched i) b.idx b.next v (o.level i)).1, next := b.next + 1, docs := putDoc E.replace b.docs p, log := b.log ++ [.indexed b.next] }, none) := by
        rw [ha]; unfold indexDoc; rw [hadd']; exact storeDoc_works ho ..
      refine ⟨_, hres, ?_⟩
      · have hp' : StoredAs d (vs.length : Int) p := by rw [← hb.next]; exact hp
        refine ⟨⟨.add _ _ v _ hb.hist (by rw [← hb.next]; exact hadd'), by simp [hb.next], ?_, ?_⟩, ?_, ?_⟩
        · show Client.docNumbers (putDoc _ _ _) = _
          simp only [putDoc, hr, Client.docNumbers, List.filterMap_append]
          simp only [List.filterMap_cons, docNumber_int hp.number, List.filterMap_nil]
          simp only [List.map_cons, List.map_nil]
          rw [List.length_append, List.length_singleton, List.range_succ, hb.next, ← hb.numbers]
          rfl
        · intro u hu
          rw [List.mem_append] at hu
          rcases hu with hu | hu
          · exact hb.len u hu
          · have : u = v := by simpa using hu
            rw [this]; exact hl
        · intro q hq
          simp [putDoc, hr, hq]
        · intro x hx
          have : x = (d, v) := by simpa using hx
          subst this
          exact ⟨rfl, p, by simp [putDoc, hr], hp'⟩
    · have htk : taken E.P.metric.len L o ti i [some d] = [] := by simp [taken, hv, hl]
      rw [htk]
      simp only [List.map_nil, List.append_nil]
      have hn : vs ≠ [] := fun e => hl (hfirst e v hv)
      have hne : ∀ u ∈ vs, E.P.metric.len u ≠ E.P.metric.len v := fun u hu e => hl (by rw [← e]; exact hb.len u hu)
      obtain ⟨s', hs'⟩ : ∃ s', Index.add E.P (o.vo i) (o.sched i) b.idx b.next v (o.level i) = (s', some .error) := by
        rw [hb.next]
        rcases add_wrong_length hP (hist_inv hP hb.hist) hn hne (o.vo i) (o.sched i) (o.level i) with h1 | ⟨h1, _⟩ | h1
        · exact ⟨_, h1⟩
        · omega
        · exact ⟨_, h1⟩
      refine ⟨{ b with idx := s', log := b.log ++ [.refused] }, by rw [ha]; unfold indexDoc; rw [hs'], ⟨?_, hb.next, hb.numbers, hb.len⟩, fun q hq => hq, by simp⟩
      exact .refused _ _ v _ hb.hist hn hne (by rw [← hb.next]; exact hs')
  · have htk : taken E.P.metric.len L o ti i [some d] = [] := by simp [taken, hv]
    rw [htk]
    simp only [List.map_nil, List.append_nil]
    refine ⟨_, ha.trans (storeDoc_works ho ..), ⟨hb.hist, hb.next, ?_, hb.len⟩, fun q hq => by simp [putDoc, hr, hq], by simp⟩
    show Client.docNumbers (putDoc _ _ _) = _
    simp only [putDoc, hr, Client.docNumbers, List.filterMap_append]
    simp only [List.filterMap_cons, docNumber_neg hp.number, List.filterMap_nil, List.append_nil]
    exact hb.numbers

theorem taken_cons (len : List F → Nat) (L : Nat) (o : Oracle F D) (ti : List Str) (i : Nat) (x : Option (Doc F)) (ds : List (Option (Doc F))) :
    taken len L o ti i (x :: ds) = taken len L o ti i [x] ++ taken len L o ti (i + 1) ds := by
  cases x with
  | none => simp [taken]
  | some d =>
    simp only [taken]
    cases vectorOf o ti i d with
    | none => simp
    | some v => by_cases h : len v = L <;> simp [h]

/-- a whole request -/
theorem addLoop_orderly {E : Env F D} (hP : E.P.Ok) (hr : E.replace = false)
    (hdi : ∀ a b, E.P.metric.len a = E.P.metric.len b → ∃ d, E.P.metric.dist a b = some d) (hroom : E.P.maxConn < E.P.cacheSize)
    {L : Nat} (hL : L ≠ 0) {o : Oracle F D} (ho : o.Works) {ti : List Str} (docs : List (Option (Doc F))) {i : Nat} {b : Batch F}
    (hd : ∀ x ∈ docs, ∃ d, x = some d ∧ Readable ti d) {vs : List (List F)} (hb : BInv E L b vs)
    (hfirst : vs = [] → ∀ (j : Nat) (d : Doc F) (v : List F), docs[j]? = some (some d) → vectorOf o ti (i + j) d = some v → E.P.metric.len v = L)
    (hmost : (vs ++ (taken E.P.metric.len L o ti i docs).map Prod.snd).length ≤ E.P.maxConn) :
    ∃ b', addLoop E o true ti i docs b = (b', none) ∧ BInv E L b' (vs ++ (taken E.P.metric.len L o ti i docs).map Prod.snd) ∧
      (∀ p ∈ b.docs, p ∈ b'.docs) ∧
      ∀ (k : Nat) (x : Doc F × List F), (taken E.P.metric.len L o ti i docs)[k]? = some x → ∃ p ∈ b'.docs, StoredAs x.1 ((vs.length + k : Nat) : Int) p := by
  induction docs generalizing i b vs with
  | nil => exact ⟨b, rfl, by simpa [taken] using hb, fun _ h => h, by simp [taken]⟩
  | cons x docs ih =>
    obtain ⟨d, rfl, hrd⟩ := hd x (by simp)
    rw [taken_cons] at hmost ⊢
    have hm1 : (vs ++ (taken E.P.metric.len L o ti i [some d]).map Prod.snd).length ≤ E.P.maxConn := by
      simp only [List.map_append, List.length_append] at hmost ⊢; omega
    have hlt : vs.length < E.P.cacheSize := by
      simp only [List.length_append] at hm1; omega
    obtain ⟨b1, h1, hb1, hk1, hs1⟩ := addOne_orderly (i := i) hP hr hdi (Nat.le_of_lt hroom) hL ho hrd hb (fun e v hv => hfirst e 0 d v rfl hv) hm1 hlt
    have hlen1 : (taken E.P.metric.len L o ti i [some d]).length ≤ 1 := by
      simp only [taken]
      cases vectorOf o ti i d with
      | none => simp
      | some v => by_cases h : E.P.metric.len v = L <;> simp [h]
    obtain ⟨b2, h2, hb2, hk2, hs2⟩ := ih (i := i + 1) (b := b1) (fun y hy => hd y (List.mem_cons_of_mem _ hy)) hb1
      (fun e j d' v hj hv => by
        have e' : vs = [] := (List.append_eq_nil_iff.mp e).1
        exact hfirst e' (j + 1) d' v hj (by rw [show i + (j + 1) = i + 1 + j by omega]; exact hv))
      (by rw [List.append_assoc, ← List.map_append]; exact hmost)
    refine ⟨b2, ?_, ?_, fun p hp => hk2 p (hk1 p hp), ?_⟩
    · unfold addLoop; rw [h1]; exact h2
    · rw [List.map_append, ← List.append_assoc]; exact hb2
    · intro k x hx
      rw [List.getElem?_append] at hx
      split at hx
      · rename_i hk
        have hk0 : k = 0 := by omega
        subst hk0
        have hm : x ∈ taken E.P.metric.len L o ti i [some d] := List.mem_of_getElem? hx
        obtain ⟨g1, p, g2, g3⟩ := hs1 x hm
        exact ⟨p, hk2 p g2, by rw [g1]; exact g3⟩
      · rename_i hk
        obtain ⟨p, g1, g2⟩ := hs2 _ x hx
        refine ⟨p, g1, ?_⟩
        rw [List.length_append, List.length_map] at g2
        rw [show vs.length + k = vs.length + (taken E.P.metric.len L o ti i [some d]).length + (k - (taken E.P.metric.len L o ti i [some d]).length) by omega]
        exact g2

end Fave.Client
