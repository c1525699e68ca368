import Verif.Lemmas.Texts
import Verif.Lemmas.ClientNear
import Verif.Props.C78
import Verif.Props.C66
import Verif.Props.C15
import Verif.Props.C22
/-!
# C82 — from text to text

*Whatever requests a server was sent — any texts as bodies, any failures, log-ins, restarts —, every document in the text of an answer stands in the text
of an earlier request to add documents to the same collection, the collection has not been deleted since, and the properties mean what they meant there.*

What the bodies are read as (C80), what is stored for a document and shown of it (C78), and what the client does in between (C15–C24) are put together.
-/
namespace Fave.C82
open Json F32 Docs Bodies Client Texts

/-- what is read from the body of a request has a text of its own -/
theorem says_ok {r : TReq} {name : Text} {d : DocB} {l : List (Text × J)} (h : Says r name d l) :
    Sorted l ∧ takeMembers [] l = l ∧ ∀ m ∈ l, m.2.Ok := by
  obtain ⟨o, body, b, ds, -, hb, -, hds, hd, hp⟩ := h
  obtain ⟨v, t, hv, ha⟩ := bind_ok hb
  obtain ⟨h1, h2, -⟩ := addOf_read ((reads_ok _).1 _ _ _ hv) ha ds hds d hd _ hp
  rw [take, J.obj.injEq] at h2
  refine ⟨h2 ▸ sorted_takeMembers sorted_nil, h2, ?_⟩
  cases h1 with
  | obj _ h => exact h

theorem told_ok [Dist Num] {E : Env Num Num} {uuid : Str → Bool} {odd : Option G → Text} {w : World Num} {rs : List TReq} {name : Text} {d : DocB}
    {l : List (Text × J)} (h : Told E uuid odd w rs name d l) : Sorted l ∧ takeMembers [] l = l ∧ ∀ m ∈ l, m.2.Ok := by
  obtain ⟨-, r, -, -, hs, -⟩ := h
  exact says_ok hs

/-- the text kept for a document is that of C78 -/
theorem text_of [Dist Num] {E : Env Num Num} (hE : E.P.cacheSize ≤ 2 ^ 53) {d : DocB} {l : List (Text × J)}
    (h : Sorted l ∧ takeMembers [] l = l ∧ ∀ m ∈ l, m.2.Ok) {q : Props Num} (hq : From E ⟨d.id, props l⟩ q) :
    ∃ n : Option Nat, docText q = stored (kept d.id n l) ∧ ∀ m, n = some m → m < 2 ^ 53 := by
  obtain ⟨n, rfl, hn⟩ := hq
  exact ⟨n, by rw [docText, table_kept h.1 h.2.1 h.2.2], fun m hm => lt_of_lt_of_le (hn m hm) hE⟩

/-- whatever is shown of a stored document is what was sent -/
theorem shown_inv (odd : Option G → Text) {d : DocB} {l : List (Text × J)} (hok : ∀ m ∈ l, m.2.Ok) {n : Option Nat} (hn : ∀ m, n = some m → m < 2 ^ 53)
    {r : List (Text × G)} (hr : recalled (stored (kept d.id n l)) = some r) {x : Option Num} {j : J} (h : shown odd r x = some j) :
    ∃ w, Shows (if x = none then [] else [kDistance]) d l w j ∧ (∀ m ∈ w, m.2.Ok) ∧
      ∀ y, x = some y → ∃ z lit, y = .fin z ∧ f32.lit z = some lit ∧ last w kDistance = some (.num lit) := by
  have hx : ∀ y, x = some y → ∃ z lit, y = .fin z ∧ f32.lit z = some lit := by
    rintro y rfl
    by_contra hne
    have hw : write (.single y) = none := by
      cases y with
      | fin z =>
        simp only [write, Option.map_eq_none_iff]
        cases hl : f32.lit z with
        | none => rfl
        | some lit => exact absurd ⟨z, lit, rfl, hl⟩ hne
      | inf s => rfl
      | nan => rfl
    unfold shown at h
    simp only [withDistance, C78.writeMembers_none hw (C78.put_mem kDistance _ _), Option.map_none, reduceCtorEq] at h
  obtain ⟨r', w, h1, h2, h3, h4, -, -, -, h8⟩ := shown_kept odd (id := d.id) hok hn (fun k v hv hk => inRange_of_recalled hok hr k v hv hk) hx
  rw [hr, Option.some.injEq] at h1
  subst h1
  rw [h, Option.some.injEq] at h2
  refine ⟨w, ⟨h2, fun k hk => h4 k ?_ ?_⟩, h3, fun y hy => ?_⟩
  · intro hm; apply hk
    simp only [List.mem_cons, List.not_mem_nil, or_false] at hm
    rcases hm with rfl | rfl | rfl <;> simp
  · rintro rfl
    by_contra hne
    rw [if_neg hne] at hk
    exact hk (by simp)
  · obtain ⟨z, lit, rfl, hl⟩ := hx y hy
    obtain ⟨lit', a, b⟩ := h8 z hy
    exact ⟨z, lit', rfl, b, a⟩

theorem lookupAll_mem {F D : Type} [Dist D] [DecidableEq F] {o : Oracle F D} {docs : List (Props F)} {i : Nat} {ids : List Nat} {ps : List (Props F)}
    (h : lookupAll o docs i ids = .ok ps) : ∀ p ∈ ps, p ∈ docs := by
  induction ids generalizing i ps with
  | nil => cases h; simp
  | cons id ids ih =>
    unfold lookupAll at h
    split at h
    · cases h
    split at h
    · cases h
    rename_i p hp
    split at h
    · cases h
    rename_i ps' hps
    cases h
    intro q hq
    rcases List.mem_cons.1 hq with rfl | hq
    · exact List.mem_of_find?_eq_some hp
    · exact ih hps q hq

theorem nearWith_mem {F D : Type} [Dist D] [DecidableEq F] {E : Env F D} {o : Oracle F D} {w w1 : World F} {c : Str} (ho : ensureOpen o w c = (w1, none))
    {q : List F} {max : D} {ef limit : Int} {docs : List (Props F)} {ds : List D} (h : (nearWith E o w1 c q max ef limit).2 = .ok (docs, ds)) :
    ∀ p ∈ docs, p ∈ w.docs c := by
  obtain ⟨-, -, -, ids, -, -, -, -, hl⟩ := nearWith_ok h
  have := calm_ensureOpen o w c
  rw [ho] at this
  rw [← this.docs]
  exact lookupAll_mem hl

/-- a search that the client answers -/
theorem search_near [Dist Num] {E : Env Num Num} {uuid : Str → Bool} {odd : Option G → Text} {w : World Num} {r : TReq} {a : Answer}
    (hs : (∃ o body, r = .nearText o body) ∨ ∃ o body, r = .nearVector o body) (h : (Texts.serve E uuid odd w r).2 = .text a) :
    ∃ name, ∃ docs : List (Props Num), ∃ ds, name ≠ [] ∧ Asks r name ∧ a = found odd name (docs.map docText) ds ∧ (∀ p ∈ docs, p ∈ w.docs (ns ++ name)) ∧ docs.length ≤ ds.length := by
  have end_ : ∀ (name : Text) (c : Ans Num Num), searched odd name c = .text a → ∃ docs ds, c = .near docs ds ∧ a = found odd name (docs.map docText) ds := by
    intro name c hc
    cases c <;> simp only [searched, Reply.text.injEq, reduceCtorEq] at hc
    exact ⟨_, _, rfl, hc.symm⟩
  rcases hs with ⟨o, body, rfl⟩ | ⟨o, body, rfl⟩
  · simp only [Texts.serve, Texts.read] at h
    cases hb : Bodies.bind nearOf body with
    | missing => rw [hb] at h; cases h
    | unreadable => rw [hb] at h; cases h
    | ok b =>
      rw [hb] at h
      simp only [handled] at h
      split at h
      · cases h
      split at h
      · cases h
      rename_i hn _
      obtain ⟨docs, ds, h1, h2⟩ := end_ _ _ h
      obtain ⟨w1, q, h3, h4⟩ := serve_nearText h1
      exact ⟨b.name, docs, ds, hn, .inl ⟨o, body, b, rfl, hb, rfl⟩, h2, nearWith_mem h3 h4, near_dists h4⟩
  · simp only [Texts.serve, Texts.read] at h
    cases hb : Bodies.bind vecOf body with
    | missing => rw [hb] at h; cases h
    | unreadable => rw [hb] at h; cases h
    | ok b =>
      rw [hb] at h
      simp only [handled] at h
      split at h
      · cases h
      split at h
      · cases h
      rename_i hn _ q hq
      obtain ⟨docs, ds, h1, h2⟩ := end_ _ _ h
      obtain ⟨w1, h3, h4⟩ := serve_nearVector h1
      exact ⟨b.name, docs, ds, hn, .inr (.inl ⟨o, body, b, rfl, hb, rfl⟩), h2, nearWith_mem h3 h4, near_dists h4⟩

theorem asks_unique {r : TReq} {a b : Text} (ha : Asks r a) (hb : Asks r b) : a = b := by
  rcases ha with ⟨o, body, x, rfl, h1, h2⟩ | ⟨o, body, x, rfl, h1, h2⟩ | ⟨o, s, p, v, rfl⟩
  all_goals rcases hb with ⟨o', body', x', e, h1', h2'⟩ | ⟨o', body', x', e, h1', h2'⟩ | ⟨o', s', p', v', e⟩
  all_goals try cases e
  · rw [h1] at h1'; cases h1'; rw [← h2, ← h2']
  · rw [h1] at h1'; cases h1'; rw [← h2, ← h2']
  · rfl

theorem hits_not_ok (ts : List Text) (ds : List Num) (t : Text) : hits ts ds ≠ .error (.ok t) := by
  induction ts generalizing ds with
  | nil => simp [hits]
  | cons a ts ih =>
    intro h
    unfold hits at h
    split at h
    · cases h
    · cases h
    · rename_i d ds _
      cases hh : hits ts ds with
      | error e => rw [hh] at h; cases h; exact ih ds hh
      | ok l => rw [hh] at h; cases h

theorem hits_take (ts : List Text) (ds : List Num) (n : Nat) (h : ts.length ≤ n) : hits ts (ds.take n) = hits ts ds := by
  induction ts generalizing ds n with
  | nil => simp [hits]
  | cons t ts ih =>
    cases n with
    | zero => simp at h
    | succ n =>
      cases ds with
      | nil => simp
      | cons d ds =>
        rw [List.take_succ_cons]
        unfold hits
        cases recalled t with
        | none => rfl
        | some p => simp only [ih ds n (by simpa using h)]

/-- distances beyond the number of documents are not looked at -/
theorem found_take (odd : Option G → Text) (name : Text) (ts : List Text) (ds : List Num) (n : Nat) (h : ts.length ≤ n) :
    found odd name ts (ds.take n) = found odd name ts ds := by
  unfold found
  rw [hits_take ts ds n h]

/-- a look-up that the client answers -/
theorem get_doc [Dist Num] {E : Env Num Num} {uuid : Str → Bool} {odd : Option G → Text} {w : World Num} {o : Oracle Num Num} {sat : Str → Props Num → Bool}
    {name property value : Text} {a : Answer} (h : (Texts.serve E uuid odd w (.get o sat name property value)).2 = .text a) :
    ∃ p ∈ w.docs (ns ++ name), a = lookedUp odd (docText p) := by
  simp only [Texts.serve, Texts.read, handled] at h
  split at h
  · cases h
  simp only [Client.serve] at h
  cases hg : (getDocument o sat w name property value).2 with
  | error e => rw [hg] at h; cases h
  | ok p =>
    rw [hg] at h
    simp only [looked, Reply.text.injEq] at h
    refine ⟨p, ?_, h.symm⟩
    unfold getDocument at hg
    simp only at hg
    split at hg
    · cases hg
    split at hg
    · cases hg
    simp only at hg
    split at hg
    · cases hg
    split at hg
    · cases hg
    · rename_i q hq
      cases hg
      exact List.mem_of_find?_eq_some hq

theorem readDocs_get {l : List (Option (Rest.RawDoc Num))} {ds : List (Option (Doc Num))} (h : Rest.readDocs l = some ds) {i : Nat} {raw : Rest.RawDoc Num}
    {p : Props Num} (hi : l[i]? = some (some raw)) (hp : raw.props = some p) : ds[i]? = some (some ⟨raw.id, p⟩) := by
  induction l generalizing ds i with
  | nil => simp at hi
  | cons x l ih =>
    cases x with
    | none => simp [Rest.readDocs] at h
    | some r =>
      simp only [Rest.readDocs, Option.map_eq_some_iff] at h
      obtain ⟨ds', hr, rfl⟩ := h
      cases i with
      | zero =>
        simp only [List.getElem?_cons_zero, Option.some.injEq] at hi
        subst hi
        simp [hp]
      | succ i => simpa using ih hr (by simpa using hi)

/-- an addition that is answered with success -/
theorem add_done [Dist Num] {E : Env Num Num} {uuid : Str → Bool} {odd : Option G → Text} {w : World Num} {o : Oracle Num Num} {body : Text} {b : AddB}
    (hb : Bodies.bind addOf body = .ok b) {m : Nat} (h : (Texts.serve E uuid odd w (.add o body)).2 = .plain (.added m)) :
    ∃ ti ds log, b.toVec = some ti ∧ Rest.readDocs ((b.docs.getD []).map fun d => d.map rawDoc) = some ds ∧
      addDocuments E o w b.name ti ds = ((Texts.serve E uuid odd w (.add o body)).1, log, none) := by
  simp only [Texts.serve, Texts.read] at h ⊢
  rw [hb] at h ⊢
  simp only [handled, Rest.handle] at h ⊢
  split at h
  · cases h
  rename_i c1
  rw [if_neg c1]
  split at h
  · cases h
  rename_i c2
  rw [if_neg c2]
  split at h
  · cases h
  rename_i l hl
  obtain ⟨ds0, hds0, rfl⟩ := Option.map_eq_some_iff.1 hl
  split at h
  · cases h
  rename_i ti hti
  split at h
  · cases h
  rename_i ds hds
  simp only [Client.serve] at h ⊢
  refine ⟨ti, ds, (addDocuments E o w b.name ti ds).2.1, hti, by rw [hds0]; exact hds, ?_⟩
  cases he : (addDocuments E o w b.name ti ds).2.2 with
  | none => exact Prod.ext rfl (Prod.ext rfl he)
  | some e => rw [he] at h; cases e <;> cases h

theorem add_pod {F D : Type} [Dist D] [DecidableEq F] {E : Env F D} {o : Oracle F D} {w w' : World F} {name : Str} {ti : List Str} {docs : List (Option (Doc F))}
    {log : List Res} (h : addDocuments E o w name ti docs = (w', log, none)) : w.pod = true := by
  by_contra hne
  have he : ensureOpen o w (ns ++ name) = (w, some .panic) := by
    unfold ensureOpen
    rw [if_pos (by simpa using hne)]
  unfold addDocuments addBegin at h
  simp only [he] at h
  cases h

theorem get_keptProps (d : Doc Num) (n : Option Nat) (k : Str) (h1 : k ≠ idName) (h2 : k ≠ hnswName) (h3 : k ≠ vectorName) :
    (keptProps d n).get k = d.props.get k := by
  unfold keptProps
  simp only
  split
  · rw [Map.get_set, if_neg h2, Map.get_set, if_neg h1]
  · rw [Map.get_del, if_neg h3, Map.get_set, if_neg h2, Map.get_set, if_neg h1]

theorem get_keptProps_id (d : Doc Num) (n : Option Nat) : (keptProps d n).get idName = some (.str d.id) := by
  have h2 : idName ≠ hnswName := by decide
  have h3 : idName ≠ vectorName := by decide
  unfold keptProps
  simp only
  split
  · rw [Map.get_set, if_neg h2, Map.get_set, if_pos rfl]
  · rw [Map.get_del, if_neg h3, Map.get_set, if_neg h2, Map.get_set, if_pos rfl]

section
variable [Dist Num] (E : Env Num Num) (hE : E.P.cacheSize ≤ 2 ^ 53) (uuid : Str → Bool) (odd : Option G → Text) (w : World Num) (rs : List TReq)
include hE

/-- **C82**: the answer to a look-up, after any requests, shows a document that stands in one of them. -/
theorem look_up_shows (o : Oracle Num Num) (sat : Str → Props Num → Bool) (name property value : Text) (hf : w.docs (ns ++ name) = []) {t : Text}
    (h : (Texts.serve E uuid odd (Texts.run E uuid odd w rs) (.get o sat name property value)).2 = .text (.ok t)) :
    ∃ d l x j, parse t = some j ∧ Told E uuid odd w rs name d l ∧ Shows [] d l x j := by
  obtain ⟨p, hp, ha⟩ := get_doc h
  obtain ⟨d, l, ht, hfr⟩ := run_docs E uuid odd w name hf rs p hp
  have hok := told_ok ht
  obtain ⟨n, hn1, hn2⟩ := text_of hE hok hfr
  rw [hn1] at ha
  unfold lookedUp at ha
  split at ha
  · cases ha
  rename_i r hr
  split at ha
  · cases ha
  rename_i j hj
  obtain ⟨x, h1, h2, -⟩ := shown_inv odd hok.2.2 hn2 hr hj
  refine ⟨d, l, x, j, ?_, ht, h1⟩
  cases ha
  rw [h1.1]
  exact parse_line (answerJ_ok h2)

/-- **C82**: the answer to a search, after any requests, names the collection and shows documents, each with its distance, that stand in the requests. -/
theorem search_shows (r : TReq) (hs : (∃ o body, r = .nearText o body) ∨ ∃ o body, r = .nearVector o body) (name : Text) (hr : Asks r name)
    (hf : w.docs (ns ++ name) = []) {t : Text} (h : (Texts.serve E uuid odd (Texts.run E uuid odd w rs) r).2 = .text (.ok t)) :
    ∃ js, parse t = some (.obj [(kDocuments, .arr js), (kName, .str name)]) ∧
      ∀ j ∈ js, ∃ d l x, Told E uuid odd w rs name d l ∧ Shows [kDistance] d l x j ∧ ∃ lit, last x kDistance = some (.num lit) := by
  obtain ⟨name', docs, ds, hne, hr', ha, hd, -⟩ := search_near hs h
  obtain rfl := asks_unique hr hr'
  have key : ∀ (docs : List (Props Num)) (ds : List Num) (hd : ∀ p ∈ docs, p ∈ (Texts.run E uuid odd w rs).docs (ns ++ name)) l js,
      hits (docs.map docText) ds = .ok l → showAll odd l = some js → (∀ j ∈ js, j.Ok) ∧
      ∀ j ∈ js, ∃ d l x, Told E uuid odd w rs name d l ∧ Shows [kDistance] d l x j ∧ ∃ lit, last x kDistance = some (.num lit) := by
    intro docs
    induction docs with
    | nil =>
      intro ds _ l js hl hj
      simp only [List.map_nil, hits, Except.ok.injEq] at hl
      subst hl
      simp only [showAll, Option.some.injEq] at hj
      subst hj
      simp
    | cons p docs ih =>
      intro ds hd l js hl hj
      simp only [List.map_cons, hits] at hl
      split at hl
      · cases hl
      · cases hl
      rename_i g y ds' hg
      cases hh : hits (docs.map docText) ds' with
      | error e => rw [hh] at hl; cases hl
      | ok l' =>
        rw [hh] at hl
        cases hl
        simp only [showAll] at hj
        split at hj
        · rename_i j js' h1 h2
          cases hj
          obtain ⟨ok', ih'⟩ := ih ds' (fun p hp => hd p (by simp [hp])) l' js' hh h2
          obtain ⟨d, l, ht, hfr⟩ := run_docs E uuid odd w name hf rs p (hd p (by simp))
          have hok := told_ok ht
          obtain ⟨n, hn1, hn2⟩ := text_of hE hok hfr
          rw [hn1] at hg
          obtain ⟨x, a1, a2, a3⟩ := shown_inv odd hok.2.2 hn2 hg h1
          obtain ⟨z, lit, -, -, a4⟩ := a3 y rfl
          rw [if_neg (by simp)] at a1
          refine ⟨?_, ?_⟩
          · intro k hk
            rcases List.mem_cons.1 hk with rfl | hk
            · rw [a1.1]; exact answerJ_ok a2
            · exact ok' k hk
          · intro k hk
            rcases List.mem_cons.1 hk with rfl | hk
            · exact ⟨d, l, x, ht, a1, lit, a4⟩
            · exact ih' k hk
        · cases hj
  unfold found at ha
  split at ha
  · rename_i e he
    exact absurd (ha ▸ he) (hits_not_ok _ _ _)
  · rename_i l hl
    split at ha
    · cases ha
    · rename_i js hj
      obtain ⟨h1, h2⟩ := key docs ds hd l js hl hj
      refine ⟨js, ?_, h2⟩
      simp only [hne, if_false] at ha
      cases ha
      refine parse_line (.obj _ fun m hm => ?_)
      simp only [List.singleton_append, List.mem_cons, List.not_mem_nil, or_false] at hm
      rcases hm with rfl | rfl
      · exact .arr _ h1
      · exact .str _

/-- **C82**: a look-up or a search is refused after the client has answered it only because of a document, standing in one of the requests, of which a
number is beyond the range of 64-bit floats. -/
theorem refused_only (r : TReq) (name : Text) (hr : Asks r name) (hf : w.docs (ns ++ name) = [])
    (h : (Texts.serve E uuid odd (Texts.run E uuid odd w rs) r).2 = .text .bad) :
    ∃ d l k v, Told E uuid odd w rs name d l ∧ last l k = some v ∧ k ∉ [kId, kVector, kIndex] ∧ ¬ InRange v := by
  have key : ∀ p ∈ (Texts.run E uuid odd w rs).docs (ns ++ name), recalled (docText p) = none →
      ∃ d l k v, Told E uuid odd w rs name d l ∧ last l k = some v ∧ k ∉ [kId, kVector, kIndex] ∧ ¬ InRange v := by
    intro p hp hn
    obtain ⟨d, l, ht, hfr⟩ := run_docs E uuid odd w name hf rs p hp
    have hok := told_ok ht
    obtain ⟨n, hn1, hn2⟩ := text_of hE hok hfr
    obtain ⟨k, v, h1, h2, h3⟩ := (C78.unreadable_iff odd (id := d.id) hok.2.2 hn2).1 (by rw [← hn1]; simp only [lookedUp, hn])
    exact ⟨d, l, k, v, ht, h1, h2, h3⟩
  have search : (∃ o body, r = .nearText o body) ∨ (∃ o body, r = .nearVector o body) →
      ∃ d l k v, Told E uuid odd w rs name d l ∧ last l k = some v ∧ k ∉ [kId, kVector, kIndex] ∧ ¬ InRange v := by
    intro hs
    obtain ⟨name', docs, ds, hne, hr', ha, hd, hlen⟩ := search_near hs h
    obtain rfl := asks_unique hr hr'
    obtain ⟨t, ht, hn⟩ := (C78.one_bad_document odd name (docs.map docText) (ds.take docs.length) (by simp; omega)).1 (by
      rw [found_take]
      · exact ha.symm
      · simp)
    obtain ⟨p, hp, rfl⟩ := List.mem_map.1 ht
    exact key p (hd p hp) hn
  rcases hr with ⟨o, body, b, rfl, -⟩ | ⟨o, body, b, rfl, -⟩ | ⟨o, sat, p, v, rfl⟩
  · exact search (.inl ⟨o, body, rfl⟩)
  · exact search (.inr ⟨o, body, rfl⟩)
  · obtain ⟨p, hp, ha⟩ := get_doc h
    refine key p hp ?_
    unfold lookedUp at ha
    split at ha
    · rename_i e; exact e
    · split at ha <;> cases ha

/-- **C82**: after any requests, each document of an addition that is answered with success was passed over, or it is in the collection, and a look-up that
finds it answers with a text that shows it, provided its numbers are in the range of 64-bit floats. -/
theorem accepted_then_shown (hrep : E.replace = false) (lookup : Bool) (dbs : Map (Db Num)) (o : Oracle Num Num) (body : Text) (b : AddB)
    (hb : Bodies.bind addOf body = .ok b) (hf : dbs.get (ns ++ b.name) = none) (m : Nat) (w1 : World Num)
    (h : Texts.serve E uuid odd (Texts.run E uuid odd (World.fresh lookup dbs) rs) (.add o body) = (w1, .plain (.added m))) (ds : List (Option DocB))
    (hds : b.docs = some ds) (i : Nat) (d : DocB) (hi : ds[i]? = some (some d)) (l : List (Text × J)) (hl : d.props = some (.obj l)) :
    (∃ ti r, b.toVec = some ti ∧ C15.PassedOver E o ti i ⟨d.id, props l⟩ r) ∨
    ∃ p ∈ w1.docs (ns ++ b.name), p.get idName = some (.str d.id) ∧
      ∀ (o' : Oracle Num Num) (sat : Str → Props Num → Bool) (property value : Text), o'.isOpen = false → o'.docOpen = false → o'.find 0 = false →
        property ≠ [] → value ≠ [] → (w1.docs (ns ++ b.name)).find? (sat (exprOf property value)) = some p →
        (∀ k v, last l k = some v → k ∉ [kId, kVector, kIndex] → InRange v) →
        ∃ t x j, (Texts.serve E uuid odd w1 (.get o' sat b.name property value)).2 = .text (.ok t) ∧ parse t = some j ∧ Shows [] d l x j := by
  obtain ⟨ti, dd, log, h1, h2, h3⟩ := add_done hb (m := m) (by rw [h])
  rw [h] at h3
  obtain ⟨cs, hcs⟩ := run_client E uuid odd (World.fresh lookup dbs) rs
  have hsane := sane_run E b.name lookup dbs cs
  have hdocs0 : (World.fresh lookup dbs : World Num).docs (ns ++ b.name) = [] := by
    unfold World.docs World.fresh
    simp only [hf, Option.getD_none]
  rw [hds] at h2
  have hdd : dd[i]? = some (some ⟨d.id, props l⟩) :=
    readDocs_get h2 (raw := rawDoc d) (by simp [List.getElem?_map, hi]) (by simp [rawDoc, hl])
  have hsays : Says (.add o body) b.name d l := ⟨o, body, b, ds, rfl, hb, rfl, hds, List.mem_of_getElem? hi, hl⟩
  have hok := says_ok hsays
  have hrun : Texts.run E uuid odd (World.fresh lookup dbs) (rs ++ [.add o body]) = w1 := by rw [run_snoc, h]
  rw [hcs] at h3
  obtain ⟨d0, hd0, h4⟩ := C15.success_stores_partial E hrep o _ w1 b.name hsane.opened hsane.any ti dd log h3 i _ hdd
  rw [Option.some.injEq] at hd0
  subst hd0
  have hpod := add_pod h3
  have hses := C22.pod_needs_session E lookup dbs cs hpod
  have honly := onlyAt_serve E (Client.run E (World.fresh lookup dbs) cs) (.add o b.name ti dd) (n := b.name) rfl
  have hw1 : (Client.serve E (Client.run E (World.fresh lookup dbs) cs) (.add o b.name ti dd)).1 = w1 := by
    simp only [Client.serve, h3]
  rw [hw1] at honly
  rcases h4 with ⟨r, -, hr⟩ | hk
  · exact .inl ⟨ti, r, h1, hr⟩
  right
  obtain ⟨p, n, hp, hst⟩ : ∃ p n, p ∈ w1.docs (ns ++ b.name) ∧ StoredAs (⟨d.id, props l⟩ : Doc Num) n p := by
    rcases hk with ⟨-, p, hp, hs⟩ | ⟨-, n, p, -, -, hp, hs, -⟩
    · exact ⟨p, _, hp, hs⟩
    · exact ⟨p, _, hp, hs⟩
  refine ⟨p, hp, hst.id, ?_⟩
  intro o' sat property value ho1 ho2 ho3 hpr hva hfind hrange
  -- the document that was stored is one that was sent, and it agrees with this one
  obtain ⟨d', l', htold, hfrom⟩ := run_docs E uuid odd (World.fresh lookup dbs) b.name hdocs0 (rs ++ [.add o body]) p (by rw [hrun]; exact hp)
  have hok' := told_ok htold
  obtain ⟨n', hn1, hn2⟩ := text_of hE hok' hfrom
  obtain ⟨n'', rfl, -⟩ := hfrom
  have hid : d'.id = d.id := by
    have := hst.id
    rw [get_keptProps_id] at this
    simpa using this
  have hlast : ∀ k, k ∉ [kId, kVector, kIndex] → last l' k = last l k := by
    intro k hk
    simp only [List.mem_cons, List.not_mem_nil, or_false, not_or] at hk
    have := hst.rest k hk.1 hk.2.2 hk.2.1
    rw [get_keptProps _ _ _ hk.1 hk.2.2 hk.2.1] at this
    simp only at this
    rw [get_props, get_props] at this
    have u : ∀ {q : List (Text × J)}, (∀ m ∈ q, m.2.Ok) → ((q.lookup k).map (val k)).map unval = q.lookup k := by
      intro q hq
      cases e : q.lookup k with
      | none => rfl
      | some v =>
        have := unval_val (k := k) (hq _ (lookup_some_mem e)) (.inl hk.2.1)
        simp [this]
    rw [last_sorted hok.1, last_sorted hok'.1, ← u hok.2.2, ← u hok'.2.2, this]
  obtain ⟨x, t, e1, e2, e3, -⟩ := C78.looked_up_partial odd (id := d'.id) hok'.2.2 hn2 (fun k v hv hk => hrange k v (by rw [← hlast k hk]; exact hv) hk)
  refine ⟨t, x, answerJ d.id x, ?_, by rw [← hid]; exact e2, rfl, ?_⟩
  · have hne : b.name ≠ [] := by
      intro e
      have := h
      simp only [Texts.serve, Texts.read, hb, handled, Rest.handle, e] at this
      split at this
      · cases this
      · simp at this
    simp only [Texts.serve, Texts.read, handled]
    rw [if_neg (by simp [hne, hpr, hva])]
    have hget : (getDocument o' sat w1 b.name property value).2 = .ok (keptProps ⟨d'.id, props l'⟩ n'') := by
      unfold getDocument
      simp only
      rw [if_neg (by simp [ho1, honly.session, hses, honly.pod, hpod])]
      have hsome : (w1.dbs.get (ns ++ b.name)).isSome := by
        unfold World.docs at hp
        cases hc : w1.dbs.get (ns ++ b.name) with
        | none => rw [hc] at hp; simp at hp
        | some _ => rfl
      rw [if_neg (by
        cases hc : w1.dbs.get (ns ++ b.name) with
        | none => rw [hc] at hsome; cases hsome
        | some _ => simp [ho2])]
      simp only [ho3, Bool.false_eq_true, if_false, setColl_dbs]
      unfold World.docs at hfind
      rw [hfind]
    simp only [Client.serve, hget, looked, hn1, e1]
  · intro k hk
    have hk' : k ∉ [kId, kVector, kIndex] := hk
    rw [← hlast k hk']
    exact e3 k hk'

end

/-! ## Cases -/

local instance : Dist Num := numDist

def odd : Option G → Text := fun _ => []
def uuid : Str → Bool := fun _ => true
/-- the text of an answer, and whether it was refused -/
def said : Reply → Option Text × Bool
  | .text (.ok t) => (some t, false)
  | .text .bad => (none, true)
  | _ => (none, false)
def creating : Text := "{\"name\":\"books\",\"indexes\":[]}".toList
def adding : Text :=
  "{\"name\":\"books\",\"propertiesToVectorize\":[],\"documents\":[{\"id\":\"a\",\"properties\":{\"year\":1999,\"price\":0.10,\"vector\":[1,0]}}]}".toList
def asking : Text := "{\"name\":\"books\",\"vector\":[1,0],\"distance\":1,\"limit\":0}".toList
def opened : List TReq := [.login true, .openPod true, .create (C66.oracle []) creating]
def story : List TReq := opened ++ [.add (C66.oracle [C66.xy 1 0]) adding]
/-- what is said to a request after others -/
def answer (rs : List TReq) (r : TReq) : Option Text × Bool := said (Texts.serve C66.E uuid odd (Texts.run C66.E uuid odd (World.fresh true []) rs) r).2
/-- documents by their id -/
def byId : Str → Props Num → Bool := fun e p => match p.get idName with | some (.str x) => e = kId ++ '=' :: x | _ => false

-- a document is added and found, from text to text: 0.10 becomes 0.1, the distance is added
example : answer story (.nearVector (C66.oracle []) asking) =
    (some "{\"documents\":[{\"id\":\"a\",\"properties\":{\"distance\":0,\"hnswId\":0,\"price\":0.1,\"year\":1999}}],\"name\":\"books\"}\n".toList, false) := by
  decide +kernel
example : answer story (.get (C66.oracle []) byId C66.books kId ['a']) =
    (some "{\"id\":\"a\",\"properties\":{\"hnswId\":0,\"price\":0.1,\"year\":1999}}\n".toList, false) := by
  decide +kernel
-- the request to add it was answered with success
example : (Texts.serve C66.E uuid odd (Texts.run C66.E uuid odd (World.fresh true []) opened) (.add (C66.oracle [C66.xy 1 0]) adding)).2 = .plain (.added 1) := by
  have h : ∀ r : Reply, (match r with | .plain (.added 1) => true | _ => false) = true → r = .plain (.added 1) := by
    intro r hr
    split at hr
    · rfl
    · cases hr
  exact h _ (by decide +kernel)
-- after the collection was deleted and created again nothing is found
example : answer (story ++ [.delete (C66.oracle []) C66.books, .create (C66.oracle []) creating]) (.get (C66.oracle []) byId C66.books kId ['a']) = (none, false) := by
  decide +kernel
-- with a number beyond the range of 64-bit floats the document is added, and every look-up and search that finds it is refused
def addingHuge : Text :=
  "{\"name\":\"books\",\"propertiesToVectorize\":[],\"documents\":[{\"id\":\"a\",\"properties\":{\"year\":1e999,\"vector\":[1,0]}}]}".toList
example : answer (opened ++ [.add (C66.oracle [C66.xy 1 0]) addingHuge]) (.nearVector (C66.oracle []) asking) = (none, true) ∧
    answer (opened ++ [.add (C66.oracle [C66.xy 1 0]) addingHuge]) (.get (C66.oracle []) byId C66.books kId ['a']) = (none, true) := by
  decide +kernel
-- the cache of FaVe's index is small enough
example : C66.E.P.cacheSize ≤ 2 ^ 53 ∧ C66.E.replace = false := by decide

end Fave.C82
