import Verif.Lemmas.AddSelf
import Verif.Lemmas.AddTotal
import Verif.Lemmas.ClientTidy
import Verif.Lemmas.ClientNear
import Verif.Props.C03
import Verif.Spec.ExampleClient
/-!
# C15 — success of an add request means every document was stored

False: documents whose vector the index refuses, that the vectoriser fails on, or that cannot be marshalled are passed over silently.
True otherwise.
-/
namespace Fave.C15
open Client
variable {F D : Type} [Dist D] [DecidableEq F]

/-- the document is passed over with the log entry `r`: it cannot be marshalled, the vectoriser fails, or the index (in some reachable
state) refuses its vector -/
def PassedOver (E : Env F D) (o : Oracle F D) (ti : List Str) (i : Nat) (d : Doc F) (r : Res) : Prop :=
  (o.marshal i = true ∧ ∃ n, r = .unmarshalled n) ∨ ((∃ text, text ≠ [] ∧ o.corpi i text = .fail) ∧ r = .noVector) ∨
  (r = .refused ∧ ∃ vec s n e, vectorOf o ti i d = some vec ∧ Index.Any E.P s ∧ (Index.add E.P (o.vo i) (o.sched i) s n vec (o.level i)).2 = some e)

/-- `d` is stored in the collection; if it has a vector, its number is that of its (normalised) vector in the key-value table, otherwise −1 -/
def Kept (E : Env F D) (o : Oracle F D) (ti : List Str) (i : Nat) (d : Doc F) (docs : List (Props F)) (s : Index (List F)) : Prop :=
  (vectorOf o ti i d = none ∧ ∃ p ∈ docs, StoredAs d (-1) p) ∨
  ∃ vec n p v, vectorOf o ti i d = some vec ∧ p ∈ docs ∧ StoredAs d (n : Nat) p ∧ s.kv.get n = some v ∧ v.id = n ∧ v.vec = E.P.norm vec

theorem steps_kept {E : Env F D} (hr : E.replace = false) {o : Oracle F D} {ti : List Str} {i : Nat} {ds : List (Doc F)} {b b' : Batch F} {rs : List Res}
    (h : Steps E o ti i ds b b' rs) (ha : Index.Any E.P b.idx) :
    (∀ p ∈ b.docs, p ∈ b'.docs) ∧
    (∀ n v, n < b.next → b.idx.get n = some v → ∃ v', b'.idx.get n = some v' ∧ v'.id = n ∧ v'.vec = v.vec) ∧
    ∀ (j : Nat) (d : Doc F), ds[j]? = some d → (∃ r, rs[j]? = some r ∧ PassedOver E o ti (i + j) d r) ∨ (vectorOf o ti (i + j) d = none ∧ ∃ p ∈ b'.docs, StoredAs d (-1) p) ∨
      ∃ vec n p v, vectorOf o ti (i + j) d = some vec ∧ p ∈ b'.docs ∧ StoredAs d (n : Nat) p ∧ b'.idx.get n = some v ∧ v.id = n ∧ v.vec = E.P.norm vec := by
  induction h with
  | nil =>
    refine ⟨fun _ h => h, fun n v _ hg => ⟨v, hg, (Index.any_inv ha).1.get hg, rfl⟩, ?_⟩
    intro j d hj; simp at hj
  | @cons i d ds b b1 b2 r rs h1 h2 ih =>
    obtain ⟨k1, k2, k3⟩ := ih (h1.any ha)
    have hdocs : ∀ p ∈ b.docs, p ∈ b1.docs := by intro p hp; cases h1 <;> simp [putDoc, hr, hp]
    have hnext : b.next ≤ b1.next := by rcases h1.next with ⟨_, h⟩ | ⟨_, h⟩ <;> omega
    have hold : ∀ n v, n < b.next → b.idx.get n = some v → ∃ v', b1.idx.get n = some v' ∧ v'.id = n ∧ v'.vec = v.vec := by
      have hadd : ∀ vec idx e, Index.add E.P (o.vo i) (o.sched i) b.idx b.next vec (o.level i) = (idx, e) → ∀ n v, n < b.next → b.idx.get n = some v →
          ∃ v', idx.get n = some v' ∧ v'.id = n ∧ v'.vec = v.vec := by
        intro vec idx e hx n v hn hg
        have hk := Index.add_keeps (P := E.P) (vo := o.vo i) (sched := o.sched i) (x := b.next) (vec := vec) (level := o.level i) (Index.any_inv ha).1
        rw [hx] at hk
        obtain ⟨v', g1, g2, g3, _⟩ := hk.old n v (by omega) hg
        exact ⟨v', g1, g2.trans ((Index.any_inv ha).1.get hg), g3⟩
      intro n v hn hg
      have hid := (Index.any_inv ha).1.get hg
      cases h1 with
      | plain => exact ⟨v, hg, hid, rfl⟩
      | lost => exact ⟨v, hg, hid, rfl⟩
      | noVector => exact ⟨v, hg, hid, rfl⟩
      | refused vec idx e _ hx => exact hadd vec idx _ hx n v hn hg
      | dropped vec idx _ hx => exact hadd vec idx _ hx n v hn hg
      | indexed vec idx p _ hx => exact hadd vec idx _ hx n v hn hg
    refine ⟨fun p hp => k1 p (hdocs p hp), ?_, ?_⟩
    · intro n v hn hg
      obtain ⟨v1, a1, _, a3⟩ := hold n v hn hg
      obtain ⟨v2, b1', b2', b3'⟩ := k2 n v1 (by omega) a1
      exact ⟨v2, b1', b2', b3'.trans a3⟩
    · intro j d' hj
      cases j with
      | succ j =>
        have := k3 j d' hj
        rw [show i + (j + 1) = i + 1 + j by omega]
        exact this
      | zero =>
        have hj : d = d' := by simpa using hj
        subst hj
        rw [Nat.add_zero]
        cases h1 with
        | plain p _ hv _ hp => exact .inr (.inl ⟨hv, p, k1 p (by simp [putDoc, hr]), hp⟩)
        | lost hm _ => exact .inl ⟨_, rfl, .inl ⟨hm, _, rfl⟩⟩
        | noVector text ht hc _ => exact .inl ⟨_, rfl, .inr (.inl ⟨⟨text, ht, hc⟩, rfl⟩)⟩
        | refused vec idx e hv hx _ => exact .inl ⟨_, rfl, .inr (.inr ⟨rfl, vec, b.idx, b.next, e, hv, ha, by rw [hx]⟩)⟩
        | dropped vec idx hv hx hm => exact .inl ⟨_, rfl, .inl ⟨hm, _, rfl⟩⟩
        | indexed vec idx p hv hx hm hp =>
          obtain ⟨v, g1, _, g3⟩ := Index.add_self (Index.any_inv ha).1 hx
          obtain ⟨v', a1, a2, a3⟩ := k2 b.next v (by show b.next < b.next + 1; omega) g1
          exact .inr (.inr ⟨vec, b.next, p, v', hv, k1 p (by simp [putDoc, hr]), hp, a1, a2, a3.trans g3⟩)

/-- A request answered with success, in any reachable state and with any failures: every document of the request has been stored with its
vector, if it has one, or it was passed over because it could not be marshalled, the vectoriser failed on it or the index refused its
vector.  Missing from the full statement: documents passed over (see `passed_over_silently`). -/
theorem success_stores_partial (E : Env F D) (hr : E.replace = false) (o : Oracle F D) (w w' : World F) (name : Str)
    (ho : (w.coll (ns ++ name)).dbOpen → (w.dbs.get (ns ++ name)).isSome) (hi : Index.Any E.P (w.coll (ns ++ name)).idx)
    (ti : List Str) (docs : List (Option (Doc F))) (log : List Res) (h : addDocuments E o w name ti docs = (w', log, none)) :
    ∀ i x, docs[i]? = some x → ∃ d, x = some d ∧
      ((∃ r, log[i]? = some r ∧ PassedOver E o ti i d r) ∨ Kept E o ti i d (w'.docs (ns ++ name)) (w'.coll (ns ++ name)).idx) := by
  rcases add_cases ho h with ⟨_, h1, _⟩ | ⟨idx0, b', lk, hm, _, hd, hl, h1 | ⟨fe, hloop, hf, hfe⟩⟩
  · exact absurd rfl h1
  · obtain ⟨_, _, h2, _⟩ := h1; cases h2
  · rw [hfe rfl] at hf
    obtain ⟨ds, rs, rfl, hs⟩ := addLoop_steps docs hloop
    have ha := hs.any (hm.any hi)
    obtain ⟨hids, hsync⟩ := Index.any_inv ha
    have hfl := flushCut_ok hf
    obtain ⟨s1, hw1, hs1⟩ := Index.flush_ok hids hfl
    intro i x hx
    rw [List.getElem?_map] at hx
    cases hdi : ds[i]? with
    | none => rw [hdi] at hx; cases hx
    | some d =>
      rw [hdi] at hx
      cases hx
      refine ⟨d, rfl, ?_⟩
      have := (steps_kept hr hs (hm.any hi)).2.2 i d hdi
      rw [Nat.zero_add] at this
      rw [hd]
      have hlg : log = rs := by rw [hl, hs.log.1]; rfl
      rw [hlg]
      rcases this with h1 | h1 | ⟨vec, n, p, v, h1, h2, h3, h4, h5, h6⟩
      · exact .inl h1
      · exact .inr (.inl h1)
      · right; right
        have hkv := Index.wroteAll hids hsync (fun id hid => o.order_mem _ _ hid) hw1 n
        rw [h4] at hkv
        cases hg : s1.kv.get n with
        | none => rw [hg] at hkv; cases hkv
        | some v' =>
          rw [hg] at hkv
          have hcore : Fave.Search.core v' = Fave.Search.core v := by simpa using hkv
          have hc := Fave.Search.core_eq hcore
          refine ⟨vec, n, p, v', h1, h2, h3, by rw [hs1]; exact hg, ?_, ?_⟩
          · rw [← h5]; exact hc.1
          · rw [← h6]; exact hc.2.2.2.2

/-- without failures every document of a batch is stored -/
theorem steps_all {E : Env F D} (hP : E.P.Ok) (hr : E.replace = false) (hdi : ∀ a b, E.P.metric.len a = E.P.metric.len b → ∃ d, E.P.metric.dist a b = some d)
    {L : Nat} (hL : L ≠ 0) {o : Oracle F D} {ti : List Str}
    (hm : ∀ i, o.marshal i = false) (hc : ∀ i text, o.corpi i text ≠ .fail)
    {i : Nat} {ds : List (Doc F)} {b b' : Batch F} {rs : List Res} (h : Steps E o ti i ds b b' rs) {vs : List (List F)} (hb : BInv E L b vs)
    (hvec : ∀ (j : Nat) (d : Doc F) (vec : List F), ds[j]? = some d → vectorOf o ti (i + j) d = some vec → E.P.metric.len vec = L)
    (hroom : vs.length + ds.length ≤ E.P.cacheSize) (hvo : ∀ i l x k n, n < E.P.cacheSize → Index.Readable E.P n L (o.vo i l x k)) :
    ∀ (j : Nat) (r : Res), rs[j]? = some r → r = .plain ∨ ∃ m, r = .indexed m := by
  induction h generalizing vs with
  | nil => intro j r hj; simp at hj
  | @cons i d ds b b1 b2 r rs h1 h2 ih =>
    have hr1 : r = .plain ∨ ∃ m, r = .indexed m := by
      cases h1 with
      | plain => exact .inl rfl
      | lost h _ => rw [hm] at h; cases h
      | noVector text _ h _ => exact absurd h (hc _ _)
      | refused vec idx e hv hx he =>
        have hl := hvec 0 d vec rfl hv
        have hlt : vs.length < E.P.cacheSize := by rw [List.length_cons] at hroom; omega
        have := Index.add_total hP hdi (Index.hist_inv hP hb.hist) (vec := vec) (by omega) (fun u hu => by rw [hb.len u hu, hl]) hlt
          (vo := o.vo i) (fun l x k => by rw [hl]; exact hvo i l x k _ hlt) (o.sched i) (o.level i)
        rw [← hb.next, hx] at this; cases this
      | dropped _ _ _ _ h => rw [hm] at h; cases h
      | indexed => exact .inr ⟨_, rfl⟩
    obtain ⟨ext, hb1, -⟩ := h1.binv hP hr (L := L) (by
      refine ⟨fun m e => ?_, fun vec hv => ⟨fun e => ?_, fun m e => hvec 0 d vec rfl hv⟩⟩
      · rcases hr1 with h | ⟨m, h⟩ <;> rw [h] at e <;> cases e
      · rcases hr1 with h | ⟨m, h⟩ <;> rw [h] at e <;> cases e) hb
    have hlen : (vs ++ ext).length ≤ vs.length + 1 := by
      rw [← hb1.next, ← hb.next]
      rcases h1.next with ⟨_, h⟩ | ⟨_, h⟩ <;> omega
    intro j r' hj
    cases j with
    | zero => cases hj; exact hr1
    | succ j =>
      refine ih hb1 (fun j d' vec hd hv => ?_) ?_ j r' hj
      · exact hvec (j + 1) d' vec hd (by rw [show i + (j + 1) = i + 1 + j by omega]; exact hv)
      · rw [List.length_cons] at hroom; omega

/-- In a collection kept in order, when nothing fails (every document can be marshalled, the vectoriser answers, every vector has the
collection's length, the vector cache delivers the vectors and has room), success means that every document of the request is stored with
its vector. -/
theorem success_stores_all [LawfulDist D] (E : Env F D) (hr : E.replace = false) (hP : E.P.Ok)
    (hdi : ∀ a b, E.P.metric.len a = E.P.metric.len b → ∃ d, E.P.metric.dist a b = some d)
    (L : Nat) (hL : L ≠ 0) (name : Str) (lookup : Bool) (dbs : Map (Db F)) (hf : dbs.get (ns ++ name) = none)
    (rs : List (Req F D)) (ht : TidyRun E L name (World.fresh lookup dbs) rs)
    (w w' : World F) (hw : w = run E (World.fresh lookup dbs) rs)
    (o : Oracle F D) (ti : List Str) (docs : List (Option (Doc F))) (log : List Res) (h : addDocuments E o w name ti docs = (w', log, none))
    (hcount : o.count = false) (hm : ∀ i, o.marshal i = false) (hc : ∀ i text, o.corpi i text ≠ .fail)
    (hvec : ∀ (i : Nat) (d : Doc F) (vec : List F), docs[i]? = some (some d) → vectorOf o ti i d = some vec → E.P.metric.len vec = L)
    (hroom : w.count (ns ++ name) + docs.length ≤ E.P.cacheSize)
    (hvo : ∀ i l x k n, n < E.P.cacheSize → Index.Readable E.P n L (o.vo i l x k)) :
    ∀ i x, docs[i]? = some x → ∃ d, x = some d ∧ Kept E o ti i d (w'.docs (ns ++ name)) (w'.coll (ns ++ name)).idx := by
  obtain ⟨vs, h0, _⟩ := tinv_run hP hr rs (tinv_fresh E L name lookup dbs hf) ht
  rw [← hw] at h0
  have hany : Index.Any E.P (w.coll (ns ++ name)).idx := Index.hist_any h0.hist
  intro i x hi'
  obtain ⟨d, rfl, h1⟩ := success_stores_partial E hr o w w' name h0.opened hany ti docs log h i x hi'
  refine ⟨d, rfl, ?_⟩
  rcases h1 with ⟨r, hlr, hpass⟩ | h1
  · exfalso
    rcases add_cases h0.opened h with ⟨_, h1, _⟩ | ⟨idx0, b', lk, hmv, _, hd, hl, h1 | ⟨fe, hloop, hf, hfe⟩⟩
    · exact absurd rfl h1
    · obtain ⟨_, _, h2, _⟩ := h1; cases h2
    · rw [hcount] at hloop
      obtain ⟨ds, rs', rfl, hs⟩ := addLoop_steps docs hloop
      have hlg : log = rs' := by rw [hl, hs.log.1]; rfl
      have hb : BInv E L ⟨idx0, w.docs (ns ++ name), w.count (ns ++ name), []⟩ vs := ⟨hmv.hist h0.hist h0.count, h0.count, h0.numbers, h0.len⟩
      have := steps_all hP hr hdi hL hm hc hs hb (fun j d' vec hd' hv => hvec j d' vec (by rw [List.getElem?_map, hd']; rfl) (by rwa [Nat.zero_add] at hv))
        (by rw [← h0.count]; simpa using hroom) hvo i r (by rw [← hlg]; exact hlr)
      rcases this with rfl | ⟨m, rfl⟩ <;> rcases hpass with ⟨_, n, h⟩ | ⟨_, h⟩ | ⟨h, _⟩ <;> cases h
  · exact h1

/-- From adding to finding, through the whole client: in a sequence of requests that leave the collection in order, let a document be
added with its vector by a request, and let the collection not be deleted afterwards.  As long as the collection holds at most
`maxConn0 + 1` (61) vectors, every unlimited search by vector that gets as far as the index and whose range includes the distance of the document's
vector answers with this document at exactly that distance. -/
theorem added_then_found_partial [LawfulDist D] (E : Env F D) (hr : E.replace = false) (hP : E.P.Ok) (hm : 0 < E.P.maxConn) (hef : 0 < E.P.efC)
    (hdi : ∀ a b, E.P.metric.len a = E.P.metric.len b → ∃ d, E.P.metric.dist a b = some d)
    (hsym : ∀ a b, E.P.metric.dist a b = E.P.metric.dist b a)
    (L : Nat) (name : Str) (lookup : Bool) (dbs : Map (Db F)) (hf : dbs.get (ns ++ name) = none)
    (rs rs' : List (Req F D)) (o : Oracle F D) (ti : List Str) (docs : List (Option (Doc F)))
    (ht : TidyRun E L name (World.fresh lookup dbs) (rs ++ .add o name ti docs :: rs')) (hnd : ∀ r ∈ rs', ∀ o, r ≠ .delete o name)
    (i n : Nat) (d : Doc F) (hd : docs[i]? = some (some d))
    (hlog : (addDocuments E o (run E (World.fresh lookup dbs) rs) name ti docs).2.1[i]? = some (.indexed n))
    (w : World F) (hw : w = run E (World.fresh lookup dbs) (rs ++ .add o name ti docs :: rs'))
    (hsm : w.count (ns ++ name) ≤ E.P.maxConn0 + 1) (h800 : w.count (ns ++ name) ≤ 800)
    (o' : Oracle F D) (hfind : ∀ i, o'.find i = false) (w1 : World F) (hopen : ensureOpen o' w (ns ++ name) = (w1, none))
    (hidx : (w1.coll (ns ++ name)).hasIdx = true) (q : List F) (hq : E.P.metric.len q = L) (max : D) :
    ∃ vec dist, vectorOf o ti i d = some vec ∧ E.P.metric.dist (E.P.norm q) (E.P.norm vec) = some dist ∧
      (Dist.lt dist Dist.zero = false → Dist.lt max dist = false →
        ∃ (found : List (Props F)) (ds : List D), (serve E w (.nearVector o' name q max 0)).2 = .near found ds ∧
          ∃ (j : Nat) (p : Props F), found[j]? = some p ∧ ds[j]? = some dist ∧ StoredAs d n p) := by
  obtain ⟨ht1, ht2⟩ := tidyRun_append rs _ ht
  obtain ⟨vs, h0, _⟩ := tinv_run hP hr rs (tinv_fresh E L name lookup dbs hf) ht1
  obtain ⟨ext, w2, log, hadd, h2, _, hne, hall⟩ := tinv_add hP hr h0 ht2.1
  have hserve : (serve E (run E (World.fresh lookup dbs) rs) (.add o name ti docs)).1 = w2 := by simp only [serve, hadd]
  rw [hadd] at hlog
  obtain ⟨vec, hv, hvn, p, hp, hst⟩ := hall i n d hlog hd
  have ht3 := ht2.2
  rw [hserve] at ht3
  obtain ⟨vs3, h3, g3⟩ := tinv_run hP hr rs' h2 ht3
  obtain ⟨hpre, hkeep⟩ := g3 hnd
  have hw' : w = run E w2 rs' := by rw [hw, run_append, run_cons, hserve]
  rw [← hw'] at h3 hkeep
  have hc := calm_ensureOpen o' w (ns ++ name)
  rw [hopen] at hc
  have h4 : TInv E L name w1 vs3 := h3.calm hc
  have hn3 : vs3 ≠ [] := by
    intro e; rw [e] at hpre
    exact hne (List.prefix_nil.mp hpre)
  have hvn3 : vs3[n]? = some vec := by
    have hlt := (List.getElem?_eq_some_iff.mp hvn).1
    have := (List.prefix_iff_getElem?.mp hpre) n hlt
    rw [this]
    rw [List.getElem?_eq_getElem hlt] at hvn
    exact hvn
  have hh : Index.Hist E.P (loaded o' (w1.coll (ns ++ name)).idx) vs3 := (Move.loaded (.refl _) o').hist h4.hist h4.count
  have hq' : ∀ u ∈ vs3, E.P.metric.len u = E.P.metric.len q := fun u hu => by rw [hq]; exact h4.len u hu
  have hcount := h3.count
  obtain ⟨dist, hdist⟩ := hdi (E.P.norm q) (E.P.norm vec) (by
    rw [hP.norm, hP.norm]; exact (hq' vec (List.mem_of_getElem? hvn3)).symm)
  refine ⟨vec, dist, hv, hdist, fun hz hmx => ?_⟩
  obtain ⟨hits, ds, hk, hds, hnodup, _, hmem⟩ := C03.small_collections_exact E.P hP hm hef hdi hsym _ vs3 hh hn3 (by omega) q hq' (o'.sched 0) max 800 (by omega)
  have hin := (hmem n dist).mpr ⟨vec, hvn3, hdist, hz, hmx⟩
  have hnum : ∀ id ∈ hits.map Item.id, id ∈ docNumbers ((w1.dbs.get (ns ++ name)).getD ⟨[], []⟩).docs := by
    intro id hid
    obtain ⟨x, hx, rfl⟩ := List.mem_map.mp hid
    obtain ⟨u, hu, _⟩ := (hmem x.id x.dist).mp hx
    show x.id ∈ docNumbers (w1.docs (ns ++ name))
    rw [h4.numbers]; exact List.mem_range.mpr (List.getElem?_eq_some_iff.mp hu).1
  obtain ⟨found, hfound⟩ := lookupAll_total hfind _ hnum 0
  have htr : truncate 0 (hits.map Item.id) ds = .ok (hits.map Item.id, ds) := by unfold truncate; rw [if_neg (by simp)]
  refine ⟨found, ds, ?_, ?_⟩
  · rw [serve_nearVector_of hopen, nearWith_of 0 hidx hk, htr]
    simp only
    rw [hfound]; rfl
  · obtain ⟨j, hj, hjx⟩ := List.getElem_of_mem hin
    have hjid : (hits.map Item.id)[j]? = some n := by rw [List.getElem?_map, List.getElem?_eq_getElem hj, hjx]; rfl
    obtain ⟨p', hp', hfn⟩ := lookupAll_get hfound j n hjid
    refine ⟨j, p', hp', ?_, ?_⟩
    · have : (ds.take hits.length)[j]? = some dist := by rw [hds, List.getElem?_map, List.getElem?_eq_getElem hj, hjx]; rfl
      rw [List.getElem?_take, if_pos hj] at this
      exact this
    · obtain ⟨hm', hn'⟩ := findNumber_mem hfn
      have hpm : p ∈ w1.docs (ns ++ name) := by rw [hc.docs]; exact hkeep p hp
      have : p' = p := number_inj (by rw [h4.numbers]; exact List.nodup_range) (show p' ∈ w1.docs (ns ++ name) from hm') hpm
        (docNumber_int hn') (docNumber_int hst.number)
      rw [this]; exact hst

/-! ## where the statement is false -/

/-- The request is answered with success, but the document "e", whose vector has another length than the others, is not stored. -/
theorem passed_over_silently : (serve ExC.E ExC.w0 (.add ExC.o ExC.books [ExC.title] ExC.batch)).2 = .done ∧
    (∃ d, some d ∈ ExC.batch ∧ d.id = ['e'] ∧ ∀ p ∈ ExC.w1.docs (ns ++ ExC.books), p.get idName ≠ some (.str d.id)) := by
  refine ⟨by decide +kernel, ⟨['e'], [(vectorName, .floats [1, 2, 3])]⟩, by decide, rfl, by decide +kernel⟩

/-- The vectoriser is unreachable: success is reported, nothing is stored. -/
theorem vectoriser_failure_is_silent :
    (serve ExC.E ExC.w0 (.add { ExC.o with corpi := fun _ _ => .fail } ExC.books [ExC.title] [ExC.docT 'c' ['x']])).2 = .done ∧
    (serve ExC.E ExC.w0 (.add { ExC.o with corpi := fun _ _ => .fail } ExC.books [ExC.title] [ExC.docT 'c' ['x']])).1.docs (ns ++ ExC.books) = [] := by
  decide +kernel

/-! Non-vacuity. -/
example : ∃ w' log, addDocuments ExC.E ExC.o ExC.w0 ExC.books [ExC.title] ExC.batch = (w', log, none) ∧
    ((ExC.w0.coll (ns ++ ExC.books)).dbOpen → (ExC.w0.dbs.get (ns ++ ExC.books)).isSome) := by
  refine ⟨(addDocuments ExC.E ExC.o ExC.w0 ExC.books [ExC.title] ExC.batch).1, (addDocuments ExC.E ExC.o ExC.w0 ExC.books [ExC.title] ExC.batch).2.1, ?_, ?_⟩
  · exact Prod.ext rfl (Prod.ext rfl (by decide +kernel))
  · decide +kernel

/-- a vector cache that always delivers; nothing else fails -/
def oGood : Oracle Nat Nat := { ExC.o with vo := fun _ _ _ _ _ => some [7, 7] }
/-- the hypotheses of `success_stores_all`: after a batch and a restart, three more documents -/
example : TidyRun ExC.E 2 ExC.books (World.fresh true ExC.foreign) (ExC.setup ++ [.add ExC.o ExC.books [ExC.title] ExC.batch, .restart, .login true, .openPod true]) ∧
    (let w := run ExC.E (World.fresh true ExC.foreign) (ExC.setup ++ [.add ExC.o ExC.books [ExC.title] ExC.batch, .restart, .login true, .openPod true])
     let docs := [ExC.docV 'g' [3, 3], ExC.docT 'h' ['u', 'v'], some ⟨['i'], [(ExC.year, .int 1984)]⟩]
     (addDocuments ExC.E oGood w ExC.books [ExC.title] docs).2 = ([.indexed 4, .indexed 5, .plain], none) ∧ w.count (ns ++ ExC.books) + docs.length ≤ ExC.E.P.cacheSize ∧
     (docs.zipIdx.all fun x => match x.1 with
       | some d => (match vectorOf oGood [ExC.title] x.2 d with | some v => decide (ExC.E.P.metric.len v = 2) | none => true)
       | none => true) = true) ∧
    (∀ i l x k n, Index.Readable ExC.E.P n 2 (oGood.vo i l x k)) := by
  refine ⟨tidyRunB_sound _ (by decide +kernel), by decide +kernel, ?_⟩
  intro i l x k n id _
  exact ⟨[7, 7], rfl, rfl⟩

/-- with the wide parameters -/
def EW : Env Nat Nat := ⟨Ex.PW, false⟩
def before : List (Req Nat Nat) := ExC.setup ++ [.add ExC.o ExC.books [ExC.title] (ExC.batch.take 3), .restart, .login true, .openPod true]
def after : List (Req Nat Nat) := [.nearVector ExC.o ExC.books [11, 0] 100 0, .restart, .login true, .openPod true, .delete ExC.o ExC.films]
/-- document "f" is added with number 3 and found at distance 20 = (30 - 11) + 1 -/
example : TidyRun EW 2 ExC.books (World.fresh true ExC.foreign) (before ++ .add ExC.o ExC.books [ExC.title] (ExC.batch.drop 3) :: after) ∧
    (addDocuments EW ExC.o (run EW (World.fresh true ExC.foreign) before) ExC.books [ExC.title] (ExC.batch.drop 3)).2.1[2]? = some (.indexed 3) ∧
    (run EW (World.fresh true ExC.foreign) (before ++ .add ExC.o ExC.books [ExC.title] (ExC.batch.drop 3) :: after)).count (ns ++ ExC.books) = 4 ∧
    (match (serve EW (run EW (World.fresh true ExC.foreign) (before ++ .add ExC.o ExC.books [ExC.title] (ExC.batch.drop 3) :: after))
      (.nearVector ExC.o ExC.books [11, 0] 1000 0)).2 with
      | .near docs ds => docs.map (fun p => p.get idName) == [some (.str ['a']), some (.str ['b']), some (.str ['c']), some (.str ['f'])] && ds.take 4 == [1, 1, 7, 20]
      | _ => false) = true := by
  refine ⟨tidyRunB_sound _ (by decide +kernel), by decide +kernel, by decide +kernel, by decide +kernel⟩

end Fave.C15
