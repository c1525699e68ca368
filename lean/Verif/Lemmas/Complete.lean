import Verif.Lemmas.History
import Verif.Lemmas.SearchComplete
import Verif.Lemmas.KnnFrame
/-!
# Small collections: the base level is the complete graph
-/
namespace Fave.Index
open Queue Search Spec
variable {V D : Type} [Dist D]

/-- every two of the first `n` vectors are linked on the base level -/
def Complete (get : Nat → Option (Vertex V)) (n : Nat) : Prop :=
  ∀ a b, a < n → b < n → a ≠ b → ∃ v links, get a = some v ∧ v.conns[0]? = some links ∧ b ∈ links

theorem complete_congr {n : Nat} {g g' : Nat → Option (Vertex V)} (h : ∀ id, (g' id).map core = (g id).map core)
    (hc : Complete g n) : Complete g' n := by
  intro a b ha hb hab
  obtain ⟨v, links, hv, hl, hm⟩ := hc a b ha hb hab
  rcases agree_cases (h a) with ⟨_, h2⟩ | ⟨v', w, h1, h2, _, _, e3, _, _⟩
  · rw [h2] at hv; cases hv
  · rw [h2] at hv; cases hv
    exact ⟨v', links, h1, by rw [e3]; exact hl, hm⟩

/-- the base links of existing nodes are the same -/
def Base (s s' : Index V) : Prop :=
  ∀ id v cur, s.get id = some v → v.conns[0]? = some cur → ∃ v', s'.get id = some v' ∧ v'.conns[0]? = some cur

theorem Base.refl (s : Index V) : Base s s := fun _ v _ h h' => ⟨v, h, h'⟩
theorem Base.trans {a b c : Index V} (h : Base a b) (h' : Base b c) : Base a c := by
  intro id v cur hg hc
  obtain ⟨v1, g1, c1⟩ := h id v cur hg hc
  exact h' id v1 cur g1 c1

theorem raised_base (v : Vertex V) (l : Nat) {cur : List Nat} (h : v.conns[0]? = some cur) : (raised v l).conns[0]? = some cur := by
  unfold raised
  split
  · have : 0 < v.conns.length := (List.getElem?_eq_some_iff.mp h).1
    simp only [upgrade]
    rw [List.getElem?_append_left this]; exact h
  · exact h

theorem base_upd {s s' : Index V} {u v : Vertex V} {nb : Nat} (hg : s.get nb = some v) (hid : u.id = nb) (hu : Upd s s' u)
    (h : ∀ cur, v.conns[0]? = some cur → u.conns[0]? = some cur) : Base s s' := by
  intro id w cur hw hc
  rw [hu.get]
  by_cases he : id = u.id
  · rw [if_pos he]
    rw [he, hid, hg] at hw; cases hw
    exact ⟨u, rfl, h cur hc⟩
  · rw [if_neg he]; exact ⟨w, hw, hc⟩

theorem connectNeighbor_base {P : Params V D} {vo : VecOracle V} {x level : Nat} {s : Index V} {nb : Nat} (hi : IdsOk s) (hl : level ≠ 0) :
    Base s (connectNeighbor P vo x level s nb).1 := by
  rcases connectNeighbor_cases P vo x level s nb with ⟨h, _⟩ | ⟨v, hg, _, _, ⟨_, _, hu⟩ | ⟨_, links, _, _, hu, _⟩⟩
  · rw [h]; exact Base.refl s
  · exact base_upd hg ((raised_id v level).trans (hi.get hg)) hu (fun cur hc => raised_base v level hc)
  · refine base_upd (u := setConns (raised v level) level links) hg ((raised_id v level).trans (hi.get hg)) hu (fun cur hc => ?_)
    rw [setConns_get, if_neg (fun e => hl e.symm)]
    exact raised_base v level hc

theorem connectAll_base {P : Params V D} {vo : VecOracle V} {x level : Nat} {s : Index V} {nbs : List Nat} (hi : IdsOk s) (hl : level ≠ 0) :
    Base s (connectAll P vo x level s nbs).1 := by
  induction nbs generalizing s with
  | nil => exact Base.refl s
  | cons nb nbs ih =>
    unfold connectAll
    have h := connectNeighbor_base (P := P) (vo := vo) (x := x) (nb := nb) hi hl
    have hx := connectNeighbor_ext P vo x level s nb
    split
    · rename_i he; rw [he] at h; exact h
    · rename_i he; rw [he] at h hx
      exact h.trans (ih (hx.ids hi))

theorem doAtLevel_base {P : Params V D} {vo : VecOracle V} {sched : Graph.Scheds D} {q : V} {x : Nat} {s s' : Index V} {ep level ep' : Nat}
    (hi : IdsOk s) (hl : level ≠ 0) (h : doAtLevel P vo sched q x s ep level = (s', .ok ep')) : Base s s' := by
  obtain ⟨e, results, kept, v, _, _, _, hg, _, hc, _⟩ := doAtLevel_ok h
  have h1 : Base s (s.put (setConns v level ((drain lessMax kept).map Item.id))) := by
    refine base_upd (u := setConns v level ((drain lessMax kept).map Item.id)) hg (show v.id = x from hi.get hg) (upd_put _ _) (fun cur hcur => ?_)
    rw [setConns_get, if_neg (fun e => hl e.symm)]; exact hcur
  have h2 := connectAll_base (P := P) (vo := vo) (x := x) (s := s.put (setConns v level ((drain lessMax kept).map Item.id)))
    (nbs := (drain lessMax kept).map Item.id) (idsOk_put hi _) hl
  rw [hc] at h2
  exact h1.trans h2

/-- linking back on the base level while there is room just appends -/
theorem connectAll_append {P : Params V D} {vo : VecOracle V} {x : Nat} {s s' : Index V} {nbs : List Nat} (hnd : nbs.Nodup) (ht : s.tombs = [])
    (hnb : ∀ b ∈ nbs, b ≠ x ∧ ∃ v cur, s.get b = some v ∧ v.id = b ∧ v.conns[0]? = some cur ∧ cur.length < maxConns P 0)
    (h : connectAll P vo x 0 s nbs = (s', none)) :
    (∀ id, id ∉ nbs → s'.get id = s.get id) ∧
    (∀ id ∈ nbs, ∀ v cur, s.get id = some v → v.conns[0]? = some cur → ∃ v', s'.get id = some v' ∧ v'.conns[0]? = some (cur ++ [x])) := by
  induction nbs generalizing s with
  | nil => cases h; exact ⟨fun _ _ => rfl, by simp⟩
  | cons nb nbs ih =>
    unfold connectAll at h
    obtain ⟨hn1, hn2⟩ := List.nodup_cons.mp hnd
    split at h
    · cases h
    · rename_i s1 he
      obtain ⟨hx, v, cur, hg, hid, hcur, hlen⟩ := hnb nb (by simp)
      rcases connectNeighbor_cases P vo x 0 s nb with ⟨_, h1 | h1 | h1⟩ | ⟨v0, hg0, _, _, h1 | ⟨cur', links, _, hcur', hu, hcase⟩⟩
      · rw [hg] at h1; cases h1
      · exact absurd h1 hx
      · rw [ht] at h1; simp at h1
      · obtain ⟨e, he', _⟩ := h1; rw [he] at he'; cases he'
      · rw [hg] at hg0; cases hg0
        rw [he] at hu
        have hu : Upd s s1 (setConns (raised v 0) 0 links) := hu
        have : cur' = cur := by rw [raised_base v 0 hcur] at hcur'; cases hcur'; rfl
        subst this
        have hlk : links = cur' ++ [x] := by
          rcases hcase with ⟨_, h'⟩ | ⟨hbad, _⟩
          · exact h'
          · omega
        subst hlk
        have huid : (setConns (raised v 0) 0 (cur' ++ [x])).id = nb := (raised_id v 0).trans hid
        have hget : ∀ b, b ≠ nb → s1.get b = s.get b := by
          intro b hb; rw [hu.get, if_neg (by rw [huid]; exact hb)]
        obtain ⟨i1, i2⟩ := ih hn2 (hu.same.tombs.trans ht) (by
          intro b hb
          obtain ⟨a1, w, c, a2, a3, a4⟩ := hnb b (by simp [hb])
          have hbn : b ≠ nb := fun e => hn1 (e ▸ hb)
          exact ⟨a1, w, c, by rw [hget b hbn]; exact a2, a3, a4⟩) h
        constructor
        · intro id hid'
          simp only [List.mem_cons, not_or] at hid'
          rw [i1 id hid'.2, hget id hid'.1]
        · intro id hid' w c hw hc
          by_cases he2 : id = nb
          · subst he2
            rw [hg] at hw; cases hw
            rw [hcur] at hc; cases hc
            refine ⟨_, by rw [i1 id hn1, hu.get, if_pos huid.symm], ?_⟩
            have hpos : 0 < (raised v 0).conns.length := (List.getElem?_eq_some_iff.mp hcur').1
            rw [setConns_get, if_pos rfl, if_pos hpos]
          · have hm : id ∈ nbs := by
              rcases List.mem_cons.mp hid' with h' | h'
              · exact absurd h' he2
              · exact h'
            exact i2 id hm w c (by rw [hget id he2]; exact hw) hc

/-- linking the new node on the base level of a small collection -/
theorem doAtLevel_complete {P : Params V D} (hP : P.Ok) (hef : P.maxConn ≤ P.efC + 1)
    {vo : VecOracle V} {sched : Graph.Scheds D} {q : V} {n L : Nat} {s s' : Index V}
    {ep ep' : Nat} (h : Mid P n L 1 [] s) (hc : Complete s.get n) (hep : ep < n) (hn : n ≤ P.cacheSize) (hsm : n + 1 ≤ P.maxConn) (ht : s.tombs = [])
    (hd : ∀ id v, id < n → s.get id = some v → ∃ d, P.metric.dist q v.vec = some d)
    (hok : doAtLevel P vo sched q n s ep 0 = (s', .ok ep')) : Complete s'.get (n + 1) := by
  obtain ⟨e, results, kept, v, he, hr, hk, hg, hlen, hca, _⟩ := doAtLevel_ok hok
  obtain ⟨w, hw, _⟩ := h.old ep hep
  obtain ⟨he1, _⟩ := pickEntry_ok hw he
  have hen : e.id < n := by omega
  have hsmall : n ≤ P.visitedSize := Nat.le_trans hn hP.sizes
  have heps : EpsOk ((s.graph P).senv q none) [e] :=
    ⟨by simp, fun y hy => by simp at hy; subst hy; exact Nat.lt_of_lt_of_le hen hsmall⟩
  have hlink : ∀ id v0 links b, id < n → s.get id = some v0 → v0.conns[0]? = some links → b ∈ links → b < n := by
    intro id v0 links b hid hg0 hlk hb
    obtain ⟨v1, a1, _, _, a4⟩ := h.old id hid
    rw [a1] at hg0; cases hg0
    rcases (a4 0 links hlk).2.2.2 b hb with ⟨h1, _⟩ | ⟨_, _, h1 | ⟨h1, _⟩⟩ <;> omega
  have hres : ∀ y ∈ results.toList, y.id < n :=
    searchLayer_closed (C := fun i => i < n) hlink (fun y hy => by simp at hy; subst hy; exact hen) (keysOk P s q none) heps hr
  have hnod : (results.toList.map Item.id).Nodup :=
    (searchLayer_inv (P := fun _ => True) (fun _ _ => trivial) heps (fun _ _ => trivial) hr).2
  have hsize : results.size < P.maxConn := by
    have : (results.toList.map Item.id).length ≤ (List.range n).length :=
      List.Nodup.length_le_of_subset hnod (by
        intro i hi
        obtain ⟨y, hy, rfl⟩ := List.mem_map.mp hi
        exact List.mem_range.mpr (hres y hy))
    simp at this; omega
  have hkept : kept = results := by
    unfold selectNeighbors at hk
    rw [if_pos hsize] at hk; cases hk; rfl
  subst hkept
  have hdist : ∀ id, id < n → ∃ d, HasDist ((s.graph P).senv q none) id d := by
    intro id hid
    obtain ⟨v1, a1, _⟩ := h.old id hid
    obtain ⟨d, hd⟩ := hd id v1 hid a1
    exact ⟨d, v1, a1, hd⟩
  have hall : ∀ id, id < n → id ∈ kept.toList.map Item.id := by
    intro id hid
    have hreach : ∀ x, Reach ((s.graph P).senv q none) 0 ([e].map Item.id) x ↔ x ∈ List.range n := by
      intro x
      rw [List.mem_range]
      constructor
      · intro hx
        induction hx with
        | start id hm => simp at hm; subst hm; exact hen
        | link a b d _ hl hb ih =>
          obtain ⟨v1, links, g1, _, g2, g3⟩ := hl
          exact hlink a v1 links b ih g1 g2 g3
      · intro hx
        by_cases hxe : x = e.id
        · subst hxe; exact .start _ (by simp)
        · obtain ⟨v1, links, g1, g2, g3⟩ := hc e.id x hen hx (fun e => hxe e.symm)
          obtain ⟨d, hdx⟩ := hdist x hx
          exact .link e.id x d (.start _ (by simp)) ⟨v1, links, g1, Nat.zero_le _, g2, g3⟩ hdx
    refine searchLayer_complete heps ?_ (List.range n) hreach ?_ hr id ?_ ?_
    · intro y hy; simp at hy; subst hy; exact hdist _ hen
    · simp; omega
    · rw [hreach]; exact List.mem_range.mpr hid
    · refine ⟨?_, fun _ p hp => by cases hp⟩
      show s.tombs.contains id = false
      rw [ht]; rfl
  have hmem : ∀ id, id ∈ (drain lessMax kept).map Item.id ↔ id < n := by
    intro id
    rw [((drain_perm lessMax kept).map Item.id).mem_iff]
    constructor
    · intro hi; obtain ⟨y, hy, rfl⟩ := List.mem_map.mp hi; exact hres y hy
    · exact hall id
  obtain ⟨vn, hvn, hvid, _, hvl, _⟩ := h.new
  rw [hg] at hvn; cases hvn
  have hget : ∀ b, b < n → (s.put (setConns v 0 ((drain lessMax kept).map Item.id))).get b = s.get b := by
    intro b hb
    rw [get_put, if_neg]
    show b ≠ v.id
    omega
  obtain ⟨c1, c2⟩ := connectAll_append (x := n) (s := s.put (setConns v 0 ((drain lessMax kept).map Item.id))) (((drain_perm lessMax kept).map Item.id).nodup_iff.mpr hnod) ht (by
    intro b hb
    have hbn := (hmem b).mp hb
    obtain ⟨w, a1, a2, a3, a4⟩ := h.old b hbn
    have hcur : ∃ cur, w.conns[0]? = some cur := ⟨_, List.getElem?_eq_getElem (by omega)⟩
    obtain ⟨cur, hcur⟩ := hcur
    refine ⟨by omega, w, cur, by rw [hget b hbn]; exact a1, a2, hcur, ?_⟩
    obtain ⟨b1, _, _, b4⟩ := a4 0 cur hcur
    have : cur.length ≤ (List.range n).length := List.Nodup.length_le_of_subset b1 (by
      intro i hi
      exact List.mem_range.mpr (hlink b w cur i hbn a1 hcur hi))
    have hmc : maxConns P 0 = P.maxConn0 := rfl
    have := hP.conn
    simp at *; omega) hca
  intro a b ha hb hab
  by_cases han : a < n
  · obtain ⟨w, a1, a2, a3, a4⟩ := h.old a han
    by_cases hbn : b < n
    · obtain ⟨w', links, g1, g2, g3⟩ := hc a b han hbn hab
      obtain ⟨v', x1, x2⟩ := c2 a ((hmem a).mpr han) w' links (by rw [hget a han]; exact g1) g2
      exact ⟨v', _, x1, x2, by simp [g3]⟩
    · have : b = n := by omega
      subst this
      obtain ⟨v', x1, x2⟩ := c2 a ((hmem a).mpr han) w w.conns[0] (by rw [hget a han]; exact a1) (List.getElem?_eq_getElem (by omega))
      exact ⟨v', _, x1, x2, by simp⟩
  · have : a = n := by omega
    subst this
    refine ⟨setConns v 0 ((drain lessMax kept).map Item.id), _, ?_, ?_, (hmem b).mpr (by omega)⟩
    · rw [c1 a (fun hm => by have := (hmem a).mp hm; omega), get_put]; exact if_pos hvid.symm
    · rw [setConns_get, if_pos rfl, if_pos (by omega)]

theorem doLevels_complete {P : Params V D} (hP : P.Ok) (hef : P.maxConn ≤ P.efC + 1)
    {vo : VecOracle V} {sched : Graph.Scheds D} {q : V} {n L : Nat} (l : Nat) {s s' : Index V}
    {ep : Nat} (h : Mid P n L (l + 1) [] s) (hl : l ≤ L) (hc : Complete s.get n) (hep : ep < n) (hn : n ≤ P.cacheSize) (hsm : n + 1 ≤ P.maxConn) (ht : s.tombs = [])
    (hi : IdsOk s) (hd : ∀ id v, id < n → s.get id = some v → ∃ d, P.metric.dist q v.vec = some d)
    (hok : doLevels P vo sched q n (l + 1) s ep = (s', none)) : Complete s'.get (n + 1) := by
  have hv : ∀ id, id < P.cacheSize → id < P.visitedSize := fun id hid => Nat.lt_of_lt_of_le hid hP.sizes
  induction l generalizing s ep with
  | zero =>
    unfold doLevels at hok
    split at hok
    · cases hok
    · rename_i s1 ep1 he
      cases hok
      exact doAtLevel_complete hP hef h hc hep hn hsm ht hd he
  | succ l ih =>
    unfold doLevels at hok
    split at hok
    · cases hok
    · rename_i s1 ep1 he
      obtain ⟨h1, h2⟩ := doAtLevel_mid hP.conn hv h (by omega) hep hn ht he
      have hx := doAtLevel_ext P vo sched q n s ep (l + 1) hi
      rw [he] at hx
      have hb := doAtLevel_base hi (by omega) he
      refine ih h1 (by omega) ?_ h2 (hx.same.tombs.trans ht) (hx.ids hi) ?_ hok
      · intro a b ha hb' hab
        obtain ⟨v, links, g1, g2, g3⟩ := hc a b ha hb' hab
        obtain ⟨v', x1, x2⟩ := hb a v links g1 g2
        exact ⟨v', links, x1, x2, g3⟩
      · intro id v hid hg
        obtain ⟨w, a1, _⟩ := h.old id hid
        obtain ⟨v', b1, _, b2, _⟩ := hx.old hi id w (Nat.ne_of_lt hid) a1
        have hg' : s1.get id = some v := hg
        have b1' : s1.get id = some v' := b1
        rw [hg'] at b1'; cases b1'
        rw [b2]; exact hd id w hid a1

theorem complete_add {P : Params V D} (hP : P.Ok) (hef : P.maxConn ≤ P.efC + 1) (hdi : ∀ a b, P.metric.len a = P.metric.len b → ∃ d, P.metric.dist a b = some d)
    {s s' : Index V} {vs : List V} (h : Inv P s vs) {vo : VecOracle V} {sched : Graph.Scheds D} {vec : V} {level : Nat}
    (ha : add P vo sched s vs.length vec level = (s', none)) (hsm : vs.length + 1 ≤ P.maxConn) (hc : Complete s.get vs.length) :
    Complete s'.get (vs.length + 1) := by
  have hinv' := inv_add hP h ha
  obtain ⟨hvl, hsz, ⟨rfl, rfl⟩ | ⟨hn, hcn⟩⟩ := add_ok_cases h ha
  · intro a b ha hb hab; simp at ha hb; omega
  · have hids : IdsOk ({ s with once := true } : Index V) := ⟨h.ids.cache, h.ids.kv⟩
    obtain ⟨dd, hd0, hd1⟩ := hinv'.dim
    obtain ⟨ep, s1, v, hf, hd, hg, hgs, _⟩ := connectNew_ok hcn
    have hget : ∀ b, b < vs.length → (({ s with once := true } : Index V).put (newNode vs.length (P.norm vec) level)).get b = s.get b := by
      intro b hb; rw [get_put, if_neg (show b ≠ (newNode vs.length (P.norm vec) level).id from Nat.ne_of_lt hb)]; rfl
    have hmo : ∀ (l id : Nat) v links b, id < vs.length → (({ s with once := true } : Index V).put (newNode vs.length (P.norm vec) level)).get id = some v → v.conns[l]? = some links → b ∈ links → b < vs.length := by
      intro l id v links b hid hg hl hb
      rw [hget id hid] at hg
      obtain ⟨w, a1, _, _, a4⟩ := h.wf id hid
      rw [a1] at hg; cases hg
      exact ((a4 l links hl).2.2.2 b hb).1
    have hep : ep < vs.length := findBest_lt (fun id hid => Nat.lt_of_lt_of_le hid hP.sizes) hmo (by omega) _ (h.entry hn) hf
    have hm := mid_start (P := P) (L := level) (l := Nat.min level (({ s with once := true } : Index V).put (newNode vs.length (P.norm vec) level)).maxLayer + 1)
      (q := P.norm vec) (s := { s with once := true }) h.wf
    have hres := doLevels_complete hP hef _ hm (Nat.min_le_left ..) (by
        intro a b ha hb hab
        obtain ⟨v, links, g1, g2, g3⟩ := hc a b ha hb hab
        exact ⟨v, links, by rw [hget a ha]; exact g1, g2, g3⟩) hep (by omega) hsm h.tombs (idsOk_put hids _) (by
        intro id v hid hgv
        rw [hget id hid] at hgv
        have hu : vs[id]? = some vs[id] := List.getElem?_eq_getElem hid
        apply hdi
        rw [h.holds id _ v hu hgv, hP.norm, hP.norm, hd1 vec (by simp), hd1 vs[id] (by simp)]) hd
    have hx := doLevels_ext P vo sched (P.norm vec) vs.length (Nat.min level (({ s with once := true } : Index V).put (newNode vs.length (P.norm vec) level)).maxLayer + 1)
      (({ s with once := true } : Index V).put (newNode vs.length (P.norm vec) level)) ep (idsOk_put hids _)
    rw [hd] at hx
    have hvid : v.id = vs.length := (hx.ids (idsOk_put hids _)).get hg
    intro a b ha hb hab
    obtain ⟨w, links, g1, g2, g3⟩ := hres a b ha hb hab
    rw [hgs, get_put]
    by_cases he : a = vs.length
    · rw [if_pos (show a = v.id by omega)]
      rw [he, hg] at g1; cases g1
      exact ⟨_, links, rfl, g2, g3⟩
    · rw [if_neg (show a ≠ v.id by omega)]
      exact ⟨w, links, g1, g2, g3⟩

/-- The base level of a small collection is the complete graph, in memory and in storage. -/
theorem hist_complete {P : Params V D} (hP : P.Ok) (hef : P.maxConn ≤ P.efC + 1) (hdi : ∀ a b, P.metric.len a = P.metric.len b → ∃ d, P.metric.dist a b = some d)
    {s : Index V} {vs : List V} (h : Hist P s vs) :
    (vs.length ≤ P.maxConn → Complete s.get vs.length) ∧ (s.kvCount.getD 0 ≤ P.maxConn → Complete s.reopen.get (s.kvCount.getD 0)) := by
  induction h with
  | init => exact ⟨fun _ a b ha => by simp at ha, fun _ a b ha => by simp [init] at ha⟩
  | @add s s' vs vo sched vec level hh ha ih =>
    have hi := hist_inv hP hh
    have hk : s'.kv = s.kv ∧ s'.kvCount = s.kvCount := by
      have := add_keeps (P := P) (vo := vo) (sched := sched) (x := vs.length) (vec := vec) (level := level) hi.ids
      rw [ha] at this; exact ⟨this.kv, this.kvCount⟩
    constructor
    · intro hl
      simp only [List.length_append, List.length_cons, List.length_nil, Nat.zero_add] at hl ⊢
      exact complete_add hP hef hdi hi ha hl (ih.1 (by omega))
    · rw [hk.2]
      intro hl
      exact complete_congr (fun id => by rw [reopen_get, reopen_get, hk.1]) (ih.2 hl)
  | @refused s s' vs e vo sched vec level hh hn hl ha ih =>
    have hi := hist_inv hP hh
    have hk := add_keeps (P := P) (vo := vo) (sched := sched) (x := vs.length) (vec := vec) (level := level) hi.ids
    rw [ha] at hk
    have hkv : s'.kv = s.kv := hk.kv
    have hkc : s'.kvCount = s.kvCount := hk.kvCount
    constructor
    · intro hle
      have hc := ih.1 hle
      rcases add_wrong_length hP hi hn hl vo sched level with h1 | ⟨_, h1⟩ | h1
      · rw [h1] at ha; cases ha; exact hc
      · rw [h1] at ha; cases ha; exact hc
      · rw [h1] at ha; cases ha
        intro a b ha hb hab
        obtain ⟨v, links, g1, g2, g3⟩ := hc a b ha hb hab
        refine ⟨v, links, ?_, g2, g3⟩
        rw [get_put, if_neg (show a ≠ (newNode vs.length (P.norm vec) level).id from Nat.ne_of_lt ha)]; exact g1
    · rw [hkc]
      intro hl
      exact complete_congr (fun id => by rw [reopen_get, reopen_get, hkv]) (ih.2 hl)
  | @flush s s' vs order hh hn ho hf ih =>
    have hi := hist_inv hP hh
    obtain ⟨s1, hw, rfl⟩ := flush_ok hi.ids hf
    constructor
    · intro hl
      exact complete_congr (g := s.get) (g' := s1.get) (fun id => hw.get (dirty_cached hi.ids order) id) (ih.1 hl)
    · intro hl
      exact complete_congr (g := s.get) (fun id => by
        rw [reopen_get, map_core_core]; exact wroteAll hi.ids hi.synced ho hw id) (ih.1 hl)
  | load _ ih => exact ih
  | unread _ ih => exact ih
  | @restart s vs hh ih =>
    have hi := hist_inv hP hh
    have hlen : (vs.take (s.kvCount.getD 0)).length = s.kvCount.getD 0 := by rw [List.length_take]; have := hi.le; omega
    constructor
    · rw [hlen]; exact ih.2
    · exact ih.2

end Fave.Index
