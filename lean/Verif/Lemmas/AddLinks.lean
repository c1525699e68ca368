import Verif.Lemmas.Select
import Verif.Lemmas.AddBlind
/-!
# The links chosen for a new vector
-/
namespace Fave.Index
open Queue Search Spec
variable {V D : Type} [Dist D]

/-- what is known about the base-level links of a new vector `q`: `found` are the vectors the search from `e` delivered -/
structure Chosen (P : Params V D) (f : Nat → Option V) (get : Nat → Option (Vertex V)) (q : V) (e : Nat) (found : List (Item D)) (links : List Nat) : Prop where
  nodup : (found.map Item.id).Nodup
  walk : ∀ y ∈ found, Walk get e y.id ∧ ∃ v, get y.id = some v ∧ P.metric.dist q v.vec = some y.dist
  wide : P.efC ≤ found.length ∨ ∀ x, Walk get e x → x ∈ found.map Item.id
  sel : ∃ kept, links.Perm (kept.map Item.id) ∧
    ((found.length < P.maxConn ∧ kept.Perm found) ∨
     (P.maxConn ≤ found.length ∧ kept.Pairwise (Apart P f) ∧ (∀ x ∈ kept, x ∈ found ∧ ∃ u, f x.id = some u) ∧ kept.length ≤ P.maxConn ∧
      ∀ c ∈ found, c ∈ kept ∨ Dropped P f P.maxConn kept c))

theorem connectNeighbor_other {P : Params V D} {vo : VecOracle V} {x level : Nat} {s : Index V} {nb id : Nat} (hi : IdsOk s) (hne : id ≠ nb) :
    (connectNeighbor P vo x level s nb).1.get id = s.get id := by
  rcases connectNeighbor_cases P vo x level s nb with ⟨h, _⟩ | ⟨v, hg, _, _, ⟨_, _, hu⟩ | ⟨_, links, _, _, hu, _⟩⟩
  · rw [h]
  · rw [hu.get, if_neg]
    intro he; exact hne (he.trans ((raised_id v level).trans (hi.get hg)))
  · rw [hu.get, if_neg]
    intro he; exact hne (he.trans ((raised_id v level).trans (hi.get hg)))

theorem connectAll_other {P : Params V D} {vo : VecOracle V} {x level : Nat} {s : Index V} {nbs : List Nat} {id : Nat} (hi : IdsOk s) (hne : id ∉ nbs) :
    (connectAll P vo x level s nbs).1.get id = s.get id := by
  induction nbs generalizing s with
  | nil => rfl
  | cons nb nbs ih =>
    simp only [List.mem_cons, not_or] at hne
    unfold connectAll
    have h := connectNeighbor_other (P := P) (vo := vo) (x := x) (level := level) hi hne.1
    have hx := connectNeighbor_ext P vo x level s nb
    split
    · rename_i he; rw [he] at h; exact h
    · rename_i he; rw [he] at h hx
      exact (ih (hx.ids hi) hne.2).trans h

theorem doAtLevel_links [LawfulDist D] {P : Params V D} (hP : P.Ok) (hsym : ∀ a b, P.metric.dist a b = P.metric.dist b a)
    {vo : VecOracle V} {sched : Graph.Scheds D} {q : V} {n L : Nat} {s s' : Index V}
    {ep ep' : Nat} (h : Mid P n L 1 [] s) (hep : ep < n) (hn : n ≤ P.cacheSize) (ht : s.tombs = []) (hi : IdsOk s)
    (hd : ∀ id v, id < n → s.get id = some v → ∃ d, P.metric.dist q v.vec = some d)
    (hok : doAtLevel P vo sched q n s ep 0 = (s', .ok ep')) :
    ∃ found links v, s'.get n = some v ∧ v.conns[0]? = some links ∧ Chosen P (vo 0 none 0) s.get q ep found links := by
  obtain ⟨e, results, kept, v, he, hr, hk, hg, hlen, hca, _⟩ := doAtLevel_ok hok
  obtain ⟨w, hw, _⟩ := h.old ep hep
  obtain ⟨he1, he2⟩ := pickEntry_ok hw he
  have hen : e.id < n := by omega
  have hsmall : n ≤ P.visitedSize := Nat.le_trans hn hP.sizes
  have heps : EpsOk ((s.graph P).senv q none) [e] :=
    ⟨by simp, fun y hy => by simp at hy; subst hy; exact Nat.lt_of_lt_of_le hen hsmall⟩
  have hlink : ∀ id v0 links b, id < n → s.get id = some v0 → v0.conns[0]? = some links → b ∈ links → b < n := by
    intro id v0 links b hid hg0 hlk hb
    obtain ⟨v1, a1, _, _, a4⟩ := h.old id hid
    rw [a1] at hg0; cases hg0
    rcases (a4 0 links hlk).2.2.2 b hb with ⟨h1, _⟩ | ⟨_, _, h1 | ⟨h1, _⟩⟩ <;> omega
  have hres : ∀ y ∈ results.toList, y.id < n :=
    searchLayer_closed (C := fun i => i < n) hlink (fun y hy => by simp at hy; subst hy; exact hen) (keysOk P s q none) heps hr
  have htrue := searchLayer_inv (P := fun y => ∃ v, s.get y.id = some v ∧ P.metric.dist q v.vec = some y.dist)
    (fun y hy => by
      unfold distToNode at hy
      split at hy
      · cases hy
      · rename_i v0 hv0; exact ⟨v0, hv0, hy⟩) heps
    (fun y hy => by
      simp at hy; subst hy
      obtain ⟨v0, h1, h2⟩ := Graph.distNodeVec_some he2
      exact ⟨v0, by rw [he1]; exact h1, by rw [hsym]; exact h2⟩) hr
  obtain ⟨htr, hnod⟩ := htrue
  have hwalk : ∀ x, Reach ((s.graph P).senv q none) 0 ([e].map Item.id) x → Walk s.get ep x := by
    intro x hx
    induction hx with
    | start id hm => simp at hm; subst hm; rw [he1]; exact .here
    | link a b d _ hl _ ih =>
      obtain ⟨v1, links, g1, _, g2, g3⟩ := hl
      exact .link ih g1 g2 g3
  have hdist : ∀ id, id < n → ∃ d, HasDist ((s.graph P).senv q none) id d := by
    intro id hid
    obtain ⟨v1, a1, _⟩ := h.old id hid
    obtain ⟨d, hd⟩ := hd id v1 hid a1
    exact ⟨d, v1, a1, hd⟩
  have hback : ∀ x, Walk s.get ep x → x < n ∧ Reach ((s.graph P).senv q none) 0 ([e].map Item.id) x := by
    intro x hx
    induction hx with
    | here => exact ⟨hep, .start _ (by simp [he1])⟩
    | @link b c v links _ hg hc hm ih =>
      have hcn := hlink b v links c ih.1 hg hc hm
      obtain ⟨d, hdc⟩ := hdist c hcn
      exact ⟨hcn, .link b c d ih.2 ⟨v, links, hg, Nat.zero_le _, hc, hm⟩ hdc⟩
  have hnb : n ∉ (drain lessMax kept).map Item.id := by
    intro hm
    obtain ⟨y, hy, hyn⟩ := List.mem_map.mp ((selected_ids hk).2.2 n hm)
    have := hres y hy
    omega
  obtain ⟨vn, hvn, hvid, _, hvl, _⟩ := h.new
  rw [hg] at hvn; cases hvn
  have hgn : s'.get n = some (setConns v 0 ((drain lessMax kept).map Item.id)) := by
    have := connectAll_other (P := P) (vo := vo) (x := n) (level := 0) (s := s.put (setConns v 0 ((drain lessMax kept).map Item.id)))
      (nbs := (drain lessMax kept).map Item.id) (idsOk_put hi _) hnb
    rw [hca] at this
    have this : s'.get n = _ := this
    rw [this, get_put]; exact if_pos hvid.symm
  refine ⟨results.toList, _, _, hgn, by rw [setConns_get, if_pos rfl, if_pos (by omega)], hnod, ?_, ?_, ?_⟩
  · intro y hy
    exact ⟨hwalk _ (searchLayer_reach hr y hy), (htr y hy).1⟩
  · rcases searchLayer_many heps (fun y hy => by simp at hy; subst hy; exact hdist _ hen) hr with h1 | h1
    · left
      have : (P.efC : Int) ≤ (results.size : Int) := h1
      simp; omega
    · right
      intro x hx
      refine h1 x (hback x hx).2 ⟨?_, fun _ p hp => by cases hp⟩
      show s.tombs.contains x = false
      rw [ht]; rfl
  · by_cases hsz : results.size < P.maxConn
    · have hkr : kept = results := by
        unfold selectNeighbors at hk
        rw [if_pos hsz] at hk; cases hk; rfl
      subst hkr
      exact ⟨kept.toList, (drain_perm lessMax kept).map Item.id, .inl ⟨by simpa using hsz, .refl _⟩⟩
    · obtain ⟨kl, k1, k2, k3, k4, k5⟩ := selectNeighbors_spec (by omega) hk
      exact ⟨kl, ((drain_perm lessMax kept).trans k1).map Item.id, .inr ⟨by simpa using Nat.le_of_not_lt hsz, k2, fun x hx => ⟨(k3 x hx).1, (k3 x hx).2.2⟩, k4, fun c hc => k5 c hc rfl⟩⟩

/-- base-level links of the old vectors are the same -/
def BaseBelow (n : Nat) (s s' : Index V) : Prop :=
  ∀ id v cur, id < n → s.get id = some v → v.conns[0]? = some cur → ∃ v', s'.get id = some v' ∧ v'.conns[0]? = some cur

theorem walk_base {s s' : Index V} {n : Nat} (hb : BaseBelow n s s')
    (hold : ∀ id, id < n → ∃ v links, s.get id = some v ∧ v.conns[0]? = some links ∧ ∀ b ∈ links, b < n) {ep x : Nat} (hep : ep < n)
    (h : Walk s.get ep x) : Walk s'.get ep x ∧ x < n := by
  induction h with
  | here => exact ⟨.here, hep⟩
  | @link b c v links _ hg hc hm ih =>
    obtain ⟨v', a1, a2⟩ := hb _ _ _ ih.2 hg hc
    obtain ⟨v1, links1, h1, h2, h3⟩ := hold b ih.2
    rw [hg] at h1; cases h1
    rw [hc] at h2; cases h2
    exact ⟨.link ih.1 a1 a2 hm, h3 c hm⟩

/-- on old vectors walks in the later state are walks in the earlier one -/
theorem walk_base_back {s s' : Index V} {n : Nat} (hb : BaseBelow n s s')
    (hold : ∀ id, id < n → ∃ v links, s.get id = some v ∧ v.conns[0]? = some links ∧ ∀ b ∈ links, b < n) {ep x : Nat} (hep : ep < n)
    (h : Walk s'.get ep x) : Walk s.get ep x ∧ x < n := by
  induction h with
  | here => exact ⟨.here, hep⟩
  | @link b c v' links' _ hg hc hm ih =>
    obtain ⟨v, links, h1, h2, h3⟩ := hold b ih.2
    obtain ⟨v'', a1, a2⟩ := hb _ _ _ ih.2 h1 h2
    rw [hg] at a1; cases a1
    rw [hc] at a2; cases a2
    exact ⟨.link ih.1 h1 h2 hm, h3 c hm⟩

/-- the chosen links do not depend on what happened on the upper levels -/
theorem Chosen.back {P : Params V D} {f : Nat → Option V} {s s' : Index V} {n : Nat} {q : V} {e : Nat} {found : List (Item D)} {links : List Nat}
    (h : Chosen P f s'.get q e found links) (hb : BaseBelow n s s')
    (hold : ∀ id, id < n → ∃ v links, s.get id = some v ∧ v.conns[0]? = some links ∧ ∀ b ∈ links, b < n) (hep : e < n)
    (hvec : ∀ id v v', id < n → s.get id = some v → s'.get id = some v' → v'.vec = v.vec) : Chosen P f s.get q e found links := by
  refine ⟨h.nodup, ?_, ?_, h.sel⟩
  · intro y hy
    obtain ⟨h1, v', h2, h3⟩ := h.walk y hy
    obtain ⟨h4, h5⟩ := walk_base_back hb hold hep h1
    obtain ⟨v, _, h6, _⟩ := hold _ h5
    exact ⟨h4, v, h6, by rw [← hvec _ v v' h5 h6 h2]; exact h3⟩
  · rcases h.wide with h1 | h1
    · exact .inl h1
    · exact .inr (fun x hx => h1 x (walk_base hb hold hep hx).1)

theorem doLevels_links [LawfulDist D] {P : Params V D} (hP : P.Ok) (hsym : ∀ a b, P.metric.dist a b = P.metric.dist b a)
    {vo : VecOracle V} {sched : Graph.Scheds D} {q : V} {n L : Nat} (l : Nat) {s s' : Index V}
    {ep : Nat} (h : Mid P n L (l + 1) [] s) (hl : l ≤ L) (hep : ep < n) (hn : n ≤ P.cacheSize) (ht : s.tombs = [])
    (hi : IdsOk s) (hd : ∀ id v, id < n → s.get id = some v → ∃ d, P.metric.dist q v.vec = some d)
    (hok : doLevels P vo sched q n (l + 1) s ep = (s', none)) :
    ∃ e found links v, e < n ∧ s'.get n = some v ∧ v.conns[0]? = some links ∧ Chosen P (vo 0 none 0) s.get q e found links := by
  have hv : ∀ id, id < P.cacheSize → id < P.visitedSize := fun id hid => Nat.lt_of_lt_of_le hid hP.sizes
  induction l generalizing s ep with
  | zero =>
    unfold doLevels at hok
    split at hok
    · cases hok
    · rename_i s1 ep1 he
      cases hok
      obtain ⟨found, links, v, h1, h2, h3⟩ := doAtLevel_links hP hsym h hep hn ht hi hd he
      exact ⟨ep, found, links, v, hep, h1, h2, h3⟩
  | succ l ih =>
    unfold doLevels at hok
    split at hok
    · cases hok
    · rename_i s1 ep1 he
      obtain ⟨h1, h2⟩ := doAtLevel_mid hP.conn hv h (by omega) hep hn ht he
      have hx := doAtLevel_ext P vo sched q n s ep (l + 1) hi
      rw [he] at hx
      have hb := doAtLevel_base hi (by omega) he
      have hvec : ∀ id v v', id < n → s.get id = some v → s1.get id = some v' → v'.vec = v.vec := by
        intro id v v' hid hg hg'
        obtain ⟨v'', b1, _, b2, _⟩ := hx.old hi id v (Nat.ne_of_lt hid) hg
        have b1' : s1.get id = some v'' := b1
        rw [hg'] at b1'; cases b1'
        exact b2
      obtain ⟨e, found, links, v, a1, a2, a3, a4⟩ := ih h1 (by omega) h2 (hx.same.tombs.trans ht) (hx.ids hi) (by
        intro id v hid hg
        obtain ⟨w, b1, _⟩ := h.old id hid
        rw [hvec id w v hid b1 hg]; exact hd id w hid b1) hok
      refine ⟨e, found, links, v, a1, a2, a3, a4.back (n := n) (fun id v cur _ => hb id v cur) ?_ a1 hvec⟩
      intro id hid
      obtain ⟨w, b1, _, b3, b4⟩ := h.old id hid
      refine ⟨w, w.conns[0]'(by omega), b1, List.getElem?_eq_getElem (by omega), ?_⟩
      intro b hb
      rcases (b4 0 _ (List.getElem?_eq_getElem (by omega))).2.2.2 b hb with ⟨h1, _⟩ | ⟨_, _, h1 | ⟨h1, _⟩⟩ <;> omega

/-- the base-level links of a newly added vector -/
theorem add_links [LawfulDist D] {P : Params V D} (hP : P.Ok) (hsym : ∀ a b, P.metric.dist a b = P.metric.dist b a)
    (hdi : ∀ a b, P.metric.len a = P.metric.len b → ∃ d, P.metric.dist a b = some d)
    {s s' : Index V} {vs : List V} (h : Inv P s vs) (hn : vs ≠ []) {vo : VecOracle V} {sched : Graph.Scheds D} {vec : V} {level : Nat}
    (ha : add P vo sched s vs.length vec level = (s', none)) :
    ∃ e found links v, e < vs.length ∧ s'.get vs.length = some v ∧ v.conns[0]? = some links ∧
      Chosen P (vo 0 none 0) s.get (P.norm vec) e found links := by
  have hinv' := inv_add hP h ha
  obtain ⟨hvl, hsz, ⟨rfl, _⟩ | ⟨_, hcn⟩⟩ := add_ok_cases h ha
  · exact absurd rfl hn
  · have hids : IdsOk ({ s with once := true } : Index V) := ⟨h.ids.cache, h.ids.kv⟩
    obtain ⟨dd, hd0, hd1⟩ := hinv'.dim
    obtain ⟨ep, s1, v, hf, hd, hg, hgs, _⟩ := connectNew_ok hcn
    have hget : ∀ b, b < vs.length → (({ s with once := true } : Index V).put (newNode vs.length (P.norm vec) level)).get b = s.get b := by
      intro b hb; rw [get_put, if_neg (show b ≠ (newNode vs.length (P.norm vec) level).id from Nat.ne_of_lt hb)]; rfl
    have hmo : ∀ (l id : Nat) v links b, id < vs.length → (({ s with once := true } : Index V).put (newNode vs.length (P.norm vec) level)).get id = some v → v.conns[l]? = some links → b ∈ links → b < vs.length := by
      intro l id v links b hid hg hl hb
      rw [hget id hid] at hg
      obtain ⟨w, a1, _, _, a4⟩ := h.wf id hid
      rw [a1] at hg; cases hg
      exact ((a4 l links hl).2.2.2 b hb).1
    have hep : ep < vs.length := findBest_lt (fun id hid => Nat.lt_of_lt_of_le hid hP.sizes) hmo (by omega) _ (h.entry hn) hf
    have hm := mid_start (P := P) (L := level) (l := Nat.min level (({ s with once := true } : Index V).put (newNode vs.length (P.norm vec) level)).maxLayer + 1)
      (q := P.norm vec) (s := { s with once := true }) h.wf
    obtain ⟨e, found, links, w, a1, a2, a3, a4⟩ := doLevels_links hP hsym _ hm (Nat.min_le_left ..) hep (by omega) h.tombs (idsOk_put hids _) (by
        intro id v hid hgv
        rw [hget id hid] at hgv
        have hu : vs[id]? = some vs[id] := List.getElem?_eq_getElem hid
        apply hdi
        rw [h.holds id _ v hu hgv, hP.norm, hP.norm, hd1 vec (by simp), hd1 vs[id] (by simp)]) hd
    have hx := doLevels_ext P vo sched (P.norm vec) vs.length (Nat.min level (({ s with once := true } : Index V).put (newNode vs.length (P.norm vec) level)).maxLayer + 1)
      (({ s with once := true } : Index V).put (newNode vs.length (P.norm vec) level)) ep (idsOk_put hids _)
    rw [hd] at hx
    have hvid : v.id = vs.length := (hx.ids (idsOk_put hids _)).get hg
    rw [hg] at a2; cases a2
    refine ⟨e, found, links, { v with maint := false }, a1, by rw [hgs, get_put]; exact if_pos hvid.symm, a3, ?_⟩
    refine a4.back (s := s) (n := vs.length) ?_ ?_ a1 ?_
    · intro id v cur hid hgv hc
      exact ⟨v, by rw [hget id hid]; exact hgv, hc⟩
    · intro id hid
      obtain ⟨w, b1, _, b3, b4⟩ := h.wf id hid
      exact ⟨w, w.conns[0]'(by omega), b1, List.getElem?_eq_getElem (by omega), fun b hb => ((b4 0 _ (List.getElem?_eq_getElem (by omega))).2.2.2 b hb).1⟩
    · intro id v v' hid h1 h2
      rw [hget id hid] at h2
      have h2 : s.get id = some v' := h2
      rw [h1] at h2; cases h2; rfl
end Fave.Index
