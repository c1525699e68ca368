import Verif.Lemmas.Complete
import Verif.Lemmas.Select
import Verif.Lemmas.SearchMany
import Verif.Lemmas.AddBlind
import Verif.Lemmas.HistSearch
/-!
# Collections of at most `maxConn0 + 1` vectors: the base level is connected
-/
namespace Fave.Index
open Queue Search Spec
variable {V D : Type} [Dist D]

/-- from every one of the first `n` vectors the links of the base level lead to every other -/
def Tied (get : Nat → Option (Vertex V)) (n : Nat) : Prop := ∀ a b, a < n → b < n → Walk get a b

theorem Walk.trans {get : Nat → Option (Vertex V)} {a b c : Nat} (h : Walk get a b) (h' : Walk get b c) : Walk get a c := by
  induction h' with
  | here => exact h
  | link _ h1 h2 h3 ih => exact .link ih h1 h2 h3

/-- walks inside a closed set survive if the lists of its nodes only grow -/
theorem Walk.grow {g g' : Nat → Option (Vertex V)} {n : Nat}
    (hcl : ∀ id v links b, id < n → g id = some v → v.conns[0]? = some links → b ∈ links → b < n)
    (hk : ∀ id v links, id < n → g id = some v → v.conns[0]? = some links →
      ∃ v' links', g' id = some v' ∧ v'.conns[0]? = some links' ∧ ∀ b ∈ links, b ∈ links')
    {a b : Nat} (ha : a < n) (h : Walk g a b) : b < n ∧ Walk g' a b := by
  induction h with
  | here => exact ⟨ha, .here⟩
  | link _ h1 h2 h3 ih =>
    obtain ⟨v', links', a1, a2, a3⟩ := hk _ _ _ ih.1 h1 h2
    exact ⟨hcl _ _ _ _ ih.1 h1 h2 h3, .link ih.2 a1 a2 (a3 _ h3)⟩

theorem Tied.grow {g g' : Nat → Option (Vertex V)} {n : Nat} (h : Tied g n)
    (hcl : ∀ id v links b, id < n → g id = some v → v.conns[0]? = some links → b ∈ links → b < n)
    (hk : ∀ id v links, id < n → g id = some v → v.conns[0]? = some links →
      ∃ v' links', g' id = some v' ∧ v'.conns[0]? = some links' ∧ ∀ b ∈ links, b ∈ links') : Tied g' n :=
  fun a b ha hb => (Walk.grow hcl hk ha (h a b ha hb)).2

theorem tied_congr {n : Nat} {g g' : Nat → Option (Vertex V)} (h : ∀ id, (g' id).map core = (g id).map core)
    (hc : Tied g n) : Tied g' n := by
  intro a b ha hb
  have := hc a b ha hb
  clear ha hb hc
  induction this with
  | here => exact .here
  | @link b c v links _ h1 h2 h3 ih =>
    rcases agree_cases (h b) with ⟨_, e2⟩ | ⟨v', w, e1, e2, _, _, e3, _, _⟩
    · rw [e2] at h1; cases h1
    · rw [e2] at h1; cases h1
      exact .link ih e1 (by rw [e3]; exact h2) h3

/-- a successful choice of links among a non-empty list is not empty -/
theorem selectNeighbors_ne [LawfulDist D] {P : Params V D} {vo : Nat → Option V} {deny : Nat → Bool} {results kept : Array (Item D)}
    (hm : 0 < P.maxConn) (hd : ∀ i, deny i = false) (hk : selectNeighbors P vo deny P.maxConn results = .ok kept)
    (hne : results.toList ≠ []) : kept.toList ≠ [] := by
  by_cases hsz : results.size < P.maxConn
  · unfold selectNeighbors at hk
    rw [if_pos hsz] at hk
    cases hk; exact hne
  · obtain ⟨kl, h1, _, _, _, h2⟩ := selectNeighbors_spec (by omega) hk
    obtain ⟨c, hc⟩ := List.exists_mem_of_ne_nil _ hne
    intro hn
    rw [hn] at h1
    have := List.Perm.nil_eq h1
    subst this
    rcases h2 c hc (hd _) with h3 | ⟨h3, _⟩ | ⟨s, h3, _⟩
    · cases h3
    · simp at h3; omega
    · cases h3

/-- linking the new node on the base level while every list has room -/
theorem doAtLevel_tied [LawfulDist D] {P : Params V D} (hP : P.Ok) (hm : 0 < P.maxConn) (hef : 0 < P.efC)
    {vo : VecOracle V} {sched : Graph.Scheds D} {q : V} {n L : Nat} {s s' : Index V}
    {ep ep' : Nat} (h : Mid P n L 1 [] s) (hc : Tied s.get n) (hep : ep < n) (hn : n ≤ P.cacheSize) (hsm : n ≤ P.maxConn0) (ht : s.tombs = [])
    (hd : ∀ id v, id < n → s.get id = some v → ∃ d, P.metric.dist q v.vec = some d)
    (hok : doAtLevel P vo sched q n s ep 0 = (s', .ok ep')) : Tied s'.get (n + 1) := by
  obtain ⟨e, results, kept, v, he, hr, hk, hg, hlen, hca, _⟩ := doAtLevel_ok hok
  obtain ⟨w, hw, _⟩ := h.old ep hep
  obtain ⟨he1, _⟩ := pickEntry_ok hw he
  have hen : e.id < n := by omega
  have hsmall : n ≤ P.visitedSize := Nat.le_trans hn hP.sizes
  have heps : EpsOk ((s.graph P).senv q none) [e] :=
    ⟨by simp, fun y hy => by simp at hy; subst hy; exact Nat.lt_of_lt_of_le hen hsmall⟩
  have hlink : ∀ id v0 links b, id < n → s.get id = some v0 → v0.conns[0]? = some links → b ∈ links → b < n := by
    intro id v0 links b hid hg0 hlk hb
    obtain ⟨v1, a1, _, _, a4⟩ := h.old id hid
    rw [a1] at hg0; cases hg0
    rcases (a4 0 links hlk).2.2.2 b hb with ⟨h1, _⟩ | ⟨_, _, h1 | ⟨h1, _⟩⟩ <;> omega
  have hres : ∀ y ∈ results.toList, y.id < n :=
    searchLayer_closed (C := fun i => i < n) hlink (fun y hy => by simp at hy; subst hy; exact hen) (keysOk P s q none) heps hr
  have hnod : (results.toList.map Item.id).Nodup :=
    (searchLayer_inv (P := fun _ => True) (fun _ _ => trivial) heps (fun _ _ => trivial) hr).2
  have hdist : ∀ id, id < n → ∃ d, HasDist ((s.graph P).senv q none) id d := by
    intro id hid
    obtain ⟨v1, a1, _⟩ := h.old id hid
    obtain ⟨d, hd⟩ := hd id v1 hid a1
    exact ⟨d, v1, a1, hd⟩
  have hne : results.toList ≠ [] := by
    intro hn
    rcases searchLayer_many heps (by intro y hy; simp at hy; subst hy; exact hdist _ hen) hr with h1 | h1
    · have h2 : results.size = 0 := by rw [← Array.length_toList, hn]; rfl
      have h3 : (1 : Int) ≤ P.efC := by exact_mod_cast hef
      omega
    · have := h1 e.id (.start _ (by simp)) ⟨by show s.tombs.contains e.id = false; rw [ht]; rfl, fun _ p hp => by cases hp⟩
      rw [hn] at this; simp at this
  have hkn : kept.toList ≠ [] := selectNeighbors_ne hm (fun _ => rfl) hk hne
  obtain ⟨_, hnodk, hsub⟩ := selected_ids hk
  have hnodk := hnodk hnod
  have hmem : ∀ id, id ∈ (drain lessMax kept).map Item.id → id < n := by
    intro id hid
    obtain ⟨y, hy, rfl⟩ := List.mem_map.mp (hsub id hid)
    exact hres y hy
  obtain ⟨nb, hnb⟩ : ∃ nb, nb ∈ (drain lessMax kept).map Item.id := by
    obtain ⟨c, hc⟩ := List.exists_mem_of_ne_nil _ hkn
    exact ⟨c.id, List.mem_map_of_mem ((drain_perm lessMax kept).mem_iff.mpr hc)⟩
  have hnbn := hmem nb hnb
  obtain ⟨vn, hvn, hvid, _, hvl, _⟩ := h.new
  rw [hg] at hvn; cases hvn
  have hget : ∀ b, b < n → (s.put (setConns v 0 ((drain lessMax kept).map Item.id))).get b = s.get b := by
    intro b hb
    rw [get_put, if_neg]
    show b ≠ v.id
    omega
  obtain ⟨c1, c2⟩ := connectAll_append (x := n) (s := s.put (setConns v 0 ((drain lessMax kept).map Item.id))) hnodk ht (by
    intro b hb
    have hbn := hmem b hb
    obtain ⟨w, a1, a2, a3, a4⟩ := h.old b hbn
    have hcur : ∃ cur, w.conns[0]? = some cur := ⟨_, List.getElem?_eq_getElem (by omega)⟩
    obtain ⟨cur, hcur⟩ := hcur
    refine ⟨by omega, w, cur, by rw [hget b hbn]; exact a1, a2, hcur, ?_⟩
    obtain ⟨b1, b2, _, b4⟩ := a4 0 cur hcur
    have : (b :: cur).length ≤ (List.range n).length := List.Nodup.length_le_of_subset (List.nodup_cons.mpr ⟨b2, b1⟩) (by
      intro i hi
      rcases List.mem_cons.mp hi with rfl | hi
      · exact List.mem_range.mpr hbn
      · exact List.mem_range.mpr (hlink b w cur i hbn a1 hcur hi))
    have hmc : maxConns P 0 = P.maxConn0 := rfl
    simp at *; omega) hca
  have hold : Tied s'.get n := hc.grow hlink (by
    intro id v0 links hid h1 h2
    by_cases hin : id ∈ (drain lessMax kept).map Item.id
    · obtain ⟨v', x1, x2⟩ := c2 id hin v0 links (by rw [hget id hid]; exact h1) h2
      exact ⟨v', _, x1, x2, fun b hb => by simp [hb]⟩
    · exact ⟨v0, links, by rw [c1 id hin, hget id hid]; exact h1, h2, fun _ hb => hb⟩)
  have hout : Walk s'.get n nb := by
    refine .link (v := setConns v 0 ((drain lessMax kept).map Item.id)) .here ?_ ?_ hnb
    · rw [c1 n (fun hm => by have := hmem n hm; omega), get_put]; exact if_pos hvid.symm
    · rw [setConns_get, if_pos rfl, if_pos (by omega)]
  have hin : Walk s'.get nb n := by
    obtain ⟨w, a1, a2, a3, a4⟩ := h.old nb hnbn
    obtain ⟨v', x1, x2⟩ := c2 nb hnb w w.conns[0] (by rw [hget nb hnbn]; exact a1) (List.getElem?_eq_getElem (by omega))
    exact .link .here x1 x2 (by simp)
  intro a b ha hb
  by_cases han : a < n
  · by_cases hbn : b < n
    · exact hold a b han hbn
    · have : b = n := by omega
      subst this
      exact (hold a nb han hnbn).trans hin
  · have : a = n := by omega
    subst this
    by_cases hbn : b < a
    · exact hout.trans (hold nb b hnbn hbn)
    · have : b = a := by omega
      subst this; exact .here

theorem doLevels_tied [LawfulDist D] {P : Params V D} (hP : P.Ok) (hm0 : 0 < P.maxConn) (hef : 0 < P.efC)
    {vo : VecOracle V} {sched : Graph.Scheds D} {q : V} {n L : Nat} (l : Nat) {s s' : Index V}
    {ep : Nat} (h : Mid P n L (l + 1) [] s) (hl : l ≤ L) (hc : Tied s.get n) (hep : ep < n) (hn : n ≤ P.cacheSize) (hsm : n ≤ P.maxConn0) (ht : s.tombs = [])
    (hi : IdsOk s) (hd : ∀ id v, id < n → s.get id = some v → ∃ d, P.metric.dist q v.vec = some d)
    (hok : doLevels P vo sched q n (l + 1) s ep = (s', none)) : Tied s'.get (n + 1) := by
  have hv : ∀ id, id < P.cacheSize → id < P.visitedSize := fun id hid => Nat.lt_of_lt_of_le hid hP.sizes
  induction l generalizing s ep with
  | zero =>
    unfold doLevels at hok
    split at hok
    · cases hok
    · rename_i s1 ep1 he
      cases hok
      exact doAtLevel_tied hP hm0 hef h hc hep hn hsm ht hd he
  | succ l ih =>
    unfold doLevels at hok
    split at hok
    · cases hok
    · rename_i s1 ep1 he
      obtain ⟨h1, h2⟩ := doAtLevel_mid hP.conn hv h (by omega) hep hn ht he
      have hx := doAtLevel_ext P vo sched q n s ep (l + 1) hi
      rw [he] at hx
      have hb := doAtLevel_base hi (by omega) he
      refine ih h1 (by omega) ?_ h2 (hx.same.tombs.trans ht) (hx.ids hi) ?_ hok
      · refine hc.grow ?_ (fun id v links _ g1 g2 => ?_)
        · intro id v0 links b hid hg0 hlk hb
          obtain ⟨v1, a1, _, _, a4⟩ := h.old id hid
          rw [a1] at hg0; cases hg0
          rcases (a4 0 links hlk).2.2.2 b hb with ⟨h1, _⟩ | ⟨_, _, h1 | ⟨h1, _⟩⟩ <;> omega
        · obtain ⟨v', x1, x2⟩ := hb id v links g1 g2
          exact ⟨v', links, x1, x2, fun _ hb => hb⟩
      · intro id v hid hg
        obtain ⟨w, a1, _⟩ := h.old id hid
        obtain ⟨v', b1, _, b2, _⟩ := hx.old hi id w (Nat.ne_of_lt hid) a1
        have hg' : s1.get id = some v := hg
        have b1' : s1.get id = some v' := b1
        rw [hg'] at b1'; cases b1'
        rw [b2]; exact hd id w hid a1

theorem tied_add [LawfulDist D] {P : Params V D} (hP : P.Ok) (hm0 : 0 < P.maxConn) (hef : 0 < P.efC) (hdi : ∀ a b, P.metric.len a = P.metric.len b → ∃ d, P.metric.dist a b = some d)
    {s s' : Index V} {vs : List V} (h : Inv P s vs) {vo : VecOracle V} {sched : Graph.Scheds D} {vec : V} {level : Nat}
    (ha : add P vo sched s vs.length vec level = (s', none)) (hsm : vs.length ≤ P.maxConn0) (hc : Tied s.get vs.length) :
    Tied s'.get (vs.length + 1) := by
  have hinv' := inv_add hP h ha
  obtain ⟨hvl, hsz, ⟨rfl, rfl⟩ | ⟨hn, hcn⟩⟩ := add_ok_cases h ha
  · intro a b ha hb
    have : a = b := by simp at ha hb; omega
    subst this; exact .here
  · have hids : IdsOk ({ s with once := true } : Index V) := ⟨h.ids.cache, h.ids.kv⟩
    obtain ⟨dd, hd0, hd1⟩ := hinv'.dim
    obtain ⟨ep, s1, v, hf, hd, hg, hgs, _⟩ := connectNew_ok hcn
    have hget : ∀ b, b < vs.length → (({ s with once := true } : Index V).put (newNode vs.length (P.norm vec) level)).get b = s.get b := by
      intro b hb; rw [get_put, if_neg (show b ≠ (newNode vs.length (P.norm vec) level).id from Nat.ne_of_lt hb)]; rfl
    have hmo : ∀ (l id : Nat) v links b, id < vs.length → (({ s with once := true } : Index V).put (newNode vs.length (P.norm vec) level)).get id = some v → v.conns[l]? = some links → b ∈ links → b < vs.length := by
      intro l id v links b hid hg hl hb
      rw [hget id hid] at hg
      obtain ⟨w, a1, _, _, a4⟩ := h.wf id hid
      rw [a1] at hg; cases hg
      exact ((a4 l links hl).2.2.2 b hb).1
    have hep : ep < vs.length := findBest_lt (fun id hid => Nat.lt_of_lt_of_le hid hP.sizes) hmo (by omega) _ (h.entry hn) hf
    have hm := mid_start (P := P) (L := level) (l := Nat.min level (({ s with once := true } : Index V).put (newNode vs.length (P.norm vec) level)).maxLayer + 1)
      (q := P.norm vec) (s := { s with once := true }) h.wf
    have hres := doLevels_tied hP hm0 hef _ hm (Nat.min_le_left ..) (hc.grow
        (fun id v links b hid hg hl hb => hmo 0 id v links b hid (by rw [hget id hid]; exact hg) hl hb)
        (fun id v links hid g1 g2 => ⟨v, links, by rw [hget id hid]; exact g1, g2, fun _ hb => hb⟩)) hep (by omega) hsm h.tombs (idsOk_put hids _) (by
        intro id v hid hgv
        rw [hget id hid] at hgv
        have hu : vs[id]? = some vs[id] := List.getElem?_eq_getElem hid
        apply hdi
        rw [h.holds id _ v hu hgv, hP.norm, hP.norm, hd1 vec (by simp), hd1 vs[id] (by simp)]) hd
    have hx := doLevels_ext P vo sched (P.norm vec) vs.length (Nat.min level (({ s with once := true } : Index V).put (newNode vs.length (P.norm vec) level)).maxLayer + 1)
      (({ s with once := true } : Index V).put (newNode vs.length (P.norm vec) level)) ep (idsOk_put hids _)
    rw [hd] at hx
    have hvid : v.id = vs.length := (hx.ids (idsOk_put hids _)).get hg
    have hgo : ∀ id w, s1.get id = some w → ∃ w', s'.get id = some w' ∧ w'.conns = w.conns := by
      intro id w hw
      rw [hgs, get_put]
      by_cases he : id = vs.length
      · rw [if_pos (show id = v.id by omega)]
        rw [he, hg] at hw; cases hw
        exact ⟨_, rfl, rfl⟩
      · rw [if_neg (show id ≠ v.id by omega)]
        exact ⟨w, hw, rfl⟩
    intro a b ha hb
    have := hres a b ha hb
    clear ha hb
    induction this with
    | here => exact .here
    | link _ h1 h2 h3 ih =>
      obtain ⟨w', e1, e2⟩ := hgo _ _ h1
      exact .link ih e1 (by rw [e2]; exact h2) h3

/-- The base level of a small collection is connected, in memory and in storage. -/
theorem hist_tied [LawfulDist D] {P : Params V D} (hP : P.Ok) (hm0 : 0 < P.maxConn) (hef : 0 < P.efC) (hdi : ∀ a b, P.metric.len a = P.metric.len b → ∃ d, P.metric.dist a b = some d)
    {s : Index V} {vs : List V} (h : Hist P s vs) :
    (vs.length ≤ P.maxConn0 + 1 → Tied s.get vs.length) ∧ (s.kvCount.getD 0 ≤ P.maxConn0 + 1 → Tied s.reopen.get (s.kvCount.getD 0)) := by
  induction h with
  | init => exact ⟨fun _ a b ha => by simp at ha, fun _ a b ha => by simp [init] at ha⟩
  | @add s s' vs vo sched vec level hh ha ih =>
    have hi := hist_inv hP hh
    have hk : s'.kv = s.kv ∧ s'.kvCount = s.kvCount := by
      have := add_keeps (P := P) (vo := vo) (sched := sched) (x := vs.length) (vec := vec) (level := level) hi.ids
      rw [ha] at this; exact ⟨this.kv, this.kvCount⟩
    constructor
    · intro hl
      simp only [List.length_append, List.length_cons, List.length_nil, Nat.zero_add] at hl ⊢
      exact tied_add hP hm0 hef hdi hi ha (by omega) (ih.1 (by omega))
    · rw [hk.2]
      intro hl
      exact tied_congr (fun id => by rw [reopen_get, reopen_get, hk.1]) (ih.2 hl)
  | @refused s s' vs e vo sched vec level hh hn hl ha ih =>
    have hi := hist_inv hP hh
    have hk := add_keeps (P := P) (vo := vo) (sched := sched) (x := vs.length) (vec := vec) (level := level) hi.ids
    rw [ha] at hk
    have hkv : s'.kv = s.kv := hk.kv
    have hkc : s'.kvCount = s.kvCount := hk.kvCount
    constructor
    · intro hle
      have hc := ih.1 hle
      rcases add_wrong_length hP hi hn hl vo sched level with h1 | ⟨_, h1⟩ | h1
      · rw [h1] at ha; cases ha; exact hc
      · rw [h1] at ha; cases ha; exact hc
      · rw [h1] at ha; cases ha
        refine hc.grow (fun id v links b hid hg hl hb => ?_) (fun id v links hid g1 g2 => ⟨v, links, ?_, g2, fun _ hb => hb⟩)
        · obtain ⟨w, a1, _, _, a4⟩ := hi.wf id hid
          rw [a1] at hg; cases hg
          exact ((a4 0 links hl).2.2.2 b hb).1
        · rw [get_put, if_neg (show id ≠ (newNode vs.length (P.norm vec) level).id from Nat.ne_of_lt hid)]; exact g1
    · rw [hkc]
      intro hl
      exact tied_congr (fun id => by rw [reopen_get, reopen_get, hkv]) (ih.2 hl)
  | @flush s s' vs order hh hn ho hf ih =>
    have hi := hist_inv hP hh
    obtain ⟨s1, hw, rfl⟩ := flush_ok hi.ids hf
    constructor
    · intro hl
      exact tied_congr (g := s.get) (g' := s1.get) (fun id => hw.get (dirty_cached hi.ids order) id) (ih.1 hl)
    · intro hl
      exact tied_congr (g := s.get) (fun id => by
        rw [reopen_get, map_core_core]; exact wroteAll hi.ids hi.synced ho hw id) (ih.1 hl)
  | load _ ih => exact ih
  | unread _ ih => exact ih
  | @restart s vs hh ih =>
    have hi := hist_inv hP hh
    have hlen : (vs.take (s.kvCount.getD 0)).length = s.kvCount.getD 0 := by rw [List.length_take]; have := hi.le; omega
    constructor
    · rw [hlen]; exact ih.2
    · exact ih.2

omit [Dist D] in
/-- the links of the stored vectors lead a search along every walk -/
theorem reach_of_walk {P : Params V D} (hP : P.Ok) (hdi : ∀ a b, P.metric.len a = P.metric.len b → ∃ d, P.metric.dist a b = some d)
    {s : Index V} {vs : List V} (hi : Inv P s vs) {q : V} (hq : ∀ u ∈ vs, P.metric.len u = P.metric.len q) {a b : Nat} (ha : a < vs.length)
    (h : Walk s.get a b) : Reach ((firstGraph P s vs.length).senv (P.norm q) none) 0 [a] b := by
  have hcl : ∀ id v links b, id < vs.length → s.get id = some v → v.conns[0]? = some links → b ∈ links → b < vs.length := by
    intro id v links b hid hg hl hb
    obtain ⟨w, a1, _, _, a4⟩ := hi.wf id hid
    rw [a1] at hg; cases hg
    exact ((a4 0 links hl).2.2.2 b hb).1
  have : b < vs.length ∧ Reach ((firstGraph P s vs.length).senv (P.norm q) none) 0 [a] b := by
    induction h with
    | here => exact ⟨ha, .start _ (by simp)⟩
    | @link b c v links _ h1 h2 h3 ih =>
      have hc := hcl _ _ _ _ ih.1 h1 h2 h3
      obtain ⟨w, hw, _⟩ := hi.wf c hc
      have hu : vs[c]? = some vs[c] := List.getElem?_eq_getElem hc
      obtain ⟨d, hd⟩ := hdi (P.norm q) w.vec (by rw [hi.holds c _ w hu hw, hP.norm, hP.norm, hq _ (List.getElem_mem hc)])
      refine ⟨hc, .link b c d ih.2 ⟨v, links, ?_, Nat.zero_le _, h2, h3⟩ ⟨w, ?_, hd⟩⟩
      · show (if b < vs.length then s.get b else none) = _
        rw [if_pos ih.1]; exact h1
      · show (if c < vs.length then s.get c else none) = _
        rw [if_pos hc]; exact hw
  exact this.2

end Fave.Index
