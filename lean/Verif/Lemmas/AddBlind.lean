import Verif.Lemmas.AddTotal
import Verif.Lemmas.Complete
import Verif.Lemmas.SearchMany
/-! Additions when the vectors of the earlier additions cannot be read back. -/
set_option linter.unusedSectionVars false
namespace Fave.Index
open Queue Search Spec
variable {V D : Type} [Dist D]

/-- The selection fails as soon as it has to look at a vector and none can be read. -/
theorem selectNeighbors_blind {P : Params V D} {vo : Nat → Option V} {max : Nat} {input : Array (Item D)}
    (hm : 0 < max) (hs : max ≤ input.size) (hsm : ∀ x ∈ input.toList, x.id < P.cacheSize)
    (hvo : ∀ x ∈ input.toList, vo x.id = none) : selectNeighbors P vo (fun _ => false) max input = .error .error := by
  have hp := drain_perm lessMax input
  unfold selectNeighbors
  rw [if_neg (by omega)]
  simp only
  rw [if_neg]
  · have hel : 0 < (drain lessMax input).length := by rw [hp.length_eq]; simp; omega
    obtain ⟨f, hf⟩ : ∃ f, (drain lessMax input).length = f + 1 := ⟨_, (Nat.succ_pred (by omega)).symm⟩
    rw [hf]
    unfold heurLoop
    rw [if_neg (by simp; omega)]
    have hno : ∀ i : Nat, (((drain lessMax input).map Item.id)[i]?).bind vo = none := by
      intro i
      cases he : ((drain lessMax input).map Item.id)[i]? with
      | none => rfl
      | some id =>
        obtain ⟨x, hx, rfl⟩ := List.mem_map.mp (List.mem_of_getElem? he)
        exact hvo x (hp.mem_iff.mp hx)
    have hsize : ∀ (l : List (Item D × Nat)) (q : Array (ItemIx D)),
        (l.foldl (fun q x => insert lessMinIx q ⟨x.1.id, x.2, x.1.dist⟩) q).size = q.size + l.length := by
      intro l
      induction l with
      | nil => intro q; rfl
      | cons a l ih => intro q; rw [List.foldl_cons, ih, insert_size]; simp; omega
    cases hpop : pop lessMinIx ((drain lessMax input).zipIdx.foldl (fun q x => insert lessMinIx q ⟨x.1.id, x.2, x.1.dist⟩) #[]) with
    | none =>
      have := pop_none lessMinIx hpop
      rw [hsize] at this
      rw [List.length_zipIdx] at this; omega
    | some b =>
      obtain ⟨cur, closest⟩ := b
      simp only [hno, Bool.false_eq_true, if_false]
  · intro hany
    obtain ⟨x, hx, hc⟩ := List.any_eq_true.mp hany
    have := hsm x (hp.mem_iff.mp hx)
    simp at hc; omega

/-- `b` can be reached from `a` over links of the base level -/
inductive Walk (get : Nat → Option (Vertex V)) (a : Nat) : Nat → Prop where
  | here : Walk get a a
  | link {b c v links} : Walk get a b → get b = some v → v.conns[0]? = some links → c ∈ links → Walk get a c

/-- linking fails on the base level if there are enough candidates and none of their vectors can be read -/
theorem doAtLevel_blind {P : Params V D} (hP : P.Ok) (hdi : ∀ a b, P.metric.len a = P.metric.len b → ∃ d, P.metric.dist a b = some d)
    {n L : Nat} (hL : L ≠ 0) (hn : n < P.cacheSize) (hm : 0 < P.maxConn) (hef : P.maxConn ≤ P.efC) {vo : VecOracle V}
    (hvo : ∀ id, id < n → vo 0 none 0 id = none) {sched : Graph.Scheds D} {q : V}
    {ep : Nat} {s : Index V} (hold : ∀ id, id < n → ∃ v, s.get id = some v ∧ v.conns.length = v.level + 1)
    (hcl : ∀ id v links b, id < n → s.get id = some v → v.conns[0]? = some links → b ∈ links → b < n)
    (hf : Fits P n L q s) (hep : ep < n)
    (ids : List Nat) (hnd : ids.Nodup) (hlen : P.maxConn ≤ ids.length) (hreach : ∀ x ∈ ids, Walk s.get ep x) :
    doAtLevel P vo sched q n s ep 0 = (s, .error .error) := by
  obtain ⟨w, hw, _⟩ := hold ep hep
  obtain ⟨d, hd⟩ := hf.entryDist hL hdi hep hw
  have hpk : pickEntry P s q 4 [] ep = .ok ⟨ep, d⟩ := by
    unfold pickEntry; rw [hw]; simp only; rw [hd]
  obtain ⟨results, hr⟩ := search_total_below hP (Nat.le_of_lt hn) hold hcl
    (q := q) (fun id v hid hg => hdi _ _ (by rw [hf.q, hf.lens id v hid hg])) (sched := sched 0) (ef := P.efC) (e := ⟨ep, d⟩) hep
  have heps : EpsOk ((s.graph P).senv q none) [⟨ep, d⟩] :=
    ⟨by simp, fun y hy => by simp at hy; subst hy; show ep < P.visitedSize; have := hP.sizes; omega⟩
  have hres : ∀ y ∈ results.toList, y.id < n :=
    searchLayer_closed (C := fun i => i < n) hcl (fun y hy => by simp at hy; subst hy; exact hep) (keysOk P s q none) heps hr
  have hdist : ∀ id, id < n → ∃ d, HasDist ((s.graph P).senv q none) id d := by
    intro id hid
    obtain ⟨v, hv, _⟩ := hold id hid
    obtain ⟨d, hd⟩ := hdi q v.vec (by rw [hf.q, hf.lens id v hid hv])
    exact ⟨d, v, hv, hd⟩
  have hall : ∀ x, Walk s.get ep x → x < n ∧ Reach ((s.graph P).senv q none) 0 [ep] x := by
    intro x hx
    induction hx with
    | here => exact ⟨hep, .start _ (by simp)⟩
    | @link b c v links _ hg hc hm ih =>
      have hcn := hcl b v links c ih.1 hg hc hm
      obtain ⟨d, hdc⟩ := hdist c hcn
      exact ⟨hcn, .link b c d ih.2 ⟨v, links, hg, Nat.zero_le _, hc, hm⟩ hdc⟩
  have hsize : P.maxConn ≤ results.size := by
    rcases searchLayer_many heps (fun e he => by simp at he; subst he; exact hdist ep hep) hr with h1 | h1
    · have : (P.efC : Int) ≤ (results.size : Int) := h1
      omega
    · have hsub : ids ⊆ results.toList.map Item.id := by
        intro x hx
        obtain ⟨hxn, hxr⟩ := hall x (hreach x hx)
        refine h1 x hxr ⟨?_, fun _ p hp => by cases hp⟩
        show s.tombs.contains x = false
        rw [hf.tombs]; rfl
      have := List.Nodup.length_le_of_subset hnd hsub
      simp at this
      omega
  have hk := selectNeighbors_blind (P := P) (vo := vo 0 none 0) hm hsize (fun x hx => Nat.lt_trans (hres x hx) hn) (fun x hx => hvo _ (hres x hx))
  unfold doAtLevel
  rw [hpk]
  simp only
  rw [hr]
  simp only
  rw [hk]

/-- On a one-layer index the addition fails and leaves an unlinked node. -/
theorem add_blind {P : Params V D} (hP : P.Ok) (hdi : ∀ a b, P.metric.len a = P.metric.len b → ∃ d, P.metric.dist a b = some d)
    (hm : 0 < P.maxConn) (hef : P.maxConn ≤ P.efC)
    {s : Index V} {vs : List V} (h : Inv P s vs) (hv : vs ≠ []) {vec : V} (hL : P.metric.len vec ≠ 0) (hlen : ∀ u ∈ vs, P.metric.len u = P.metric.len vec)
    (hn : vs.length < P.cacheSize) {vo : VecOracle V} (hvo : ∀ id, id < vs.length → vo 0 none 0 id = none)
    (h0 : s.maxLayer = 0) (ids : List Nat) (hnd : ids.Nodup) (hids : P.maxConn ≤ ids.length) (hreach : ∀ x ∈ ids, Walk s.get s.entry x)
    (sched : Graph.Scheds D) (level : Nat) :
    add P vo sched s vs.length vec level = (({ s with once := true } : Index V).put (newNode vs.length (P.norm vec) level), some .error) := by
  unfold add
  rw [if_neg hL]
  unfold insertNode
  rw [if_neg (fun hh => hv (h.path.mp hh))]
  simp only
  rw [if_neg (by omega)]
  have hids' : IdsOk ({ s with once := true } : Index V) := ⟨h.ids.cache, h.ids.kv⟩
  have hget : ∀ b, b < vs.length → (({ s with once := true } : Index V).put (newNode vs.length (P.norm vec) level)).get b = s.get b := by
    intro b hb; rw [get_put, if_neg (show b ≠ (newNode vs.length (P.norm vec) level).id from Nat.ne_of_lt hb)]; rfl
  have hcl : ∀ id v links b, id < vs.length → (({ s with once := true } : Index V).put (newNode vs.length (P.norm vec) level)).get id = some v → v.conns[0]? = some links → b ∈ links → b < vs.length := by
    intro id v links b hid hg hl hb
    rw [hget id hid] at hg
    obtain ⟨w, a1, _, _, a4⟩ := h.wf id hid
    rw [a1] at hg; cases hg
    exact ((a4 0 links hl).2.2.2 b hb).1
  have hfits : Fits P vs.length (P.metric.len vec) (P.norm vec) (({ s with once := true } : Index V).put (newNode vs.length (P.norm vec) level)) := by
    refine ⟨idsOk_put hids' _, h.tombs, ?_, hP.norm vec⟩
    intro id v hid hg
    rw [hget id hid] at hg
    have hu : vs[id]? = some vs[id] := List.getElem?_eq_getElem hid
    rw [h.holds id _ v hu hg, hP.norm, hlen _ (List.getElem_mem hid)]
  have hep : s.entry < vs.length := h.entry hv
  have hwalk : ∀ x, Walk s.get s.entry x → x < vs.length ∧ Walk (({ s with once := true } : Index V).put (newNode vs.length (P.norm vec) level)).get s.entry x := by
    intro x hx
    induction hx with
    | here => exact ⟨hep, .here⟩
    | @link b c v links _ hg hc hm ih =>
      have hg' : (({ s with once := true } : Index V).put (newNode vs.length (P.norm vec) level)).get b = some v := by rw [hget b ih.1]; exact hg
      exact ⟨hcl b v links c ih.1 hg' hc hm, .link ih.2 hg' hc hm⟩
  have hd := doAtLevel_blind hP hdi hL hn hm hef hvo (sched := sched) (ep := s.entry) (fun id hid => by
      obtain ⟨w, a1, _, a3, _⟩ := h.wf id hid
      exact ⟨w, by rw [hget id hid]; exact a1, a3⟩) hcl hfits hep ids hnd hids (fun x hx => (hwalk x (hreach x hx)).2)
  have hml : (({ s with once := true } : Index V).put (newNode vs.length (P.norm vec) level)).maxLayer = 0 := h0
  unfold connectNew
  rw [hml]
  simp only [findBest, show Nat.min level 0 = 0 from Nat.min_eq_right (Nat.zero_le _), Nat.zero_add]
  unfold doLevels
  have he : (({ s with once := true } : Index V).put (newNode vs.length (P.norm vec) level)).entry = s.entry := rfl
  rw [he, hd]

/-! ## Small collections need no vectors -/

theorem connectNeighbor_small {P : Params V D} (hc : P.maxConn ≤ P.maxConn0) {n lv level nb : Nat} {rem : List Nat} {s : Index V} {vo : VecOracle V}
    (hsm : n < P.maxConn) (h : Mid P n lv level (nb :: rem) s) (hnb : nb < n) : (connectNeighbor P vo n level s nb).2 = none := by
  obtain ⟨v, hg, hid, hlen, hlinks⟩ := h.old nb hnb
  unfold connectNeighbor
  rw [hg]
  simp only
  rw [if_neg (by omega)]
  split
  · rfl
  · have hr : (if level > v.level then upgrade { v with committed := false } level else { v with committed := false }) = raised v level := rfl
    simp only [hr]
    obtain ⟨hc1, hc2⟩ := raised_conns (l := level) hlen
    have hlv := (raised_level v level).2.1
    have hex : (raised v level).conns[level]? = some (raised v level).conns[level] := List.getElem?_eq_getElem (by omega)
    rw [hex]
    simp only
    rw [if_pos]
    have hcur : (raised v level).conns[level].Nodup ∧ ∀ c ∈ (raised v level).conns[level], c < n := by
      rcases hc2 level _ hex with h1 | h1
      · obtain ⟨a, _, _, b⟩ := hlinks level _ h1
        refine ⟨a, fun c hc => ?_⟩
        rcases b c hc with h2 | ⟨_, _, h2 | ⟨_, h2⟩⟩
        · exact h2.1
        · omega
        · exact absurd (by simp) h2
      · rw [h1]; exact ⟨by simp, by simp⟩
    have hle : (raised v level).conns[level].length ≤ (List.range n).length :=
      List.Nodup.length_le_of_subset hcur.1 (fun c hc => List.mem_range.mpr (hcur.2 c hc))
    simp at hle
    unfold maxConns
    split <;> omega

theorem connectAll_small {P : Params V D} (hc : P.maxConn ≤ P.maxConn0) {n lv level : Nat} {nbs : List Nat} {s : Index V} {vo : VecOracle V}
    (hsm : n < P.maxConn) (h : Mid P n lv level nbs s) (hl : level ≤ lv) (hnb : ∀ b ∈ nbs, b < n) (hnd : nbs.Nodup) (ht : s.tombs = []) :
    (connectAll P vo n level s nbs).2 = none := by
  induction nbs generalizing s with
  | nil => rfl
  | cons nb nbs ih =>
    obtain ⟨hn1, hn2⟩ := List.nodup_cons.mp hnd
    have h1 := connectNeighbor_small (vo := vo) hc hsm h (hnb nb (by simp))
    unfold connectAll
    have hs := (connectNeighbor_ext P vo n level s nb).same.tombs
    cases hcn : connectNeighbor P vo n level s nb with
    | mk s1 o =>
      rw [hcn] at h1 hs
      simp only at h1; subst h1
      exact ih (connectNeighbor_mid h hl (hnb nb (by simp)) hn1 ht hcn) (fun b hb => hnb b (by simp [hb])) hn2 (hs.trans ht)

theorem doAtLevel_small {P : Params V D} (hP : P.Ok) (hdi : ∀ a b, P.metric.len a = P.metric.len b → ∃ d, P.metric.dist a b = some d)
    {n L : Nat} (hL : L ≠ 0) (hn : n < P.cacheSize) (hsm : n < P.maxConn) {vo : VecOracle V} {sched : Graph.Scheds D} {q : V}
    {lv level ep : Nat} {s : Index V} (h : Mid P n lv (level + 1) [] s) (hf : Fits P n L q s) (hl : level ≤ lv) (hep : ep < n) :
    ∃ s' ep', doAtLevel P vo sched q n s ep level = (s', .ok ep') := by
  obtain ⟨w, hw, _⟩ := h.old ep hep
  obtain ⟨d, hd⟩ := hf.entryDist hL hdi hep hw
  have hpk : pickEntry P s q 4 [] ep = .ok ⟨ep, d⟩ := by
    unfold pickEntry; rw [hw]; simp only; rw [hd]
  have hcl : ∀ id v links b, id < n → s.get id = some v → v.conns[level]? = some links → b ∈ links → b < n := by
    intro id v0 links b hid hg0 hlk hb
    obtain ⟨v1, a1, _, _, a4⟩ := h.old id hid
    rw [a1] at hg0; cases hg0
    rcases (a4 level links hlk).2.2.2 b hb with ⟨h1, _⟩ | ⟨_, _, h1 | ⟨h1, _⟩⟩ <;> omega
  obtain ⟨results, hr⟩ := search_total_below hP (Nat.le_of_lt hn) (fun id hid => by
      obtain ⟨v, a1, _, a3, _⟩ := h.old id hid; exact ⟨v, a1, a3⟩) hcl
    (q := q) (fun id v hid hg => hdi _ _ (by rw [hf.q, hf.lens id v hid hg])) (sched := sched level) (ef := P.efC) (e := ⟨ep, d⟩) hep
  have heps : EpsOk ((s.graph P).senv q none) [⟨ep, d⟩] :=
    ⟨by simp, fun y hy => by simp at hy; subst hy; show ep < P.visitedSize; have := hP.sizes; omega⟩
  have hres : ∀ y ∈ results.toList, y.id < n :=
    searchLayer_closed (C := fun i => i < n) hcl (fun y hy => by simp at hy; subst hy; exact hep) (keysOk P s q none) heps hr
  have hnod : (results.toList.map Item.id).Nodup :=
    (searchLayer_inv (P := fun _ => True) (fun _ _ => trivial) heps (fun _ _ => trivial) hr).2
  have hsize : results.size < P.maxConn := by
    have : (results.toList.map Item.id).length ≤ (List.range n).length :=
      List.Nodup.length_le_of_subset hnod (by
        intro i hi
        obtain ⟨y, hy, rfl⟩ := List.mem_map.mp hi
        exact List.mem_range.mpr (hres y hy))
    simp at this; omega
  have hk : selectNeighbors P (vo level none 0) (fun _ => false) P.maxConn results = .ok results := by
    unfold selectNeighbors; rw [if_pos hsize]
  obtain ⟨b1, b2, b3⟩ := selected_ids hk
  have hnb : ∀ b ∈ (drain lessMax results).map Item.id, b < n := by
    intro b hb
    obtain ⟨y, hy, rfl⟩ := List.mem_map.mp (b3 b hb)
    exact hres y hy
  obtain ⟨v, hv, _, _, hvl, _⟩ := h.new
  have hc := connectAll_small (vo := vo) hP.conn hsm (mid_enter h hl hv hnb (b2 hnod) (by unfold maxConns; have := hP.conn; split <;> omega)) hl hnb (b2 hnod) hf.tombs
  unfold doAtLevel
  rw [hpk]
  simp only
  rw [hr]
  simp only
  rw [hk]
  simp only
  rw [hv]
  simp only
  rw [if_neg (by omega)]
  cases hca : connectAll P vo n level (s.put (setConns v level ((drain lessMax results).map Item.id))) ((drain lessMax results).map Item.id) with
  | mk s1 o =>
    rw [hca] at hc
    simp only at hc; subst hc
    simp only
    split
    · exact ⟨_, _, rfl⟩
    · exact ⟨_, _, rfl⟩

theorem doLevels_small {P : Params V D} (hP : P.Ok) (hdi : ∀ a b, P.metric.len a = P.metric.len b → ∃ d, P.metric.dist a b = some d)
    {n L : Nat} (hL : L ≠ 0) (hn : n < P.cacheSize) (hsm : n < P.maxConn) {vo : VecOracle V} {sched : Graph.Scheds D} {q : V}
    {lv : Nat} (l : Nat) {ep : Nat} {s : Index V} (h : Mid P n lv l [] s) (hf : Fits P n L q s) (hl : l ≤ lv + 1) (hep : ep < n) :
    (doLevels P vo sched q n l s ep).2 = none := by
  induction l generalizing s ep with
  | zero => rfl
  | succ l ih =>
    obtain ⟨s', ep', hd⟩ := doAtLevel_small hP hdi hL hn hsm (vo := vo) (sched := sched) h hf (by omega) hep
    have hm := doAtLevel_mid hP.conn (fun id hid => Nat.lt_of_lt_of_le hid hP.sizes) h (by omega) hep (Nat.le_of_lt hn) hf.tombs hd
    have hx := doAtLevel_ext P vo sched q n s ep l hf.ids
    rw [hd] at hx
    unfold doLevels
    rw [hd]
    exact ih hm.1 (hf.ext hx) (by omega) hm.2

/-- The addition of a vector of the right length to a small collection succeeds whatever the vector cache delivers. -/
theorem add_small {P : Params V D} (hP : P.Ok) (hdi : ∀ a b, P.metric.len a = P.metric.len b → ∃ d, P.metric.dist a b = some d)
    {s : Index V} {vs : List V} (h : Inv P s vs) {vec : V} (hL : P.metric.len vec ≠ 0) (hlen : ∀ u ∈ vs, P.metric.len u = P.metric.len vec)
    (hn : vs.length < P.cacheSize) (hsm : vs.length < P.maxConn) (vo : VecOracle V)
    (sched : Graph.Scheds D) (level : Nat) : (add P vo sched s vs.length vec level).2 = none := by
  unfold add
  rw [if_neg hL]
  unfold insertNode
  by_cases hv : vs = []
  · rw [if_pos (h.path.mpr hv)]
    unfold insertInitial
    simp only
    rw [if_neg (by omega)]
  · rw [if_neg (fun hh => hv (h.path.mp hh))]
    simp only
    rw [if_neg (by omega)]
    have hids : IdsOk ({ s with once := true } : Index V) := ⟨h.ids.cache, h.ids.kv⟩
    have hget : ∀ b, b < vs.length → (({ s with once := true } : Index V).put (newNode vs.length (P.norm vec) level)).get b = s.get b := by
      intro b hb; rw [get_put, if_neg (show b ≠ (newNode vs.length (P.norm vec) level).id from Nat.ne_of_lt hb)]; rfl
    have hcl : ∀ (l id : Nat) v links b, id < vs.length → (({ s with once := true } : Index V).put (newNode vs.length (P.norm vec) level)).get id = some v → v.conns[l]? = some links → b ∈ links → b < vs.length := by
      intro l id v links b hid hg hl hb
      rw [hget id hid] at hg
      obtain ⟨w, a1, _, _, a4⟩ := h.wf id hid
      rw [a1] at hg; cases hg
      exact ((a4 l links hl).2.2.2 b hb).1
    have hfits : Fits P vs.length (P.metric.len vec) (P.norm vec) (({ s with once := true } : Index V).put (newNode vs.length (P.norm vec) level)) := by
      refine ⟨idsOk_put hids _, h.tombs, ?_, hP.norm vec⟩
      intro id v hid hg
      rw [hget id hid] at hg
      have hu : vs[id]? = some vs[id] := List.getElem?_eq_getElem hid
      rw [h.holds id _ v hu hg, hP.norm, hlen _ (List.getElem_mem hid)]
    have hm := mid_start (P := P) (L := level) (l := Nat.min level (({ s with once := true } : Index V).put (newNode vs.length (P.norm vec) level)).maxLayer + 1)
      (q := P.norm vec) (s := { s with once := true }) h.wf
    obtain ⟨ep, hep⟩ := findBest_total hP hdi hL hn (sched := sched) (target := level) hfits (fun id hid => by
      obtain ⟨w, a1, _, a3, _⟩ := h.wf id hid
      exact ⟨w, by rw [hget id hid]; exact a1, a3⟩) hcl (({ s with once := true } : Index V).put (newNode vs.length (P.norm vec) level)).maxLayer (h.entry hv)
    have hepn : ep < vs.length := findBest_lt (fun id hid => Nat.lt_of_lt_of_le hid hP.sizes) hcl (by omega) _ (h.entry hv) hep
    have hdl := doLevels_small hP hdi hL hn hsm (vo := vo) (sched := sched) (Nat.min level (({ s with once := true } : Index V).put (newNode vs.length (P.norm vec) level)).maxLayer + 1)
      hm hfits (Nat.add_le_add_right (Nat.min_le_left ..) 1) hepn
    have hx := doLevels_ext P vo sched (P.norm vec) vs.length (Nat.min level (({ s with once := true } : Index V).put (newNode vs.length (P.norm vec) level)).maxLayer + 1)
      (({ s with once := true } : Index V).put (newNode vs.length (P.norm vec) level)) ep (idsOk_put hids _)
    unfold connectNew
    have hep' : findBest P (({ s with once := true } : Index V).put (newNode vs.length (P.norm vec) level)) sched (P.norm vec) level
      (({ s with once := true } : Index V).put (newNode vs.length (P.norm vec) level)).maxLayer
      (({ s with once := true } : Index V).put (newNode vs.length (P.norm vec) level)).entry = .ok ep := hep
    rw [hep']
    simp only
    cases hd : doLevels P vo sched (P.norm vec) vs.length (Nat.min level (({ s with once := true } : Index V).put (newNode vs.length (P.norm vec) level)).maxLayer + 1)
      (({ s with once := true } : Index V).put (newNode vs.length (P.norm vec) level)) ep with
    | mk s1 o =>
      rw [hd] at hdl hx
      simp only at hdl; subst hdl
      obtain ⟨v', hv', _⟩ := hx.self (idsOk_put hids _) _ (by rw [get_put]; exact if_pos rfl)
      have hv' : s1.get vs.length = some v' := hv'
      simp only
      rw [hv']
      simp only
      split <;> rfl

end Fave.Index
