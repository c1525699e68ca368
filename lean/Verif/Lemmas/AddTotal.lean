import Verif.Lemmas.HistSearch
/-!
# An addition under a number below the vector-cache size succeeds
-/
namespace Fave.Index
open Queue Search Spec Graph
variable {V D : Type} [Dist D]

/-- every read of the vector cache for an id up to `n` delivers a vector of length `L` -/
def Readable (P : Params V D) (n L : Nat) (vo : Nat → Option V) : Prop := ∀ id, id ≤ n → ∃ w, vo id = some w ∧ P.metric.len w = L

theorem distNodes_total {P : Params V D} (hdi : ∀ a b, P.metric.len a = P.metric.len b → ∃ d, P.metric.dist a b = some d)
    {n L : Nat} (hL : L ≠ 0) (hn : n < P.cacheSize) {vo : Nat → Option V} (hvo : Readable P n L vo) {a b : Nat} (ha : a ≤ n) (hb : b ≤ n) :
    ∃ d, distNodes P vo a b = .ok d := by
  obtain ⟨va, h1, h2⟩ := hvo a ha
  obtain ⟨vb, h3, h4⟩ := hvo b hb
  obtain ⟨d, hd⟩ := hdi va vb (by omega)
  refine ⟨d, ?_⟩
  simp only [distNodes, vecGet, if_neg (show ¬ P.cacheSize ≤ a by omega), if_neg (show ¬ P.cacheSize ≤ b by omega), h1, h3]
  rw [if_neg (by omega), if_neg (by omega), hd]

theorem overfull_total {P : Params V D} (hdi : ∀ a b, P.metric.len a = P.metric.len b → ∃ d, P.metric.dist a b = some d)
    {n L : Nat} (hL : L ≠ 0) (hn : n < P.cacheSize) {vo : Nat → Nat → Option V} (hvo : ∀ k, Readable P n L (vo k)) {nb : Nat} (hb : nb ≤ n)
    {cs : List Nat} (hcs : ∀ c ∈ cs, c ≤ n) (k : Nat) (q : Array (Item D)) : ∃ r, overfull P vo nb k cs q = .ok r := by
  induction cs generalizing k q with
  | nil => exact ⟨q, rfl⟩
  | cons c cs ih =>
    obtain ⟨d, hd⟩ := distNodes_total hdi hL hn (hvo k) (hcs c (by simp)) hb
    unfold overfull
    rw [hd]
    exact ih (fun c hc => hcs c (by simp [hc])) _ _

theorem heurLoop_total {P : Params V D} {vo : Nat → Option V} {deny : Nat → Bool} {max : Nat} {ids : List Nat} (fuel : Nat)
    {closest : Array (ItemIx D)} (kept : List (ItemIx D)) (h : ∀ x ∈ closest.toList, ∃ w, (ids[x.index]?).bind vo = some w) :
    ∃ r, heurLoop P vo deny max ids fuel closest kept = .ok r := by
  induction fuel generalizing closest kept with
  | zero => exact ⟨kept, rfl⟩
  | succ fuel ih =>
    unfold heurLoop
    split
    · exact ⟨kept, rfl⟩
    · cases hp : pop lessMinIx closest with
      | none => exact ⟨kept, rfl⟩
      | some p =>
        obtain ⟨cur, q⟩ := p
        have hpm := pop_perm lessMinIx hp
        have hq : ∀ x ∈ q.toList, ∃ w, (ids[x.index]?).bind vo = some w := fun x hx => h x (hpm.mem_iff.mpr (by simp [hx]))
        obtain ⟨w, hw⟩ := h cur (hpm.mem_iff.mpr (by simp))
        simp only [hw]
        split
        · exact ih kept hq
        · exact ih _ hq

theorem selectNeighbors_total {P : Params V D} {n L : Nat} (hn : n < P.cacheSize) {vo : Nat → Option V} (hvo : Readable P n L vo) {deny : Nat → Bool}
    {max : Nat} {input : Array (Item D)} (hi : ∀ x ∈ input.toList, x.id ≤ n) : ∃ r, selectNeighbors P vo deny max input = .ok r := by
  unfold selectNeighbors
  split
  · exact ⟨_, rfl⟩
  · have hm : ∀ x ∈ drain lessMax input, x.id ≤ n := fun x hx => hi x ((drain_perm lessMax input).mem_iff.mp hx)
    have hany : (drain lessMax input).any (fun x => decide (P.cacheSize ≤ x.id)) = false := by
      rw [List.any_eq_false]
      intro x hx
      have := hm x hx
      simp; omega
    simp only [hany, Bool.false_eq_true, if_false]
    obtain ⟨r, hr⟩ := heurLoop_total (P := P) (vo := vo) (deny := deny) (max := max) (ids := (drain lessMax input).map Item.id) (drain lessMax input).length
      (closest := (drain lessMax input).zipIdx.foldl (fun q x => insert lessMinIx q ⟨x.1.id, x.2, x.1.dist⟩) #[]) [] (by
        intro x hx
        have hx := (foldl_insert_perm lessMinIx (fun x : Item D × Nat => (⟨x.1.id, x.2, x.1.dist⟩ : ItemIx D)) _ _).mem_iff.mp hx
        simp only [List.append_nil, List.mem_map] at hx
        obtain ⟨⟨y, i⟩, hy, rfl⟩ := hx
        have hyi : (drain lessMax input)[i]? = some y := List.mem_zipIdx_iff_getElem?.mp hy
        obtain ⟨w, hw, _⟩ := hvo y.id (hm y (List.mem_of_getElem? hyi))
        exact ⟨w, by simp [List.getElem?_map, hyi, hw]⟩)
    rw [hr]
    exact ⟨_, rfl⟩

/-- the linked part below `n`: searches stay in it and succeed -/
theorem search_total_below {P : Params V D} (hP : P.Ok) {s : Index V} {n level : Nat} (hn : n ≤ P.cacheSize)
    (hold : ∀ id, id < n → ∃ v, s.get id = some v ∧ v.conns.length = v.level + 1)
    (hcl : ∀ id v links b, id < n → s.get id = some v → v.conns[level]? = some links → b ∈ links → b < n)
    {q : V} (hd : ∀ id v, id < n → s.get id = some v → ∃ d, P.metric.dist q v.vec = some d)
    {sched : Sched D} {ef : Int} {e : Item D} (he : e.id < n) :
    ∃ r, searchLayer ((s.graph P).senv q none) sched [e] ef level = .ok r := by
  have hz := hP.sizes
  have hk0 : KeysOk ((firstGraph P s n).senv q none) := fun id v hv => List.mem_range.mpr (firstGraph_get (P := P) hv).1
  have hfr : Frame ((firstGraph P s n).senv q none) s.get level (fun id => id < n) := by
    refine ⟨?_, ?_⟩
    · intro id hid
      show _ = Option.map core (if id < n then s.get id else none)
      rw [if_pos hid]
    · intro id v links b hid hg hl hb
      exact hcl id v links b hid (firstGraph_get (P := P) hg).2 hl hb
  have := searchLayer_frame hfr sched ef [e] (by intro y hy; simp at hy; subst hy; exact he) hk0 (keys' := s.cache.keys ++ s.kv.keys) (keysOk P s q none)
  have heq : SEnvWith ((firstGraph P s n).senv q none) s.get (s.cache.keys ++ s.kv.keys) = (s.graph P).senv q none := rfl
  rw [heq] at this
  rw [this]
  obtain ⟨v, hv, _⟩ := hold e.id he
  obtain ⟨d, hdv⟩ := hd e.id v he hv
  refine searchLayer_total ⟨?_, ?_⟩ hk0 ⟨by simp, ?_⟩ ?_
  · intro id v hv l hl
    obtain ⟨hid, hg⟩ := firstGraph_get (P := P) hv
    obtain ⟨w, a1, a2⟩ := hold id hid
    rw [a1] at hg; cases hg
    exact ⟨_, List.getElem?_eq_getElem (by omega)⟩
  · intro id v hv
    have := (firstGraph_get (P := P) hv).1
    show id < P.cacheSize; omega
  · intro y hy; simp at hy; subst hy
    show y.id < P.visitedSize; omega
  · intro y hy; simp at hy; subst hy
    refine ⟨d, ?_⟩
    have hg : (firstGraph P s n).get y.id = some v := by
      show (if y.id < n then s.get y.id else none) = _
      rw [if_pos he]; exact hv
    unfold distToNode
    show (match (firstGraph P s n).get y.id with | none => none | some v => P.metric.dist q v.vec) = _
    rw [hg]; exact hdv

/-- what the addition of a vector of the collection's length needs -/
structure Fits (P : Params V D) (n L : Nat) (q : V) (s : Index V) : Prop where
  ids : IdsOk s
  tombs : s.tombs = []
  lens : ∀ id v, id < n → s.get id = some v → P.metric.len v.vec = L
  q : P.metric.len q = L

theorem Fits.ext {P : Params V D} {n L : Nat} {q : V} {s s' : Index V} (h : Fits P n L q s) (hx : Ext n s s') : Fits P n L q s' := by
  refine ⟨hx.ids h.ids, hx.same.tombs.trans h.tombs, ?_, h.q⟩
  intro id v hid hg
  cases hs : s.get id with
  | none => rw [hx.none h.ids id (Nat.ne_of_lt hid) hs] at hg; cases hg
  | some w =>
    obtain ⟨v', b1, _, b2, _⟩ := hx.old h.ids id w (Nat.ne_of_lt hid) hs
    rw [hg] at b1; cases b1
    rw [b2]; exact h.lens id w hid hs

theorem Fits.entryDist {P : Params V D} {n L : Nat} {q : V} {s : Index V} (h : Fits P n L q s) (hL : L ≠ 0)
    (hdi : ∀ a b, P.metric.len a = P.metric.len b → ∃ d, P.metric.dist a b = some d) {id : Nat} {v : Vertex V} (hid : id < n) (hg : s.get id = some v) :
    ∃ d, (s.graph P).distNodeVec id q = some d := by
  have hl := h.lens id v hid hg
  have hq := h.q
  obtain ⟨d, hd⟩ := hdi v.vec q (by omega)
  refine ⟨d, ?_⟩
  have hg' : (s.graph P).get id = some v := hg
  unfold Graph.distNodeVec
  rw [hg']
  show (if P.metric.len v.vec = 0 then none else if P.metric.len q = 0 then none else P.metric.dist v.vec q) = _
  rw [if_neg (by omega), if_neg (by omega)]; exact hd

theorem connectNeighbor_total {P : Params V D} (hdi : ∀ a b, P.metric.len a = P.metric.len b → ∃ d, P.metric.dist a b = some d)
    {n L : Nat} (hL : L ≠ 0) (hn : n < P.cacheSize) {vo : VecOracle V} (hvo : ∀ l o k, Readable P n L (vo l o k)) {x level lv nb : Nat} {rem : List Nat} {s : Index V}
    (hx : x = n) (h : Mid P n lv level rem s) (hnb : nb < n) : (connectNeighbor P vo x level s nb).2 = none := by
  subst hx
  obtain ⟨v, hg, hid, hlen, hlinks⟩ := h.old nb hnb
  unfold connectNeighbor
  rw [hg]
  simp only
  rw [if_neg (by omega)]
  split
  · rfl
  · have hr : (if level > v.level then upgrade { v with committed := false } level else { v with committed := false }) = raised v level := rfl
    simp only [hr]
    obtain ⟨hc1, hc2⟩ := raised_conns (l := level) hlen
    have hlv := (raised_level v level).2.1
    have hex : (raised v level).conns[level]? = some (raised v level).conns[level] := List.getElem?_eq_getElem (by omega)
    rw [hex]
    simp only
    split
    · rfl
    · have hcur : ∀ c ∈ (raised v level).conns[level], c ≤ x := by
        intro c hc
        rcases hc2 level _ hex with h1 | h1
        · rcases (hlinks level _ h1).2.2.2 c hc with h2 | h2 <;> omega
        · rw [h1] at hc; cases hc
      obtain ⟨d, hd⟩ := distNodes_total hdi hL hn (hvo level (some nb) 0) (Nat.le_refl x) (Nat.le_of_lt hnb)
      rw [hd]
      simp only
      obtain ⟨cands, hca⟩ := overfull_total hdi hL hn (hvo level (some nb)) (Nat.le_of_lt hnb) hcur 1 (insert lessMax #[] ⟨x, d⟩)
      rw [hca]
      simp only
      obtain ⟨r, hr⟩ := selectNeighbors_total hn (hvo level (some nb) ((raised v level).conns[level].length + 1)) (deny := fun _ => false) (max := maxConns P level)
        (input := cands) (by
          intro y hy
          have hp := (overfull_perm hca).mem_iff.mp (List.mem_map_of_mem (f := Item.id) hy)
          rw [List.mem_append] at hp
          rcases hp with hp | hp
          · exact hcur _ hp
          · have := ((insert_perm lessMax #[] (⟨x, d⟩ : Item D)).map Item.id).mem_iff.mp hp
            simp at this; omega)
      rw [hr]

theorem connectAll_total {P : Params V D} (hdi : ∀ a b, P.metric.len a = P.metric.len b → ∃ d, P.metric.dist a b = some d)
    {n L : Nat} (hL : L ≠ 0) (hn : n < P.cacheSize) {vo : VecOracle V} (hvo : ∀ l o k, Readable P n L (vo l o k)) {lv level : Nat} {nbs : List Nat} {s : Index V}
    (h : Mid P n lv level nbs s) (hl : level ≤ lv) (hnb : ∀ b ∈ nbs, b < n) (hnd : nbs.Nodup) (ht : s.tombs = []) :
    (connectAll P vo n level s nbs).2 = none := by
  induction nbs generalizing s with
  | nil => rfl
  | cons nb nbs ih =>
    obtain ⟨hn1, hn2⟩ := List.nodup_cons.mp hnd
    have h1 := connectNeighbor_total hdi hL hn hvo rfl h (hnb nb (by simp))
    unfold connectAll
    have hs := (connectNeighbor_ext P vo n level s nb).same.tombs
    cases hc : connectNeighbor P vo n level s nb with
    | mk s1 o =>
      rw [hc] at h1 hs
      simp only at h1; subst h1
      exact ih (connectNeighbor_mid h hl (hnb nb (by simp)) hn1 ht hc) (fun b hb => hnb b (by simp [hb])) hn2 (hs.trans ht)

theorem doAtLevel_total {P : Params V D} (hP : P.Ok) (hdi : ∀ a b, P.metric.len a = P.metric.len b → ∃ d, P.metric.dist a b = some d)
    {n L : Nat} (hL : L ≠ 0) (hn : n < P.cacheSize) {vo : VecOracle V} (hvo : ∀ l o k, Readable P n L (vo l o k)) {sched : Graph.Scheds D} {q : V}
    {lv level ep : Nat} {s : Index V} (h : Mid P n lv (level + 1) [] s) (hf : Fits P n L q s) (hl : level ≤ lv) (hep : ep < n) :
    ∃ s' ep', doAtLevel P vo sched q n s ep level = (s', .ok ep') := by
  obtain ⟨w, hw, _⟩ := h.old ep hep
  obtain ⟨d, hd⟩ := hf.entryDist hL hdi hep hw
  have hpk : pickEntry P s q 4 [] ep = .ok ⟨ep, d⟩ := by
    unfold pickEntry; rw [hw]; simp only; rw [hd]
  have hcl : ∀ id v links b, id < n → s.get id = some v → v.conns[level]? = some links → b ∈ links → b < n := by
    intro id v0 links b hid hg0 hlk hb
    obtain ⟨v1, a1, _, _, a4⟩ := h.old id hid
    rw [a1] at hg0; cases hg0
    rcases (a4 level links hlk).2.2.2 b hb with ⟨h1, _⟩ | ⟨_, _, h1 | ⟨h1, _⟩⟩ <;> omega
  obtain ⟨results, hr⟩ := search_total_below hP (Nat.le_of_lt hn) (fun id hid => by
      obtain ⟨v, a1, _, a3, _⟩ := h.old id hid; exact ⟨v, a1, a3⟩) hcl
    (q := q) (fun id v hid hg => hdi _ _ (by rw [hf.q, hf.lens id v hid hg])) (sched := sched level) (ef := P.efC) (e := ⟨ep, d⟩) hep
  have heps : EpsOk ((s.graph P).senv q none) [⟨ep, d⟩] :=
    ⟨by simp, fun y hy => by simp at hy; subst hy; show ep < P.visitedSize; have := hP.sizes; omega⟩
  have hres : ∀ y ∈ results.toList, y.id < n :=
    searchLayer_closed (C := fun i => i < n) hcl (fun y hy => by simp at hy; subst hy; exact hep) (keysOk P s q none) heps hr
  have hnod : (results.toList.map Item.id).Nodup :=
    (searchLayer_inv (P := fun _ => True) (fun _ _ => trivial) heps (fun _ _ => trivial) hr).2
  obtain ⟨kept, hk⟩ := selectNeighbors_total hn (hvo level none 0) (deny := fun _ => false) (max := P.maxConn) (input := results)
    (fun x hx => Nat.le_of_lt (hres x hx))
  obtain ⟨b1, b2, b3⟩ := selected_ids hk
  have hnb : ∀ b ∈ (drain lessMax kept).map Item.id, b < n := by
    intro b hb
    obtain ⟨y, hy, rfl⟩ := List.mem_map.mp (b3 b hb)
    exact hres y hy
  obtain ⟨v, hv, _, _, hvl, _⟩ := h.new
  have hc := connectAll_total hdi hL hn hvo (mid_enter h hl hv hnb (b2 hnod) (by unfold maxConns; have := hP.conn; split <;> omega)) hl hnb (b2 hnod) hf.tombs
  unfold doAtLevel
  rw [hpk]
  simp only
  rw [hr]
  simp only
  rw [hk]
  simp only
  rw [hv]
  simp only
  rw [if_neg (by omega)]
  cases hca : connectAll P vo n level (s.put (setConns v level ((drain lessMax kept).map Item.id))) ((drain lessMax kept).map Item.id) with
  | mk s1 o =>
    rw [hca] at hc
    simp only at hc; subst hc
    simp only
    split
    · exact ⟨_, _, rfl⟩
    · exact ⟨_, _, rfl⟩

theorem doLevels_total {P : Params V D} (hP : P.Ok) (hdi : ∀ a b, P.metric.len a = P.metric.len b → ∃ d, P.metric.dist a b = some d)
    {n L : Nat} (hL : L ≠ 0) (hn : n < P.cacheSize) {vo : VecOracle V} (hvo : ∀ l o k, Readable P n L (vo l o k)) {sched : Graph.Scheds D} {q : V}
    {lv : Nat} (l : Nat) {ep : Nat} {s : Index V} (h : Mid P n lv l [] s) (hf : Fits P n L q s) (hl : l ≤ lv + 1) (hep : ep < n) :
    (doLevels P vo sched q n l s ep).2 = none := by
  induction l generalizing s ep with
  | zero => rfl
  | succ l ih =>
    obtain ⟨s', ep', hd⟩ := doAtLevel_total hP hdi hL hn hvo (sched := sched) h hf (by omega) hep
    have hm := doAtLevel_mid hP.conn (fun id hid => Nat.lt_of_lt_of_le hid hP.sizes) h (by omega) hep (Nat.le_of_lt hn) hf.tombs hd
    have hx := doAtLevel_ext P vo sched q n s ep l hf.ids
    rw [hd] at hx
    unfold doLevels
    rw [hd]
    exact ih hm.1 (hf.ext hx) (by omega) hm.2

theorem findBest_total {P : Params V D} (hP : P.Ok) (hdi : ∀ a b, P.metric.len a = P.metric.len b → ∃ d, P.metric.dist a b = some d)
    {n L : Nat} (hL : L ≠ 0) (hn : n < P.cacheSize) {sched : Graph.Scheds D} {q : V} {target : Nat} {s : Index V} (hf : Fits P n L q s)
    (hold : ∀ id, id < n → ∃ v, s.get id = some v ∧ v.conns.length = v.level + 1)
    (hcl : ∀ (l id : Nat) v links b, id < n → s.get id = some v → v.conns[l]? = some links → b ∈ links → b < n)
    (m : Nat) {ep : Nat} (hep : ep < n) : ∃ ep', findBest P s sched q target m ep = .ok ep' := by
  induction m generalizing ep with
  | zero => exact ⟨ep, rfl⟩
  | succ m ih =>
    unfold findBest
    split
    · exact ⟨ep, rfl⟩
    · obtain ⟨w, hw, _⟩ := hold ep hep
      obtain ⟨d, hd⟩ := hf.entryDist hL hdi hep hw
      rw [hd]
      simp only
      obtain ⟨res, hr⟩ := search_total_below hP (Nat.le_of_lt hn) hold (hcl (m + 1))
        (q := q) (fun id v hid hg => hdi _ _ (by rw [hf.q, hf.lens id v hid hg])) (sched := sched (m + 1)) (ef := 1) (e := ⟨ep, d⟩) hep
      have hres : ∀ y ∈ res.toList, y.id < n := by
        refine searchLayer_closed (C := fun i => i < n) (hcl (m + 1)) (fun y hy => by simp at hy; subst hy; exact hep)
          (keysOk P s q none) ⟨by simp, fun y hy => by simp at hy; subst hy; show ep < P.visitedSize; have := hP.sizes; omega⟩ hr
      rw [hr]
      simp only
      cases hp : pop lessMax res with
      | none => exact ih hep
      | some b =>
        obtain ⟨x, q'⟩ := b
        have hx : x.id < n := hres x ((pop_perm lessMax hp).mem_iff.mpr (by simp))
        simp only
        cases s.get x.id with
        | none => exact ih hep
        | some v => 
          simp only
          split
          · exact ih hep
          · exact ih hx

/-- The addition of a vector of the right length succeeds as long as there is room. -/
theorem add_total {P : Params V D} (hP : P.Ok) (hdi : ∀ a b, P.metric.len a = P.metric.len b → ∃ d, P.metric.dist a b = some d)
    {s : Index V} {vs : List V} (h : Inv P s vs) {vec : V} (hL : P.metric.len vec ≠ 0) (hlen : ∀ u ∈ vs, P.metric.len u = P.metric.len vec)
    (hn : vs.length < P.cacheSize) {vo : VecOracle V} (hvo : ∀ l o k, Readable P vs.length (P.metric.len vec) (vo l o k))
    (sched : Graph.Scheds D) (level : Nat) : (add P vo sched s vs.length vec level).2 = none := by
  unfold add
  rw [if_neg hL]
  unfold insertNode
  by_cases hv : vs = []
  · rw [if_pos (h.path.mpr hv)]
    unfold insertInitial
    simp only
    rw [if_neg (by omega)]
  · rw [if_neg (fun hh => hv (h.path.mp hh))]
    simp only
    rw [if_neg (by omega)]
    have hids : IdsOk ({ s with once := true } : Index V) := ⟨h.ids.cache, h.ids.kv⟩
    have hget : ∀ b, b < vs.length → (({ s with once := true } : Index V).put (newNode vs.length (P.norm vec) level)).get b = s.get b := by
      intro b hb; rw [get_put, if_neg (show b ≠ (newNode vs.length (P.norm vec) level).id from Nat.ne_of_lt hb)]; rfl
    have hcl : ∀ (l id : Nat) v links b, id < vs.length → (({ s with once := true } : Index V).put (newNode vs.length (P.norm vec) level)).get id = some v → v.conns[l]? = some links → b ∈ links → b < vs.length := by
      intro l id v links b hid hg hl hb
      rw [hget id hid] at hg
      obtain ⟨w, a1, _, _, a4⟩ := h.wf id hid
      rw [a1] at hg; cases hg
      exact ((a4 l links hl).2.2.2 b hb).1
    have hfits : Fits P vs.length (P.metric.len vec) (P.norm vec) (({ s with once := true } : Index V).put (newNode vs.length (P.norm vec) level)) := by
      refine ⟨idsOk_put hids _, h.tombs, ?_, hP.norm vec⟩
      intro id v hid hg
      rw [hget id hid] at hg
      have hu : vs[id]? = some vs[id] := List.getElem?_eq_getElem hid
      rw [h.holds id _ v hu hg, hP.norm, hlen _ (List.getElem_mem hid)]
    have hm := mid_start (P := P) (L := level) (l := Nat.min level (({ s with once := true } : Index V).put (newNode vs.length (P.norm vec) level)).maxLayer + 1)
      (q := P.norm vec) (s := { s with once := true }) h.wf
    obtain ⟨ep, hep⟩ := findBest_total hP hdi hL hn (sched := sched) (target := level) hfits (fun id hid => by
      obtain ⟨w, a1, _, a3, _⟩ := h.wf id hid
      exact ⟨w, by rw [hget id hid]; exact a1, a3⟩) hcl (({ s with once := true } : Index V).put (newNode vs.length (P.norm vec) level)).maxLayer (h.entry hv)
    have hepn : ep < vs.length := findBest_lt (fun id hid => Nat.lt_of_lt_of_le hid hP.sizes) hcl (by omega) _ (h.entry hv) hep
    have hdl := doLevels_total hP hdi hL hn hvo (sched := sched) (Nat.min level (({ s with once := true } : Index V).put (newNode vs.length (P.norm vec) level)).maxLayer + 1)
      hm hfits (Nat.add_le_add_right (Nat.min_le_left ..) 1) hepn
    have hx := doLevels_ext P vo sched (P.norm vec) vs.length (Nat.min level (({ s with once := true } : Index V).put (newNode vs.length (P.norm vec) level)).maxLayer + 1)
      (({ s with once := true } : Index V).put (newNode vs.length (P.norm vec) level)) ep (idsOk_put hids _)
    unfold connectNew
    have hep' : findBest P (({ s with once := true } : Index V).put (newNode vs.length (P.norm vec) level)) sched (P.norm vec) level
      (({ s with once := true } : Index V).put (newNode vs.length (P.norm vec) level)).maxLayer
      (({ s with once := true } : Index V).put (newNode vs.length (P.norm vec) level)).entry = .ok ep := hep
    rw [hep']
    simp only
    cases hd : doLevels P vo sched (P.norm vec) vs.length (Nat.min level (({ s with once := true } : Index V).put (newNode vs.length (P.norm vec) level)).maxLayer + 1)
      (({ s with once := true } : Index V).put (newNode vs.length (P.norm vec) level)) ep with
    | mk s1 o =>
      rw [hd] at hdl hx
      simp only at hdl; subst hdl
      obtain ⟨v', hv', _⟩ := hx.self (idsOk_put hids _) _ (by rw [get_put]; exact if_pos rfl)
      have hv' : s1.get vs.length = some v' := hv'
      simp only
      rw [hv']
      simp only
      split <;> rfl

end Fave.Index
