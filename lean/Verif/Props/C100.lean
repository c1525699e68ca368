import Verif.Props.C10
import Verif.Props.C50
import Verif.Props.C68
/-!
# C100 — copies of a document hide nothing

Full claim: *a document added many times (the same text, hence the same vector) makes no other document of the collection impossible to find.*

False: the links of a full vertex are chosen again with every new neighbour (pkg/hnsw/neighbor_connections.go:138-218), the nearest first, and copies are
at distance zero.  A vertex whose list is full of its copies never links to anything else (`copies_keep_out`, any parameters, so also FaVe's), a vector
that nothing links to is found by no search (`unlinked_never_found`), so that a vector linked only to such vertices is lost as soon as it is added
(`newcomer_hidden`), and `hidden_by_copies` is a history in which four copies make three
other vectors, added later, impossible to find.  True up to 61 vectors: the copies take the first places and everything else follows
(`copies_first_partial`).  Missing: larger collections.
-/
namespace Fave.C100
open Index Spec Search Queue C50
variable {V D : Type} [Dist D]

/-- A full neighbour all of whose links are nearer than the new vector `x` and not closer to each other than to the neighbour (so it is if they are copies of
it: all these distances are zero) does not link to `x`; it keeps only old links. -/
theorem copies_keep_out [LawfulDist D] (P : Params V D) (val : Nat → Option V) (x level nb : Nat) (s s' : Index V) (v : Vertex V) (cur : List Nat)
    (vo : VecOracle V) (hvo : ∀ l o k id u, vo l o k id = some u → val id = some u)
    (hdist : ∀ a b u w, a ∈ x :: cur → b ∈ x :: cur → val a = some u → val b = some w → ∃ d, P.metric.dist u w = some d)
    (hids : ∀ id w, s.get id = some w → w.id = id)
    (hg : s.get nb = some v) (hx : nb ≠ x) (ht : s.tombs.contains nb = false) (hl : level ≤ v.level) (hcur : v.conns[level]? = some cur)
    (hnd : (x :: cur).Nodup) (hpos : 0 < maxConns P level) (hfull : maxConns P level ≤ cur.length)
    (hnear : ∀ c ∈ cur, ∀ dc dx, Apart2 P.metric val c nb dc → Apart2 P.metric val x nb dx → Dist.lt dc dx = true)
    (hcopy : ∀ c ∈ cur, ∀ b ∈ cur, ∀ dc dcb, Apart2 P.metric val c nb dc → Apart2 P.metric val c b dcb → Dist.lt dcb dc = false)
    (ha : connectNeighbor P vo x level s nb = (s', none)) :
    ∃ v' links, s'.get nb = some v' ∧ v'.conns[level]? = some links ∧ x ∉ links ∧ links ⊆ cur ∧ links ≠ [] := by
  obtain ⟨v', links, h1, h2, h3, h4, h5, h6, _, h8⟩ :=
    full_neighbour_links P val x level nb s s' v cur vo hvo hdist hids hg hx ht hl hcur hnd hpos hfull ha
  have hxn : x ∉ links := by
    intro hxl
    have hex : ∃ c ∈ cur, c ∉ links := by
      refine Classical.byContradiction fun hno => ?_
      have hsub : x :: cur ⊆ links := by
        intro a ha
        rcases List.mem_cons.mp ha with rfl | ha
        · exact hxl
        · exact Classical.byContradiction fun hn => hno ⟨a, ha, hn⟩
      have := hnd.length_le_of_subset hsub
      rw [List.length_cons] at this
      omega
    obtain ⟨c, hc, hcl⟩ := hex
    -- the distance of the new vector to the neighbour exists: it was compared
    obtain ⟨dc, hdc, hor⟩ := h8 c (List.mem_cons_of_mem _ hc) hcl
    have hxd : ∃ dx, Apart2 P.metric val x nb dx := by
      have hr : raised v level = { v with committed := false } := by
        unfold raised; rw [if_neg (by omega)]
      unfold connectNeighbor at ha
      simp only [hg, if_neg hx, ht, Bool.false_eq_true, if_false] at ha
      rw [if_neg (by omega)] at ha
      simp only [hcur] at ha
      rw [if_neg (by omega)] at ha
      cases hd : distNodes P (vo level (some nb) 0) x nb with
      | error e => rw [hd] at ha; cases ha
      | ok d => exact ⟨d, distNodes_val (fun id u hu => hvo _ _ _ id u hu) hd⟩
    obtain ⟨dx, hdx⟩ := hxd
    have hlt := hnear c hc dc dx hdc hdx
    rcases hor with ⟨_, hall⟩ | ⟨a, hal, da, dca, hda, hdca, hle, hcl'⟩
    · rw [hall x hxl dx hdx] at hlt; cases hlt
    · rcases List.mem_cons.mp (h5 a hal) with rfl | hac
      · have := hnear c hc dc da hdc hda
        rw [hle] at this; cases this
      · rw [hcopy c hc a hac dc dca hdc hdca] at hcl'; cases hcl'
  refine ⟨v', links, h1, h2, hxn, ?_, ?_⟩
  · intro a hal
    rcases List.mem_cons.mp (h5 a hal) with rfl | h
    · exact absurd hal hxn
    · exact h
  · obtain ⟨a, hal, _⟩ := h6
    exact List.ne_nil_of_mem hal

/-- the numbers from which no link leads to `x`: the descent through the layers stays among the others -/
theorem descend_avoids {g : Graph V D} {x : Nat} (hk : g.Ok)
    (hcl : ∀ (l : Nat) (id : Nat) v links b, id ≠ x → g.get id = some v → v.conns[l]? = some links → b ∈ links → b ≠ x)
    (σ : Graph.Scheds D) (q : V) (level : Nat) {ep ep' : Item D} (hv : ∃ v, g.get ep.id = some v) (hx : ep.id ≠ x)
    (h : Graph.descend g σ q level ep = .ok ep') : ep'.id ≠ x ∧ ∃ v, g.get ep'.id = some v := by
  induction level generalizing ep with
  | zero => cases h; exact ⟨hx, hv⟩
  | succ level ih =>
    unfold Graph.descend at h
    split at h
    · cases h
    · rename_i res hres
      obtain ⟨v, hv'⟩ := hv
      have heps := Graph.epsOk_one hk.small q none hv'
      have hin := searchLayer_closed (C := fun i => i ≠ x) (hcl (level + 1)) (by simpa using hx) (hk.keysOk q none) heps hres
      have hget := (searchLayer_inv (P := fun y => ∃ v, g.get y.id = some v) (fun y hy => Graph.distToNode_get hy) heps (by simpa using ⟨v, hv'⟩) hres).1
      split at h
      · rename_i best _ hpop
        have hb : best ∈ res.toList := (pop_perm lessMax hpop).mem_iff.mpr (by simp)
        exact ih (hget best hb).1 (hin best hb) h
      · exact ih ⟨v, hv'⟩ hx h

/-- A stored vector that no vertex links to and that is not the entry point is returned by no search: any query, width, distance limit, allow list and
order of goroutines, on any number of layers. -/
theorem unlinked_never_found (P : Params V D) (hP : P.Ok) (s : Index V) (vs : List V) (h : Hist P s vs) (hn : vs ≠ []) (x : Nat)
    (he : s.entry ≠ x) (hun : ∀ (id : Nat) (v : Vertex V), id < vs.length → s.get id = some v → ∀ links ∈ v.conns, x ∉ links)
    (σ : Graph.Scheds D) (q : V) (max : D) (ef : Int) (allow : Option (Nat → Bool)) (ids : List Nat) (ds : List D)
    (hk : (s.graph P).knnMaxDist σ q max ef allow = .ok (ids, ds)) : x ∉ ids := by
  have hi := hist_inv hP h
  rw [firstGraph_search hP hi hn] at hk
  have hok := firstGraph_ok hP hi
  have hcl : ∀ (l : Nat) (id : Nat) v links b, id ≠ x → (firstGraph P s vs.length).get id = some v → v.conns[l]? = some links → b ∈ links → b ≠ x := by
    intro l id v links b _ hg hl hb e
    subst e
    exact hun id v (firstGraph_get hg).1 (firstGraph_get hg).2 links (List.mem_of_getElem? hl) hb
  unfold Graph.knnMaxDist at hk
  split at hk
  · cases hk
  · rename_i r hr
    obtain ⟨d, ep, hd, hep, hr⟩ := Graph.retained_ok hr
    obtain ⟨v, hv, _⟩ := Graph.distNodeVec_some hd
    obtain ⟨hne, w, hw⟩ := descend_avoids hok hcl σ _ _ (ep := ⟨_, d⟩) ⟨v, hv⟩ he hep
    have hres := searchLayer_closed (C := fun i => i ≠ x) (hcl 0) (by simpa using hne) (hok.keysOk _ allow) (Graph.epsOk_one hok.small _ allow hw) hr
    cases hk
    intro hmem
    obtain ⟨y, hy, hyx⟩ := List.mem_map.mp hmem
    have hy := (Graph.keepInRange_sublist _ _).subset hy
    have hy := (drain_perm lessMax r).mem_iff.mp (List.mem_reverse.mp hy)
    exact hres y hy hyx

/-- the list `cur` of vertex `nb` is full, it lists only copies of `nb`, and `x` is none -/
def FullOfCopies (P : Params V D) (val : Nat → Option V) (x nb : Nat) (cur : List Nat) : Prop :=
  P.maxConn0 ≤ cur.length ∧ (∀ c ∈ cur, val c = val nb) ∧
    ∀ u w d, val nb = some u → val x = some w → P.metric.dist w u = some d → Dist.lt Dist.zero d = true

/-- linking the new vector back to several neighbours -/
theorem connectAll_keep_out [LawfulDist D] {P : Params V D} {val : Nat → Option V} {x : Nat} {vo : VecOracle V}
    (hvo : ∀ l o k id u, vo l o k id = some u → val id = some u) (hpos : 0 < P.maxConn0)
    (hdist : ∀ a b u w, val a = some u → val b = some w → ∃ d, P.metric.dist u w = some d)
    (hself : ∀ a u, val a = some u → P.metric.dist u u = some Dist.zero) (nbs : List Nat) {s s' : Index V}
    (hi : IdsOk s) (ht : s.tombs = []) (hnd : nbs.Nodup) (hx : x ∉ nbs)
    (hc : ∀ nb ∈ nbs, ∃ v cur, s.get nb = some v ∧ v.conns[0]? = some cur ∧ (x :: cur).Nodup ∧ FullOfCopies P val x nb cur)
    (h : connectAll P vo x 0 s nbs = (s', none)) :
    ∀ nb ∈ nbs, ∃ v links, s'.get nb = some v ∧ v.conns[0]? = some links ∧ x ∉ links := by
  induction nbs generalizing s with
  | nil => intro nb hnb; cases hnb
  | cons nb nbs ih =>
    obtain ⟨hnb, hnd⟩ := List.nodup_cons.mp hnd
    have hxnb : x ≠ nb := fun e => hx (by simp [e])
    unfold connectAll at h
    cases h1 : connectNeighbor P vo x 0 s nb with
    | mk s1 e =>
      rw [h1] at h
      cases e with
      | some e => cases h
      | none =>
        have hext := connectNeighbor_ext P vo x 0 s nb
        rw [h1] at hext
        obtain ⟨v, cur, hg, hcur, hn, hf, hcp, hfar⟩ := hc nb (by simp)
        obtain ⟨v', links, hv', hl', hxl, _, _⟩ := copies_keep_out P val x 0 nb s s1 v cur vo hvo (fun a b u w _ _ => hdist a b u w)
          (fun id w hw => hi.get hw) hg (fun e => hxnb e.symm) (by rw [ht]; rfl) (Nat.zero_le _) hcur hn hpos hf
          (by
            rintro c hcm dc dx ⟨uc, un, e1, e2, e3⟩ ⟨ux, un', g1, g2, g3⟩
            rw [hcp c hcm, e2] at e1; cases e1
            rw [hself nb _ e2] at e3; cases e3
            exact hfar un' ux dx g2 g1 g3)
          (by
            rintro c hcm b hbm dc dcb ⟨uc, un, e1, e2, e3⟩ ⟨uc', ub, g1, g2, g3⟩
            rw [hcp c hcm] at e1 g1
            rw [hcp b hbm] at g2
            rw [e2] at e1 g1 g2; cases e1; cases g1; cases g2
            rw [e3] at g3; cases g3
            exact LawfulDist.irrefl _) h1
        intro m hm
        rcases List.mem_cons.mp hm with rfl | hm
        · have ho := connectAll_other (P := P) (vo := vo) (x := x) (level := 0) (hext.ids hi) hnb
          rw [show connectAll P vo x 0 s1 nbs = (s', none) from h] at ho
          exact ⟨v', links, by rw [show s'.get m = s1.get m from ho]; exact hv', hl', hxl⟩
        · refine ih (hext.ids hi) (hext.same.tombs.trans ht) hnd (fun hm => hx (List.mem_cons_of_mem _ hm)) ?_ h m hm
          intro k hk
          have ho := connectNeighbor_other (P := P) (vo := vo) (x := x) (level := 0) (s := s) (nb := nb) (id := k) hi (fun e => hnb (e ▸ hk))
          rw [h1] at ho
          obtain ⟨w, c, a1, a2⟩ := hc k (List.mem_cons_of_mem _ hk)
          exact ⟨w, c, by rw [show s1.get k = s.get k from ho]; exact a1, a2⟩

/-- Any parameters, timings and histories: a vector added on level 0 all of whose links lead to vertices that were full of copies of themselves,
and that is none of those copies, is found by no search. -/
theorem newcomer_hidden [LawfulDist D] (P : Params V D) (hP : P.Ok) (hpos : 0 < P.maxConn0)
    (hdi : ∀ a b, P.metric.len a = P.metric.len b → ∃ d, P.metric.dist a b = some d)
    (hself : ∀ u, P.metric.dist (P.norm u) (P.norm u) = some Dist.zero)
    (s s' : Index V) (vs : List V) (h : Hist P s vs) (hn : vs ≠ []) (vec : V) (vo : VecOracle V) (sched : Graph.Scheds D)
    (hvo : ∀ l o k id u, vo l o k id = some u → ((vs ++ [vec])[id]?).map P.norm = some u)
    (ha : add P vo sched s vs.length vec 0 = (s', none))
    (hfull : ∀ v links, s'.get vs.length = some v → v.conns[0]? = some links → ∀ nb ∈ links, ∃ w cur, s.get nb = some w ∧ w.conns[0]? = some cur ∧
      FullOfCopies P (fun id => ((vs ++ [vec])[id]?).map P.norm) vs.length nb cur)
    (σ : Graph.Scheds D) (q : V) (max : D) (ef : Int) (allow : Option (Nat → Bool)) (ids : List Nat) (ds : List D)
    (hk : (s'.graph P).knnMaxDist σ q max ef allow = .ok (ids, ds)) : vs.length ∉ ids := by
  have hi := hist_inv hP h
  have hist' : Hist P s' (vs ++ [vec]) := .add vo sched vec 0 h ha
  have hi' := hist_inv hP hist'
  have hlen : (vs ++ [vec]).length = vs.length + 1 := by simp
  obtain ⟨hvl, hsz, ⟨hn', _⟩ | ⟨_, hcn⟩⟩ := add_ok_cases hi ha
  · exact absurd hn' hn
  have hids0 : IdsOk ({ s with once := true } : Index V) := ⟨hi.ids.cache, hi.ids.kv⟩
  have hids := idsOk_put hids0 (newNode vs.length (P.norm vec) 0)
  obtain ⟨ep, s1, v1, hf, hd, hg1, hgs, _, _, _, _, _, _, hent⟩ := connectNew_ok hcn
  rw [show Nat.min 0 (({ s with once := true } : Index V).put (newNode vs.length (P.norm vec) 0)).maxLayer + 1 = 0 + 1 by rw [show Nat.min 0 _ = 0 from Nat.zero_min _]] at hd
  unfold doLevels at hd
  split at hd
  · cases hd
  rename_i s2 ep2 hda
  unfold doLevels at hd
  cases hd
  obtain ⟨e, results, kept, v, he, hr, hks, hg, hlv, hca, _⟩ := doAtLevel_ok hda
  have hnew : (({ s with once := true } : Index V).put (newNode vs.length (P.norm vec) 0)).get vs.length = some (newNode vs.length (P.norm vec) 0) := by
    rw [get_put]; exact if_pos rfl
  rw [hnew] at hg; cases hg
  have hget : ∀ b, b < vs.length → (({ s with once := true } : Index V).put (newNode vs.length (P.norm vec) 0)).get b = s.get b := by
    intro b hb; rw [get_put, if_neg (show b ≠ (newNode vs.length (P.norm vec) 0).id from Nat.ne_of_lt hb)]; rfl
  have hmo : ∀ (l id : Nat) v links b, id < vs.length → (({ s with once := true } : Index V).put (newNode vs.length (P.norm vec) 0)).get id = some v →
      v.conns[l]? = some links → b ∈ links → b < vs.length := by
    intro l id v links b hid hg hl hb
    rw [hget id hid] at hg
    obtain ⟨w, a1, _, _, a4⟩ := hi.wf id hid
    rw [a1] at hg; cases hg
    exact ((a4 l links hl).2.2.2 b hb).1
  have hep : ep < vs.length := findBest_lt (fun id hid => Nat.lt_of_lt_of_le hid hP.sizes) hmo (by omega) _ (hi.entry hn) hf
  obtain ⟨w, hw, _⟩ := hi.wf ep hep
  obtain ⟨he1, _⟩ := pickEntry_ok ((hget ep hep).trans hw) he
  have hen : e.id < vs.length := by omega
  have heps : EpsOk (((({ s with once := true } : Index V).put (newNode vs.length (P.norm vec) 0)).graph P).senv (P.norm vec) none) [e] :=
    ⟨by simp, fun y hy => by simp at hy; subst hy; exact Nat.lt_of_lt_of_le (Nat.lt_trans hen hsz) hP.sizes⟩
  have hres := searchLayer_closed (C := fun i => i < vs.length) (hmo 0) (fun y hy => by simp at hy; subst hy; exact hen) (keysOk P _ (P.norm vec) none) heps hr
  have hnod : (results.toList.map Item.id).Nodup :=
    (searchLayer_inv (P := fun _ => True) (fun _ _ => trivial) heps (fun _ _ => trivial) hr).2
  obtain ⟨_, hnodk, hsub⟩ := selected_ids hks
  have hnodk := hnodk hnod
  have hmem : ∀ id ∈ (drain lessMax kept).map Item.id, id < vs.length := by
    intro id hid
    obtain ⟨y, hy, rfl⟩ := List.mem_map.mp (hsub id hid)
    exact hres y hy
  have hnb : vs.length ∉ (drain lessMax kept).map Item.id := fun hm => Nat.lt_irrefl _ (hmem _ hm)
  generalize hnbs : (drain lessMax kept).map Item.id = nbs at hca hnodk hmem hnb
  have hidc := idsOk_put hids (setConns (newNode vs.length (P.norm vec) 0) 0 nbs)
  have hgetc : ∀ b, b < vs.length → ((({ s with once := true } : Index V).put (newNode vs.length (P.norm vec) 0)).put
      (setConns (newNode vs.length (P.norm vec) 0) 0 nbs)).get b = s.get b := by
    intro b hb
    rw [get_put, if_neg (show b ≠ (setConns (newNode vs.length (P.norm vec) 0) 0 nbs).id from Nat.ne_of_lt hb), hget b hb]
  have hself1 : s1.get vs.length = some (setConns (newNode vs.length (P.norm vec) 0) 0 nbs) := by
    have ho := connectAll_other (P := P) (vo := vo) (x := vs.length) (level := 0) hidc hnb
    rw [hca] at ho
    rw [show s1.get vs.length = _ from ho, get_put]; exact if_pos rfl
  rw [hself1] at hg1; cases hg1
  have hnew' : s'.get vs.length = some { setConns (newNode vs.length (P.norm vec) 0) 0 nbs with maint := false } := by
    rw [hgs, get_put]; exact if_pos rfl
  have hold' : ∀ id, id < vs.length → s'.get id = s1.get id := by
    intro id hid
    rw [hgs, get_put, if_neg]
    exact Nat.ne_of_lt hid
  obtain ⟨dd, hd0, hd1⟩ := hi'.dim
  have hvlen : ∀ (a : Nat) (u : V), ((vs ++ [vec])[a]?).map P.norm = some u → P.metric.len u = dd := by
    intro a u hu
    obtain ⟨z, hz, rfl⟩ := Option.map_eq_some_iff.mp hu
    rw [hP.norm]; exact hd1 z (List.mem_of_getElem? hz)
  have hout := connectAll_keep_out hvo hpos (fun a b u w hu hw => hdi u w (by rw [hvlen a u hu, hvlen b w hw]))
    (fun a u hu => by obtain ⟨z, _, rfl⟩ := Option.map_eq_some_iff.mp hu; exact hself z) nbs hidc hi.tombs hnodk hnb
    (by
      intro nb hnbm
      obtain ⟨w, cur, a1, a2, a3⟩ := hfull _ nbs hnew' rfl nb hnbm
      refine ⟨w, cur, (hgetc nb (hmem nb hnbm)).trans a1, a2, List.nodup_cons.mpr ?_, a3⟩
      obtain ⟨w', b1, _, _, b4⟩ := hi.wf nb (hmem nb hnbm)
      rw [b1] at a1; cases a1
      obtain ⟨c1, _, _, c4⟩ := b4 0 cur a2
      exact ⟨fun hm => Nat.lt_irrefl _ (c4 _ hm).1, c1⟩) hca
  have hent' : s'.entry ≠ vs.length := by
    rcases hent with ⟨hlt, _⟩ | ⟨_, he', _⟩
    · omega
    · have hx := connectAll_ext P vo vs.length 0 ((({ s with once := true } : Index V).put (newNode vs.length (P.norm vec) 0)).put
        (setConns (newNode vs.length (P.norm vec) 0) 0 nbs)) nbs
      rw [hca] at hx
      rw [he', hx.same.entry]
      exact Nat.ne_of_lt (hi.entry hn)
  refine unlinked_never_found P hP s' (vs ++ [vec]) hist' (by simp) vs.length hent' ?_ σ q max ef allow ids ds hk
  intro id v hid hgv links hl hm
  obtain ⟨k, hk', hkl⟩ := List.getElem_of_mem hl
  have hkl : v.conns[k]? = some links := by rw [List.getElem?_eq_getElem hk', hkl]
  obtain ⟨v', b1, _, _, b4⟩ := hi'.wf id hid
  rw [hgv] at b1; cases b1
  obtain ⟨c1, c2, _, c4⟩ := b4 k links hkl
  obtain ⟨_, z, hz, hkz⟩ := c4 _ hm
  rw [hnew'] at hz; cases hz
  have hk0 : k = 0 := Nat.le_zero.mp hkz
  subst hk0
  by_cases hidn : id = vs.length
  · subst hidn; exact c2 hm
  · have hidl : id < vs.length := by omega
    by_cases hin : id ∈ nbs
    · obtain ⟨y, l, g1, g2, g3⟩ := hout id hin
      rw [← hold' id hidl, hgv] at g1; cases g1
      rw [hkl] at g2; cases g2
      exact g3 hm
    · have ho := connectAll_other (P := P) (vo := vo) (x := vs.length) (level := 0) hidc hin
      rw [hca] at ho
      rw [hold' id hidl, show s1.get id = _ from ho, hgetc id hidl] at hgv
      obtain ⟨y, g1, _, _, g4⟩ := hi.wf id hidl
      rw [hgv] at g1; cases g1
      exact Nat.lt_irrefl _ ((g4 0 links hkl).2.2.2 _ hm).1

/-! ### A history -/

/-- four copies of one vector, then three others -/
def copied : List (List Nat) := [[5, 0], [5, 0], [5, 0], [5, 0], [9, 0], [20, 0], [40, 0]]

/-- the additions, all on level 0 -/
def adds (P : Params (List Nat) Nat) (all : List (List Nat)) : Index (List Nat) → Nat → List (List Nat) → Option (Index (List Nat))
  | s, _, [] => some s
  | s, n, v :: vs =>
    match Index.add P (fun _ _ _ id => all[id]?) (fun _ => Sched.id) s n v 0 with
    | (s, none) => adds P all s (n + 1) vs
    | _ => none

theorem adds_hist (P : Params (List Nat) Nat) (all vs ws : List (List Nat)) (s s' : Index (List Nat)) (h : Hist P s vs)
    (ha : adds P all s vs.length ws = some s') : Hist P s' (vs ++ ws) := by
  induction ws generalizing s vs with
  | nil => cases ha; simpa using h
  | cons w ws ih =>
    unfold adds at ha
    split at ha
    · rename_i s1 h1
      have := ih (vs ++ [w]) s1 (.add _ _ w 0 h h1) (by simpa using ha)
      simpa using this
    · cases ha

/-- none of the numbers 4, 5 and 6 is linked to -/
def hidden (s : Index (List Nat)) : Bool :=
  decide (s.entry = 0) && s.kv.isEmpty &&
    s.cache.all (fun p => p.2.conns.all (fun l => !l.contains 4 && !l.contains 5 && !l.contains 6))

theorem hidden_unlinked {s : Index (List Nat)} (h : hidden s = true) {x : Nat} (hx : x = 4 ∨ x = 5 ∨ x = 6) :
    s.entry ≠ x ∧ ∀ id v, s.get id = some v → ∀ links ∈ v.conns, x ∉ links := by
  unfold hidden at h
  simp only [Bool.and_eq_true, decide_eq_true_eq] at h
  obtain ⟨⟨he, hkv⟩, hall⟩ := h
  refine ⟨by omega, fun id v hg links hl hb => ?_⟩
  have hk0 : s.kv.get id = none := by
    cases hkv' : s.kv with
    | nil => rfl
    | cons a l => rw [hkv'] at hkv; cases hkv
  unfold Index.get at hg
  split at hg
  · rename_i v' hc
    cases hg
    have := List.all_eq_true.mp hall (id, v) (C10.get_mem hc)
    have := List.all_eq_true.mp this links hl
    simp only [Bool.and_eq_true, Bool.not_eq_true', List.contains_eq_mem, decide_eq_false_iff_not] at this
    rcases hx with rfl | rfl | rfl
    · exact this.1.1 hb
    · exact this.1.2 hb
    · exact this.2 hb
  · rw [hk0] at hg; cases hg

/-- Four copies, then three other vectors; every addition succeeds.  Afterwards every search succeeds and none — any query, width, distance limit, allow
list and order of goroutines — returns one of the three, not even the search for exactly that vector. -/
theorem hidden_by_copies : ∃ s, Hist Ex.P s copied ∧
    ∀ (σ : Graph.Scheds Nat) (q : List Nat) (max : Nat) (ef : Int) (allow : Option (Nat → Bool)), q.length = 2 →
      ∃ ids ds, (s.graph Ex.P).knnMaxDist σ q max ef allow = .ok (ids, ds) ∧ 4 ∉ ids ∧ 5 ∉ ids ∧ 6 ∉ ids := by
  have hrun : ∃ s, adds Ex.P copied init 0 copied = some s ∧ hidden s = true := by
    have h : (adds Ex.P copied init 0 copied).any hidden = true := by decide +kernel
    cases hs : adds Ex.P copied init 0 copied with
    | none => rw [hs] at h; cases h
    | some s => rw [hs] at h; exact ⟨s, rfl, h⟩
  obtain ⟨s, hs, hh⟩ := hrun
  have hist : Hist Ex.P s copied := adds_hist Ex.P copied [] copied init s .init hs
  refine ⟨s, hist, fun σ q max ef allow hq => ?_⟩
  have hn : copied ≠ [] := by decide
  have hlen : ∀ u ∈ copied, Ex.P.metric.len u = Ex.P.metric.len q := by
    intro u hu
    have : ∀ u ∈ copied, u.length = 2 := by decide
    show u.length = q.length
    rw [hq, this u hu]
  have hdi : ∀ a b, Ex.P.metric.len a = Ex.P.metric.len b → ∃ d, Ex.P.metric.dist a b = some d := by
    intro a b h
    simp only [Ex.P, Ex.vmetric] at h ⊢
    rw [if_pos h]
    exact ⟨_, rfl⟩
  obtain ⟨r, hr⟩ := hist_search_total Ex.P_ok hdi C68.metric_sym (hist_inv Ex.P_ok hist) hn hlen σ ef allow
  have hok : ∃ ids ds, (s.graph Ex.P).knnMaxDist σ q max ef allow = .ok (ids, ds) := by
    rw [firstGraph_search Ex.P_ok (hist_inv Ex.P_ok hist) hn]
    have hr' : (firstGraph Ex.P s copied.length).retained σ ((firstGraph Ex.P s copied.length).norm q) ef allow = .ok r := hr
    unfold Graph.knnMaxDist
    rw [hr']
    exact ⟨_, _, rfl⟩
  obtain ⟨ids, ds, hk⟩ := hok
  have hf := fun x hx => unlinked_never_found Ex.P Ex.P_ok s copied hist hn x (hidden_unlinked hh hx).1 (fun id v _ => (hidden_unlinked hh hx).2 id v) σ q max ef allow ids ds hk
  exact ⟨ids, ds, hk, hf 4 (by simp), hf 5 (by simp), hf 6 (by simp)⟩

/-! ### Up to 61 vectors -/

/-- FaVe's parameters and search width, up to 61 vectors with any number of copies: the search for a vector returns first the vectors at distance zero —
all its copies —, then all others within the distance limit. -/
theorem copies_first_partial [LawfulDist D] (metric : Metric V D) (norm : V → V) (jsonOk : V → Bool)
    (hlen : ∀ a b, metric.len a ≠ metric.len b → metric.dist a b = none)
    (hdist : ∀ a b, metric.len a = metric.len b → ∃ d, metric.dist a b = some d)
    (hnorm : ∀ v, metric.len (norm v) = metric.len v) (hsym : ∀ a b, metric.dist a b = metric.dist b a)
    (hself : ∀ a, metric.dist (norm a) (norm a) = some Dist.zero)
    (s : Index V) (vs : List V) (h : Hist (faveParams metric norm jsonOk) s vs) (hsm : vs.length ≤ 61)
    (i : Nat) (a : V) (hi : vs[i]? = some a) (sched : Graph.Scheds D) (max : D) (hmax : Dist.lt max Dist.zero = false) :
    ∃ (copies others : List Nat) (ds : List D), (s.graph (faveParams metric norm jsonOk)).knnMaxDist sched a max 800 none = .ok (copies ++ others, ds) ∧
      (copies ++ others).Nodup ∧ (∀ j, vs[j]? = some a → j ∈ copies) ∧
      (∀ j ∈ copies, ∃ u d, vs[j]? = some u ∧ metric.dist (norm a) (norm u) = some d ∧ Dist.lt d Dist.zero = false ∧ Dist.lt Dist.zero d = false) ∧
      (∀ j, j ∈ others ↔ ∃ u d, vs[j]? = some u ∧ metric.dist (norm a) (norm u) = some d ∧ Dist.lt Dist.zero d = true ∧ Dist.lt max d = false) := by
  have hn : vs ≠ [] := by rintro rfl; simp at hi
  have hP : (faveParams metric norm jsonOk).Ok := ⟨by simp [faveParams], by simp [faveParams], hlen, hnorm⟩
  have hq : ∀ u ∈ vs, metric.len u = metric.len a := by
    obtain ⟨d, _, hd⟩ := (hist_inv hP h).dim
    intro u hu
    rw [show metric.len u = d from hd u hu]
    exact (show metric.len a = d from hd a (List.mem_of_getElem? hi)).symm
  obtain ⟨hits, ds, h1, _, h3, h4, h5⟩ := C03.up_to_61_vectors_exact metric norm jsonOk hlen hdist hnorm hsym s vs h hn hsm a hq sched max
  let p : Item D → Bool := fun x => !Dist.lt Dist.zero x.dist
  have hsplit : hits = hits.takeWhile p ++ hits.dropWhile p := (List.takeWhile_append_dropWhile).symm
  have hfar : ∀ x ∈ hits.dropWhile p, Dist.lt Dist.zero x.dist = true := by
    intro x hx
    cases hdw : hits.dropWhile p with
    | nil => rw [hdw] at hx; cases hx
    | cons y l =>
      have hy : p y = false := by
        have := List.head?_dropWhile_not p hits
        rw [hdw] at this
        simpa using this
      have hy : Dist.lt Dist.zero y.dist = true := by simpa [p] using hy
      rw [hdw] at hx
      rcases List.mem_cons.mp hx with rfl | hx
      · exact hy
      · rw [hsplit, hdw] at h4
        have := (List.pairwise_cons.mp (List.pairwise_append.mp h4).2.1).1 x hx
        rcases LawfulDist.cotrans _ x.dist _ hy with h | h
        · exact h
        · rw [this] at h; cases h
  have hnear : ∀ x ∈ hits.takeWhile p, Dist.lt Dist.zero x.dist = false := by
    intro x hx
    have := List.all_eq_true.mp (List.all_takeWhile (p := p) (l := hits)) x hx
    simpa [p] using this
  refine ⟨(hits.takeWhile p).map Item.id, (hits.dropWhile p).map Item.id, ds, ?_, ?_, ?_, ?_, ?_⟩
  · rw [← List.map_append, ← hsplit]; exact h1
  · rw [← List.map_append, ← hsplit]; exact h3
  · intro j hj
    have hm : (⟨j, Dist.zero⟩ : Item D) ∈ hits := (h5 _ _).mpr ⟨a, hj, hself a, LawfulDist.irrefl _, hmax⟩
    rw [hsplit] at hm
    rcases List.mem_append.mp hm with hm | hm
    · exact List.mem_map_of_mem hm
    · have := hfar _ hm
      rw [LawfulDist.irrefl] at this; cases this
  · intro j hj
    obtain ⟨x, hx, rfl⟩ := List.mem_map.mp hj
    obtain ⟨u, hu, hd, h0, _⟩ := (h5 x.id x.dist).mp (by rw [hsplit]; exact List.mem_append_left _ hx)
    exact ⟨u, x.dist, hu, hd, h0, hnear x hx⟩
  · intro j
    constructor
    · intro hj
      obtain ⟨x, hx, rfl⟩ := List.mem_map.mp hj
      obtain ⟨u, hu, hd, _, hm⟩ := (h5 x.id x.dist).mp (by rw [hsplit]; exact List.mem_append_right _ hx)
      exact ⟨u, x.dist, hu, hd, hfar x hx, hm⟩
    · rintro ⟨u, d, hu, hd, h0, hm⟩
      have hd0 : Dist.lt d Dist.zero = false := by
        cases hc : Dist.lt d Dist.zero with
        | false => rfl
        | true => have := LawfulDist.trans _ _ _ h0 hc; rw [LawfulDist.irrefl] at this; cases this
      have hmem : (⟨j, d⟩ : Item D) ∈ hits := (h5 _ _).mpr ⟨u, hu, hd, hd0, hm⟩
      rw [hsplit] at hmem
      rcases List.mem_append.mp hmem with hmem | hmem
      · have := hnear _ hmem
        rw [h0] at this; cases this
      · exact List.mem_map_of_mem hmem

/-! ### Non-vacuity -/

/-- the state after the four copies: the vertices 0 and 1 are full of copies -/
def four : Index (List Nat) := (adds Ex.P copied init 0 (copied.take 4)).getD init

/-- `copies_keep_out`: linking the new vector 4 back to 0 succeeds, and 0 keeps its three copies; so it does under the hypotheses of the theorem -/
example : (four.get 0).map Vertex.conns = some [[1, 2, 3]] ∧ maxConns Ex.P 0 = 3 ∧
    (let s := four.put (newNode 4 [9, 0] 0)
     (connectNeighbor Ex.P (fun _ _ _ id => copied[id]?) 4 0 s 0).2 = none ∧
     ((connectNeighbor Ex.P (fun _ _ _ id => copied[id]?) 4 0 s 0).1.get 0).map Vertex.conns = some [[3, 2, 1]]) ∧
    (∀ c ∈ [3, 2, 1], ∀ u ∈ copied[c]?, ∀ w ∈ copied[0]?, ∀ z ∈ copied[4]?, ∀ dc ∈ Ex.vmetric.dist u w, ∀ dx ∈ Ex.vmetric.dist z w, Dist.lt dc dx = true) ∧
    (∀ c ∈ [3, 2, 1], ∀ b ∈ [3, 2, 1], ∀ u ∈ copied[c]?, ∀ v ∈ copied[b]?, ∀ w ∈ copied[0]?, ∀ dc ∈ Ex.vmetric.dist u w, ∀ dcb ∈ Ex.vmetric.dist u v,
      Dist.lt dcb dc = false) := by decide +kernel
/-- `newcomer_hidden`: the fifth addition succeeds, the new vector 4 links to 0 only, and 0 was full of copies -/
example : (add Ex.P (fun _ _ _ id => copied[id]?) (fun _ => Sched.id) four 4 [9, 0] 0).2 = none ∧
    ((add Ex.P (fun _ _ _ id => copied[id]?) (fun _ => Sched.id) four 4 [9, 0] 0).1.get 4).map Vertex.conns = some [[0]] ∧
    (four.get 0).map Vertex.conns = some [[1, 2, 3]] ∧ Ex.P.maxConn0 = 3 ∧ (∀ c ∈ [1, 2, 3], copied[c]? = copied[0]?) ∧
    Ex.vmetric.dist [9, 0] [5, 0] = some 4 := by decide +kernel
example : Hist Ex.P four (copied.take 4) := by
  have h : (adds Ex.P copied init 0 (copied.take 4)).isSome = true := by decide +kernel
  obtain ⟨s, hs⟩ := Option.isSome_iff_exists.mp h
  have : four = s := by unfold four; rw [hs]; rfl
  rw [this]
  exact adds_hist Ex.P copied [] _ init s .init hs
/-- the links after all seven additions: the three others link to a copy, nothing links to them; a search for 9 finds the four copies only -/
example : ((adds Ex.P copied init 0 copied).map fun s => (List.range 7).map fun i => (s.get i).map Vertex.conns) =
      some [some [[3, 2, 1]], some [[0, 2, 3]], some [[0, 1]], some [[0, 1]], some [[0]], some [[0]], some [[0]]] ∧
    ((adds Ex.P copied init 0 copied).map fun s => (s.graph Ex.P).knnMaxDist (fun _ => Sched.id) [9, 0] 100 10 none).map (fun r => r.toOption.map fun p => (p.1, p.2.take 4)) =
      some (some ([3, 2, 1, 0], [4, 4, 4, 4])) := by decide +kernel
/-- with one copy instead of four the same vectors are found -/
example : ((adds Ex.P ([5, 0] :: copied.drop 4) init 0 ([5, 0] :: copied.drop 4)).map fun s => (s.graph Ex.P).knnMaxDist (fun _ => Sched.id) [9, 0] 100 10 none).map
    (fun r => r.toOption.map fun p => p.1.length) = some (some 4) := by decide +kernel
theorem vmetric_self (a : List Nat) : Ex.vmetric.dist (id a) (id a) = some Dist.zero := by
  have h : ∀ l : List Nat, (List.zipWith (fun x y => x - y + (y - x)) l l).sum = 0 := by
    intro l
    induction l with
    | nil => rfl
    | cons x l ih => rw [List.zipWith_cons_cons, List.sum_cons, ih]; omega
  simp only [Ex.vmetric, id, if_true, h]
  rfl

/-- `copies_first_partial`: two copies of [10, 0] and one other vector under FaVe's parameters -/
example : ∃ s, Hist (faveParams Ex.vmetric id (fun _ => true)) s [[10, 0], [12, 0], [10, 0]] ∧ (∀ a, Ex.vmetric.dist (id a) (id a) = some Dist.zero) ∧
    ((s.graph (faveParams Ex.vmetric id (fun _ => true))).knnMaxDist (fun _ => Sched.id) [10, 0] 5 800 none).toOption.map (fun p => p.1) = some [0, 2, 1] := by
  have hrun : ∃ s, adds (faveParams Ex.vmetric id (fun _ => true)) [[10, 0], [12, 0], [10, 0]] init 0 [[10, 0], [12, 0], [10, 0]] = some s ∧
      ((s.graph (faveParams Ex.vmetric id (fun _ => true))).knnMaxDist (fun _ => Sched.id) [10, 0] 5 800 none).toOption.map (fun p => p.1) = some [0, 2, 1] := by
    have h : (adds (faveParams Ex.vmetric id (fun _ => true)) [[10, 0], [12, 0], [10, 0]] init 0 [[10, 0], [12, 0], [10, 0]]).any (fun s => decide
      (((s.graph (faveParams Ex.vmetric id (fun _ => true))).knnMaxDist (fun _ => Sched.id) [10, 0] 5 800 none).toOption.map (fun p => p.1) = some [0, 2, 1])) = true := by
      decide +kernel
    cases hs : adds (faveParams Ex.vmetric id (fun _ => true)) [[10, 0], [12, 0], [10, 0]] init 0 [[10, 0], [12, 0], [10, 0]] with
    | none => rw [hs] at h; cases h
    | some s => rw [hs] at h; exact ⟨s, rfl, by simpa using h⟩
  obtain ⟨s, hs, hr⟩ := hrun
  exact ⟨s, adds_hist _ _ [] _ init s .init hs, vmetric_self, hr⟩

end Fave.C100
