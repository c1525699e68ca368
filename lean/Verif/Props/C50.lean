import Verif.Lemmas.AddLinks
import Verif.Spec.ExampleIndex
/-!
# C50 — a new vector is linked to near and spread-out neighbours

pkg/hnsw/heuristic.go (`selectNeighborsHeuristic`) chooses the links of a new vector among the vectors found by the search.  Meaning of the choice,
independent of heaps, queues and indexes into lists: the nearest one found is linked; of two linked vectors the farther one is never closer to the nearer
one than to the new vector; a vector that was found but not linked is closer to a linked vector that is not farther away, or all places are taken by
vectors that are not farther away.
-/
namespace Fave.C50
open Index Queue
variable {V D : Type} [Dist D]

/-- `d` is the distance between `q` and the vector stored under `a` -/
def DistTo (m : Metric V D) (get : Nat → Option (Vertex V)) (q : V) (a : Nat) (d : D) : Prop :=
  ∃ v, get a = some v ∧ m.dist q v.vec = some d

/-- `d` is the distance between the vectors stored under `a` and `b` -/
def Between (m : Metric V D) (get : Nat → Option (Vertex V)) (a b : Nat) (d : D) : Prop :=
  ∃ v w, get a = some v ∧ get b = some w ∧ m.dist v.vec w.vec = some d

theorem nodup_ids_inj {l : List (Item D)} (hn : (l.map Item.id).Nodup) {x y : Item D} (hx : x ∈ l) (hy : y ∈ l) (h : x.id = y.id) : x = y := by
  induction l with
  | nil => cases hx
  | cons a l ih =>
    rw [List.map_cons, List.nodup_cons] at hn
    rcases List.mem_cons.mp hx with rfl | hx' <;> rcases List.mem_cons.mp hy with rfl | hy'
    · rfl
    · exact absurd (h ▸ List.mem_map_of_mem hy') hn.1
    · exact absurd (h ▸ List.mem_map_of_mem hx') hn.1
    · exact ih hn.2 hx' hy'

theorem exists_nearest [LawfulDist D] (l : List (Item D)) (hl : l ≠ []) : ∃ m ∈ l, ∀ c ∈ l, Dist.lt c.dist m.dist = false := by
  induction l with
  | nil => exact absurd rfl hl
  | cons a l ih =>
    by_cases hl' : l = []
    · subst hl'
      exact ⟨a, by simp, fun c hc => by simp at hc; subst hc; exact LawfulDist.irrefl _⟩
    · obtain ⟨m, hm, hmin⟩ := ih hl'
      cases hlt : Dist.lt a.dist m.dist with
      | true =>
        refine ⟨a, by simp, fun c hc => ?_⟩
        rcases List.mem_cons.mp hc with rfl | hc
        · exact LawfulDist.irrefl _
        · cases hh : Dist.lt c.dist a.dist with
          | false => rfl
          | true =>
            have := LawfulDist.trans _ _ _ hh hlt
            rw [hmin c hc] at this; cases this
      | false =>
        refine ⟨m, by simp [hm], fun c hc => ?_⟩
        rcases List.mem_cons.mp hc with rfl | hc
        · exact hlt
        · exact hmin c hc

/-- The links a successful addition gives to the new vector on the base level: there are a stored vector `start` and a list `found` of vectors that can be
reached from it — `efConstruction` or more, or all of them — such that the links are among `found`, at most `maxConn` (30), and

* some linked vector is as near as any found one;
* if a choice was necessary (`maxConn` or more found), of two linked vectors the farther is not nearer to the other than to the new vector;
* for every found vector without link either all places are taken by vectors not farther away, or it is nearer to a linked vector, which is not
  farther away, than to the new vector. -/
theorem new_vector_links [LawfulDist D] (P : Params V D) (hP : P.Ok) (hm : 0 < P.maxConn) (hsym : ∀ a b, P.metric.dist a b = P.metric.dist b a)
    (hdist : ∀ a b, P.metric.len a = P.metric.len b → ∃ d, P.metric.dist a b = some d)
    (s s' : Index V) (vs : List V) (h : Hist P s vs) (hn : vs ≠ [])
    (vo : VecOracle V) (hvo : ∀ l o k id u, id < vs.length → vo l o k id = some u → ∃ v, s.get id = some v ∧ v.vec = u)
    (sched : Graph.Scheds D) (vec : V) (level : Nat) (ha : add P vo sched s vs.length vec level = (s', none)) :
    ∃ start found v links, start < vs.length ∧ found.Nodup ∧ (∀ x ∈ found, x < vs.length ∧ Walk s.get start x) ∧
      (P.efC ≤ found.length ∨ ∀ x, Walk s.get start x → x ∈ found) ∧
      s'.get vs.length = some v ∧ v.conns[0]? = some links ∧ links.Nodup ∧ (∀ a ∈ links, a ∈ found) ∧ links.length ≤ P.maxConn ∧
      (found ≠ [] → ∃ a ∈ links, ∃ da, DistTo P.metric s.get (P.norm vec) a da ∧
        ∀ c ∈ found, ∀ dc, DistTo P.metric s.get (P.norm vec) c dc → Dist.lt dc da = false) ∧
      (P.maxConn ≤ found.length → ∀ a ∈ links, ∀ b ∈ links, ∀ da db dab, DistTo P.metric s.get (P.norm vec) a da →
        DistTo P.metric s.get (P.norm vec) b db → Between P.metric s.get b a dab → Dist.lt da db = true → Dist.lt dab db = false) ∧
      (∀ c ∈ found, c ∉ links → ∃ dc, DistTo P.metric s.get (P.norm vec) c dc ∧
        ((links.length = P.maxConn ∧ ∀ a ∈ links, ∀ da, DistTo P.metric s.get (P.norm vec) a da → Dist.lt dc da = false) ∨
         ∃ a ∈ links, ∃ da dca, DistTo P.metric s.get (P.norm vec) a da ∧ Between P.metric s.get c a dca ∧
           Dist.lt dc da = false ∧ Dist.lt dca dc = true)) := by
  have hi := hist_inv hP h
  obtain ⟨e, found, links, v, he, hg, hl, hc⟩ := add_links hP hsym hdist hi hn ha
  obtain ⟨dd, _, hd1⟩ := hi.dim
  have hold : ∀ id, id < vs.length → ∃ v links, s.get id = some v ∧ v.conns[0]? = some links ∧ ∀ b ∈ links, b < vs.length := by
    intro id hid
    obtain ⟨w, b1, _, b3, b4⟩ := hi.wf id hid
    exact ⟨w, w.conns[0]'(by omega), b1, List.getElem?_eq_getElem (by omega), fun b hb => ((b4 0 _ (List.getElem?_eq_getElem (by omega))).2.2.2 b hb).1⟩
  have hlt : ∀ x, Walk s.get e x → x < vs.length := fun x hx =>
    (walk_base (s' := s) (fun id v cur _ hg hc => ⟨v, hg, hc⟩) hold he hx).2
  have hlen : ∀ id v, id < vs.length → s.get id = some v → P.metric.len v.vec = dd := by
    intro id v hid hg
    rw [hi.holds id _ v (List.getElem?_eq_getElem hid) hg, hP.norm, hd1 _ (by simp)]
  have hdt : ∀ y ∈ found, ∀ d, DistTo P.metric s.get (P.norm vec) y.id d ↔ d = y.dist := by
    intro y hy d
    obtain ⟨_, v, h1, h2⟩ := hc.walk y hy
    constructor
    · rintro ⟨w, h3, h4⟩
      rw [h1] at h3; cases h3
      rw [h2] at h4; cases h4; rfl
    · rintro rfl; exact ⟨v, h1, h2⟩
  have hf : ∀ y ∈ found, ∀ u, vo 0 none 0 y.id = some u → ∃ v, s.get y.id = some v ∧ v.vec = u := by
    intro y hy u hu
    exact hvo _ _ _ _ _ (hlt _ (hc.walk y hy).1) hu
  obtain ⟨kept, hp, hsel⟩ := hc.sel
  have hsub : ∀ x ∈ kept, x ∈ found := by
    rcases hsel with ⟨_, h2⟩ | ⟨_, _, h2, _⟩
    · exact fun x hx => h2.mem_iff.mp hx
    · exact fun x hx => (h2 x hx).1
  have hmem : ∀ a, a ∈ links ↔ ∃ y ∈ kept, y.id = a := by
    intro a; rw [hp.mem_iff, List.mem_map]
  have hkn : (kept.map Item.id).Nodup := by
    rcases hsel with ⟨_, h2⟩ | ⟨_, h1, h2, h3, _⟩
    · exact ((h2.map Item.id).nodup_iff).mpr hc.nodup
    · have := (hist_inv hP (Hist.add vo sched vec level h (by rw [ha]))).wf vs.length (by simp)
      obtain ⟨w, b1, _, _, b4⟩ := this
      have b1 : s'.get vs.length = some w := b1
      rw [hg] at b1; cases b1
      exact hp.nodup_iff.mp (b4 0 links hl).1
  have huniq : ∀ x ∈ found, ∀ y ∈ found, x.id = y.id → x = y := by
    intro x hx y hy hxy
    exact nodup_ids_inj hc.nodup hx hy hxy
  refine ⟨e, found.map Item.id, v, links, he, hc.nodup, ?_, ?_, hg, hl, hp.nodup_iff.mpr hkn, ?_, ?_, ?_, ?_, ?_⟩
  · intro x hx
    obtain ⟨y, hy, rfl⟩ := List.mem_map.mp hx
    exact ⟨hlt _ (hc.walk y hy).1, (hc.walk y hy).1⟩
  · rw [List.length_map]; exact hc.wide
  · intro a ha
    obtain ⟨y, hy, rfl⟩ := (hmem a).mp ha
    exact List.mem_map_of_mem (hsub y hy)
  · rw [hp.length_eq, List.length_map]
    rcases hsel with ⟨h1, h2⟩ | ⟨_, _, _, h3, _⟩
    · rw [h2.length_eq]; omega
    · exact h3
  · intro hne
    obtain ⟨m, hm1, hm2⟩ := exists_nearest found (by intro e; rw [e] at hne; exact hne rfl)
    have key : ∃ y ∈ kept, ∀ c ∈ found, Dist.lt c.dist y.dist = false := by
      have step : ∀ y, y ∈ kept → Dist.lt m.dist y.dist = false → ∃ y ∈ kept, ∀ c ∈ found, Dist.lt c.dist y.dist = false := by
        intro y hy hmy
        refine ⟨y, hy, fun c hcf => ?_⟩
        cases hh : Dist.lt c.dist y.dist with
        | false => rfl
        | true =>
          rcases LawfulDist.cotrans _ m.dist _ hh with h1 | h1
          · rw [hm2 c hcf] at h1; cases h1
          · rw [hmy] at h1; cases h1
      rcases hsel with ⟨_, h2⟩ | ⟨_, _, _, _, h5⟩
      · exact ⟨m, h2.mem_iff.mpr hm1, hm2⟩
      · rcases h5 m hm1 with h6 | ⟨h6, h7⟩ | ⟨y, hy, _, _, _, _, h6, _⟩
        · exact ⟨m, h6, hm2⟩
        · obtain ⟨y, hy⟩ : ∃ y, y ∈ kept := by
            cases kept with
            | nil => simp at h6; omega
            | cons y _ => exact ⟨y, by simp⟩
          exact step y hy (h7 y hy)
        · exact step y hy h6
    obtain ⟨y, hy, hmin⟩ := key
    refine ⟨y.id, (hmem _).mpr ⟨y, hy, rfl⟩, y.dist, (hdt y (hsub y hy) _).mpr rfl, fun c hcf dc hdc => ?_⟩
    obtain ⟨z, hz, rfl⟩ := List.mem_map.mp hcf
    rw [(hdt z hz dc).mp hdc]; exact hmin z hz
  · intro hlong a ha b hb da db dab h1 h2 h3 h4
    rw [List.length_map] at hlong
    obtain ⟨y, hy, rfl⟩ := (hmem a).mp ha
    obtain ⟨z, hz, rfl⟩ := (hmem b).mp hb
    have h1 := (hdt y (hsub y hy) da).mp h1
    have h2 := (hdt z (hsub z hz) db).mp h2
    subst h1 h2
    rcases hsel with ⟨h5, _⟩ | ⟨_, h5, h6, _, _⟩
    · omega
    · obtain ⟨vz, vy, g1, g2, g3⟩ := h3
      obtain ⟨_, u, hu⟩ := h6 y hy
      obtain ⟨_, w, hw⟩ := h6 z hz
      obtain ⟨v1, x1, x2⟩ := hf y (hsub y hy) u hu
      obtain ⟨v2, x3, x4⟩ := hf z (hsub z hz) w hw
      rw [g2] at x1; cases x1
      rw [g1] at x3; cases x3
      have hyz : Apart P (vo 0 none 0) y z := by
        obtain ⟨i, hi', rfl⟩ := List.getElem_of_mem hy
        obtain ⟨j, hj', rfl⟩ := List.getElem_of_mem hz
        rcases Nat.lt_trichotomy i j with hij | hij | hij
        · exact List.pairwise_iff_getElem.mp h5 i j hi' hj' hij
        · subst hij; rw [LawfulDist.irrefl] at h4; cases h4
        · have := (List.pairwise_iff_getElem.mp h5 j i hj' hi' hij).1
          rw [h4] at this; cases this
      have := hyz.2 u w hu hw
      rw [← x2, ← x4, g3] at this
      exact this
  · intro c hcf hcl
    obtain ⟨z, hz, rfl⟩ := List.mem_map.mp hcf
    refine ⟨z.dist, (hdt z hz _).mpr rfl, ?_⟩
    have hzk : z ∉ kept := fun hk => hcl ((hmem _).mpr ⟨z, hk, rfl⟩)
    rcases hsel with ⟨_, h2⟩ | ⟨_, _, h6, _, h7⟩
    · exact absurd (h2.mem_iff.mpr hz) hzk
    · rcases h7 z hz with h8 | ⟨h8, h9⟩ | ⟨y, hy, u, w, hu, hw, h8, h9⟩
      · exact absurd h8 hzk
      · left
        refine ⟨by rw [hp.length_eq, List.length_map]; exact h8, fun a ha da hda => ?_⟩
        obtain ⟨y, hy, rfl⟩ := (hmem a).mp ha
        rw [(hdt y (hsub y hy) da).mp hda]; exact h9 y hy
      · right
        obtain ⟨v1, x1, x2⟩ := hf y (hsub y hy) u hu
        obtain ⟨v2, x3, x4⟩ := hf z hz w hw
        obtain ⟨d, hd⟩ := hdist v2.vec v1.vec (by
          rw [hlen _ v1 (hlt _ (hc.walk y (hsub y hy)).1) x1, hlen _ v2 (hlt _ (hc.walk z hz).1) x3])
        refine ⟨y.id, (hmem _).mpr ⟨y, hy, rfl⟩, y.dist, d, (hdt y (hsub y hy) _).mpr rfl, ⟨v2, v1, x3, x1, hd⟩, h8, ?_⟩
        rw [← x2, ← x4, hd] at h9
        exact h9
/-- `d` is the distance between the vectors of `a` and `b` -/
def Apart2 (m : Metric V D) (val : Nat → Option V) (a b : Nat) (d : D) : Prop := ∃ v w, val a = some v ∧ val b = some w ∧ m.dist v w = some d

theorem distNodes_val {P : Params V D} {vo : Nat → Option V} {val : Nat → Option V} (hvo : ∀ id u, vo id = some u → val id = some u) {a b : Nat} {d : D}
    (h : distNodes P vo a b = .ok d) : Apart2 P.metric val a b d := by
  have hg : ∀ id v, vecGet P vo id = .ok v → val id = some v := by
    intro id v hv
    unfold vecGet at hv
    split at hv
    · cases hv
    · split at hv
      · cases hv
      · rename_i w hw; cases hv; exact hvo _ _ hw
  unfold distNodes at h
  split at h
  · cases h
  · rename_i va hva
    split at h
    · cases h
    · split at h
      · cases h
      · rename_i vb hvb
        split at h
        · cases h
        · split at h
          · cases h
          · rename_i d' hd
            cases h
            exact ⟨va, vb, hg _ _ hva, hg _ _ hvb, hd⟩

theorem overfull_val {P : Params V D} {vo : Nat → Nat → Option V} {val : Nat → Option V} (hvo : ∀ k id u, vo k id = some u → val id = some u) {nb n : Nat}
    {cs : List Nat} {q r : Array (Item D)} (hq : ∀ y ∈ q.toList, Apart2 P.metric val y.id nb y.dist) (h : overfull P vo nb n cs q = .ok r) :
    ∀ y ∈ r.toList, Apart2 P.metric val y.id nb y.dist := by
  induction cs generalizing n q with
  | nil => cases h; exact hq
  | cons c cs ih =>
    unfold overfull at h
    split at h
    · cases h
    · rename_i d hd
      refine ih ?_ h
      intro y hy
      rcases List.mem_cons.mp ((insert_perm lessMax q _).mem_iff.mp hy) with rfl | hy
      · exact distNodes_val (hvo n) hd
      · exact hq y hy

/-- Linking back to a full neighbour: its new links are chosen by the same rules among its old links and the new vector `x`.  `val` are the vectors; the
caches may fail to deliver a vector but deliver no wrong one. -/
theorem full_neighbour_links [LawfulDist D] (P : Params V D) (val : Nat → Option V) (x level nb : Nat) (s s' : Index V) (v : Vertex V) (cur : List Nat)
    (vo : VecOracle V) (hvo : ∀ l o k id u, vo l o k id = some u → val id = some u)
    (hdist : ∀ a b u w, a ∈ x :: cur → b ∈ x :: cur → val a = some u → val b = some w → ∃ d, P.metric.dist u w = some d)
    (hids : ∀ id w, s.get id = some w → w.id = id)
    (hg : s.get nb = some v) (hx : nb ≠ x) (ht : s.tombs.contains nb = false) (hl : level ≤ v.level) (hcur : v.conns[level]? = some cur)
    (hnd : (x :: cur).Nodup) (hpos : 0 < maxConns P level)
    (hfull : maxConns P level ≤ cur.length) (ha : connectNeighbor P vo x level s nb = (s', none)) :
    ∃ v' links, s'.get nb = some v' ∧ v'.conns[level]? = some links ∧ links.length ≤ maxConns P level ∧ links.Nodup ∧ (∀ a ∈ links, a ∈ x :: cur) ∧
      (∃ a ∈ links, ∃ da, Apart2 P.metric val a nb da ∧ ∀ c ∈ x :: cur, ∀ dc, Apart2 P.metric val c nb dc → Dist.lt dc da = false) ∧
      (∀ a ∈ links, ∀ b ∈ links, ∀ da db dab, Apart2 P.metric val a nb da → Apart2 P.metric val b nb db → Apart2 P.metric val b a dab →
        Dist.lt da db = true → Dist.lt dab db = false) ∧
      (∀ c ∈ x :: cur, c ∉ links → ∃ dc, Apart2 P.metric val c nb dc ∧
        ((links.length = maxConns P level ∧ ∀ a ∈ links, ∀ da, Apart2 P.metric val a nb da → Dist.lt dc da = false) ∨
         ∃ a ∈ links, ∃ da dca, Apart2 P.metric val a nb da ∧ Apart2 P.metric val c a dca ∧ Dist.lt dc da = false ∧ Dist.lt dca dc = true)) := by
  have hr : raised v level = { v with committed := false } := by
    unfold raised; rw [if_neg (by omega)]
  unfold connectNeighbor at ha
  simp only [hg, if_neg hx, ht, Bool.false_eq_true, if_false] at ha
  rw [if_neg (by omega)] at ha
  simp only [hcur] at ha
  rw [if_neg (by omega)] at ha
  cases hd : distNodes P (vo level (some nb) 0) x nb with
  | error e => rw [hd] at ha; cases ha
  | ok d =>
    rw [hd] at ha
    simp only at ha
    cases ho : overfull P (vo level (some nb)) nb 1 cur (insert lessMax #[] ⟨x, d⟩) with
    | error e => rw [ho] at ha; cases ha
    | ok cands =>
      rw [ho] at ha
      simp only at ha
      cases hk : selectNeighbors P (vo level (some nb) (cur.length + 1)) (fun _ => false) (maxConns P level) cands with
      | error e => rw [hk] at ha; cases ha
      | ok r =>
        rw [hk] at ha
        simp only at ha
        cases ha
        have hperm : (cands.toList.map Item.id).Perm (x :: cur) := by
          refine (overfull_perm ho).trans ?_
          have h1 := ((insert_perm lessMax (#[] : Array (Item D)) ⟨x, d⟩).map Item.id)
          simp only [List.map_cons, List.map_nil] at h1
          refine (h1.append_left cur).trans ?_
          exact List.perm_append_comm
        have hval := overfull_val (P := P) (val := val) (fun k id u hu => hvo _ _ _ id u hu) (fun y hy => by
          have := (insert_perm lessMax (#[] : Array (Item D)) ⟨x, d⟩).mem_iff.mp hy
          simp at this; subst this
          exact distNodes_val (fun id u hu => hvo _ _ _ id u hu) hd) ho
        have hsz : maxConns P level ≤ cands.size := by
          have := hperm.length_eq
          simp at this; omega
        have hnd' : (cands.toList.map Item.id).Nodup := hperm.nodup_iff.mpr hnd
        obtain ⟨kept, k1, k2, k3, k4, k5⟩ := selectNeighbors_spec hsz hk
        have hdr : ((drain lessMax r).map Item.id).Perm (kept.map Item.id) := ((drain_perm lessMax r).trans k1).map Item.id
        have hmem : ∀ a, a ∈ (drain lessMax r).map Item.id ↔ ∃ y ∈ kept, y.id = a := by
          intro a; rw [hdr.mem_iff, List.mem_map]
        have hdt : ∀ y ∈ cands.toList, ∀ d, Apart2 P.metric val y.id nb d ↔ d = y.dist := by
          intro y hy d
          obtain ⟨a, b, h1, h2, h3⟩ := hval y hy
          constructor
          · rintro ⟨a', b', g1, g2, g3⟩
            rw [h1] at g1; cases g1
            rw [h2] at g2; cases g2
            rw [h3] at g3; cases g3; rfl
          · rintro rfl; exact ⟨a, b, h1, h2, h3⟩
        have hfound : ∀ c ∈ x :: cur, ∃ y ∈ cands.toList, y.id = c := by
          intro c hc
          exact List.mem_map.mp (hperm.mem_iff.mpr hc)
        have hvid : nb = ({ v with committed := false } : Vertex V).id := (hids nb v hg).symm
        have hget : ∀ links, ((s.put { v with committed := false }).put (setConns { v with committed := false } level links)).get nb =
            some (setConns { v with committed := false } level links) := by
          intro links; rw [get_put]; exact if_pos hvid
        have hin : level < v.conns.length := (List.getElem?_eq_some_iff.mp hcur).1
        refine ⟨_, _, hget _, by rw [setConns_get, if_pos rfl, if_pos hin], ?_, (selected_ids hk).2.1 hnd', ?_, ?_, ?_, ?_⟩
        · rw [hdr.length_eq, List.length_map]; exact k4
        · intro a ha
          exact hperm.mem_iff.mp ((selected_ids hk).2.2 a ha)
        · obtain ⟨m, hm1, hm2⟩ := exists_nearest cands.toList (by
            intro e; rw [e] at hperm; have := hperm.length_eq; simp at this)
          have key : ∃ y ∈ kept, ∀ c ∈ cands.toList, Dist.lt c.dist y.dist = false := by
            have step : ∀ y, y ∈ kept → Dist.lt m.dist y.dist = false → ∃ y ∈ kept, ∀ c ∈ cands.toList, Dist.lt c.dist y.dist = false := by
              intro y hy hmy
              refine ⟨y, hy, fun c hcf => ?_⟩
              cases hh : Dist.lt c.dist y.dist with
              | false => rfl
              | true =>
                rcases LawfulDist.cotrans _ m.dist _ hh with h1 | h1
                · rw [hm2 c hcf] at h1; cases h1
                · rw [hmy] at h1; cases h1
            rcases k5 m hm1 rfl with h6 | ⟨h6, h7⟩ | ⟨y, hy, _, _, _, _, h6, _⟩
            · exact ⟨m, h6, hm2⟩
            · obtain ⟨y, hy⟩ : ∃ y, y ∈ kept := by
                cases kept with
                | nil => simp at h6; omega
                | cons y _ => exact ⟨y, by simp⟩
              exact step y hy (h7 y hy)
            · exact step y hy h6
          obtain ⟨y, hy, hmin⟩ := key
          refine ⟨y.id, (hmem _).mpr ⟨y, hy, rfl⟩, y.dist, (hdt y (k3 y hy).1 _).mpr rfl, fun c hcf dc hdc => ?_⟩
          obtain ⟨z, hz, rfl⟩ := hfound c hcf
          rw [(hdt z hz dc).mp hdc]; exact hmin z hz
        · intro a ha b hb da db dab h1 h2 h3 h4
          obtain ⟨y, hy, rfl⟩ := (hmem a).mp ha
          obtain ⟨z, hz, rfl⟩ := (hmem b).mp hb
          have h1 := (hdt y (k3 y hy).1 da).mp h1
          have h2 := (hdt z (k3 z hz).1 db).mp h2
          subst h1 h2
          obtain ⟨vz, vy, g1, g2, g3⟩ := h3
          obtain ⟨_, _, u, hu⟩ := k3 y hy
          obtain ⟨_, _, w, hw⟩ := k3 z hz
          have x1 := hvo _ _ _ _ _ hu
          have x3 := hvo _ _ _ _ _ hw
          rw [g2] at x1; cases x1
          rw [g1] at x3; cases x3
          have hyz : Apart P (vo level (some nb) (cur.length + 1)) y z := by
            obtain ⟨i, hi', rfl⟩ := List.getElem_of_mem hy
            obtain ⟨j, hj', rfl⟩ := List.getElem_of_mem hz
            rcases Nat.lt_trichotomy i j with hij | hij | hij
            · exact List.pairwise_iff_getElem.mp k2 i j hi' hj' hij
            · subst hij; rw [LawfulDist.irrefl] at h4; cases h4
            · have := (List.pairwise_iff_getElem.mp k2 j i hj' hi' hij).1
              rw [h4] at this; cases this
          have := hyz.2 _ _ hu hw
          rw [g3] at this
          exact this
        · intro c hcf hcl
          obtain ⟨z, hz, rfl⟩ := hfound c hcf
          refine ⟨z.dist, (hdt z hz _).mpr rfl, ?_⟩
          have hzk : z ∉ kept := fun hk => hcl ((hmem _).mpr ⟨z, hk, rfl⟩)
          rcases k5 z hz rfl with h8 | ⟨h8, h9⟩ | ⟨y, hy, u, w, hu, hw, h8, h9⟩
          · exact absurd h8 hzk
          · left
            refine ⟨by rw [hdr.length_eq, List.length_map]; exact h8, fun a ha da hda => ?_⟩
            obtain ⟨y, hy, rfl⟩ := (hmem a).mp ha
            rw [(hdt y (k3 y hy).1 da).mp hda]; exact h9 y hy
          · right
            have x1 := hvo _ _ _ _ _ hu
            have x3 := hvo _ _ _ _ _ hw
            have hy' := hperm.mem_iff.mp (List.mem_map_of_mem (f := Item.id) (k3 y hy).1)
            obtain ⟨d', hd'⟩ := hdist z.id y.id _ _ hcf hy' x3 x1
            refine ⟨y.id, (hmem _).mpr ⟨y, hy, rfl⟩, y.dist, d', (hdt y (k3 y hy).1 _).mpr rfl, ⟨_, _, x3, x1, hd'⟩, h8, ?_⟩
            rw [hd'] at h9
            exact h9

/-! Non-vacuity: a seventh vector added to the collection of six (`maxConn` 2, a restart in its history).  It is linked to 5 and 1 although 0 and others were
found; its neighbour 1 was full with 0, 2, 5 and keeps 0 and 6. -/
def vecs7 : List (List Nat) := Ex.vecs ++ [[12, 1]]
def vo7 : VecOracle (List Nat) := fun _ _ _ id => vecs7[id]?
def s7 : Index (List Nat) := (add Ex.P vo7 Ex.sched Ex.s6 6 [12, 1] 0).1
theorem vmetric_symm (a b : List Nat) : Ex.vmetric.dist a b = Ex.vmetric.dist b a := by
  simp only [Ex.vmetric]
  by_cases h : a.length = b.length
  · rw [if_pos h, if_pos h.symm]
    congr 2
    rw [List.zipWith_comm]
    congr 1
    funext x y
    exact Nat.add_comm _ _
  · rw [if_neg h, if_neg (fun e => h e.symm)]
theorem vmetric_def (a b : List Nat) (h : a.length = b.length) : ∃ d, Ex.vmetric.dist a b = some d := ⟨_, if_pos h⟩
theorem ex_add : add Ex.P vo7 Ex.sched Ex.s6 6 [12, 1] 0 = (s7, none) := by
  have : (add Ex.P vo7 Ex.sched Ex.s6 6 [12, 1] 0).2 = none := by decide +kernel
  rw [← this]; rfl
theorem ex_links : ((s7.get 6).map Vertex.conns, (s7.get 1).map Vertex.conns, (Ex.s6.get 1).map Vertex.conns) =
    (some [[5, 1]], some [[0, 6], [3]], some [[0, 2, 5], [3]]) := by decide +kernel
theorem ex_vecs : ∀ l o k id u, id < Ex.vecs.length → vo7 l o k id = some u → ∃ v, Ex.s6.get id = some v ∧ v.vec = u := by
  have h : (List.range 6).all (fun id => (Ex.s6.get id).map Vertex.vec == vecs7[id]?) = true := by decide +kernel
  intro l o k id u hid hu
  rw [List.all_eq_true] at h
  have := h id (List.mem_range.mpr hid)
  rw [beq_iff_eq, show vecs7[id]? = some u from hu] at this
  cases hg : Ex.s6.get id with
  | none => rw [hg] at this; cases this
  | some v => rw [hg] at this; cases this; exact ⟨v, rfl, rfl⟩
example : ∃ (start : Nat) (found : List Nat) (v : Vertex (List Nat)) (links : List Nat), start < 6 ∧ found.Nodup ∧ (∀ x ∈ found, x < 6 ∧ Walk Ex.s6.get start x) ∧
    (Ex.P.efC ≤ found.length ∨ ∀ x, Walk Ex.s6.get start x → x ∈ found) ∧ s7.get 6 = some v ∧ v.conns[0]? = some links ∧ links.Nodup := by
  obtain ⟨start, found, v, links, h1, h2, h3, h4, h5, h6, h7, _⟩ :=
    new_vector_links Ex.P Ex.P_ok (by decide) vmetric_symm vmetric_def Ex.s6 s7 Ex.vecs Ex.hist6 (by decide) vo7 ex_vecs Ex.sched [12, 1] 0 ex_add
  exact ⟨start, found, v, links, h1, h2, h3, h4, h5, h6, h7⟩
example : ∃ s' : Index (List Nat), connectNeighbor Ex.P vo7 6 0 (Ex.s6.put (newNode 6 [12, 1] 0)) 1 = (s', none) ∧
    (s'.get 1).map Vertex.conns = some [[0, 6], [3]] :=
  ⟨(connectNeighbor Ex.P vo7 6 0 (Ex.s6.put (newNode 6 [12, 1] 0)) 1).1, by
    have : (connectNeighbor Ex.P vo7 6 0 (Ex.s6.put (newNode 6 [12, 1] 0)) 1).2 = none := by decide +kernel
    rw [← this], by decide +kernel⟩

end Fave.C50
