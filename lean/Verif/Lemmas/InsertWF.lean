import Verif.Lemmas.Insert
import Verif.Spec.WellFormed
/-!
# A successful addition keeps the link graph well formed
-/
namespace Fave.Index
open Queue Spec
variable {V D : Type} [Dist D]

/-- the graph while the new node `n` (of level `L`) is being linked: levels above `l` are finished, and so is level `l`
except that the neighbours in `rem` do not link back yet -/
structure Mid (P : Params V D) (n L l : Nat) (rem : List Nat) (s : Index V) : Prop where
  old : ∀ id, id < n → ∃ v, s.get id = some v ∧ v.id = id ∧ v.conns.length = v.level + 1 ∧
    ∀ k links, v.conns[k]? = some links → links.Nodup ∧ id ∉ links ∧ links.length ≤ maxConns P k ∧
      ∀ b ∈ links, (b < n ∧ ∃ w, s.get b = some w ∧ k ≤ w.level) ∨ (b = n ∧ k ≤ L ∧ (l < k ∨ (k = l ∧ id ∉ rem)))
  new : ∃ v, s.get n = some v ∧ v.id = n ∧ v.level = L ∧ v.conns.length = L + 1 ∧
    ∀ k links, v.conns[k]? = some links → links.Nodup ∧ n ∉ links ∧ links.length ≤ maxConns P k ∧
      ∀ b ∈ links, b < n ∧ ∃ w, s.get b = some w ∧ (k ≤ w.level ∨ (k = l ∧ b ∈ rem))

theorem mid_upd {P : Params V D} {n L l nb : Nat} {rem : List Nat} {s s' : Index V} {v u : Vertex V}
    (h : Mid P n L l (nb :: rem) s) (hl : l ≤ L) (hnb : nb < n) (hrem : nb ∉ rem) (hg : s.get nb = some v) (hu : Upd s s' u)
    (hid : u.id = nb) (hlev : v.level ≤ u.level) (hlev' : l ≤ u.level) (hlen : u.conns.length = u.level + 1)
    (hother : ∀ (k : Nat) links, k ≠ l → u.conns[k]? = some links → v.conns[k]? = some links ∨ links = [])
    (hat : ∀ (links : List Nat), u.conns[l]? = some links → links.Nodup ∧ nb ∉ links ∧ links.length ≤ maxConns P l ∧
      ∀ b ∈ links, b = n ∨ ∃ links', v.conns[l]? = some links' ∧ b ∈ links') : Mid P n L l rem s' := by
  have htr : ∀ b k w, s.get b = some w → k ≤ w.level → ∃ w', s'.get b = some w' ∧ k ≤ w'.level := by
    intro b k w hw hk
    rw [hu.get]
    by_cases hb : b = u.id
    · refine ⟨u, if_pos hb, ?_⟩
      rw [hb, hid, hg] at hw; cases hw; omega
    · exact ⟨w, by rw [if_neg hb]; exact hw, hk⟩
  constructor
  · intro id hidn
    obtain ⟨v0, hg0, h1, h2, h3⟩ := h.old id hidn
    by_cases he : id = nb
    · subst he
      have : v0 = v := by rw [hg] at hg0; cases hg0; rfl
      subst this
      refine ⟨u, by rw [hu.get, if_pos hid.symm], hid, hlen, ?_⟩
      intro k links hk
      by_cases hkl : k = l
      · subst hkl
        obtain ⟨a, b, c, d⟩ := hat links hk
        refine ⟨a, b, c, ?_⟩
        intro b hb
        rcases d b hb with hbn | ⟨links', hl', hb'⟩
        · exact .inr ⟨hbn, hl, .inr ⟨rfl, hrem⟩⟩
        · rcases (h3 k links' hl').2.2.2 b hb' with ⟨hb1, w, hw, hkw⟩ | ⟨_, _, hx | ⟨_, hx⟩⟩
          · exact .inl ⟨hb1, htr b k w hw hkw⟩
          · omega
          · exact absurd (List.mem_cons_self ..) hx
      · rcases hother k links hkl hk with hk' | rfl
        · obtain ⟨a, b, c, d⟩ := h3 k links hk'
          refine ⟨a, b, c, ?_⟩
          intro b hb
          rcases d b hb with ⟨hb1, w, hw, hkw⟩ | ⟨hb1, hb2, hb3⟩
          · exact .inl ⟨hb1, htr b k w hw hkw⟩
          · refine .inr ⟨hb1, hb2, ?_⟩
            rcases hb3 with hb3 | ⟨hb3, _⟩
            · exact .inl hb3
            · exact absurd hb3 hkl
        · exact ⟨List.nodup_nil, by simp, by simp, by simp⟩
    · refine ⟨v0, by rw [hu.get, hid, if_neg he]; exact hg0, h1, h2, ?_⟩
      intro k links hk
      obtain ⟨a, b, c, d⟩ := h3 k links hk
      refine ⟨a, b, c, ?_⟩
      intro b hb
      rcases d b hb with ⟨hb1, w, hw, hkw⟩ | ⟨hb1, hb2, hb3⟩
      · exact .inl ⟨hb1, htr b k w hw hkw⟩
      · refine .inr ⟨hb1, hb2, ?_⟩
        rcases hb3 with hb3 | ⟨hb3, hb4⟩
        · exact .inl hb3
        · exact .inr ⟨hb3, fun hm => hb4 (List.mem_cons_of_mem _ hm)⟩
  · obtain ⟨v0, hg0, h1, h2, h3, h4⟩ := h.new
    refine ⟨v0, by rw [hu.get, hid, if_neg (by omega)]; exact hg0, h1, h2, h3, ?_⟩
    intro k links hk
    obtain ⟨a, b, c, d⟩ := h4 k links hk
    refine ⟨a, b, c, ?_⟩
    intro b hb
    obtain ⟨hb1, w, hw, hd⟩ := d b hb
    refine ⟨hb1, ?_⟩
    rcases hd with hd | ⟨hd1, hd2⟩
    · obtain ⟨w', hw', hkw⟩ := htr b k w hw hd
      exact ⟨w', hw', .inl hkw⟩
    · rcases List.mem_cons.mp hd2 with rfl | hd3
      · exact ⟨u, by rw [hu.get, if_pos hid.symm], .inl (by omega)⟩
      · by_cases hbn : b = nb
        · subst hbn; exact absurd hd3 hrem
        · exact ⟨w, by rw [hu.get, hid, if_neg hbn]; exact hw, .inr ⟨hd1, hd3⟩⟩

theorem connectNeighbor_mid {P : Params V D} {vo : VecOracle V} {n L l nb : Nat} {rem : List Nat} {s s' : Index V}
    (h : Mid P n L l (nb :: rem) s) (hl : l ≤ L) (hnb : nb < n) (hrem : nb ∉ rem) (ht : s.tombs = [])
    (hc : connectNeighbor P vo n l s nb = (s', none)) : Mid P n L l rem s' := by
  obtain ⟨v, hg, hid, hlen, hlinks⟩ := h.old nb hnb
  rcases connectNeighbor_cases P vo n l s nb with ⟨_, h1 | h1 | h1⟩ | ⟨v0, hg0, hx, _, h1 | ⟨cur, links, _, hcur, hu, hcase⟩⟩
  · rw [hg] at h1; cases h1
  · omega
  · rw [ht] at h1; simp at h1
  · obtain ⟨e, he, _⟩ := h1; rw [hc] at he; cases he
  · have : v0 = v := by rw [hg] at hg0; cases hg0; rfl
    subst this
    rw [hc] at hu
    obtain ⟨hr1, hr2⟩ := raised_conns (l := l) hlen
    have hrl := raised_level v0 l
    have hcn : cur.Nodup ∧ nb ∉ cur ∧ n ∉ cur ∧ cur.length ≤ maxConns P l ∧ (cur ≠ [] → v0.conns[l]? = some cur) := by
      rcases hr2 l cur hcur with h' | h'
      · obtain ⟨a, b, c, d⟩ := hlinks l cur h'
        refine ⟨a, b, ?_, c, fun _ => h'⟩
        intro hm
        rcases d n hm with ⟨d1, _⟩ | ⟨_, _, d1 | ⟨_, d1⟩⟩
        · omega
        · omega
        · exact d1 (List.mem_cons_self ..)
      · subst h'; exact ⟨List.nodup_nil, by simp, by simp, by simp, by simp⟩
    obtain ⟨c1, c2, c3, c4, c5⟩ := hcn
    refine mid_upd h hl hnb hrem hg hu ((raised_id v0 l).trans hid) hrl.1 hrl.2.1 ?_ ?_ ?_
    · show (List.set _ _ _).length = _
      rw [List.length_set]; exact hr1
    · intro k lk hk hk2
      rw [setConns_get, if_neg hk] at hk2
      exact hr2 k lk hk2
    · intro lk hk
      rw [setConns_get, if_pos rfl] at hk
      split at hk
      · cases hk
        have hmem : ∀ b ∈ links, b = n ∨ b ∈ cur := by
          intro b hb
          rcases hcase with ⟨_, rfl⟩ | ⟨_, _, _, hsub⟩
          · simp at hb; exact hb.symm
          · exact List.mem_cons.mp (hsub b hb)
        refine ⟨?_, ?_, ?_, ?_⟩
        · rcases hcase with ⟨_, rfl⟩ | ⟨_, _, hnd, _⟩
          · rw [List.nodup_append]
            refine ⟨c1, by simp, ?_⟩
            intro a ha b hb hab
            simp at hb; subst hb; subst hab; exact c3 ha
          · exact hnd (List.nodup_cons.mpr ⟨c3, c1⟩)
        · intro hm
          rcases hmem nb hm with h' | h'
          · omega
          · exact c2 h'
        · rcases hcase with ⟨hlt, rfl⟩ | ⟨_, hle, _, _⟩
          · simp; omega
          · exact hle
        · intro b hb
          rcases hmem b hb with h' | h'
          · exact .inl h'
          · exact .inr ⟨cur, c5 (List.ne_nil_of_mem h'), h'⟩
      · cases hk

theorem connectAll_mid {P : Params V D} {vo : VecOracle V} {n L l : Nat} {nbs : List Nat} {s s' : Index V}
    (h : Mid P n L l nbs s) (hl : l ≤ L) (hnb : ∀ b ∈ nbs, b < n) (hnd : nbs.Nodup) (ht : s.tombs = [])
    (hc : connectAll P vo n l s nbs = (s', none)) : Mid P n L l [] s' := by
  induction nbs generalizing s with
  | nil => cases hc; exact h
  | cons nb nbs ih =>
    unfold connectAll at hc
    obtain ⟨hn1, hn2⟩ := List.nodup_cons.mp hnd
    split at hc
    · cases hc
    · rename_i s1 he
      have hm := connectNeighbor_mid h hl (hnb nb (by simp)) hn1 ht he
      have hs := (connectNeighbor_ext P vo n l s nb).same.tombs
      rw [he] at hs
      exact ih hm (fun b hb => hnb b (by simp [hb])) hn2 (hs.trans ht) hc

/-- entering a level: nothing links to the new node on it yet -/
theorem mid_enter {P : Params V D} {n L l : Nat} {s : Index V} {v : Vertex V} {nbs : List Nat} (h : Mid P n L (l + 1) [] s)
    (hl : l ≤ L) (hg : s.get n = some v) (hnb : ∀ b ∈ nbs, b < n) (hnd : nbs.Nodup) (hlen : nbs.length ≤ maxConns P l) :
    Mid P n L l nbs (s.put (setConns v l nbs)) := by
  obtain ⟨v0, hg0, h1, h2, h3, h4⟩ := h.new
  have : v0 = v := by rw [hg] at hg0; cases hg0; rfl
  subst this
  have hget : ∀ b, b < n → (s.put (setConns v0 l nbs)).get b = s.get b := by
    intro b hb
    rw [get_put, if_neg]
    show b ≠ v0.id
    omega
  constructor
  · intro id hid
    obtain ⟨w, a, b, c, d⟩ := h.old id hid
    refine ⟨w, by rw [hget id hid]; exact a, b, c, ?_⟩
    intro k links hk
    obtain ⟨d1, d2, d3, d4⟩ := d k links hk
    refine ⟨d1, d2, d3, ?_⟩
    intro b hb
    rcases d4 b hb with ⟨e1, w, e2, e3⟩ | ⟨e1, e2, e3⟩
    · exact .inl ⟨e1, w, by rw [hget b e1]; exact e2, e3⟩
    · exact .inr ⟨e1, e2, .inl (by rcases e3 with e3 | e3 <;> omega)⟩
  · refine ⟨setConns v0 l nbs, ?_, h1, h2, ?_, ?_⟩
    · rw [get_put, if_pos]; exact h1.symm
    · show (List.set _ _ _).length = _
      rw [List.length_set]; exact h3
    · intro k links hk
      rw [setConns_get] at hk
      split at hk
      · rename_i hkl
        subst hkl
        split at hk
        · cases hk
          refine ⟨hnd, fun hm => Nat.lt_irrefl n (hnb n hm), hlen, ?_⟩
          intro b hb
          obtain ⟨w, a, _⟩ := h.old b (hnb b hb)
          exact ⟨hnb b hb, w, by rw [hget b (hnb b hb)]; exact a, .inr ⟨rfl, hb⟩⟩
        · cases hk
      · obtain ⟨d1, d2, d3, d4⟩ := h4 k links hk
        refine ⟨d1, d2, d3, ?_⟩
        intro b hb
        obtain ⟨e1, w, e2, e3⟩ := d4 b hb
        refine ⟨e1, w, by rw [hget b e1]; exact e2, ?_⟩
        rcases e3 with e3 | ⟨_, e3⟩
        · exact .inl e3
        · simp at e3

/-- an existing candidate is taken as it is -/
theorem pickEntry_ok {P : Params V D} {s : Index V} {q : V} {m : Nat} {cand : Nat} {v : Vertex V} {ep : Item D}
    (hg : s.get cand = some v) (h : pickEntry P s q (m + 1) [] cand = .ok ep) : ep.id = cand ∧ (s.graph P).distNodeVec cand q = some ep.dist := by
  unfold pickEntry at h
  rw [hg] at h
  simp only at h
  split at h
  · cases h
  · rename_i d hd; cases h; exact ⟨rfl, hd⟩

/-- what a successful pass over a level did -/
theorem doAtLevel_ok {P : Params V D} {vo : VecOracle V} {sched : Graph.Scheds D} {q : V} {x : Nat} {s s' : Index V} {ep level ep' : Nat}
    (h : doAtLevel P vo sched q x s ep level = (s', .ok ep')) :
    ∃ e results kept v, pickEntry P s q 4 [] ep = .ok e ∧
      Search.searchLayer ((s.graph P).senv q none) (sched level) [e] P.efC level = .ok results ∧
      selectNeighbors P (vo level none 0) (fun _ => false) P.maxConn results = .ok kept ∧ s.get x = some v ∧ level < v.conns.length ∧
      connectAll P vo x level (s.put (setConns v level ((drain lessMax kept).map Item.id))) ((drain lessMax kept).map Item.id) = (s', none) ∧
      (ep' = e.id ∨ ep' ∈ (drain lessMax kept).map Item.id) := by
  unfold doAtLevel at h
  split at h
  · cases h
  · rename_i e he
    split at h
    · cases h
    · rename_i results hr
      split at h
      · cases h
      · rename_i kept hk
        simp only at h
        split at h
        · cases h
        · rename_i v hv
          split at h
          · cases h
          · rename_i hlen
            refine ⟨e, results, kept, v, he, hr, hk, hv, by omega, ?_⟩
            split at h
            · cases h
            · rename_i s1 hc
              split at h
              · cases h; exact ⟨hc, .inl rfl⟩
              · rename_i y hy
                simp only [Prod.mk.injEq, Except.ok.injEq] at h
                obtain ⟨rfl, rfl⟩ := h
                refine ⟨hc, ?_⟩
                split
                · exact .inl rfl
                · exact .inr (List.mem_of_getLast? hy)

theorem doAtLevel_mid {P : Params V D} (hP : P.maxConn ≤ P.maxConn0) (hv : ∀ id, id < P.cacheSize → id < P.visitedSize)
    {vo : VecOracle V} {sched : Graph.Scheds D} {q : V} {n L l : Nat} {s s' : Index V}
    {ep ep' : Nat} (h : Mid P n L (l + 1) [] s) (hl : l ≤ L) (hep : ep < n) (hn : n ≤ P.cacheSize) (ht : s.tombs = [])
    (hd : doAtLevel P vo sched q n s ep l = (s', .ok ep')) : Mid P n L l [] s' ∧ ep' < n := by
  obtain ⟨e, results, kept, v, he, hr, hk, hg, hlen, hc, hep'⟩ := doAtLevel_ok hd
  obtain ⟨w, hw, _⟩ := h.old ep hep
  obtain ⟨he1, _⟩ := pickEntry_ok hw he
  have hen : e.id < n := by omega
  have heps : Search.EpsOk ((s.graph P).senv q none) [e] :=
    ⟨by simp, fun y hy => by simp at hy; subst hy; exact hv _ (by omega)⟩
  have hres : ∀ y ∈ results.toList, y.id < n := by
    refine Search.searchLayer_closed (C := fun i => i < n) ?_ (fun y hy => by simp at hy; subst hy; exact hen) (keysOk P s q none) heps hr
    intro id v0 links b hid hg0 hlk hb
    obtain ⟨v1, a1, _, _, a4⟩ := h.old id hid
    have : v1 = v0 := by
      have hg0' : s.get id = some v0 := hg0
      rw [a1] at hg0'; cases hg0'; rfl
    subst this
    rcases (a4 l links hlk).2.2.2 b hb with ⟨h1, _⟩ | ⟨_, _, h1 | ⟨h1, _⟩⟩ <;> omega
  have hnod : (results.toList.map Item.id).Nodup :=
    (Search.searchLayer_inv (P := fun _ => True) (fun _ _ => trivial) heps (fun _ _ => trivial) hr).2
  obtain ⟨b1, b2, b3⟩ := selected_ids hk
  have hnb : ∀ b ∈ (drain lessMax kept).map Item.id, b < n := by
    intro b hb
    obtain ⟨y, hy, rfl⟩ := List.mem_map.mp (b3 b hb)
    exact hres y hy
  refine ⟨connectAll_mid (mid_enter h hl hg hnb (b2 hnod) ?_) hl hnb (b2 hnod) ht hc, ?_⟩
  · unfold maxConns; split <;> omega
  · rcases hep' with h' | h'
    · omega
    · exact hnb _ h'

theorem doLevels_mid {P : Params V D} (hP : P.maxConn ≤ P.maxConn0) (hv : ∀ id, id < P.cacheSize → id < P.visitedSize)
    {vo : VecOracle V} {sched : Graph.Scheds D} {q : V} {n L : Nat} (l : Nat) {s s' : Index V}
    {ep : Nat} (h : Mid P n L l [] s) (hl : l ≤ L + 1) (hep : ep < n) (hn : n ≤ P.cacheSize) (ht : s.tombs = []) (hi : IdsOk s)
    (hd : doLevels P vo sched q n l s ep = (s', none)) : Mid P n L 0 [] s' := by
  induction l generalizing s ep with
  | zero => cases hd; exact h
  | succ l ih =>
    unfold doLevels at hd
    split at hd
    · cases hd
    · rename_i s1 ep1 he
      obtain ⟨h1, h2⟩ := doAtLevel_mid hP hv h (by omega) hep hn ht he
      have hx := doAtLevel_ext P vo sched q n s ep l hi
      rw [he] at hx
      exact ih h1 (by omega) h2 (hx.same.tombs.trans ht) (hx.ids hi) hd

theorem findBest_lt {P : Params V D} (hv : ∀ id, id < P.cacheSize → id < P.visitedSize)
    {sched : Graph.Scheds D} {q : V} {n target : Nat} {s : Index V}
    (hcl : ∀ (l id : Nat) v links b, id < n → s.get id = some v → v.conns[l]? = some links → b ∈ links → b < n) (hn : n ≤ P.cacheSize)
    (m : Nat) {ep ep' : Nat} (hep : ep < n) (h : findBest P s sched q target m ep = .ok ep') : ep' < n := by
  induction m generalizing ep with
  | zero => cases h; exact hep
  | succ m ih =>
    unfold findBest at h
    split at h
    · cases h; exact hep
    · split at h
      · cases h
      · split at h
        · cases h
        · rename_i d _ _ res hr
          have hres : ∀ y ∈ res.toList, y.id < n := by
            refine Search.searchLayer_closed (C := fun i => i < n) (hcl (m + 1)) (fun y hy => by simp at hy; subst hy; exact hep)
              (keysOk P s q none) ⟨by simp, fun y hy => by simp at hy; subst hy; exact hv _ (show ep < _ by omega)⟩ hr
          split at h
          · exact ih hep h
          · rename_i x _ hp
            have hx : x.id < n := hres x ((pop_perm lessMax hp).mem_iff.mpr (by simp))
            split at h
            · exact ih hep h
            · refine ih ?_ h
              split <;> assumption

/-- what a successful addition of a further vector did -/
theorem connectNew_ok {P : Params V D} {vo : VecOracle V} {sched : Graph.Scheds D} {s s' : Index V} {x : Nat} {q : V} {level : Nat}
    (h : connectNew P vo sched s x q level = (s', none)) :
    ∃ ep s1 v, findBest P s sched q level s.maxLayer s.entry = .ok ep ∧
      doLevels P vo sched q x (Nat.min level s.maxLayer + 1) s ep = (s1, none) ∧ s1.get x = some v ∧
      (∀ id, s'.get id = (s1.put { v with maint := false }).get id) ∧ s'.cache = (s1.put { v with maint := false }).cache ∧
      s'.kv = s1.kv ∧ s'.kvEntry = s1.kvEntry ∧ s'.kvCount = s1.kvCount ∧ s'.tombs = s1.tombs ∧ s'.once = s1.once ∧
      ((s1.maxLayer < level ∧ s'.entry = x ∧ s'.maxLayer = level) ∨ (level ≤ s1.maxLayer ∧ s'.entry = s1.entry ∧ s'.maxLayer = s1.maxLayer)) := by
  unfold connectNew at h
  split at h
  · cases h
  · rename_i ep hep
    split at h
    · cases h
    · rename_i s1 hd
      split at h
      · cases h
      · rename_i v hv
        refine ⟨ep, s1, v, hep, hd, hv, ?_⟩
        have hm : (s1.put { v with maint := false }).maxLayer = s1.maxLayer := rfl
        simp only [hm] at h
        by_cases hlt : s1.maxLayer < level
        · rw [if_pos hlt] at h; cases h
          exact ⟨fun _ => rfl, rfl, rfl, rfl, rfl, rfl, rfl, .inl ⟨hlt, rfl, rfl⟩⟩
        · rw [if_neg hlt] at h; cases h
          exact ⟨fun _ => rfl, rfl, rfl, rfl, rfl, rfl, rfl, .inr ⟨by omega, rfl, rfl⟩⟩

theorem mid_start {P : Params V D} {n L l : Nat} {q : V} {s : Index V} (h : WellFormed P.maxConn0 P.maxConn s.get n) :
    Mid P n L l [] (s.put (newNode n q L)) := by
  have hget : ∀ b, b < n → (s.put (newNode n q L)).get b = s.get b := by
    intro b hb
    rw [get_put, if_neg]
    show b ≠ n
    omega
  constructor
  · intro id hid
    obtain ⟨w, a, b, c, d⟩ := h id hid
    refine ⟨w, by rw [hget id hid]; exact a, b, c, ?_⟩
    intro k links hk
    obtain ⟨d1, d2, d3, d4⟩ := d k links hk
    refine ⟨d1, d2, d3, ?_⟩
    intro b hb
    obtain ⟨e1, w, e2, e3⟩ := d4 b hb
    exact .inl ⟨e1, w, by rw [hget b e1]; exact e2, e3⟩
  · refine ⟨newNode n q L, (get_put _ _ _).trans (if_pos rfl), rfl, rfl, by simp [newNode], ?_⟩
    intro k links hk
    have : links = [] := by
      simp only [newNode, List.getElem?_replicate] at hk
      split at hk
      · cases hk; rfl
      · cases hk
    subst this
    exact ⟨List.nodup_nil, by simp, by simp, by simp⟩

theorem mid_finish {P : Params V D} {n L : Nat} {s s' : Index V} {v : Vertex V} (h : Mid P n L 0 [] s) (hg : s.get n = some v)
    (hs : ∀ id, s'.get id = (s.put { v with maint := false }).get id) : WellFormed P.maxConn0 P.maxConn s'.get (n + 1) := by
  obtain ⟨v0, hg0, h1, h2, h3, h4⟩ := h.new
  have : v0 = v := by rw [hg] at hg0; cases hg0; rfl
  subst this
  have hgn : s'.get n = some { v0 with maint := false } := by rw [hs, get_put, if_pos]; exact h1.symm
  have hget : ∀ b, b < n → s'.get b = s.get b := by
    intro b hb
    rw [hs, get_put, if_neg]
    show b ≠ v0.id
    omega
  intro id hid
  by_cases hidn : id < n
  · obtain ⟨w, a, b, c, d⟩ := h.old id hidn
    refine ⟨w, by rw [hget id hidn]; exact a, b, c, ?_⟩
    intro k links hk
    obtain ⟨d1, d2, d3, d4⟩ := d k links hk
    refine ⟨d1, d2, d3, ?_⟩
    intro b hb
    rcases d4 b hb with ⟨e1, w, e2, e3⟩ | ⟨rfl, e2, e3⟩
    · exact ⟨by omega, w, by rw [hget b e1]; exact e2, e3⟩
    · exact ⟨by omega, _, hgn, by show k ≤ v0.level; omega⟩
  · have : id = n := by omega
    subst this
    refine ⟨_, hgn, h1, by show v0.conns.length = v0.level + 1; omega, ?_⟩
    intro k links hk
    obtain ⟨d1, d2, d3, d4⟩ := h4 k links hk
    refine ⟨d1, d2, d3, ?_⟩
    intro b hb
    obtain ⟨e1, w, e2, e3⟩ := d4 b hb
    refine ⟨by omega, w, by rw [hget b e1]; exact e2, ?_⟩
    rcases e3 with e3 | ⟨_, e3⟩
    · exact e3
    · simp at e3

/-- a further successful addition under the next number -/
theorem connectNew_wf {P : Params V D} (hP : P.maxConn ≤ P.maxConn0) (hv : ∀ id, id < P.cacheSize → id < P.visitedSize)
    {vo : VecOracle V} {sched : Graph.Scheds D} {s s' : Index V} {n : Nat} {q : V} {level : Nat}
    (hw : WellFormed P.maxConn0 P.maxConn s.get n) (hi : IdsOk s) (ht : s.tombs = []) (he : s.entry < n) (hn : n ≤ P.cacheSize)
    (h : connectNew P vo sched (s.put (newNode n q level)) n q level = (s', none)) :
    WellFormed P.maxConn0 P.maxConn s'.get (n + 1) ∧ s'.entry < n + 1 := by
  obtain ⟨ep, s1, v, hf, hd, hg, hs, _, _, _, _, _, _, hent⟩ := connectNew_ok h
  have hm := mid_start (P := P) (L := level) (l := Nat.min level (s.put (newNode n q level)).maxLayer + 1) (q := q) hw
  have hmo : ∀ (l id : Nat) v links b, id < n → (s.put (newNode n q level)).get id = some v → v.conns[l]? = some links → b ∈ links → b < n := by
    intro l id v links b hid hg hl hb
    rw [get_put, if_neg (show id ≠ (newNode n q level).id from Nat.ne_of_lt hid)] at hg
    obtain ⟨w, a1, _, _, a4⟩ := hw id hid
    have : w = v := by rw [a1] at hg; cases hg; rfl
    subst this
    exact ((a4 l links hl).2.2.2 b hb).1
  have hep : ep < n := findBest_lt hv hmo hn _ (show s.entry < n from he) hf
  have hx := doLevels_ext P vo sched q n (Nat.min level (s.put (newNode n q level)).maxLayer + 1) (s.put (newNode n q level)) ep
    (idsOk_put hi _)
  rw [hd] at hx
  have hmid := doLevels_mid hP hv _ hm (by have := Nat.min_le_left level (s.put (newNode n q level)).maxLayer; simp only [Nat.min_def] at *; omega) hep hn ht (idsOk_put hi _) hd
  refine ⟨mid_finish hmid hg hs, ?_⟩
  rcases hent with ⟨_, h1, _⟩ | ⟨_, h1, _⟩
  · omega
  · have : s1.entry = (s.put (newNode n q level)).entry := hx.same.entry
    have h2 : (s.put (newNode n q level)).entry = s.entry := rfl
    omega

end Fave.Index
