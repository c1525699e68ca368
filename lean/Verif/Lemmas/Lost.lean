import Verif.Lemmas.AddLinks
/-!
# Additions never link to vectors that cannot be reached
-/
namespace Fave.Index
open Queue Search Spec
variable {V D : Type} [Dist D]

/-- among the vertices numbered below `n`, none outside of `L` links into `L` -/
def Avoids (n : Nat) (L : Nat → Prop) (s : Index V) : Prop := ∀ id, id < n → ¬ L id → ∀ v, s.get id = some v → ∀ links ∈ v.conns, ∀ b ∈ links, ¬ L b

omit [Dist D] in
theorem raised_mem {v : Vertex V} {l : Nat} {links : List Nat} (h : links ∈ (raised v l).conns) : links ∈ v.conns ∨ links = [] := by
  unfold raised at h
  split at h
  · simp only [upgrade] at h
    rcases List.mem_append.mp h with h | h
    · exact .inl h
    · exact .inr (List.eq_of_mem_replicate h)
  · exact .inl h

omit [Dist D] in
theorem Avoids.upd {n : Nat} {L : Nat → Prop} {s s' : Index V} {u : Vertex V} (h : Avoids n L s) (hu : Upd s s' u)
    (hl : ∀ links ∈ u.conns, ∀ b ∈ links, ¬ L b) : Avoids n L s' := by
  intro id hid hL v hg
  rw [hu.get] at hg
  split at hg
  · cases hg; exact hl
  · exact h id hid hL v hg

theorem connectNeighbor_avoids {P : Params V D} {vo : VecOracle V} {n m l nb : Nat} {L : Nat → Prop} {s s' : Index V} (h : Avoids n L s) (hne : ¬ L m)
    (hnb : nb < n ∧ ¬ L nb) (ha : connectNeighbor P vo m l s nb = (s', none)) : Avoids n L s' := by
  rcases connectNeighbor_cases P vo m l s nb with ⟨h1, _⟩ | ⟨v, hg, _, _, ⟨e, he, hu⟩ | ⟨cur, links, he, hcur, hu, hor⟩⟩
  · rw [h1] at ha; cases ha; exact h
  · rw [ha] at he; cases he
  · rw [ha] at hu
    have hv := h nb hnb.1 hnb.2 v hg
    have hr : ∀ ls ∈ (raised v l).conns, ∀ b ∈ ls, ¬ L b := by
      intro ls hls
      rcases raised_mem hls with h1 | h1
      · exact hv ls h1
      · subst h1; simp
    refine h.upd hu ?_
    intro ls hls
    rcases List.mem_or_eq_of_mem_set hls with h1 | h1
    · exact hr ls h1
    · subst h1
      have hc := hr cur (List.mem_of_getElem? hcur)
      rcases hor with ⟨_, rfl⟩ | ⟨_, _, _, hsub⟩
      · intro b hb
        rcases List.mem_append.mp hb with hb | hb
        · exact hc b hb
        · rw [List.mem_singleton.mp hb]; exact hne
      · intro b hb
        rcases List.mem_cons.mp (hsub b hb) with h1 | h1
        · rw [h1]; exact hne
        · exact hc b h1

theorem connectAll_avoids {P : Params V D} {vo : VecOracle V} {n m l : Nat} {L : Nat → Prop} {nbs : List Nat} {s s' : Index V} (h : Avoids n L s) (hne : ¬ L m)
    (hnb : ∀ b ∈ nbs, b < n ∧ ¬ L b) (ha : connectAll P vo m l s nbs = (s', none)) : Avoids n L s' := by
  induction nbs generalizing s with
  | nil => cases ha; exact h
  | cons nb nbs ih =>
    unfold connectAll at ha
    cases h1 : connectNeighbor P vo m l s nb with
    | mk s1 e =>
      rw [h1] at ha
      cases e with
      | some e => cases ha
      | none => exact ih (connectNeighbor_avoids h hne (hnb nb (by simp)) h1) (fun b hb => hnb b (List.mem_cons_of_mem _ hb)) ha

theorem doAtLevel_avoids {P : Params V D} (hv : ∀ id, id < P.cacheSize → id < P.visitedSize)
    {vo : VecOracle V} {sched : Graph.Scheds D} {q : V} {n M l : Nat} {L : Nat → Prop} {s s' : Index V}
    {ep ep' : Nat} (h : Mid P n M (l + 1) [] s) (hep : ep < n) (hn : n ≤ P.cacheSize) (hx : ¬ L n) (hex : ¬ L ep) (ha : Avoids (n + 1) L s)
    (hd : doAtLevel P vo sched q n s ep l = (s', .ok ep')) : Avoids (n + 1) L s' ∧ ¬ L ep' := by
  obtain ⟨e, results, kept, v, he, hr, hk, hg, hlen, hc, hep'⟩ := doAtLevel_ok hd
  obtain ⟨w, hw, _⟩ := h.old ep hep
  obtain ⟨he1, _⟩ := pickEntry_ok hw he
  have heps : Search.EpsOk ((s.graph P).senv q none) [e] :=
    ⟨by simp, fun y hy => by simp at hy; subst hy; exact hv _ (by omega)⟩
  have hres : ∀ y ∈ results.toList, y.id < n ∧ ¬ L y.id := by
    refine Search.searchLayer_closed (C := fun i => i < n ∧ ¬ L i) ?_ (fun y hy => by simp at hy; subst hy; exact ⟨by omega, by rw [he1]; exact hex⟩) (keysOk P s q none) heps hr
    intro id v0 links b hid hg0 hlk hb
    obtain ⟨v1, a1, _, _, a4⟩ := h.old id hid.1
    have : v1 = v0 := by
      have hg0' : s.get id = some v0 := hg0
      rw [a1] at hg0'; cases hg0'; rfl
    subst this
    refine ⟨?_, ha id (by omega) hid.2 v1 a1 links (List.mem_of_getElem? hlk) b hb⟩
    rcases (a4 l links hlk).2.2.2 b hb with ⟨h1, _⟩ | ⟨_, _, h1 | ⟨h1, _⟩⟩ <;> omega
  obtain ⟨_, _, b3⟩ := selected_ids hk
  have hnb : ∀ b ∈ (drain lessMax kept).map Item.id, b < n ∧ ¬ L b := by
    intro b hb
    obtain ⟨y, hy, rfl⟩ := List.mem_map.mp (b3 b hb)
    exact hres y hy
  refine ⟨connectAll_avoids ?_ hx (fun b hb => ⟨by have := (hnb b hb).1; omega, (hnb b hb).2⟩) hc, ?_⟩
  · refine ha.upd (upd_put s _) ?_
    intro ls hls
    rcases List.mem_or_eq_of_mem_set hls with h1 | h1
    · exact ha n (by omega) hx v hg ls h1
    · subst h1; exact fun b hm => (hnb b hm).2
  · rcases hep' with h' | h'
    · rw [h', he1]; exact hex
    · exact (hnb _ h').2

theorem doLevels_avoids {P : Params V D} (hP : P.maxConn ≤ P.maxConn0) (hv : ∀ id, id < P.cacheSize → id < P.visitedSize)
    {vo : VecOracle V} {sched : Graph.Scheds D} {q : V} {n M : Nat} {L : Nat → Prop} (l : Nat) {s s' : Index V}
    {ep : Nat} (h : Mid P n M l [] s) (hl : l ≤ M + 1) (hep : ep < n) (hn : n ≤ P.cacheSize) (ht : s.tombs = []) (hi : IdsOk s) (hx : ¬ L n) (hex : ¬ L ep)
    (ha : Avoids (n + 1) L s) (hd : doLevels P vo sched q n l s ep = (s', none)) : Avoids (n + 1) L s' := by
  induction l generalizing s ep with
  | zero => cases hd; exact ha
  | succ l ih =>
    unfold doLevels at hd
    split at hd
    · cases hd
    · rename_i s1 ep1 he
      obtain ⟨h1, h2⟩ := doAtLevel_mid hP hv h (by omega) hep hn ht he
      have hxt := doAtLevel_ext P vo sched q n s ep l hi
      rw [he] at hxt
      obtain ⟨a1, a2⟩ := doAtLevel_avoids hv h hep hn hx hex ha he
      exact ih h1 (by omega) h2 (hxt.same.tombs.trans ht) (hxt.ids hi) a2 a1 hd

theorem findBest_avoids {P : Params V D} (hv : ∀ id, id < P.cacheSize → id < P.visitedSize)
    {sched : Graph.Scheds D} {q : V} {n target : Nat} {L : Nat → Prop} {s : Index V}
    (hcl : ∀ (l id : Nat) v links b, id < n ∧ ¬ L id → s.get id = some v → v.conns[l]? = some links → b ∈ links → b < n ∧ ¬ L b) (hn : n ≤ P.cacheSize)
    (m : Nat) {ep ep' : Nat} (hep : ep < n ∧ ¬ L ep) (h : findBest P s sched q target m ep = .ok ep') : ep' < n ∧ ¬ L ep' := by
  induction m generalizing ep with
  | zero => cases h; exact hep
  | succ m ih =>
    unfold findBest at h
    split at h
    · cases h; exact hep
    · split at h
      · cases h
      · split at h
        · cases h
        · rename_i d _ _ res hr
          have hres : ∀ y ∈ res.toList, y.id < n ∧ ¬ L y.id := by
            refine Search.searchLayer_closed (C := fun i => i < n ∧ ¬ L i) (hcl (m + 1)) (fun y hy => by simp at hy; subst hy; exact hep)
              (keysOk P s q none) ⟨by simp, fun y hy => by simp at hy; subst hy; exact hv _ (show ep < _ by omega)⟩ hr
          split at h
          · exact ih hep h
          · rename_i y _ hp
            have hy := hres y ((pop_perm lessMax hp).mem_iff.mpr (by simp))
            split at h
            · exact ih hep h
            · refine ih ?_ h
              split <;> assumption

/-- A successful addition: nothing links into `L` before, nothing does afterwards, and the entry point stays outside. -/
theorem add_avoids {P : Params V D} (hP : P.Ok) {s s' : Index V} {vs : List V} (h : Inv P s vs) {vo : VecOracle V} {sched : Graph.Scheds D} {vec : V} {level : Nat} {L : Nat → Prop}
    (hn : vs ≠ []) (hx : ¬ L vs.length) (he : ¬ L s.entry) (ha : Avoids vs.length L s)
    (hadd : add P vo sched s vs.length vec level = (s', none)) : Avoids (vs.length + 1) L s' ∧ ¬ L s'.entry := by
  obtain ⟨hvl, hsz, ⟨hn', _⟩ | ⟨_, hcn⟩⟩ := add_ok_cases h hadd
  · exact absurd hn' hn
  · have hids : IdsOk ({ s with once := true } : Index V) := ⟨h.ids.cache, h.ids.kv⟩
    obtain ⟨ep, s1, v, hf, hd, hg, hgs, _, _, _, _, _, _, hent⟩ := connectNew_ok hcn
    have hget : ∀ b, b < vs.length → (({ s with once := true } : Index V).put (newNode vs.length (P.norm vec) level)).get b = s.get b := by
      intro b hb; rw [get_put, if_neg (show b ≠ (newNode vs.length (P.norm vec) level).id from Nat.ne_of_lt hb)]; rfl
    have hmo : ∀ (l id : Nat) v links b, id < vs.length ∧ ¬ L id → (({ s with once := true } : Index V).put (newNode vs.length (P.norm vec) level)).get id = some v →
        v.conns[l]? = some links → b ∈ links → b < vs.length ∧ ¬ L b := by
      intro l id v links b hid hg hl hb
      rw [hget id hid.1] at hg
      refine ⟨?_, ha id hid.1 hid.2 v hg links (List.mem_of_getElem? hl) b hb⟩
      obtain ⟨w, a1, _, _, a4⟩ := h.wf id hid.1
      rw [a1] at hg; cases hg
      exact ((a4 l links hl).2.2.2 b hb).1
    have hv : ∀ id, id < P.cacheSize → id < P.visitedSize := fun id hid => Nat.lt_of_lt_of_le hid hP.sizes
    obtain ⟨hep, hex⟩ := findBest_avoids hv hmo (by omega) _ ⟨h.entry hn, he⟩ hf
    have hm := mid_start (P := P) (L := level) (l := Nat.min level (({ s with once := true } : Index V).put (newNode vs.length (P.norm vec) level)).maxLayer + 1)
      (q := P.norm vec) (s := { s with once := true }) h.wf
    have ha0 : Avoids (vs.length + 1) L (({ s with once := true } : Index V).put (newNode vs.length (P.norm vec) level)) := by
      intro id hid hL w hw ls hls
      by_cases hlt : id < vs.length
      · rw [hget id hlt] at hw; exact ha id hlt hL w hw ls hls
      · have : id = vs.length := by omega
        subst this
        rw [get_put, if_pos (show vs.length = (newNode vs.length (P.norm vec) level).id from rfl)] at hw
        cases hw
        rw [List.eq_of_mem_replicate hls]; simp
    have h1 := doLevels_avoids hP.conn hv _ hm (by have := Nat.min_le_left level (({ s with once := true } : Index V).put (newNode vs.length (P.norm vec) level)).maxLayer; exact Nat.succ_le_succ this) hep (by omega) h.tombs (idsOk_put hids _) hx hex ha0 hd
    have hxt := doLevels_ext P vo sched (P.norm vec) vs.length (Nat.min level (({ s with once := true } : Index V).put (newNode vs.length (P.norm vec) level)).maxLayer + 1)
      (({ s with once := true } : Index V).put (newNode vs.length (P.norm vec) level)) ep (idsOk_put hids _)
    rw [hd] at hxt
    refine ⟨?_, ?_⟩
    · intro id hid hL w hw ls hls
      rw [hgs, get_put] at hw
      split at hw
      · cases hw; exact h1 vs.length (by omega) hx v hg ls hls
      · exact h1 id hid hL w hw ls hls
    · rcases hent with ⟨_, h2, _⟩ | ⟨_, h2, _⟩
      · rw [h2]; exact hx
      · rw [h2, hxt.same.entry]; exact he

end Fave.Index
