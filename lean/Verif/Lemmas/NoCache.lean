import Verif.Lemmas.Alike
/-!
# Additions to small collections do not read the vector cache
-/
namespace Fave.Index
open Queue Search Spec
variable {V D : Type} [Dist D]

theorem connectNeighbor_nocache {P : Params V D} {n L l nb : Nat} {rem : List Nat} {s : Index V} (hP : P.maxConn ≤ P.maxConn0) (h : Mid P n L l (nb :: rem) s)
    (hnb : nb < n) (hn : n < P.maxConn) (vo vo' : VecOracle V) : connectNeighbor P vo n l s nb = connectNeighbor P vo' n l s nb := by
  obtain ⟨v, hg, _, _, hl⟩ := h.old nb hnb
  have hlt : ∀ cur, cur ∈ (raised v l).conns → cur.length < maxConns P l := by
    intro cur hc
    have hm : P.maxConn ≤ maxConns P l := by unfold maxConns; split <;> omega
    rcases raised_mem hc with hc | hc
    · obtain ⟨k, hk⟩ := List.getElem?_of_mem hc
      obtain ⟨h1, h2, _, h4⟩ := hl k cur hk
      have hsub : ∀ b ∈ nb :: cur, b ∈ List.range (n + 1) := by
        intro b hb
        rw [List.mem_range]
        rcases List.mem_cons.mp hb with hb | hb
        · omega
        · rcases h4 b hb with ⟨h5, _⟩ | ⟨h5, _⟩ <;> omega
      have := List.Nodup.length_le_of_subset (List.nodup_cons.mpr ⟨h2, h1⟩) hsub
      simp at this
      omega
    · subst hc; simp only [List.length_nil]; omega
  unfold connectNeighbor
  rw [hg]
  simp only
  split
  · rfl
  · split
    · rfl
    · have hr : (if l > v.level then upgrade ({ v with committed := false } : Vertex V) l else { v with committed := false }) = raised v l := rfl
      rw [hr]
      cases hc : (raised v l).conns[l]? with
      | none => rfl
      | some cur =>
        simp only
        rw [if_pos (hlt cur (List.mem_of_getElem? hc)), if_pos (hlt cur (List.mem_of_getElem? hc))]

theorem connectAll_nocache {P : Params V D} {n L l : Nat} {nbs : List Nat} {s : Index V} (hP : P.maxConn ≤ P.maxConn0) (h : Mid P n L l nbs s) (hl : l ≤ L)
    (hnb : ∀ b ∈ nbs, b < n) (hnd : nbs.Nodup) (ht : s.tombs = []) (hi : IdsOk s) (hn : n < P.maxConn) (vo vo' : VecOracle V) :
    connectAll P vo n l s nbs = connectAll P vo' n l s nbs := by
  induction nbs generalizing s with
  | nil => rfl
  | cons nb nbs ih =>
    obtain ⟨h1, h2⟩ := List.nodup_cons.mp hnd
    have e := connectNeighbor_nocache hP h (hnb nb (by simp)) hn vo vo'
    unfold connectAll
    rw [e]
    cases hc : connectNeighbor P vo' n l s nb with
    | mk s1 r =>
      cases r with
      | some r => rfl
      | none =>
        have hx := connectNeighbor_ext P vo' n l s nb
        rw [hc] at hx
        exact ih (connectNeighbor_mid h hl (hnb nb (by simp)) h1 ht hc) (fun b hb => hnb b (List.mem_cons_of_mem _ hb)) h2 (hx.same.tombs.trans ht) (hx.ids hi)

theorem doAtLevel_nocache {P : Params V D} (hP : P.maxConn ≤ P.maxConn0) (hv : ∀ id, id < P.cacheSize → id < P.visitedSize)
    {sched : Graph.Scheds D} {q : V} {n L l : Nat} {s : Index V} {ep : Nat} (h : Mid P n L (l + 1) [] s) (hl : l ≤ L) (hep : ep < n) (hn : n ≤ P.cacheSize)
    (ht : s.tombs = []) (hi : IdsOk s) (hm : n < P.maxConn) (vo vo' : VecOracle V) : doAtLevel P vo sched q n s ep l = doAtLevel P vo' sched q n s ep l := by
  unfold doAtLevel
  cases he : pickEntry P s q 4 [] ep with
  | error e => rfl
  | ok e =>
    simp only
    cases hr : searchLayer ((s.graph P).senv q none) (sched l) [e] P.efC l with
    | error e => rfl
    | ok results =>
      simp only
      obtain ⟨w, hw, _⟩ := h.old ep hep
      obtain ⟨he1, _⟩ := pickEntry_ok hw he
      have heps : Search.EpsOk ((s.graph P).senv q none) [e] :=
        ⟨by simp, fun y hy => by simp at hy; subst hy; exact hv _ (by omega)⟩
      have hres : ∀ y ∈ results.toList, y.id < n := by
        refine Search.searchLayer_closed (C := fun i => i < n) ?_ (fun y hy => by simp at hy; subst hy; omega) (keysOk P s q none) heps hr
        intro id v0 links b hid hg0 hlk hb
        obtain ⟨v1, a1, _, _, a4⟩ := h.old id hid
        have : v1 = v0 := by
          have hg0' : s.get id = some v0 := hg0
          rw [a1] at hg0'; cases hg0'; rfl
        subst this
        rcases (a4 l links hlk).2.2.2 b hb with ⟨h1, _⟩ | ⟨_, _, h1 | ⟨h1, _⟩⟩ <;> omega
      have hnod : (results.toList.map Item.id).Nodup :=
        (Search.searchLayer_inv (P := fun _ => True) (fun _ _ => trivial) heps (fun _ _ => trivial) hr).2
      have hsize : results.size < P.maxConn := by
        have := List.Nodup.length_le_of_subset (l₂ := List.range n) hnod (fun b hb => by
          obtain ⟨y, hy, rfl⟩ := List.mem_map.mp hb
          exact List.mem_range.mpr (hres y hy))
        simp at this
        omega
      have hsel : ∀ o : Nat → Option V, selectNeighbors P o (fun _ => false) P.maxConn results = .ok results := by
        intro o; unfold selectNeighbors; rw [if_pos hsize]
      obtain ⟨b1, b2, b3⟩ := selected_ids (hsel (fun _ => none))
      have hnb : ∀ b ∈ (drain lessMax results).map Item.id, b < n := by
        intro b hb
        obtain ⟨y, hy, rfl⟩ := List.mem_map.mp (b3 b hb)
        exact hres y hy
      rw [hsel, hsel]
      simp only
      cases hg : s.get n with
      | none => rfl
      | some v =>
        simp only
        split
        · rfl
        · have hidv : v.id = n := by
            obtain ⟨v0, g0, g1, _⟩ := h.new
            rw [hg] at g0; cases g0; exact g1
          rw [connectAll_nocache hP (mid_enter h hl hg hnb (b2 hnod) (by unfold maxConns; split <;> omega)) hl hnb (b2 hnod) ht (idsOk_put hi _) hm vo vo']

theorem doLevels_nocache {P : Params V D} (hP : P.maxConn ≤ P.maxConn0) (hv : ∀ id, id < P.cacheSize → id < P.visitedSize)
    {sched : Graph.Scheds D} {q : V} {n L : Nat} (l : Nat) {s : Index V} {ep : Nat} (h : Mid P n L l [] s) (hl : l ≤ L + 1) (hep : ep < n) (hn : n ≤ P.cacheSize)
    (ht : s.tombs = []) (hi : IdsOk s) (hm : n < P.maxConn) (vo vo' : VecOracle V) : doLevels P vo sched q n l s ep = doLevels P vo' sched q n l s ep := by
  induction l generalizing s ep with
  | zero => rfl
  | succ l ih =>
    unfold doLevels
    rw [doAtLevel_nocache hP hv h (by omega) hep hn ht hi hm vo vo']
    cases hd : doAtLevel P vo' sched q n s ep l with
    | mk s1 r =>
      cases r with
      | error e => rfl
      | ok ep1 =>
        obtain ⟨h1, h2⟩ := doAtLevel_mid hP hv h (by omega) hep hn ht hd
        have hxt := doAtLevel_ext P vo' sched q n s ep l hi
        rw [hd] at hxt
        exact ih h1 (by omega) h2 (hxt.same.tombs.trans ht) (hxt.ids hi)

theorem add_nocache {P : Params V D} (hP : P.Ok) {s : Index V} {vs : List V} (hi : Inv P s vs) (hm : vs.length < P.maxConn) (vo vo' : VecOracle V)
    (sched : Graph.Scheds D) (vec : V) (level : Nat) : add P vo sched s vs.length vec level = add P vo' sched s vs.length vec level := by
  by_cases hn : vs = []
  · subst hn
    have ho := hi.zero rfl
    have hk : s.kvCount = none := by
      cases hk : s.kvCount with
      | none => rfl
      | some c =>
        have h1 := hi.pos c hk
        have h2 := hi.le
        rw [hk] at h2
        simp at h2
        omega
    obtain ⟨h1, h2⟩ := hi.unflushed hk
    unfold add insertNode
    have : (!s.once && s.isEmpty) = true := by unfold isEmpty; rw [ho, h1, h2, hk]; rfl
    rw [this]
    rfl
  · rw [add_beyond hi hn, add_beyond hi hn]
    split
    · rfl
    · split
      · rfl
      · have hv : ∀ id, id < P.cacheSize → id < P.visitedSize := fun id hid => Nat.lt_of_lt_of_le hid hP.sizes
        have hids : IdsOk ({ s with once := true } : Index V) := ⟨hi.ids.cache, hi.ids.kv⟩
        unfold connectNew
        cases hf : findBest P (({ s with once := true } : Index V).put (newNode vs.length (P.norm vec) level)) sched (P.norm vec) level
            (({ s with once := true } : Index V).put (newNode vs.length (P.norm vec) level)).maxLayer
            (({ s with once := true } : Index V).put (newNode vs.length (P.norm vec) level)).entry with
        | error e => rfl
        | ok ep =>
          simp only
          have hmo : ∀ (l id : Nat) v links b, id < vs.length → (({ s with once := true } : Index V).put (newNode vs.length (P.norm vec) level)).get id = some v →
              v.conns[l]? = some links → b ∈ links → b < vs.length := by
            intro l id v links b hid hg hl hb
            rw [get_put, if_neg (show id ≠ (newNode vs.length (P.norm vec) level).id from Nat.ne_of_lt hid)] at hg
            obtain ⟨w, a1, _, _, a4⟩ := hi.wf id hid
            have hg' : s.get id = some v := hg
            rw [a1] at hg'; cases hg'
            exact ((a4 l links hl).2.2.2 b hb).1
          have hep := findBest_lt hv hmo (by omega) _ (hi.entry hn) hf
          have hmid := mid_start (P := P) (L := level) (l := Nat.min level (({ s with once := true } : Index V).put (newNode vs.length (P.norm vec) level)).maxLayer + 1)
            (q := P.norm vec) (s := { s with once := true }) hi.wf
          rw [doLevels_nocache hP.conn hv _ hmid (Nat.succ_le_succ (Nat.min_le_left _ _)) hep (by omega) hi.tombs (idsOk_put hids _) hm vo vo']

end Fave.Index
