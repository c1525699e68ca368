import Verif.Lemmas.Connected
import Verif.Lemmas.SearchMany
import Verif.Props.C04
/-!
# Searches for the nearest vectors on the states of a history
-/
set_option linter.unusedSectionVars false
namespace Fave.Graph
open Queue Search Spec
variable {V D : Type} [Dist D]

theorem usable_mem {g : Graph V D} {l : List (Item D)} {b : Item D} (h : firstUsable g l = some b) : b ∈ l := by
  induction l with
  | nil => cases h
  | cons c cs ih =>
    unfold firstUsable at h
    split at h
    · exact List.mem_cons_of_mem _ (ih h)
    · split at h
      · exact List.mem_cons_of_mem _ (ih h)
      · cases h; simp

/-- the start of the base-layer search has its true distance -/
theorem descendK_good {g : Graph V D} (hs : g.Small) {sched : Scheds D} {q : V} (level : Nat) {e e' : Item D}
    (he : Good (g.senv q none) e) (h : descendK g sched q level e = .ok e') : Good (g.senv q none) e' := by
  induction level generalizing e with
  | zero => cases h; exact he
  | succ level ih =>
    unfold descendK at h
    split at h
    · cases h
    · rename_i res hres
      obtain ⟨v, hv⟩ := distToNode_get he
      have hinv := (searchLayer_inv (P := Good (g.senv q none)) (fun _ hx => hx) (epsOk_one hs q none hv) (by simpa using he) hres).1
      split at h
      · rename_i best hbest
        exact ih (hinv best ((drain_perm lessMax res).mem_iff.mp (usable_mem hbest))).1 h
      · exact ih he h

theorem descendK_total {g : Graph V D} {sched : Scheds D} {q : V} (hg : g.Ok) (level : Nat) {ep : Item D}
    (hep : Good (g.senv q none) ep) : ∃ ep', descendK g sched q level ep = .ok ep' := by
  induction level generalizing ep with
  | zero => exact ⟨ep, rfl⟩
  | succ level ih =>
    obtain ⟨v, hv⟩ := distToNode_get hep
    obtain ⟨res, hres⟩ := searchLayer_total (sched := sched (level + 1)) (ef := 1) (level := level + 1) (hg.graphOk q none) (hg.keysOk q none)
      (epsOk_one hg.small q none hv) (by intro e he; simp at he; subst he; exact ⟨_, hep⟩)
    have hinv := (searchLayer_inv (P := Good (g.senv q none)) (fun _ hx => hx) (epsOk_one hg.small q none hv) (by simpa using hep) hres).1
    unfold descendK
    rw [hres]
    simp only
    cases hp : firstUsable g (drain lessMax res) with
    | none => exact ih hep
    | some b => exact ih (hinv b ((drain_perm lessMax res).mem_iff.mp (usable_mem hp))).1

theorem knnSearch_frame {g g' : Graph V D} {C : Nat → Prop} (hag : ∀ id, C id → (g'.get id).map core = (g.get id).map core)
    (hcl : ∀ (l id : Nat) v links b, C id → g.get id = some v → v.conns[l]? = some links → b ∈ links → C b) (hent : C g.entry)
    (h1 : g'.entry = g.entry) (h2 : g'.maxLayer = g.maxLayer) (h3 : g'.metric = g.metric) (h5 : g'.tomb = g.tomb)
    (h6 : g'.cacheSize = g.cacheSize) (h7 : g'.visitedSize = g.visitedSize) (hsm : ∀ id, C id → id < g.visitedSize)
    (hk : ∀ q allow, KeysOk (g.senv q allow)) (hk' : ∀ q allow, KeysOk (g'.senv q allow))
    (em : Bool) (sched : Scheds D) (q : V) (k ef : Int) (allow : Option (Nat → Bool)) :
    g'.knnSearch em sched q k ef allow = g.knnSearch em sched q k ef allow := by
  have henv : ∀ allow, g'.senv q allow = SEnvWith (g.senv q allow) g'.get g'.keys := by
    intro allow; unfold senv SEnvWith; simp only [h3, h5, h6, h7]
  have hlayer : ∀ allow sched (ep : Item D) ef level, C ep.id →
      searchLayer (g'.senv q allow) sched [ep] ef level = searchLayer (g.senv q allow) sched [ep] ef level := by
    intro allow sched ep ef level hep
    rw [henv]
    refine searchLayer_frame (C := C) ⟨hag, hcl level⟩ sched ef [ep] (fun e he => by simp at he; subst he; exact hep) (hk q allow) ?_
    rw [← henv]; exact hk' q allow
  have hres : ∀ allow sched (ep : Item D) ef level r, C ep.id → searchLayer (g.senv q allow) sched [ep] ef level = .ok r →
      ∀ x ∈ r.toList, C x.id := by
    intro allow sched ep ef level r hep hr
    exact searchLayer_closed (hcl level) (fun e he => by simp at he; subst he; exact hep) (hk q allow)
      ⟨by simp, fun e he => by simp at he; subst he; exact hsm _ hep⟩ hr
  have hfu : ∀ l : List (Item D), (∀ x ∈ l, C x.id) → firstUsable g' l = firstUsable g l := by
    intro l
    induction l with
    | nil => intro _; rfl
    | cons c cs ih =>
      intro hc
      unfold firstUsable
      rw [ih (fun x hx => hc x (by simp [hx]))]
      rcases agree_cases (hag _ (hc c (by simp))) with ⟨a, b⟩ | ⟨v, w, a, b, _, _, _, e, _⟩
      · rw [a, b]
      · rw [a, b]; simp only [e]
  have hdesc : ∀ level (ep : Item D), C ep.id → descendK g' sched q level ep = descendK g sched q level ep ∧
      ∀ ep', descendK g sched q level ep = .ok ep' → C ep'.id := by
    intro level
    induction level with
    | zero => intro ep hep; exact ⟨rfl, fun ep' h => by cases h; exact hep⟩
    | succ level ih =>
      intro ep hep
      unfold descendK
      rw [hlayer _ _ _ _ _ hep]
      cases hr : searchLayer (g.senv q none) (sched (level + 1)) [ep] 1 (level + 1) with
      | error e => exact ⟨rfl, fun ep' h => by cases h⟩
      | ok res =>
        have hC : ∀ x ∈ drain lessMax res, C x.id := fun x hx => hres _ _ _ _ _ _ hep hr x ((drain_perm lessMax res).mem_iff.mp hx)
        simp only
        rw [hfu _ hC]
        cases hp : firstUsable g (drain lessMax res) with
        | none => exact ih ep hep
        | some b => exact ih b (hC b (usable_mem hp))
  have hdist : g'.distNodeVec g'.entry q = g.distNodeVec g.entry q := by
    unfold distNodeVec
    rw [h1, h3]
    rcases agree_cases (hag _ hent) with ⟨a, b⟩ | ⟨v, w, a, b, _, _, _, _, e⟩
    · rw [a, b]
    · rw [a, b]; simp only [e]
  unfold knnSearch
  rw [hdist, h1, h2]
  cases em with
  | true => rfl
  | false =>
    simp only [Bool.false_eq_true, if_false]
    cases hd : g.distNodeVec g.entry q with
    | none => rfl
    | some d =>
      simp only
      have := hdesc g.maxLayer ⟨g.entry, d⟩ hent
      rw [this.1]
      cases he : descendK g sched q g.maxLayer ⟨g.entry, d⟩ with
      | error e => rfl
      | ok ep =>
        simp only
        rw [hlayer _ _ _ _ _ (this.2 ep he)]

/-- the base-layer search of a successful search by vector: wide enough, or along a base layer that links everything with everything -/
theorem knnSearch_ok [LawfulDist D] {g : Graph V D} (hg : g.Ok) (hsym : Sym g.metric) {sched : Scheds D} {q : V} {k : Nat} {ef : Int}
    {allow : Option (Nat → Bool)} {d : D} (hd : g.distNodeVec g.entry q = some d) (hk : 0 < k) (hke : (k : Int) ≤ ef)
    (hwide : (g.keys.length : Int) ≤ ef ∨ ∀ a b, (g.get a).isSome → (g.get b).isSome → a ≠ b → Linked (g.senv q allow) 0 a b) :
    ∃ (start : Nat) (all : List (Item D)), (∃ v, g.get start = some v) ∧ g.knnSearch false sched q k ef allow = .ok (all.take k) ∧
      (all.map Item.id).Nodup ∧ all.Pairwise (fun a b => Dist.lt b.dist a.dist = false) ∧
      (∀ x ∈ all, HasDist (g.senv q allow) x.id x.dist ∧ Eligible (g.senv q allow) 0 x.id) ∧
      (∀ id e, Reach (g.senv q allow) 0 [start] id → Eligible (g.senv q allow) 0 id → HasDist (g.senv q allow) id e →
        (⟨id, e⟩ : Item D) ∈ all ∨ (k ≤ all.length ∧ ∀ x ∈ all, Dist.lt e x.dist = false)) := by
  obtain ⟨ep, hep⟩ := descendK_total (sched := sched) hg g.maxLayer (good_entry hsym none hd)
  have hgo : Good (g.senv q allow) ep := descendK_good hg.small g.maxLayer (good_entry hsym none hd) hep
  obtain ⟨v, hv⟩ := distToNode_get hgo
  obtain ⟨r, hr⟩ := searchLayer_total (sched := sched 0) (ef := ef) (level := 0) (hg.graphOk q allow) (hg.keysOk q allow)
    (epsOk_one hg.small q allow hv) (by intro e he; simp at he; subst he; exact ⟨_, hgo⟩)
  have hinv := searchLayer_inv (P := Good (g.senv q allow)) (fun _ hx => hx) (epsOk_one hg.small q allow hv) (by simpa using hgo) hr
  have hopt := searchLayer_opt (epsOk_one hg.small q allow hv) (by simpa using hgo) hr
  have hperm : (drain lessMax r).reverse.Perm r.toList := (List.reverse_perm _).trans (drain_perm _ _)
  have hback : ∀ id e, HasDist (g.senv q allow) id e → id ∈ r.toList.map Item.id → (⟨id, e⟩ : Item D) ∈ (drain lessMax r).reverse := by
    intro id e hde hmem
    obtain ⟨y, hy, rfl⟩ := List.mem_map.mp hmem
    have hyd : y.dist = e := hasDist_unique ((hasDist_iff _ _ _).mp (hinv.1 y hy).1) hde
    subst hyd
    exact hperm.mem_iff.mpr hy
  refine ⟨ep.id, (drain lessMax r).reverse, ⟨v, hv⟩, ?_, (hperm.map _).nodup_iff.mpr hinv.2, ?_, ?_, ?_⟩
  · unfold knnSearch
    rw [if_neg (by simp), hd]
    simp only
    rw [hep]
    simp only
    rw [hr]
    simp only
    rw [if_neg (by omega), Int.toNat_natCast]
  · rw [List.pairwise_reverse]; exact drain_sorted swo_max hopt.1
  · intro x hx
    have := hinv.1 x (hperm.mem_iff.mp hx)
    exact ⟨(hasDist_iff _ _ _).mp this.1, (viable_iff _ _ _).mp this.2⟩
  · intro id e hre hel hde
    rcases hwide with hwide | hall
    · exact .inl (hback id e hde (C04.wide_layer_search_returns_all_reachable _ _ [ep] ef 0 r (by simp)
        (by intro e he; simp at he; subst he; exact hg.small _ v hv)
        (by intro e he; simp at he; subst he; exact ⟨_, (hasDist_iff _ _ _).mp hgo⟩) g.keys
        (by
          intro y hy
          cases hy with
          | start _ hid => simp at hid; subst hid; exact hg.keys _ v hv
          | link a b d _ _ hb => obtain ⟨vb, hvb, _⟩ := hb; exact hg.keys _ vb hvb) hwide hr id hre hel))
    · rcases searchLayer_many (epsOk_one hg.small q allow hv)
        (by intro e he; simp at he; subst he; exact ⟨_, (hasDist_iff _ _ _).mp hgo⟩) hr with hsz | hev
      · have h0 : 0 < r.size := by omega
        have hx0 : r[0] ∈ r.toList := by simp
        by_cases hid : id = r[0].id
        · exact .inl (hback id e hde (List.mem_map.mpr ⟨_, hx0, hid.symm⟩))
        · obtain ⟨vx, hvx, _⟩ := (hasDist_iff _ _ _).mp (hinv.1 _ hx0).1
          obtain ⟨vi, hvi, _⟩ := hde
          have hvx' : g.get r[0].id = some vx := hvx
          have hvi' : g.get id = some vi := hvi
          rcases hopt.2.2 _ hx0 id e (hall _ _ (by rw [hvx']; rfl) (by rw [hvi']; rfl) (fun h => hid h.symm)) ⟨vi, hvi, by assumption⟩ hel with h1 | ⟨h1, h2⟩
          · exact .inl (hback id e ⟨vi, hvi, by assumption⟩ h1)
          · refine .inr ⟨by rw [hperm.length_eq]; simp; omega, fun x hx => h2 x (hperm.mem_iff.mp hx)⟩
      · exact .inl (hback id e hde (hev id hre hel))

end Fave.Graph
namespace Fave.Index
open Queue Search Spec Graph
variable {V D : Type} [Dist D]

theorem firstGraph_knn {P : Params V D} (hP : P.Ok) {s : Index V} {vs : List V} (h : Inv P s vs) (hn : vs ≠ [])
    (em : Bool) (sched : Scheds D) (q : V) (k ef : Int) (allow : Option (Nat → Bool)) :
    (s.graph P).knnSearch em sched q k ef allow = (firstGraph P s vs.length).knnSearch em sched q k ef allow := by
  refine knnSearch_frame (g := firstGraph P s vs.length) (g' := s.graph P) (C := fun id => id < vs.length) ?_ ?_ (h.entry hn)
      rfl rfl rfl rfl rfl rfl ?_ ?_ (keysOk P s) em sched q k ef allow
  · intro id hid
    have e : (firstGraph P s vs.length).get id = s.get id := if_pos hid
    rw [e]; rfl
  · intro l id v links b hid hg hl hb
    obtain ⟨_, hg⟩ := firstGraph_get hg
    obtain ⟨w, a1, _, _, a4⟩ := h.wf id hid
    rw [a1] at hg; cases hg
    exact ((a4 l links hl).2.2.2 b hb).1
  · intro id hid
    exact Nat.lt_of_lt_of_le hid (Nat.le_trans h.small hP.sizes)
  · intro q allow; exact (firstGraph_ok hP h).keysOk q allow

theorem reach_allow {P : Params V D} {s : Index V} {n : Nat} {q : V} (allow : Option (Nat → Bool)) {l a b : Nat}
    (h : Reach ((firstGraph P s n).senv q none) l [a] b) : Reach ((firstGraph P s n).senv q allow) l [a] b := by
  induction h with
  | start _ h => exact .start _ h
  | link a b d _ h1 h2 ih => exact .link a b d ih h1 h2

end Fave.Index
