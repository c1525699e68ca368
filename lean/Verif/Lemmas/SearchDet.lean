import Verif.Lemmas.SearchOpt
import Verif.Lemmas.SearchSize
import Verif.Spec.Ties
/-!
# Without ties a layer search does not depend on the order in which goroutines finish
-/
set_option linter.unusedSectionVars false
namespace Fave.Search
open Queue Spec
variable {V D : Type} [Dist D] [LawfulDist D]

/-- farther than everything kept, and the results are full -/
def Dead (ef : Int) (results : Array (Item D)) (d : D) : Prop := ef ≤ results.size ∧ ∀ y ∈ results.toList, Dist.lt y.dist d = true

theorem tie {env : SEnv V D} (ht : TieFree env) {x y : Item D} (hx : Good env x) (hy : Good env y) (h : x.id ≠ y.id) :
    Dist.lt x.dist y.dist = true ∨ Dist.lt y.dist x.dist = true :=
  ht _ _ _ _ ((hasDist_iff _ _ _).mp hx) ((hasDist_iff _ _ _).mp hy) h

theorem good_eq {env : SEnv V D} {x y : Item D} (hx : Good env x) (hy : Good env y) (h : x.id = y.id) : x = y := by
  unfold Good at hx hy
  rw [h, hy] at hx
  cases x; cases y
  simp only at h hx
  rw [h, Option.some.inj hx]

/-- what considering the items `l` does, whatever their order -/
structure Batch (env : SEnv V D) (ef : Int) (level : Nat) (st : St D) (l : List (Item D)) (st' : St D) : Prop where
  size : (st'.results.size : Int) ≤ ef
  resOf : ∀ x ∈ st'.results.toList, x ∈ st.results.toList ∨ (x ∈ l ∧ viable env level x.id = true)
  res : ∀ x, (x ∈ st.results.toList ∨ (x ∈ l ∧ viable env level x.id = true)) → x ∈ st'.results.toList ∨ Dead ef st'.results x.dist
  candOf : ∀ x ∈ st'.cands.toList, x ∈ st.cands.toList ∨ x ∈ l
  cand : ∀ x ∈ st.cands.toList, x ∈ st'.cands.toList
  new : ∀ x ∈ l, x ∈ st'.cands.toList ∨ Dead ef st'.results x.dist
  dead : ∀ d, Dead ef st.results d → Dead ef st'.results d
  worst : st'.results.size = 0 → st'.worst = st.worst

theorem consider_batch {env : SEnv V D} (ht : TieFree env) {ef : Int} {level : Nat} {st st' : St D} {nd : Item D}
    {pend : List (Item D)} (hi : Inv (Good env) env level st (nd :: pend)) (ho : Opt ef env level st (nd :: pend))
    (hsz : (st.results.size : Int) ≤ ef) (h : consider env ef level st nd = .ok st') : Batch env ef level st [nd] st' := by
  have hnd : Good env nd := (hi.pendP nd (by simp)).1
  have hne : ∀ y ∈ st.results.toList, y.id ≠ nd.id := by
    intro y hy he
    have := hi.resNd
    rw [List.map_append] at this
    exact (List.nodup_append.mp this).2.2 y.id (List.mem_map_of_mem hy) nd.id (by simp) he
  have hcp := insert_perm lessMin st.cands nd
  cases consider_ok h with
  | skip hw hs h =>
    subst h
    have hd : Dead ef st'.results nd.dist := by
      refine ⟨hs, fun y hy => ?_⟩
      rcases tie ht (hi.res y hy).1 hnd (hne y hy) with h | h
      · exact h
      · rcases LawfulDist.cotrans _ st'.worst _ h with h | h
        · rw [hw] at h; cases h
        · rw [worst_max ho y hy] at h; cases h
    refine ⟨hsz, fun x hx => .inl hx, ?_, fun x hx => .inl hx, fun x hx => hx, ?_, fun d hd => hd, fun _ => rfl⟩
    · rintro x (hx | ⟨hx, _⟩)
      · exact .inl hx
      · rw [List.mem_singleton.mp hx]; exact .inr hd
    · intro x hx; rw [List.mem_singleton.mp hx]; exact .inr hd
  | cand hv h =>
    subst h
    refine ⟨hsz, fun x hx => .inl hx, ?_, ?_, ?_, ?_, fun d hd => hd, fun _ => rfl⟩
    · rintro x (hx | ⟨hx, hvx⟩)
      · exact .inl hx
      · rw [List.mem_singleton.mp hx, hv] at hvx; cases hvx
    · intro x hx
      rcases List.mem_cons.mp (hcp.mem_iff.mp hx) with rfl | hx
      · exact .inr (by simp)
      · exact .inl hx
    · intro x hx; exact hcp.mem_iff.mpr (List.mem_cons_of_mem _ hx)
    · intro x hx; rw [List.mem_singleton.mp hx]; exact .inl (hcp.mem_iff.mpr (List.mem_cons_self))
  | both hv t htm htc r w hr hw h =>
    subst h
    have hrp := insert_perm lessMax st.results nd
    have hrs := insert_size lessMax st.results nd
    have hworst : r.size = 0 → w = st.worst := by
      intro h0
      rcases hw with ⟨_, h⟩ | ⟨x, hx, _⟩
      · exact h
      · have := (Array.mem_of_getElem? hx).val
        rw [Array.size_eq_zero_iff] at h0
        rw [h0] at this; simp at this
    have hgood : ∀ y ∈ nd :: st.results.toList, Good env y := by
      intro y hy
      rcases List.mem_cons.mp hy with rfl | hy
      · exact hnd
      · exact (hi.res y hy).1
    have hids : ((nd :: st.results.toList).map Item.id).Nodup := by
      rw [List.map_cons]
      refine List.nodup_cons.mpr ⟨?_, ?_⟩
      · intro hm
        obtain ⟨y, hy, he⟩ := List.mem_map.mp hm
        exact hne y hy he
      · have := hi.resNd
        rw [List.map_append] at this
        exact (List.nodup_append.mp this).1
    have hsub : ∀ x ∈ r.toList, x ∈ nd :: st.results.toList := by
      intro x hx
      rcases hr with ⟨rfl, _⟩ | ⟨⟨y, hy⟩, _⟩
      · exact hrp.mem_iff.mp hx
      · exact hrp.mem_iff.mp ((pop_perm lessMax hy).mem_iff.mpr (List.mem_cons_of_mem _ hx))
    have hout : ∀ x ∈ nd :: st.results.toList, x ∈ r.toList ∨ Dead ef r x.dist := by
      intro x hx
      rcases hr with ⟨rfl, _⟩ | ⟨⟨y, hy⟩, hlt⟩
      · exact .inl (hrp.mem_iff.mpr hx)
      · have hpp := pop_perm lessMax hy
        have hps := pop_size lessMax hy
        rcases List.mem_cons.mp (hpp.mem_iff.mp (hrp.mem_iff.mpr hx)) with rfl | hx'
        · right
          refine ⟨by omega, fun z hz => ?_⟩
          have hzm : z ∈ nd :: st.results.toList := hsub z hz
          have hzx : z.id ≠ x.id := by
            intro he
            have hn : ((x :: r.toList).map Item.id).Nodup := (((hpp.symm.trans hrp)).map Item.id).nodup_iff.mpr hids
            rw [List.map_cons] at hn
            exact (List.nodup_cons.mp hn).1 (he ▸ List.mem_map_of_mem hz)
          rcases tie ht (hgood z hzm) (hgood x hx) hzx with h | h
          · exact h
          · have htop := top_min swo_max (insert_heap swo_max ho.heapR nd) (pop_fst lessMax hy) z
              (hpp.mem_iff.mpr (List.mem_cons_of_mem _ hz))
            unfold lessMax at htop
            rw [htop] at h; cases h
        · exact .inl hx'
    refine ⟨?_, ?_, ?_, ?_, ?_, ?_, ?_, hworst⟩
    · rcases hr with ⟨rfl, h⟩ | ⟨⟨y, hy⟩, _⟩
      · simp only; omega
      · have := pop_size lessMax hy; simp only; omega
    · intro x hx
      rcases List.mem_cons.mp (hsub x hx) with rfl | hx
      · exact .inr ⟨by simp, hv⟩
      · exact .inl hx
    · rintro x (hx | ⟨hx, _⟩)
      · exact hout x (List.mem_cons_of_mem _ hx)
      · rw [List.mem_singleton.mp hx]; exact hout nd (List.mem_cons_self)
    · intro x hx
      rcases List.mem_cons.mp (hcp.mem_iff.mp hx) with rfl | hx
      · exact .inr (by simp)
      · exact .inl hx
    · intro x hx; exact hcp.mem_iff.mpr (List.mem_cons_of_mem _ hx)
    · intro x hx; rw [List.mem_singleton.mp hx]; exact .inl (hcp.mem_iff.mpr (List.mem_cons_self))
    · intro d hd
      rcases hr with ⟨rfl, h⟩ | ⟨⟨y, hy⟩, _⟩
      · have := hd.1; omega
      · have hps := pop_size lessMax hy
        refine ⟨by have := hd.1; simp only; omega, fun z hz => ?_⟩
        rcases List.mem_cons.mp (hsub z hz) with rfl | hz'
        · have hpp := pop_perm lessMax hy
          have hym : y ∈ z :: st.results.toList := hrp.mem_iff.mp (hpp.mem_iff.mpr (List.mem_cons_self))
          have hdy : Dead ef r y.dist := by
            rcases hout y hym with h | h
            · exfalso
              have hn : ((y :: r.toList).map Item.id).Nodup := (((hpp.symm.trans hrp)).map Item.id).nodup_iff.mpr hids
              rw [List.map_cons] at hn
              exact (List.nodup_cons.mp hn).1 (List.mem_map_of_mem h)
            · exact h
          have hzy := hdy.2 z hz
          rcases List.mem_cons.mp hym with rfl | hym
          · rw [LawfulDist.irrefl] at hzy; cases hzy
          · exact LawfulDist.trans _ _ _ hzy (hd.2 y hym)
        · exact hd.2 z hz'

theorem Batch.cons {env : SEnv V D} {ef : Int} {level : Nat} {st st1 st2 : St D} {x : Item D} {l : List (Item D)} (hef : 1 ≤ ef)
    (h1 : Batch env ef level st [x] st1) (h2 : Batch env ef level st1 l st2) : Batch env ef level st (x :: l) st2 := by
  refine ⟨h2.size, ?_, ?_, ?_, fun y hy => h2.cand y (h1.cand y hy), ?_, fun d hd => h2.dead d (h1.dead d hd), ?_⟩
  · intro y hy
    rcases h2.resOf y hy with h | ⟨h, hv⟩
    · rcases h1.resOf y h with h | ⟨h, hv⟩
      · exact .inl h
      · exact .inr ⟨by rw [List.mem_singleton.mp h]; simp, hv⟩
    · exact .inr ⟨List.mem_cons_of_mem _ h, hv⟩
  · rintro y (hy | ⟨hy, hv⟩)
    · rcases h1.res y (.inl hy) with h | h
      · exact h2.res y (.inl h)
      · exact .inr (h2.dead _ h)
    · rcases List.mem_cons.mp hy with rfl | hy
      · rcases h1.res y (.inr ⟨by simp, hv⟩) with h | h
        · exact h2.res y (.inl h)
        · exact .inr (h2.dead _ h)
      · exact h2.res y (.inr ⟨hy, hv⟩)
  · intro y hy
    rcases h2.candOf y hy with h | h
    · rcases h1.candOf y h with h | h
      · exact .inl h
      · exact .inr (by rw [List.mem_singleton.mp h]; simp)
    · exact .inr (List.mem_cons_of_mem _ h)
  · intro y hy
    rcases List.mem_cons.mp hy with rfl | hy
    · rcases h1.new y (by simp) with h | h
      · exact .inl (h2.cand y h)
      · exact .inr (h2.dead _ h)
    · exact h2.new y hy
  · intro h0
    rw [h2.worst h0]
    refine h1.worst ?_
    rw [Array.size_eq_zero_iff]
    rw [← Array.toList_eq_nil_iff]
    cases hl : st1.results.toList with
    | nil => rfl
    | cons y ys =>
      rcases h2.res y (.inl (by rw [hl]; simp)) with h | h
      · rw [Array.size_eq_zero_iff] at h0; rw [h0] at h; simp at h
      · have := h.1; omega

theorem considerAll_batch {env : SEnv V D} (ht : TieFree env) {ef : Int} (hef : 1 ≤ ef) {level : Nat} {nds : List (Item D)} {st st' : St D}
    (hi : Inv (Good env) env level st nds) (ho : Opt ef env level st nds)
    (hsz : (st.results.size : Int) ≤ ef) (h : considerAll env ef level st nds = .ok st') : Batch env ef level st nds st' := by
  induction nds generalizing st with
  | nil =>
    cases h
    refine ⟨hsz, fun x hx => .inl hx, ?_, fun x hx => .inl hx, fun x hx => hx, by simp, fun d hd => hd, fun _ => rfl⟩
    rintro x (hx | ⟨hx, _⟩)
    · exact .inl hx
    · cases hx
  | cons nd nds ih =>
    unfold considerAll at h
    split at h
    · cases h
    · rename_i st1 h1
      have hb := consider_batch ht hi ho hsz h1
      exact hb.cons hef (ih (consider_inv hi h1).1 (consider_opt hi ho h1) hb.size h)

/-- two states that differ only in candidates that will never be looked at -/
structure Sim (ef : Int) (s t : St D) : Prop where
  vis : s.visited = t.visited
  res : s.results.toList.Perm t.results.toList
  worst : s.worst = t.worst
  left : ∀ x ∈ s.cands.toList, x ∈ t.cands.toList ∨ Dead ef s.results x.dist
  right : ∀ x ∈ t.cands.toList, x ∈ s.cands.toList ∨ Dead ef s.results x.dist

theorem dead_perm {ef : Int} {a c : Array (Item D)} (h : a.toList.Perm c.toList) {d : D} (hd : Dead ef a d) : Dead ef c d := by
  refine ⟨?_, fun y hy => hd.2 y (h.mem_iff.mpr hy)⟩
  have := h.length_eq
  simp only [Array.length_toList] at this
  have := hd.1; omega

theorem nodup_of_ids {l : List (Item D)} (h : (l.map Item.id).Nodup) : l.Nodup := by
  induction l with
  | nil => exact List.nodup_nil
  | cons x l ih =>
    rw [List.map_cons] at h
    obtain ⟨h1, h2⟩ := List.nodup_cons.mp h
    exact List.nodup_cons.mpr ⟨fun hm => h1 (List.mem_map_of_mem hm), ih h2⟩

/-- a list without repetitions that is contained in one that is not longer is all of it -/
theorem all_of_sub {l m : List (Item D)} (hl : l.Nodup) (hs : ∀ x ∈ l, x ∈ m) (hlen : m.length ≤ l.length) : ∀ x ∈ m, x ∈ l := by
  induction l generalizing m with
  | nil =>
    intro x hx
    cases m with
    | nil => exact hx
    | cons y m => simp at hlen
  | cons y l ih =>
    intro x hx
    obtain ⟨hy, hl⟩ := List.nodup_cons.mp hl
    obtain ⟨m1, m2, rfl⟩ := List.append_of_mem (hs y (by simp))
    by_cases hxy : x = y
    · rw [hxy]; simp
    · refine List.mem_cons_of_mem _ (ih (m := m1 ++ m2) hl ?_ ?_ x ?_)
      · intro z hz
        have hzm := hs z (List.mem_cons_of_mem _ hz)
        rcases List.mem_append.mp hzm with h | h
        · exact List.mem_append_left _ h
        · rcases List.mem_cons.mp h with rfl | h
          · exact absurd hz hy
          · exact List.mem_append_right _ h
      · simp only [List.length_append, List.length_cons] at hlen ⊢; omega
      · rcases List.mem_append.mp hx with h | h
        · exact List.mem_append_left _ h
        · rcases List.mem_cons.mp h with rfl | h
          · exact absurd rfl hxy
          · exact List.mem_append_right _ h

/-- the nearest `ef` of a set of items are determined -/
theorem best_unique {ef : Int} {a c : Array (Item D)} {S : Item D → Prop} (ha : a.toList.Nodup) (hc : c.toList.Nodup)
    (sa : (a.size : Int) ≤ ef) (sc : (c.size : Int) ≤ ef) (ia : ∀ x ∈ a.toList, S x) (ic : ∀ x ∈ c.toList, S x)
    (oa : ∀ x, S x → x ∈ a.toList ∨ Dead ef a x.dist) (oc : ∀ x, S x → x ∈ c.toList ∨ Dead ef c x.dist) :
    ∀ x ∈ a.toList, x ∈ c.toList := by
  intro x hx
  rcases oc x (ia x hx) with h | h
  · exact h
  · exfalso
    by_cases hs : ∀ y ∈ c.toList, y ∈ a.toList
    · have hxc := all_of_sub hc hs (by simp only [Array.length_toList]; have := h.1; omega) x hx
      have := h.2 x hxc
      rw [LawfulDist.irrefl] at this; cases this
    · simp only [Classical.not_forall] at hs
      obtain ⟨y, hy, hya⟩ := hs
      rcases oa y (ic y hy) with h' | h'
      · exact hya h'
      · have h1 := h'.2 x hx
        have h2 := h.2 y hy
        have := LawfulDist.trans _ _ _ h1 h2
        rw [LawfulDist.irrefl] at this; cases this

theorem perm_of_mem {l m : List (Item D)} (hl : l.Nodup) (hm : m.Nodup) (h : ∀ x, x ∈ l ↔ x ∈ m) : l.Perm m :=
  (List.perm_ext_iff_of_nodup hl hm).mpr h

/-- tops of equal contents are equal -/
theorem top_perm {env : SEnv V D} (ht : TieFree env) {a c : Array (Item D)} (h : a.toList.Perm c.toList) (ha : Heap lessMax a) (hc : Heap lessMax c)
    (hg : ∀ x ∈ a.toList, Good env x) {x y : Item D} (hx : top a = some x) (hy : top c = some y) : x = y := by
  have hxm : x ∈ a.toList := (Array.mem_of_getElem? hx).val
  have hym : y ∈ a.toList := h.mem_iff.mpr (Array.mem_of_getElem? hy).val
  by_cases he : x.id = y.id
  · exact good_eq (hg x hxm) (hg y hym) he
  · have h1 := top_min swo_max ha hx y hym
    have h2 := top_min swo_max hc hy x (h.mem_iff.mp hxm)
    unfold lessMax at h1 h2
    rcases tie ht (hg x hxm) (hg y hym) he with h | h
    · rw [h1] at h; cases h
    · rw [h2] at h; cases h

theorem top_none {a : Array (Item D)} : top a = none ↔ a.size = 0 := by
  unfold top
  simp

theorem expand_sim {env : SEnv V D} (ht : TieFree env) (hsm : ∀ id v, env.get id = some v → id < env.cacheSize) {ef : Int} (hef : 1 ≤ ef)
    {level : Nat} {σ τ : Sched D} {s t : St D} {cs ct : Item D} {qs qt : Array (Item D)} {links : List Nat} {v : Vertex V}
    (hs : Inv (Good env) env level s []) (hos : Opt ef env level s []) (hss : (s.results.size : Int) ≤ ef)
    (htt : Inv (Good env) env level t []) (hot : Opt ef env level t []) (hst : (t.results.size : Int) ≤ ef)
    (hps : pop lessMin s.cands = some (cs, qs)) (hpt : pop lessMin t.cands = some (ct, qt)) (hc : cs = ct)
    (hv : env.get cs.id = some v) (hl : v.conns[level]? = some links)
    (h : Sim ef { s with cands := qs } { t with cands := qt }) :
    ∃ s' t', expand env σ ef level { s with cands := qs } links = .ok s' ∧ expand env τ ef level { t with cands := qt } links = .ok t' ∧
      Sim ef s' t' ∧ Inv (Good env) env level s' [] ∧ Opt ef env level s' [] ∧ (s'.results.size : Int) ≤ ef ∧
      Inv (Good env) env level t' [] ∧ Opt ef env level t' [] ∧ (t'.results.size : Int) ≤ ef := by
  subst hc
  have hP : ∀ x : Item D, Good env x → x.id < env.cacheSize := by
    intro x hx
    unfold Good distToNode at hx
    split at hx
    · cases hx
    · rename_i v hv; exact hsm _ _ hv
  have hi1 := pop_cands_inv hs hps
  have hi2 := pop_cands_inv htt hpt
  have hp1 := expand_pend (links := links) σ (fun _ hx => hx) hi1
  have hp2 := expand_pend (links := links) τ (fun _ hx => hx) hi2
  obtain ⟨s', e1⟩ := considerAll_total (ef := ef) hP hp1
  obtain ⟨t', e2⟩ := considerAll_total (ef := ef) hP hp2
  have E1 : expand env σ ef level { s with cands := qs } links = .ok s' := e1
  have E2 : expand env τ ef level { t with cands := qt } links = .ok t' := e2
  have o1 := expand_opt hs hos hps hv hl E1
  have o2 := expand_opt htt hot hpt hv hl E2
  have i1 := expand_inv (fun _ hx => hx) hi1 E1
  have i2 := expand_inv (fun _ hx => hx) hi2 E2
  have b1 := considerAll_batch ht hef hp1 (expand_pend_opt (st := s) σ hs hos hps hv hl) hss e1
  have b2 := considerAll_batch ht hef hp2 (expand_pend_opt (st := t) τ htt hot hpt hv hl) hst e2
  have v1 := (considerAll_inv hp1 e1).2.1
  have v2 := (considerAll_inv hp2 e2).2.1
  have hvis : s.visited = t.visited := h.vis
  have hnds : ∀ x, x ∈ σ.order s.n (distances env (markNew s.visited links).2) ↔ x ∈ τ.order t.n (distances env (markNew t.visited links).2) := by
    intro x
    rw [(σ.perm _ _).mem_iff, (τ.perm _ _).mem_iff, hvis]
  have n1 : s'.results.toList.Nodup := nodup_of_ids (by simpa using i1.resNd)
  have n2 : t'.results.toList.Nodup := nodup_of_ids (by simpa using i2.resNd)
  have hperm : s'.results.toList.Perm t'.results.toList := by
    refine perm_of_mem n1 n2 (fun x => ⟨?_, ?_⟩)
    · refine best_unique (S := fun x => x ∈ s.results.toList ∨ (x ∈ σ.order s.n (distances env (markNew s.visited links).2) ∧ viable env level x.id = true))
        n1 n2 b1.size b2.size b1.resOf ?_ b1.res ?_ x
      · intro y hy
        rcases b2.resOf y hy with hy | ⟨hy, hv⟩
        · exact .inl (h.res.mem_iff.mpr hy)
        · exact .inr ⟨(hnds y).mpr hy, hv⟩
      · rintro y (hy | ⟨hy, hv⟩)
        · exact b2.res y (.inl (h.res.mem_iff.mp hy))
        · exact b2.res y (.inr ⟨(hnds y).mp hy, hv⟩)
    · refine best_unique (S := fun x => x ∈ s.results.toList ∨ (x ∈ σ.order s.n (distances env (markNew s.visited links).2) ∧ viable env level x.id = true))
        n2 n1 b2.size b1.size ?_ b1.resOf ?_ b1.res x
      · intro y hy
        rcases b2.resOf y hy with hy | ⟨hy, hv⟩
        · exact .inl (h.res.mem_iff.mpr hy)
        · exact .inr ⟨(hnds y).mpr hy, hv⟩
      · rintro y (hy | ⟨hy, hv⟩)
        · exact b2.res y (.inl (h.res.mem_iff.mp hy))
        · exact b2.res y (.inr ⟨(hnds y).mp hy, hv⟩)
  refine ⟨s', t', E1, E2, ⟨?_, hperm, ?_, ?_, ?_⟩, i1, o1, b1.size, i2, o2, b2.size⟩
  · rw [v1, v2]
    show (markNew s.visited links).1 = (markNew t.visited links).1
    rw [hvis]
  · cases hs1 : top s'.results with
    | none =>
      have z1 := top_none.mp hs1
      have z2 : t'.results.size = 0 := by
        have := hperm.length_eq
        simp only [Array.length_toList] at this
        omega
      rw [b1.worst z1, b2.worst z2]
      exact h.worst
    | some x =>
      cases ht1 : top t'.results with
      | none =>
        have z2 := top_none.mp ht1
        have := hperm.length_eq
        simp only [Array.length_toList] at this
        rw [top_none.mpr (by omega)] at hs1; cases hs1
      | some y =>
        rw [o1.worst x hs1, o2.worst y ht1, top_perm ht hperm o1.heapR o2.heapR (fun z hz => (i1.res z hz).1) hs1 ht1]
  · intro x hx
    rcases b1.candOf x hx with hx | hx
    · rcases h.left x hx with hx | hx
      · exact .inl (b2.cand x hx)
      · exact .inr (b1.dead _ hx)
    · rcases b2.new x ((hnds x).mp hx) with hx | hx
      · exact .inl hx
      · exact .inr (dead_perm hperm.symm hx)
  · intro x hx
    rcases b2.candOf x hx with hx | hx
    · rcases h.right x hx with hx | hx
      · exact .inl (b1.cand x hx)
      · exact .inr (b1.dead _ hx)
    · exact b1.new x ((hnds x).mpr hx)

/-! ### the loop -/

theorem dead_stops {ef : Int} (hef : 1 ≤ ef) {env : SEnv V D} {level : Nat} {st : St D} {pend : List (Item D)} (ho : Opt ef env level st pend)
    {d : D} (hd : Dead ef st.results d) : Dist.lt st.worst d = true := by
  cases ht : top st.results with
  | none => have := top_none.mp ht; have := hd.1; omega
  | some x => rw [ho.worst x ht]; exact hd.2 x (Array.mem_of_getElem? ht).val

theorem drain_det {env : SEnv V D} (ht : TieFree env) {a c : Array (Item D)} (h : a.toList.Perm c.toList) (ha : Heap lessMax a) (hc : Heap lessMax c)
    (hg : ∀ x ∈ a.toList, Good env x) : drain lessMax a = drain lessMax c := by
  have hp : (drain lessMax a).Perm (drain lessMax c) := (drain_perm _ _).trans (h.trans (drain_perm _ _).symm)
  refine List.Perm.eq_of_pairwise (le := fun a b => lessMax b a = false) ?_ (drain_sorted swo_max ha) (drain_sorted swo_max hc) hp
  intro x y hx hy h1 h2
  have hxm := (drain_perm _ _).mem_iff.mp hx
  have hym := h.mem_iff.mpr ((drain_perm _ _).mem_iff.mp hy)
  unfold lessMax at h1 h2
  by_cases he : x.id = y.id
  · exact good_eq (hg x hxm) (hg y hym) he
  · rcases tie ht (hg x hxm) (hg y hym) he with h | h
    · rw [h1] at h; cases h
    · rw [h2] at h; cases h

theorem cands_nodup {P : Item D → Prop} {env : SEnv V D} {level : Nat} {st : St D} {c : Item D} {q : Array (Item D)} (hi : Inv P env level st [])
    (hp : pop lessMin st.cands = some (c, q)) : c ∉ q.toList := by
  have h := hi.candNd
  rw [List.append_nil] at h
  have h := ((pop_perm lessMin hp).map Item.id).nodup_iff.mp h
  rw [List.map_cons] at h
  exact fun hm => (List.nodup_cons.mp h).1 (List.mem_map_of_mem hm)

theorem loop_sim {env : SEnv V D} (ht : TieFree env) (hsm : ∀ id v, env.get id = some v → id < env.cacheSize) {ef : Int} (hef : 1 ≤ ef)
    {level : Nat} {σ τ : Sched D} (fuel : Nat) {s t : St D}
    (hs : Inv (Good env) env level s []) (hos : Opt ef env level s []) (hss : (s.results.size : Int) ≤ ef)
    (htt : Inv (Good env) env level t []) (hot : Opt ef env level t []) (hst : (t.results.size : Int) ≤ ef) (h : Sim ef s t) :
    (loop env σ ef level fuel s).map (fun st => drain lessMax st.results) =
      (loop env τ ef level fuel t).map (fun st => drain lessMax st.results) := by
  induction fuel generalizing s t with
  | zero => rfl
  | succ fuel ih =>
    have hres : drain lessMax s.results = drain lessMax t.results := drain_det ht h.res hos.heapR hot.heapR (fun x hx => (hs.res x hx).1)
    have hlen : s.results.size = t.results.size := by simpa using h.res.length_eq
    have hdead : ∀ d, Dead ef s.results d → (Dist.lt t.worst d && decide ((t.results.size : Int) ≥ ef)) = true := by
      intro d hd
      have h1 := dead_stops hef hos hd
      rw [h.worst] at h1
      simp only [h1, Bool.true_and, decide_eq_true_eq]
      have := hd.1; omega
    have hdead' : ∀ d, Dead ef s.results d → (Dist.lt s.worst d && decide ((s.results.size : Int) ≥ ef)) = true := by
      intro d hd
      rw [dead_stops hef hos hd]
      simpa using hd.1
    unfold loop
    cases hps : pop lessMin s.cands with
    | none =>
      have z : s.cands.toList = [] := by simpa using pop_none lessMin hps
      cases hpt : pop lessMin t.cands with
      | none => simp only [Except.map, hres]
      | some p =>
        obtain ⟨ct, qt⟩ := p
        have hm : ct ∈ t.cands.toList := (pop_perm lessMin hpt).mem_iff.mpr (List.mem_cons_self)
        rcases h.right ct hm with h' | h'
        · rw [z] at h'; cases h'
        · simp only [hdead _ h', if_true, Except.map, hres]
    | some p =>
      obtain ⟨cs, qs⟩ := p
      have hms : cs ∈ s.cands.toList := (pop_perm lessMin hps).mem_iff.mpr (List.mem_cons_self)
      cases hpt : pop lessMin t.cands with
      | none =>
        have z : t.cands.toList = [] := by simpa using pop_none lessMin hpt
        rcases h.left cs hms with h' | h'
        · rw [z] at h'; cases h'
        · simp only [hdead' _ h', if_true, Except.map, hres]
      | some p =>
        obtain ⟨ct, qt⟩ := p
        have hmt : ct ∈ t.cands.toList := (pop_perm lessMin hpt).mem_iff.mpr (List.mem_cons_self)
        have mins := top_min swo_min hos.heapC (pop_fst lessMin hps)
        have mint := top_min swo_min hot.heapC (pop_fst lessMin hpt)
        unfold lessMin at mins mint
        simp only
        by_cases h1 : (Dist.lt s.worst cs.dist && decide ((s.results.size : Int) ≥ ef)) = true
        · have h2 : (Dist.lt t.worst ct.dist && decide ((t.results.size : Int) ≥ ef)) = true := by
            rcases h.right ct hmt with hm | hd
            · simp only [Bool.and_eq_true, decide_eq_true_eq] at h1 ⊢
              refine ⟨?_, by omega⟩
              rcases LawfulDist.cotrans _ ct.dist _ h1.1 with h' | h'
              · rw [← h.worst]; exact h'
              · rw [mins ct hm] at h'; cases h'
            · exact hdead _ hd
          rw [if_pos h1, if_pos h2]
          simp only [Except.map, hres]
        · have h2 : ¬ (Dist.lt t.worst ct.dist && decide ((t.results.size : Int) ≥ ef)) = true := by
            intro h2
            apply h1
            rcases h.left cs hms with hm | hd
            · simp only [Bool.and_eq_true, decide_eq_true_eq] at h2 ⊢
              refine ⟨?_, by omega⟩
              rcases LawfulDist.cotrans _ cs.dist _ h2.1 with h' | h'
              · rw [h.worst]; exact h'
              · rw [mint cs hm] at h'; cases h'
            · exact hdead' _ hd
          have m1 : cs ∈ t.cands.toList := (h.left cs hms).resolve_right (fun hd => h1 (hdead' _ hd))
          have m2 : ct ∈ s.cands.toList := (h.right ct hmt).resolve_right (fun hd => h2 (hdead _ hd))
          have he : cs = ct := by
            by_cases he : cs.id = ct.id
            · exact good_eq (hs.cand cs hms).1 (htt.cand ct hmt).1 he
            · rcases tie ht (hs.cand cs hms).1 (htt.cand ct hmt).1 he with h' | h'
              · rw [mint cs m1] at h'; cases h'
              · rw [mins ct m2] at h'; cases h'
          subst he
          have ns := cands_nodup hs hps
          have nt := cands_nodup htt hpt
          have hsim : Sim ef { s with cands := qs } { t with cands := qt } := by
            refine ⟨h.vis, h.res, h.worst, ?_, ?_⟩
            · intro x hx
              rcases h.left x ((pop_perm lessMin hps).mem_iff.mpr (List.mem_cons_of_mem _ hx)) with h' | h'
              · rcases List.mem_cons.mp ((pop_perm lessMin hpt).mem_iff.mp h') with rfl | h'
                · exact absurd hx ns
                · exact .inl h'
              · exact .inr h'
            · intro x hx
              rcases h.right x ((pop_perm lessMin hpt).mem_iff.mpr (List.mem_cons_of_mem _ hx)) with h' | h'
              · rcases List.mem_cons.mp ((pop_perm lessMin hps).mem_iff.mp h') with rfl | h'
                · exact absurd hx nt
                · exact .inl h'
              · exact .inr h'
          rw [if_neg h1, if_neg h2]
          have is := pop_cands_inv hs hps
          have it := pop_cands_inv htt hpt
          cases hv : env.get cs.id with
          | none =>
            have hno : ∀ y, ¬ Linked env level cs.id y := fun y hy => by obtain ⟨v, l, hv', _⟩ := hy; rw [hv] at hv'; cases hv'
            exact ih is (drop_opt hos hps hno) hss it (drop_opt hot hpt hno) hst hsim
          | some v =>
            simp only
            by_cases hlv : v.level < level
            · have hno : ∀ y, ¬ Linked env level cs.id y := fun y hy => by
                obtain ⟨v', l, hv', hle, _⟩ := hy; rw [hv] at hv'; cases hv'; omega
              rw [if_pos hlv, if_pos hlv]
              exact ih is (drop_opt hos hps hno) hss it (drop_opt hot hpt hno) hst hsim
            · rw [if_neg hlv, if_neg hlv]
              cases hl : v.conns[level]? with
              | none => rfl
              | some links =>
                obtain ⟨s', t', e1, e2, hsim', a1, a2, a3, a4, a5, a6⟩ := expand_sim ht hsm hef (σ := σ) (τ := τ) hs hos hss htt hot hst hps hpt rfl hv hl hsim
                simp only [e1, e2]
                exact ih a1 a2 a3 a4 a5 a6 hsim'

/-- Without ties the outcome of a layer search is the same for any two schedules. -/
theorem searchLayer_det {env : SEnv V D} (ht : TieFree env) (hsm : ∀ id v, env.get id = some v → id < env.cacheSize) {ef : Int} (hef : 1 ≤ ef)
    {level : Nat} (σ τ : Sched D) {eps : List (Item D)} (he : EpsOk env eps) (hg : ∀ e ∈ eps, Good env e) (hlen : (eps.length : Int) ≤ ef) :
    (searchLayer env σ eps ef level).map (drain lessMax) = (searchLayer env τ eps ef level).map (drain lessMax) := by
  unfold searchLayer
  cases hs : start env eps level with
  | error e => rfl
  | ok st =>
    have hi := start_inv he hg hs
    have ho : Opt ef env level st [] := start_opt hg hs
    have hsz : (st.results.size : Int) ≤ ef := by
      have h2 := (start_ok hs).2.1.length_eq
      have := List.length_filter_le (fun x : Item D => viable env level x.id) eps
      simp at h2 this; omega
    have := loop_sim ht hsm hef (σ := σ) (τ := τ) (eps.length + env.keys.length + 1) hi ho hsz hi ho hsz
      ⟨rfl, List.Perm.refl _, rfl, fun _ hx => .inl hx, fun _ hx => .inl hx⟩
    simp only
    cases h1 : loop env σ ef level (eps.length + env.keys.length + 1) st <;>
      cases h2 : loop env τ ef level (eps.length + env.keys.length + 1) st <;>
      rw [h1, h2] at this <;> simp only [Except.map] at this ⊢ <;> first | exact this | simpa using this

end Fave.Search
