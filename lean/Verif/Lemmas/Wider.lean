import Verif.Lemmas.KnnDet
/-!
# Without ties a wider layer search, or one with a stricter filter, finds at least as near results (C98, C99)
-/
set_option linter.unusedSectionVars false
namespace Fave.Search
open Queue Spec
variable {V D : Type} [Dist D] [LawfulDist D]

/-- a narrow search in state `s` and a wide one in state `t` that only keeps what `p` permits: the same is visited, the wide search keeps
what the narrow one keeps if permitted, and whatever only one of them has is out of reach of the narrow one -/
structure Wide (p : Nat → Bool) (ef : Int) (s t : St D) : Prop where
  vis : s.visited = t.visited
  sub : ∀ x ∈ s.results.toList, p x.id = true → x ∈ t.results.toList
  over : ∀ x ∈ t.results.toList, x ∈ s.results.toList ∨ Dead ef s.results x.dist
  left : ∀ x ∈ s.cands.toList, x ∈ t.cands.toList ∨ Dead ef s.results x.dist
  right : ∀ x ∈ t.cands.toList, x ∈ s.cands.toList ∨ Dead ef s.results x.dist

/-- what is out of reach of the wide search is out of reach of the narrow one -/
theorem dead_narrow {ef ef' : Int} (hle : ef ≤ ef') {a c : Array (Item D)} (hn : c.toList.Nodup) (sa : (a.size : Int) ≤ ef)
    (over : ∀ x ∈ c.toList, x ∈ a.toList ∨ Dead ef a x.dist) {d : D} (hd : Dead ef' c d) : Dead ef a d := by
  by_cases h : ∀ x ∈ c.toList, x ∈ a.toList
  · have hl := List.Nodup.length_le_of_subset hn h
    simp only [Array.length_toList] at hl
    have h1 := hd.1
    have hall := all_of_sub hn h (by simp only [Array.length_toList]; omega)
    exact ⟨by omega, fun y hy => hd.2 y (hall y hy)⟩
  · simp only [Classical.not_forall] at h
    obtain ⟨x, hx, hxa⟩ := h
    have hdx := (over x hx).resolve_left hxa
    exact ⟨hdx.1, fun y hy => LawfulDist.trans _ _ _ (hdx.2 y hy) (hd.2 x hx)⟩

/-- the nearest `ef` of a set of items are among the nearest `ef'` of a part of it, as far as they belong to the part -/
theorem best_mono {ef ef' : Int} (hle : ef ≤ ef') {a c : Array (Item D)} (hc : c.toList.Nodup) (sa : (a.size : Int) ≤ ef)
    (oa : ∀ x ∈ c.toList, x ∈ a.toList ∨ Dead ef a x.dist) {x : Item D} (hx : x ∈ a.toList) (oc : x ∈ c.toList ∨ Dead ef' c x.dist) :
    x ∈ c.toList := by
  rcases oc with h | h
  · exact h
  · by_cases hs : ∀ y ∈ c.toList, y ∈ a.toList
    · exact all_of_sub hc hs (by simp only [Array.length_toList]; have := h.1; omega) x hx
    · simp only [Classical.not_forall] at hs
      obtain ⟨y, hy, hya⟩ := hs
      have h1 := ((oa y hy).resolve_left hya).2 x hx
      have := LawfulDist.trans _ _ _ h1 (h.2 y hy)
      rw [LawfulDist.irrefl] at this; cases this

/-- the same search with another filter -/
abbrev withAllow (env : SEnv V D) (p : Option (Nat → Bool)) : SEnv V D := { env with allow := p }

theorem expand_wide {env : SEnv V D} {al : Option (Nat → Bool)} (ht : TieFree env) {ef ef' : Int} (hef : 1 ≤ ef) (hle : ef ≤ ef')
    {level : Nat} (hal : ∀ x, viable (withAllow env al) level x = true → viable env level x = true) {σ τ : Sched D} {s t s' t' : St D} {c : Item D} {qs qt : Array (Item D)} {links : List Nat} {v : Vertex V}
    (hs : Inv (Good env) env level s []) (hos : Opt ef env level s []) (hss : (s.results.size : Int) ≤ ef)
    (htt : Inv (Good (withAllow env al)) (withAllow env al) level t []) (hot : Opt ef' (withAllow env al) level t []) (hst : (t.results.size : Int) ≤ ef')
    (hps : pop lessMin s.cands = some (c, qs)) (hpt : pop lessMin t.cands = some (c, qt))
    (hv : env.get c.id = some v) (hl : v.conns[level]? = some links)
    (h : Wide (viable (withAllow env al) level) ef { s with cands := qs } { t with cands := qt })
    (E1 : expand env σ ef level { s with cands := qs } links = .ok s') (E2 : expand (withAllow env al) τ ef' level { t with cands := qt } links = .ok t') :
      Wide (viable (withAllow env al) level) ef s' t' ∧ Inv (Good env) env level s' [] ∧ Opt ef env level s' [] ∧ (s'.results.size : Int) ≤ ef ∧
      Inv (Good (withAllow env al)) (withAllow env al) level t' [] ∧ Opt ef' (withAllow env al) level t' [] ∧ (t'.results.size : Int) ≤ ef' := by
  have hi1 := pop_cands_inv hs hps
  have hi2 := pop_cands_inv htt hpt
  have hp1 := expand_pend (links := links) σ (fun _ hx => hx) hi1
  have hp2 := expand_pend (links := links) τ (fun _ hx => hx) hi2
  have o1 := expand_opt hs hos hps hv hl E1
  have o2 := expand_opt htt hot hpt hv hl E2
  have i1 := expand_inv (fun _ hx => hx) hi1 E1
  have i2 := expand_inv (fun _ hx => hx) hi2 E2
  have b1 := considerAll_batch ht hef hp1 (expand_pend_opt (st := s) σ hs hos hps hv hl) hss E1
  have b2 := considerAll_batch (env := withAllow env al) ht (by omega) hp2 (expand_pend_opt (st := t) τ htt hot hpt hv hl) hst E2
  have v1 := (considerAll_inv hp1 E1).2.1
  have v2 := (considerAll_inv hp2 E2).2.1
  have hvis : s.visited = t.visited := h.vis
  have hnds : ∀ x, x ∈ σ.order s.n (distances env (markNew s.visited links).2) ↔ x ∈ τ.order t.n (distances env (markNew t.visited links).2) := by
    intro x
    rw [(σ.perm _ _).mem_iff, (τ.perm _ _).mem_iff, hvis]
  have n2 : t'.results.toList.Nodup := nodup_of_ids (by simpa using i2.resNd)
  have over : ∀ x ∈ t'.results.toList, x ∈ s'.results.toList ∨ Dead ef s'.results x.dist := by
    intro x hx
    rcases b2.resOf x hx with hx | ⟨hx, hv⟩
    · rcases h.over x hx with hx | hx
      · exact b1.res x (.inl hx)
      · exact .inr (b1.dead _ hx)
    · exact b1.res x (.inr ⟨(hnds x).mpr hx, hal _ hv⟩)
  have sub : ∀ x ∈ s'.results.toList, viable (withAllow env al) level x.id = true → x ∈ t'.results.toList := by
    intro x hx hpx
    refine best_mono hle n2 b1.size over hx ?_
    rcases b1.resOf x hx with hx | ⟨hx, _⟩
    · exact b2.res x (.inl (h.sub x hx hpx))
    · exact b2.res x (.inr ⟨(hnds x).mp hx, hpx⟩)
  refine ⟨⟨?_, sub, over, ?_, ?_⟩, i1, o1, b1.size, i2, o2, b2.size⟩
  · rw [v1, v2]
    show (markNew s.visited links).1 = (markNew t.visited links).1
    rw [hvis]
  · intro x hx
    rcases b1.candOf x hx with hx | hx
    · rcases h.left x hx with hx | hx
      · exact .inl (b2.cand x hx)
      · exact .inr (b1.dead _ hx)
    · rcases b2.new x ((hnds x).mp hx) with hx | hx
      · exact .inl hx
      · exact .inr (dead_narrow hle n2 b1.size over hx)
  · intro x hx
    rcases b2.candOf x hx with hx | hx
    · rcases h.right x hx with hx | hx
      · exact .inl (b1.cand x hx)
      · exact .inr (b1.dead _ hx)
    · exact b1.new x ((hnds x).mpr hx)

/-- what the results of a search become: nothing is lost but to nearer results -/
theorem loop_better {env : SEnv V D} (ht : TieFree env) {ef : Int} (hef : 1 ≤ ef) {level : Nat} {τ : Sched D} (fuel : Nat) {t t' : St D}
    (hi : Inv (Good env) env level t []) (ho : Opt ef env level t []) (hst : (t.results.size : Int) ≤ ef)
    (h : loop env τ ef level fuel t = .ok t') :
    (∀ x ∈ t.results.toList, x ∈ t'.results.toList ∨ Dead ef t'.results x.dist) ∧ ∀ d, Dead ef t.results d → Dead ef t'.results d := by
  induction fuel generalizing t with
  | zero => cases h
  | succ fuel ih =>
    unfold loop at h
    split at h
    · cases h; exact ⟨fun x hx => .inl hx, fun d hd => hd⟩
    · rename_i c q hp
      split at h
      · cases h; exact ⟨fun x hx => .inl hx, fun d hd => hd⟩
      · have hi' := pop_cands_inv hi hp
        simp only at h
        split at h
        · rename_i hg
          exact ih (t := { t with cands := q }) hi' (drop_opt ho hp (fun y hy => by obtain ⟨v, l, hv, _⟩ := hy; rw [hg] at hv; cases hv)) hst h
        · rename_i v hv
          split at h
          · exact ih (t := { t with cands := q }) hi' (drop_opt ho hp (fun y hy => by
              obtain ⟨v', l, hv', hle, _⟩ := hy; rw [hv] at hv'; cases hv'; omega)) hst h
          · split at h
            · cases h
            · rename_i links hlinks
              split at h
              · cases h
              · rename_i st1 h1
                have b := considerAll_batch ht hef (expand_pend (links := links) τ (fun _ hx => hx) hi')
                  (expand_pend_opt (st := t) τ hi ho hp hv hlinks) hst h1
                obtain ⟨a1, a2⟩ := ih (expand_inv (fun _ hx => hx) hi' h1) (expand_opt hi ho hp hv hlinks h1) b.size h
                refine ⟨fun x hx => ?_, fun d hd => a2 d (b.dead d hd)⟩
                rcases b.res x (.inl hx) with h | h
                · exact a1 x h
                · exact .inr (a2 _ h)

theorem loop_wide {env : SEnv V D} {al : Option (Nat → Bool)} (ht : TieFree env) {ef ef' : Int} (hef : 1 ≤ ef) (hle : ef ≤ ef')
    {level : Nat} (hal : ∀ x, viable (withAllow env al) level x = true → viable env level x = true) {σ τ : Sched D} (fuel : Nat) {s t s' t' : St D}
    (hs : Inv (Good env) env level s []) (hos : Opt ef env level s []) (hss : (s.results.size : Int) ≤ ef)
    (htt : Inv (Good (withAllow env al)) (withAllow env al) level t []) (hot : Opt ef' (withAllow env al) level t []) (hst : (t.results.size : Int) ≤ ef') (h : Wide (viable (withAllow env al) level) ef s t)
    (h1 : loop env σ ef level fuel s = .ok s') (h2 : loop (withAllow env al) τ ef' level fuel t = .ok t') :
    ∀ x ∈ s'.results.toList, viable (withAllow env al) level x.id = true → x ∈ t'.results.toList ∨ Dead ef' t'.results x.dist := by
  induction fuel generalizing s t with
  | zero => cases h1
  | succ fuel ih =>
    have hef' : 1 ≤ ef' := by omega
    have nt : t.results.toList.Nodup := nodup_of_ids (by simpa using htt.resNd)
    have hend : s' = s → ∀ x ∈ s'.results.toList, viable (withAllow env al) level x.id = true → x ∈ t'.results.toList ∨ Dead ef' t'.results x.dist := by
      rintro rfl x hx hpx
      exact (loop_better (env := withAllow env al) ht hef' (fuel + 1) htt hot hst h2).1 x (h.sub x hx hpx)
    have hstop : ∀ d, Dead ef s.results d → (Dist.lt s.worst d && decide ((s.results.size : Int) ≥ ef)) = true := by
      intro d hd
      rw [dead_stops hef hos hd]
      simpa using hd.1
    unfold loop at h1
    cases hps : pop lessMin s.cands with
    | none => simp only [hps] at h1; cases h1; exact hend rfl
    | some p =>
      obtain ⟨cs, qs⟩ := p
      simp only [hps] at h1
      by_cases c1 : (Dist.lt s.worst cs.dist && decide ((s.results.size : Int) ≥ ef)) = true
      · rw [if_pos c1] at h1; cases h1; exact hend rfl
      · rw [if_neg c1] at h1
        have hlive : ¬ Dead ef s.results cs.dist := fun hd => c1 (hstop _ hd)
        have hms : cs ∈ s.cands.toList := (pop_perm lessMin hps).mem_iff.mpr (List.mem_cons_self)
        have m1 : cs ∈ t.cands.toList := (h.left cs hms).resolve_right hlive
        unfold loop at h2
        cases hpt : pop lessMin t.cands with
        | none =>
          have z : t.cands.toList = [] := by simpa using pop_none lessMin hpt
          rw [z] at m1; cases m1
        | some p =>
          obtain ⟨ct, qt⟩ := p
          simp only [hpt] at h2
          have hmt : ct ∈ t.cands.toList := (pop_perm lessMin hpt).mem_iff.mpr (List.mem_cons_self)
          have mins := top_min swo_min hos.heapC (pop_fst lessMin hps)
          have mint := top_min swo_min hot.heapC (pop_fst lessMin hpt)
          unfold lessMin at mins mint
          have m2 : ct ∈ s.cands.toList := by
            refine (h.right ct hmt).resolve_right (fun hd => hlive ⟨hd.1, fun y hy => ?_⟩)
            rcases LawfulDist.cotrans _ cs.dist _ (hd.2 y hy) with h' | h'
            · exact h'
            · rw [mint cs m1] at h'; cases h'
          have he : cs = ct := by
            by_cases he : cs.id = ct.id
            · exact good_eq (hs.cand cs hms).1 (htt.cand ct hmt).1 he
            · rcases tie ht (hs.cand cs hms).1 (htt.cand ct hmt).1 he with h' | h'
              · rw [mint cs m1] at h'; cases h'
              · rw [mins ct m2] at h'; cases h'
          subst he
          have c2 : ¬ (Dist.lt t.worst cs.dist && decide ((t.results.size : Int) ≥ ef')) = true := by
            intro c2
            simp only [Bool.and_eq_true, decide_eq_true_eq] at c2
            refine hlive (dead_narrow hle nt hss h.over ⟨c2.2, fun y hy => ?_⟩)
            rcases LawfulDist.cotrans _ y.dist _ c2.1 with h' | h'
            · rw [worst_max hot y hy] at h'; cases h'
            · exact h'
          rw [if_neg c2] at h2
          have ns := cands_nodup hs hps
          have nt' := cands_nodup htt hpt
          have hw : Wide (viable (withAllow env al) level) ef { s with cands := qs } { t with cands := qt } := by
            refine ⟨h.vis, h.sub, h.over, ?_, ?_⟩
            · intro x hx
              rcases h.left x ((pop_perm lessMin hps).mem_iff.mpr (List.mem_cons_of_mem _ hx)) with h' | h'
              · rcases List.mem_cons.mp ((pop_perm lessMin hpt).mem_iff.mp h') with rfl | h'
                · exact absurd hx ns
                · exact .inl h'
              · exact .inr h'
            · intro x hx
              rcases h.right x ((pop_perm lessMin hpt).mem_iff.mpr (List.mem_cons_of_mem _ hx)) with h' | h'
              · rcases List.mem_cons.mp ((pop_perm lessMin hps).mem_iff.mp h') with rfl | h'
                · exact absurd hx nt'
                · exact .inl h'
              · exact .inr h'
          have is := pop_cands_inv hs hps
          have it := pop_cands_inv htt hpt
          cases hv : env.get cs.id with
          | none =>
            simp only [hv] at h1 h2
            have hno : ∀ y, ¬ Linked env level cs.id y := fun y hy => by obtain ⟨v, l, hv', _⟩ := hy; rw [hv] at hv'; cases hv'
            exact ih is (drop_opt hos hps hno) hss it (drop_opt hot hpt hno) hst hw h1 h2
          | some v =>
            simp only [hv] at h1 h2
            by_cases hlv : v.level < level
            · have hno : ∀ y, ¬ Linked env level cs.id y := fun y hy => by
                obtain ⟨v', l, hv', hle, _⟩ := hy; rw [hv] at hv'; cases hv'; omega
              rw [if_pos hlv] at h1 h2
              exact ih is (drop_opt hos hps hno) hss it (drop_opt hot hpt hno) hst hw h1 h2
            · rw [if_neg hlv] at h1 h2
              cases hl : v.conns[level]? with
              | none => simp only [hl] at h1; cases h1
              | some links =>
                simp only [hl] at h1 h2
                split at h1
                · cases h1
                · rename_i s1 e1
                  split at h2
                  · cases h2
                  · rename_i t1 e2
                    obtain ⟨hw', a1, a2, a3, a4, a5, a6⟩ := expand_wide ht hef hle hal hs hos hss htt hot hst hps hpt hv hl hw e1 e2
                    exact ih a1 a2 a3 a4 a5 a6 hw' h1 h2

/-- Without ties: whatever a narrow layer search finds a wider one with a stricter filter finds too, if permitted, or it finds as many as it may, all nearer. -/
theorem searchLayer_wide {env : SEnv V D} {al : Option (Nat → Bool)} (ht : TieFree env) {ef ef' : Int} (hef : 1 ≤ ef) (hle : ef ≤ ef')
    {level : Nat} (hal : ∀ x, viable (withAllow env al) level x = true → viable env level x = true) {σ τ : Sched D} {eps : List (Item D)} (he : EpsOk env eps) (hg : ∀ e ∈ eps, Good env e) (hlen : (eps.length : Int) ≤ ef)
    {r r' : Array (Item D)} (h1 : searchLayer env σ eps ef level = .ok r) (h2 : searchLayer (withAllow env al) τ eps ef' level = .ok r') :
    ∀ x ∈ r.toList, viable (withAllow env al) level x.id = true → x ∈ r'.toList ∨ Dead ef' r' x.dist := by
  unfold searchLayer at h1 h2
  cases hs : start env eps level with
  | error e => rw [hs] at h1; cases h1
  | ok st =>
    cases ht' : start (withAllow env al) eps level with
    | error e => rw [ht'] at h2; cases h2
    | ok tt =>
      simp only [hs] at h1
      simp only [ht'] at h2
      have hi := start_inv he hg hs
      have hi' : Inv (Good (withAllow env al)) (withAllow env al) level tt [] := start_inv (env := withAllow env al) ⟨he.nodup, he.small⟩ hg ht'
      have hsz : ∀ (env : SEnv V D) st, start env eps level = .ok st → (st.results.size : Int) ≤ ef := by
        intro env st hs
        have h2 := (start_ok hs).2.1.length_eq
        have := List.length_filter_le (fun x : Item D => viable env level x.id) eps
        simp at h2 this; omega
      have hz := hsz _ _ hs
      have hz' := hsz _ _ ht'
      obtain ⟨c1, r1, v1⟩ := start_ok hs
      obtain ⟨c2, r2, v2⟩ := start_ok ht'
      split at h1
      · cases h1
      · rename_i s' e1
        split at h2
        · cases h2
        · rename_i t' e2
          cases h1; cases h2
          refine loop_wide ht hef hle hal (σ := σ) (τ := τ) _ hi (start_opt hg hs) hz hi' (start_opt (env := withAllow env al) hg ht') (by omega)
            ⟨?_, ?_, ?_, ?_, ?_⟩ e1 e2
          · rw [v1, v2]
          · intro x hx hpx
            rw [r1.mem_iff] at hx; rw [r2.mem_iff]
            exact List.mem_filter.mpr ⟨(List.mem_filter.mp hx).1, hpx⟩
          · intro x hx
            rw [r2.mem_iff] at hx
            exact .inl (r1.mem_iff.mpr (List.mem_filter.mpr ⟨(List.mem_filter.mp hx).1, hal _ (List.mem_filter.mp hx).2⟩))
          · intro x hx; exact .inl (c2.mem_iff.mpr (c1.mem_iff.mp hx))
          · intro x hx; exact .inl (c1.mem_iff.mpr (c2.mem_iff.mp hx))

end Fave.Search

namespace Fave.Graph
open Queue Spec Search
variable {V D : Type} [Dist D] [LawfulDist D]

theorem viable_base (env : SEnv V D) (x : Nat) : viable env 0 x = (permits env.allow x && !env.tomb x) := by
  unfold viable permits
  cases env.allow <;> simp

theorem retained_wide {g : Graph V D} {q : V} (h : g.Calm q) (σ τ : Scheds D) {ef ef' : Int} (hef : 1 ≤ ef) (hle : ef ≤ ef')
    {allow allow' : Option (Nat → Bool)} (hal : ∀ x, permits allow' x = true → permits allow x = true)
    {r r' : Array (Item D)} (h1 : g.retained σ q ef allow = .ok r) (h2 : g.retained τ q ef' allow' = .ok r') :
    ∀ x ∈ r.toList, permits allow' x.id = true → x ∈ r'.toList ∨ Dead ef' r' x.dist := by
  obtain ⟨d, ep, hd, hep, hr⟩ := retained_ok h1
  obtain ⟨d', ep', hd', hep', hr'⟩ := retained_ok h2
  rw [hd] at hd'; cases hd'
  have hg := good_entry h.sym none hd
  rw [descend_det h σ τ g.maxLayer hg, hep'] at hep
  have hep := Except.ok.inj hep
  subst hep
  have hge : Good (g.senv q none) ep' :=
    descend_inv (P := Good (g.senv q none)) h.small (fun _ hx => hx) (fun x hx => distToNode_get hx) g.maxLayer hg hep'
  obtain ⟨v, hv⟩ := distToNode_get hge
  have hr' : searchLayer (withAllow (g.senv q allow) allow') (τ 0) [ep'] ef' 0 = .ok r' := hr'
  have hva : ∀ x, viable (withAllow (g.senv q allow) allow') 0 x = true → viable (g.senv q allow) 0 x = true := by
    intro x hx
    rw [viable_base, Bool.and_eq_true] at hx ⊢
    exact ⟨hal x hx.1, hx.2⟩
  intro x hx hpx
  refine searchLayer_wide (env := g.senv q allow) h.ties hef hle hva (epsOk_one h.small q allow hv)
    (by intro e he; rw [List.mem_singleton.mp he]; exact hge) (by simpa using hef) hr hr' x hx ?_
  have hok := (retained_sound h.small h.sym h1).1 x hx
  rw [viable_base, Bool.and_eq_true]
  refine ⟨hpx, ?_⟩
  have := (viable_iff _ _ _).mpr hok.2
  rw [viable_base, Bool.and_eq_true] at this
  exact this.2

/-- the hits of a search, as items in the order of the answer -/
structure Hits (g : Graph V D) (q : V) (ef : Int) (ids : List Nat) (ds : List D) (l : List (Item D)) : Prop where
  ids : ids = l.map Item.id
  dists : l.map Item.dist <+: ds
  len : (l.length : Int) ≤ ef
  sorted : l.Pairwise (fun a b => Dist.lt b.dist a.dist = false)
  nodup : (l.map Item.id).Nodup
  good : ∀ x ∈ l, Good (g.senv q none) x

theorem knn_hits {g : Graph V D} {q : V} (h : g.Calm (g.norm q)) (σ : Scheds D) (max : D) {ef : Int} (hef : 1 ≤ ef) (allow : Option (Nat → Bool))
    {ids : List Nat} {ds : List D} (h1 : g.knnMaxDist σ q max ef allow = .ok (ids, ds)) :
    ∃ r l, g.retained σ (g.norm q) ef allow = .ok r ∧ Hits g (g.norm q) ef ids ds l ∧
      ∀ x, x ∈ l ↔ x ∈ r.toList ∧ Dist.lt x.dist Dist.zero = false ∧ Dist.lt max x.dist = false := by
  unfold knnMaxDist at h1
  split at h1
  · cases h1
  · rename_i r hr
    cases h1
    obtain ⟨hgood, hnd⟩ := retained_sound h.small h.sym hr
    have hheap := retained_heap h.small h.sym hr
    have hsort : ((drain lessMax r).reverse).Pairwise (fun a b => Dist.lt b.dist a.dist = false) := by
      rw [List.pairwise_reverse]
      exact drain_sorted swo_max hheap
    have hmem : ∀ x, x ∈ (drain lessMax r).reverse ↔ x ∈ r.toList := fun x => by
      rw [List.mem_reverse, (drain_perm _ _).mem_iff]
    have hsub := keepInRange_sublist max (drain lessMax r).reverse
    have hsize : (r.size : Int) ≤ ef := by
      obtain ⟨d, ep, _, _, hl⟩ := retained_ok hr
      exact searchLayer_size (m := ef) (Int.le_refl _) (by simpa using hef) hl
    refine ⟨r, keepInRange max (drain lessMax r).reverse, hr, ⟨rfl, List.prefix_append .., ?_, hsort.sublist hsub, ?_, ?_⟩, ?_⟩
    · have := hsub.length_le
      rw [List.length_reverse, drain_length] at this
      omega
    · refine List.Nodup.sublist (hsub.map Item.id) ?_
      exact (((List.reverse_perm _).trans (drain_perm _ _)).map Item.id).nodup_iff.mpr hnd
    · intro x hx
      exact (hgood x ((hmem x).mp (hsub.subset hx))).1
    · intro x
      rw [keepInRange_sorted max _ hsort, List.mem_filter, hmem]
      simp

theorem Hits.dist {g : Graph V D} {q : V} {ef : Int} {ids : List Nat} {ds : List D} {l : List (Item D)} (h : Hits g q ef ids ds l) (i : Nat) (hi : i < l.length) :
    ds[i]? = some l[i].dist := by
  obtain ⟨t, e⟩ := h.dists
  rw [← e, List.getElem?_append_left (by simpa using hi)]; simp [hi]

/-- what is found is permitted -/
theorem hits_permitted {g : Graph V D} {q : V} (h : g.Calm (g.norm q)) {σ : Scheds D} {max : D} {ef : Int} (hef : 1 ≤ ef) {allow : Option (Nat → Bool)}
    {ids : List Nat} {ds : List D} (h1 : g.knnMaxDist σ q max ef allow = .ok (ids, ds)) {l : List (Item D)} (hl : Hits g (g.norm q) ef ids ds l) :
    ∀ x ∈ l, permits allow x.id = true := by
  intro x hx
  obtain ⟨r, A, hr, hA, mA⟩ := knn_hits h σ max hef allow h1
  have hid : x.id ∈ A.map Item.id := by rw [← hA.ids, hl.ids]; exact List.mem_map_of_mem hx
  obtain ⟨y, hy, he⟩ := List.mem_map.mp hid
  have := (viable_iff _ _ _).mpr ((retained_sound h.small h.sym hr).1 y ((mA y).mp hy).1).2
  rw [viable_base, Bool.and_eq_true, he] at this
  exact this.1

theorem knn_wide {g : Graph V D} {q : V} (h : g.Calm (g.norm q)) (hnn : ∀ a b d, g.metric.dist a b = some d → Dist.lt d Dist.zero = false)
    (σ τ : Scheds D) (max : D) {ef ef' : Int} (hef : 1 ≤ ef) (hle : ef ≤ ef')
    {allow allow' : Option (Nat → Bool)} (hal : ∀ x, permits allow' x = true → permits allow x = true)
    {ids ids' : List Nat} {ds ds' : List D} (h1 : g.knnMaxDist σ q max ef allow = .ok (ids, ds))
    (h2 : g.knnMaxDist τ q max ef' allow' = .ok (ids', ds')) :
    ∃ A B, Hits g (g.norm q) ef ids ds A ∧ Hits g (g.norm q) ef' ids' ds' B ∧
      ∀ x ∈ A, permits allow' x.id = true → x ∈ B ∨ (ef' ≤ B.length ∧ ∀ y ∈ B, Dist.lt y.dist x.dist = true) := by
  obtain ⟨r, A, hr, hA, mA⟩ := knn_hits h σ max hef allow h1
  obtain ⟨r', B, hr', hB, mB⟩ := knn_hits h τ max (by omega) allow' h2
  refine ⟨A, B, hA, hB, fun x hx hpx => ?_⟩
  obtain ⟨hxr, h0, hm⟩ := (mA x).mp hx
  rcases retained_wide h σ τ hef hle hal hr hr' x hxr hpx with h' | h'
  · exact .inl ((mB x).mpr ⟨h', h0, hm⟩)
  · right
    refine ⟨?_, fun y hy => h'.2 y ((mB y).mp hy).1⟩
    obtain ⟨hgood, hnd⟩ := retained_sound h.small h.sym hr'
    have hall : ∀ y ∈ r'.toList, y ∈ B := by
      intro y hy
      refine (mB y).mpr ⟨hy, ?_, ?_⟩
      · have := (hgood y hy).1
        unfold Good distToNode at this
        split at this
        · cases this
        · exact hnn _ _ _ this
      · cases hc : Dist.lt max y.dist with
        | false => rfl
        | true => rw [LawfulDist.trans _ _ _ hc (h'.2 y hy)] at hm; cases hm
    have := List.Nodup.length_le_of_subset (nodup_of_ids hnd) hall
    simp only [Array.length_toList] at this
    have := h'.1
    omega

/-- place by place no farther -/
theorem nearer_of {A B : List (Item D)} {ef ef' : Int} (hle : ef ≤ ef') (hlen : (A.length : Int) ≤ ef)
    (sA : A.Pairwise (fun a b => Dist.lt b.dist a.dist = false)) (sB : B.Pairwise (fun a b => Dist.lt b.dist a.dist = false)) (nA : A.Nodup)
    (h : ∀ x ∈ A, x ∈ B ∨ (ef' ≤ B.length ∧ ∀ y ∈ B, Dist.lt y.dist x.dist = true)) (i : Nat) (hi : i < A.length) :
    ∃ hi' : i < B.length, Dist.lt A[i].dist B[i].dist = false := by
  have hA : ∀ a ∈ A.take (i + 1), Dist.lt A[i].dist a.dist = false := by
    intro a ha
    obtain ⟨j, hj, rfl⟩ := List.getElem_of_mem ha
    rw [List.length_take] at hj
    rw [List.getElem_take]
    by_cases hji : j = i
    · subst hji; exact LawfulDist.irrefl _
    · exact List.pairwise_iff_getElem.mp sA j i (by omega) hi (by omega)
  by_cases hall : ∀ a ∈ A.take (i + 1), a ∈ B
  · have hl := List.Nodup.length_le_of_subset (nA.sublist (List.take_sublist _ _)) hall
    rw [List.length_take] at hl
    have hi' : i < B.length := by omega
    refine ⟨hi', ?_⟩
    cases hc : Dist.lt A[i].dist B[i].dist with
    | false => rfl
    | true =>
      exfalso
      have hsub : ∀ a ∈ A.take (i + 1), a ∈ B.take i := by
        intro a ha
        have hm := hall a ha
        rw [← List.take_append_drop i B, List.mem_append] at hm
        refine hm.resolve_right (fun hd => ?_)
        obtain ⟨j, hj, he⟩ := List.getElem_of_mem hd
        rw [List.getElem_drop] at he
        rw [List.length_drop] at hj
        have hba : Dist.lt a.dist B[i].dist = false := by
          rw [← he]
          by_cases hj0 : j = 0
          · subst hj0; exact LawfulDist.irrefl _
          · exact List.pairwise_iff_getElem.mp sB i (i + j) hi' (by omega) (by omega)
        rcases LawfulDist.cotrans _ a.dist _ hc with h' | h'
        · rw [hA a ha] at h'; cases h'
        · rw [hba] at h'; cases h'
      have := List.Nodup.length_le_of_subset (nA.sublist (List.take_sublist (i + 1) A)) hsub
      rw [List.length_take, List.length_take] at this
      omega
  · simp only [Classical.not_forall] at hall
    obtain ⟨a, ha, hab⟩ := hall
    obtain ⟨h1, h2⟩ := (h a (List.mem_of_mem_take ha)).resolve_left hab
    have hi' : i < B.length := by omega
    refine ⟨hi', ?_⟩
    cases hc : Dist.lt A[i].dist B[i].dist with
    | false => rfl
    | true =>
      have := LawfulDist.trans _ _ _ hc (h2 _ (List.getElem_mem hi'))
      rw [hA a ha] at this; cases this

theorem knn_places {g : Graph V D} {q : V} (h : g.Calm (g.norm q)) (hnn : ∀ a b d, g.metric.dist a b = some d → Dist.lt d Dist.zero = false)
    (σ τ : Scheds D) (max : D) {ef ef' : Int} (hef : 1 ≤ ef) (hle : ef ≤ ef')
    {allow allow' : Option (Nat → Bool)} (hal : ∀ x, permits allow' x = true → permits allow x = true)
    {ids ids' : List Nat} {ds ds' : List D} (h1 : g.knnMaxDist σ q max ef allow = .ok (ids, ds))
    (h2 : g.knnMaxDist τ q max ef' allow' = .ok (ids', ds')) :
    ∃ A B, Hits g (g.norm q) ef ids ds A ∧ Hits g (g.norm q) ef' ids' ds' B ∧
      ∀ i (hi : i < (A.filter (fun x => permits allow' x.id)).length), ∃ hi' : i < B.length,
        Dist.lt (A.filter (fun x => permits allow' x.id))[i].dist B[i].dist = false := by
  obtain ⟨A, B, hA, hB, h⟩ := knn_wide h hnn σ τ max hef hle hal h1 h2
  refine ⟨A, B, hA, hB, nearer_of hle ?_ (hA.sorted.sublist List.filter_sublist) hB.sorted
    ((nodup_of_ids hA.nodup).sublist List.filter_sublist) ?_⟩
  · have := List.length_filter_le (fun x => permits allow' x.id) A
    have := hA.len
    omega
  · intro x hx
    rw [List.mem_filter] at hx
    exact h x hx.1 hx.2

theorem knn_places_same {g : Graph V D} {q : V} (h : g.Calm (g.norm q)) (hnn : ∀ a b d, g.metric.dist a b = some d → Dist.lt d Dist.zero = false)
    (σ τ : Scheds D) (max : D) {ef ef' : Int} (hef : 1 ≤ ef) (hle : ef ≤ ef') (allow : Option (Nat → Bool))
    {ids ids' : List Nat} {ds ds' : List D} (h1 : g.knnMaxDist σ q max ef allow = .ok (ids, ds))
    (h2 : g.knnMaxDist τ q max ef' allow = .ok (ids', ds')) :
    ids.length ≤ ids'.length ∧ ∀ i < ids.length, ∃ d d', ds[i]? = some d ∧ ds'[i]? = some d' ∧ Dist.lt d d' = false := by
  obtain ⟨A, B, hA, hB, hp⟩ := knn_places h hnn σ τ max hef hle (fun _ h => h) h1 h2
  have hall : A.filter (fun x => permits allow x.id) = A := by
    rw [List.filter_eq_self]
    intro x hx
    exact hits_permitted h hef h1 hA x hx
  simp only [hall] at hp
  rw [hA.ids, hB.ids, List.length_map, List.length_map]
  refine ⟨?_, fun i hi => ?_⟩
  · rcases Nat.eq_zero_or_pos A.length with h0 | h0
    · omega
    · obtain ⟨h', _⟩ := hp (A.length - 1) (by omega)
      omega
  · obtain ⟨hi', hlt⟩ := hp i hi
    exact ⟨A[i].dist, B[i].dist, hA.dist i hi, hB.dist i hi', hlt⟩

end Fave.Graph
