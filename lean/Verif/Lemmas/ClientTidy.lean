import Verif.Lemmas.ClientWorld
import Verif.Lemmas.HistSearch
/-! # Collections kept in order: the index is in a state of `Hist`, and every vector has its document -/
namespace Fave.Client
open Index
variable {F D : Type} [Dist D] [DecidableEq F]

/-- the state of a batch -/
structure BInv (E : Env F D) (L : Nat) (b : Batch F) (vs : List (List F)) : Prop where
  hist : Hist E.P b.idx vs
  next : b.next = vs.length
  numbers : docNumbers b.docs = List.range vs.length
  len : ∀ u ∈ vs, E.P.metric.len u = L

/-- the state of a collection -/
structure TInv (E : Env F D) (L : Nat) (name : Str) (w : World F) (vs : List (List F)) : Prop where
  hist : Hist E.P (w.coll (ns ++ name)).idx vs
  opened : (w.coll (ns ++ name)).dbOpen → (w.dbs.get (ns ++ name)).isSome
  count : w.count (ns ++ name) = vs.length
  numbers : docNumbers (w.docs (ns ++ name)) = List.range vs.length
  len : ∀ u ∈ vs, E.P.metric.len u = L

/-- a vector refused by an empty collection leaves no trace -/
theorem refused_empty {P : Params (List F) D} (hP : P.Ok) {s s' : Index (List F)} (h : Hist P s []) {vo : VecOracle (List F)} {sched : Graph.Scheds D}
    {x : Nat} {vec : List F} {level : Nat} {e : Err} (he : e ≠ .panic) (ha : add P vo sched s x vec level = (s', some e)) : s' = s := by
  have hi := hist_inv hP h
  unfold add at ha
  split at ha
  · cases ha; rfl
  · unfold insertNode at ha
    have ho := hi.zero rfl
    have hk : s.kvCount = none := by
      cases hc : s.kvCount with
      | none => rfl
      | some c => have := hi.pos c hc; have := hi.le; rw [hc] at this; simp at this; omega
    obtain ⟨h1, h2⟩ := hi.unflushed hk
    rw [if_pos (by rw [ho]; simp [isEmpty, hk, h1, h2])] at ha
    unfold insertInitial at ha
    simp only [Prod.mk.injEq] at ha
    obtain ⟨_, ha⟩ := ha
    split at ha
    · cases ha; exact absurd rfl he
    · cases ha

theorem Step.binv {E : Env F D} (hP : E.P.Ok) (hr : E.replace = false) {L : Nat} {o : Oracle F D} {ti : List Str} {i : Nat} {b b' : Batch F} {d : Doc F} {r : Res}
    (h : Step E o ti i b d b' r) (ht : (∀ m, r ≠ .unmarshalled (some m)) ∧
        ∀ vec, vectorOf o ti i d = some vec → (r = .refused → E.P.metric.len vec ≠ L) ∧ (∀ m, r = .indexed m → E.P.metric.len vec = L))
    {vs : List (List F)} (hb : BInv E L b vs) :
    ∃ ext, BInv E L b' (vs ++ ext) ∧ (∀ p ∈ b.docs, p ∈ b'.docs) ∧
      ∀ m, r = .indexed m → ∃ vec, vectorOf o ti i d = some vec ∧ (vs ++ ext)[m]? = some vec ∧ ∃ p ∈ b'.docs, StoredAs d m p := by
  cases h with
  | plain p _ _ _ hp =>
    refine ⟨[], ?_, fun q hq => by simp [putDoc, hr, hq], (fun m hm => by cases hm)⟩
    rw [List.append_nil]
    refine ⟨hb.hist, hb.next, ?_, hb.len⟩
    show Client.docNumbers (putDoc _ _ _) = _
    simp only [putDoc, hr, Client.docNumbers, List.filterMap_append]
    simp only [List.filterMap_cons, docNumber_neg hp.number, List.filterMap_nil, List.append_nil]
    exact hb.numbers
  | lost => exact ⟨[], by rw [List.append_nil]; exact ⟨hb.hist, hb.next, hb.numbers, hb.len⟩, fun q hq => hq, (fun m hm => by cases hm)⟩
  | noVector => exact ⟨[], by rw [List.append_nil]; exact ⟨hb.hist, hb.next, hb.numbers, hb.len⟩, fun q hq => hq, (fun m hm => by cases hm)⟩
  | refused vec idx e hv hadd he =>
    refine ⟨[], ?_, fun q hq => hq, (fun m hm => by cases hm)⟩
    rw [List.append_nil]
    refine ⟨?_, hb.next, hb.numbers, hb.len⟩
    by_cases hn : vs = []
    · subst hn
      show Hist E.P idx []
      rw [refused_empty hP hb.hist he hadd]; exact hb.hist
    · have hl := (ht.2 vec hv).1 rfl
      rw [hb.next] at hadd
      exact .refused _ _ vec _ hb.hist hn (fun u hu e => hl (by rw [← e]; exact hb.len u hu)) hadd
  | dropped => exact absurd rfl (ht.1 _)
  | indexed vec idx p hv hadd hm hp =>
    have hl := (ht.2 vec hv).2 _ rfl
    refine ⟨[vec], ?_, fun q hq => by simp [putDoc, hr, hq], ?_⟩
    · rw [hb.next] at hadd
      refine ⟨.add _ _ vec _ hb.hist hadd, by simp [hb.next], ?_, ?_⟩
      · show Client.docNumbers (putDoc _ _ _) = _
        simp only [putDoc, hr, Client.docNumbers, List.filterMap_append]
        simp only [List.filterMap_cons, docNumber_int hp.number, List.filterMap_nil]
        rw [List.length_append, List.length_singleton, List.range_succ, hb.next, ← hb.numbers]
        rfl
      · intro u hu
        rw [List.mem_append] at hu
        rcases hu with hu | hu
        · exact hb.len u hu
        · have : u = vec := by simpa using hu
          rw [this]; exact hl
    · intro m hm
      cases hm
      refine ⟨vec, hv, ?_, p, by simp [putDoc, hr], hp⟩
      rw [hb.next, List.getElem?_append_right (Nat.le_refl _)]; simp

theorem Steps.binv {E : Env F D} (hP : E.P.Ok) (hr : E.replace = false) {L : Nat} {o : Oracle F D} {ti : List Str} {i : Nat} {ds : List (Doc F)} {b b' : Batch F} {rs : List Res}
    (h : Steps E o ti i ds b b' rs) (ht : ∀ j r d, rs[j]? = some r → ds[j]? = some d → (∀ m, r ≠ .unmarshalled (some m)) ∧
        ∀ vec, vectorOf o ti (i + j) d = some vec → (r = .refused → E.P.metric.len vec ≠ L) ∧ (∀ m, r = .indexed m → E.P.metric.len vec = L))
    {vs : List (List F)} (hb : BInv E L b vs) :
    ∃ ext, BInv E L b' (vs ++ ext) ∧ (∀ p ∈ b.docs, p ∈ b'.docs) ∧
      ∀ (j m : Nat) (d : Doc F), rs[j]? = some (.indexed m) → ds[j]? = some d →
        ∃ vec, vectorOf o ti (i + j) d = some vec ∧ (vs ++ ext)[m]? = some vec ∧ ∃ p ∈ b'.docs, StoredAs d m p := by
  induction h generalizing vs with
  | nil => exact ⟨[], by rw [List.append_nil]; exact hb, fun _ h => h, (fun j m d hj => by simp at hj)⟩
  | @cons i d ds b b1 b2 r rs h1 h2 ih =>
    obtain ⟨e1, hb1, hk1, hi1⟩ := h1.binv hP hr (by have := ht 0 r d rfl rfl; exact this) hb
    obtain ⟨e2, hb2, hk2, hi2⟩ := ih (fun j r' d' hj hd => by
      have := ht (j + 1) r' d' hj hd
      rw [show i + (j + 1) = i + 1 + j by omega] at this
      exact this) hb1
    refine ⟨e1 ++ e2, by rw [← List.append_assoc]; exact hb2, fun p hp => hk2 p (hk1 p hp), ?_⟩
    intro j m d' hj hd
    cases j with
    | zero =>
      have hj : r = .indexed m := by simpa using hj
      have hd : d = d' := by simpa using hd
      subst hd
      obtain ⟨vec, g1, g2, p, g3, g4⟩ := hi1 m hj
      refine ⟨vec, g1, ?_, p, hk2 p g3, g4⟩
      rw [← List.append_assoc, List.getElem?_append_left (List.getElem?_eq_some_iff.mp g2).1]; exact g2
    | succ j =>
      have := hi2 j m d' hj hd
      rw [show i + (j + 1) = i + 1 + j by omega, ← List.append_assoc]
      exact this

theorem TInv.calm {E : Env F D} {L : Nat} {name : Str} {w w' : World F} {vs : List (List F)} (h : TInv E L name w vs) (hc : Calm (ns ++ name) w w') :
    TInv E L name w' vs := by
  refine ⟨hc.move.hist h.hist h.count, ?_, ?_, by rw [hc.docs]; exact h.numbers, h.len⟩
  · intro ho
    rcases hc.opened ho with h1 | h1
    · exact hc.some (h.opened h1)
    · exact h1
  · unfold World.count; rw [hc.move.kvCount]; exact h.count

/-- an orderly addition -/
theorem tinv_add {E : Env F D} (hP : E.P.Ok) (hr : E.replace = false) {L : Nat} {name : Str} {w : World F} {vs : List (List F)} (h : TInv E L name w vs)
    {o : Oracle F D} {ti : List Str} {docs : List (Option (Doc F))} (ht : Tidy E L name w (.add o name ti docs)) :
    ∃ ext w' log, addDocuments E o w name ti docs = (w', log, none) ∧ TInv E L name w' (vs ++ ext) ∧
      (∀ p ∈ w.docs (ns ++ name), p ∈ w'.docs (ns ++ name)) ∧ vs ++ ext ≠ [] ∧
      ∀ (j m : Nat) (d : Doc F), log[j]? = some (.indexed m) → docs[j]? = some (some d) →
        ∃ vec, vectorOf o ti j d = some vec ∧ (vs ++ ext)[m]? = some vec ∧ ∃ p ∈ w'.docs (ns ++ name), StoredAs d m p := by
  obtain ⟨hc, hdone, hpos, hlog⟩ := ht rfl
  cases hx : addDocuments E o w name ti docs with
  | mk w' le =>
  obtain ⟨log, e⟩ := le
  rw [hx] at hdone hpos hlog
  simp only at hdone hpos hlog
  subst hdone
  rcases add_cases h.opened hx with ⟨_, h1, _⟩ | ⟨idx0, b', lk, hm, hsome, hd, hl, h1 | ⟨fe, hloop, hf, hfe⟩⟩
  · exact absurd rfl h1
  · obtain ⟨_, _, h2, _⟩ := h1; cases h2
  · rw [hfe rfl] at hf
    rw [hc] at hloop
    obtain ⟨ds, rs, rfl, hs⟩ := addLoop_steps docs hloop
    have hlg : log = rs := by rw [hl, hs.log.1]; rfl
    subst hlg
    have hb : BInv E L ⟨idx0, w.docs (ns ++ name), w.count (ns ++ name), []⟩ vs := ⟨hm.hist h.hist h.count, h.count, h.numbers, h.len⟩
    obtain ⟨ext, hb', hk, hi⟩ := hs.binv hP hr (fun j r d hj hd => by
      have := hlog j r d hj (by rw [List.getElem?_map, hd]; rfl)
      rw [Nat.zero_add]; exact this) hb
    have hnn : vs ++ ext ≠ [] := by
      have hn := hs.numbers.2
      rw [hb'.next] at hn
      intro hnil
      rw [hnil] at hn
      simp only [List.length_nil, Bool.false_eq_true, if_false] at hn
      rcases hpos with hp | hp
      · omega
      · have : (given log).length = 0 := by omega
        exact hp (List.length_eq_zero_iff.mp this)
    have hfl := flushCut_ok hf
    rw [hb'.next] at hfl
    refine ⟨ext, w', log, rfl, ⟨.flush _ hb'.hist hnn (fun id hid => o.order_mem _ _ hid) hfl, fun _ => hsome, ?_, by rw [hd]; exact hb'.numbers, hb'.len⟩,
      by rw [hd]; exact hk, hnn, ?_⟩
    · obtain ⟨s1, _, hs1⟩ := flush_ok (hist_inv hP hb'.hist).ids hfl
      unfold World.count; rw [hs1]; rfl
    · intro j m d hj hd'
      rw [hd]
      have := hi j m d hj (by
        rw [List.getElem?_map] at hd'
        cases hq : ds[j]? with
        | none => rw [hq] at hd'; cases hd'
        | some d0 => rw [hq] at hd'; simpa using hd')
      rw [Nat.zero_add] at this
      exact this

theorem tinv_step {E : Env F D} (hP : E.P.Ok) (hr : E.replace = false) {L : Nat} {name : Str} {w : World F} {vs : List (List F)} (h : TInv E L name w vs)
    (r : Req F D) (ht : Tidy E L name w r) : ∃ vs', TInv E L name (serve E w r).1 vs' ∧
      ((∀ o, r ≠ .delete o name) → vs <+: vs' ∧ ∀ p ∈ w.docs (ns ++ name), p ∈ (serve E w r).1.docs (ns ++ name)) := by
  by_cases ha : ∃ o ti docs, r = .add o name ti docs
  · obtain ⟨o, ti, docs, rfl⟩ := ha
    obtain ⟨ext, w', log, h1, h2, h3, _⟩ := tinv_add hP hr h ht
    have hw : (serve E w (.add o name ti docs)).1 = w' := by simp only [serve, h1]
    rw [hw]
    exact ⟨vs ++ ext, h2, fun _ => ⟨List.prefix_append .., h3⟩⟩
  by_cases hdel : ∃ o, r = .delete o name
  · obtain ⟨o, rfl⟩ := hdel
    have ht := ht rfl
    show ∃ vs', TInv E L name (delete o w name).1 vs' ∧ _
    rcases delete_cases o w name with ⟨h1, h2⟩ | ⟨h1, h2, h3⟩
    · rw [h1]; exact ⟨vs, h, fun hn => absurd rfl (hn o)⟩
    · rw [← ht] at h3
      cases hq : o.docDelete with
      | false =>
        rw [hq] at h2 h3
        simp only [Bool.false_eq_true, if_false] at h2 h3
        refine ⟨[], ⟨by rw [h3]; exact .init, by rw [h2.2]; simp, by unfold World.count; rw [h3]; rfl, ?_, by simp⟩, fun hn => absurd rfl (hn o)⟩
        unfold World.docs; rw [h2.1]; rfl
      | true =>
        rw [hq] at h2 h3
        simp only [if_true] at h2 h3
        refine ⟨vs, ⟨?_, by rw [h2.1, h2.2]; exact h.opened, by unfold World.count; rw [h3]; exact h.count, ?_, h.len⟩, fun hn => absurd rfl (hn o)⟩
        · rw [h3]
          exact (Move.refl _).reopen.hist h.hist h.count
        · unfold World.docs; rw [h2.1]; exact h.numbers
  · have hcalm := calm_serve E w r name (fun o ti docs e => ha ⟨o, ti, docs, e⟩) (fun o e => hdel ⟨o, e⟩)
    exact ⟨vs, h.calm hcalm, fun _ => ⟨List.prefix_refl _, by rw [hcalm.docs]; exact fun _ h => h⟩⟩

theorem tinv_run {E : Env F D} (hP : E.P.Ok) (hr : E.replace = false) {L : Nat} {name : Str} (rs : List (Req F D)) {w : World F} {vs : List (List F)}
    (h : TInv E L name w vs) (ht : TidyRun E L name w rs) : ∃ vs', TInv E L name (run E w rs) vs' ∧
      ((∀ r ∈ rs, ∀ o, r ≠ .delete o name) → vs <+: vs' ∧ ∀ p ∈ w.docs (ns ++ name), p ∈ (run E w rs).docs (ns ++ name)) := by
  induction rs generalizing w vs with
  | nil => exact ⟨vs, h, fun _ => ⟨List.prefix_refl _, fun _ h => h⟩⟩
  | cons r rs ih =>
    obtain ⟨vs1, h1, g1⟩ := tinv_step hP hr h r ht.1
    obtain ⟨vs2, h2, g2⟩ := ih h1 ht.2
    rw [run_cons]
    refine ⟨vs2, h2, fun hn => ?_⟩
    have a := g1 (hn r (by simp))
    have b := g2 (fun r' hr' => hn r' (List.mem_cons_of_mem _ hr'))
    exact ⟨a.1.trans b.1, fun p hp => b.2 p (a.2 p hp)⟩

theorem tinv_fresh (E : Env F D) (L : Nat) (name : Str) (lookup : Bool) (dbs : Map (Db F)) (hf : dbs.get (ns ++ name) = none) :
    TInv E L name (World.fresh lookup dbs) [] := by
  refine ⟨.init, (fun h => by cases h), rfl, ?_, by simp⟩
  unfold World.docs World.fresh
  simp only [hf]
  rfl

theorem tidyRun_append {E : Env F D} {L : Nat} {name : Str} (rs ss : List (Req F D)) {w : World F} (h : TidyRun E L name w (rs ++ ss)) :
    TidyRun E L name w rs ∧ TidyRun E L name (run E w rs) ss := by
  induction rs generalizing w with
  | nil => exact ⟨trivial, h⟩
  | cons r rs ih => rw [run_cons]; exact ⟨⟨h.1, (ih h.2).1⟩, (ih h.2).2⟩

/-- a document with the number is found -/
theorem findNumber_some {docs : List (Props F)} {n : Nat} (h : n ∈ docNumbers docs) : ∃ p, findNumber docs n = some p := by
  unfold docNumbers at h
  obtain ⟨p, hp, hn⟩ := List.mem_filterMap.mp h
  cases hf : findNumber docs n with
  | some q => exact ⟨q, rfl⟩
  | none =>
    unfold findNumber at hf
    have := List.find?_eq_none.mp hf p hp
    simp [docNumber_some hn] at this

theorem findNumber_mem {docs : List (Props F)} {n : Nat} {p : Props F} (h : findNumber docs n = some p) : p ∈ docs ∧ p.get hnswName = some (.int n) := by
  unfold findNumber at h
  exact ⟨List.mem_of_find?_eq_some h, by simpa using List.find?_some h⟩

/-- and it is the only one -/
theorem number_inj {docs : List (Props F)} (hn : (docNumbers docs).Nodup) {n : Nat} {p q : Props F} (hp : p ∈ docs) (hq : q ∈ docs)
    (h1 : docNumber p = some n) (h2 : docNumber q = some n) : p = q := by
  induction docs with
  | nil => cases hp
  | cons x docs ih =>
    have hn' : (docNumbers docs).Nodup := by
      unfold docNumbers at hn ⊢
      rw [List.filterMap_cons] at hn
      split at hn
      · exact hn
      · exact (List.nodup_cons.mp hn).2
    have out : ∀ y ∈ docs, docNumber x = some n → docNumber y = some n → False := by
      intro y hy hx hy'
      unfold docNumbers at hn
      rw [List.filterMap_cons, hx] at hn
      exact (List.nodup_cons.mp hn).1 (List.mem_filterMap.mpr ⟨y, hy, hy'⟩)
    rcases List.mem_cons.mp hp with e1 | hp1
    · rcases List.mem_cons.mp hq with e2 | hq1
      · rw [e1, e2]
      · exact (out q hq1 (e1 ▸ h1) h2).elim
    · rcases List.mem_cons.mp hq with e2 | hq1
      · exact (out p hp1 (e2 ▸ h2) h1).elim
      · exact ih hn' hp1 hq1

theorem lookupAll_total {o : Oracle F D} (hf : ∀ i, o.find i = false) {docs : List (Props F)} (ids : List Nat) (h : ∀ id ∈ ids, id ∈ docNumbers docs) (i : Nat) :
    ∃ ps, lookupAll o docs i ids = .ok ps := by
  induction ids generalizing i with
  | nil => exact ⟨[], rfl⟩
  | cons id ids ih =>
    obtain ⟨p, hp⟩ := findNumber_some (h id (by simp))
    obtain ⟨ps, hps⟩ := ih (fun x hx => h x (List.mem_cons_of_mem _ hx)) (i + 1)
    exact ⟨p :: ps, by rw [lookupAll, hf i, hp, hps]; rfl⟩

theorem lookupAll_get {o : Oracle F D} {docs : List (Props F)} {ids : List Nat} {i : Nat} {ps : List (Props F)} (h : lookupAll o docs i ids = .ok ps) :
    ∀ (j id : Nat), ids[j]? = some id → ∃ p, ps[j]? = some p ∧ findNumber docs id = some p := by
  induction ids generalizing i ps with
  | nil => intro j id hj; simp at hj
  | cons id ids ih =>
    unfold lookupAll at h
    split at h
    · cases h
    · split at h
      · cases h
      · rename_i p hp
        split at h
        · cases h
        · rename_i qs hqs
          cases h
          intro j id' hj
          cases j with
          | zero =>
            have : id = id' := by simpa using hj
            subst this
            exact ⟨p, rfl, hp⟩
          | succ j => exact ih hqs j id' hj

end Fave.Client
