import Verif.Lemmas.WeaveRun
import Verif.Lemmas.Flush
/-!
# Additions and flushes that take turns
-/
namespace Fave.Weave
variable {V D : Type} [Dist D]
open Index Queue Spec Search

variable {P : Params V D} {J : Nat → Job V D} {ix0 : Index V} {s : St V} {g : Gh}

/-- a flush that no addition disturbs -/
def FcC (ix : Index V) : Fc V → Prop
  | .keys todo => ∀ id v, ix.cache.get id = some v → id ∈ todo ∨ v.committed = true
  | .encoded v todo => (∃ w, ix.cache.get v.id = some w ∧ core w = core v) ∧
      ∀ id u, ix.cache.get id = some u → id = v.id ∨ id ∈ todo ∨ u.committed = true
  | .stored i todo => (∃ w, ix.cache.get i = some w ∧ ix.kv.get i = some (core w)) ∧
      ∀ id u, ix.cache.get id = some u → id = i ∨ id ∈ todo ∨ u.committed = true
  | _ => True

/-- either additions or flushes are under way; vertices marked as committed are stored as they are; a vertex under construction is not marked -/
structure Calm (s : St V) : Prop where
  apart : (∀ x, (s.pc x).active = false) ∨ ∀ f, (s.fc f).active = false
  synced : Synced s.ix
  mine : ∀ x v, (s.pc x).active = true → s.ix.cache.get x = some v → v.committed = false
  fc : ∀ f, FcC s.ix (s.fc f)

theorem fcC_inactive {ix : Index V} {p : Fc V} (h : p.active = false) : FcC ix p := by
  cases p with
  | idle | ended => trivial
  | _ => cases h

/-- changed vertices are not marked -/
theorem connect_cache (P : Params V D) (vo : VecOracle V) (x l : Nat) (ix : Index V) (nb : Nat) :
    ∀ id v, (connectNeighbor P vo x l ix nb).1.cache.get id = some v → ix.cache.get id = some v ∨ v.committed = false := by
  have hput : ∀ (i : Index V) (u : Vertex V), u.committed = false → ∀ id v, (i.put u).cache.get id = some v → i.cache.get id = some v ∨ v.committed = false := by
    intro i u hu id v hv
    have hv : (i.cache.put u.id u).get id = some v := hv
    rw [Tab.get_put] at hv
    split at hv
    · cases hv; exact .inr hu
    · exact .inl hv
  have hput2 : ∀ (i : Index V) (u w : Vertex V), u.committed = false → w.committed = false → ∀ id v, ((i.put u).put w).cache.get id = some v →
      i.cache.get id = some v ∨ v.committed = false := by
    intro i u w hu hw id v hv
    rcases hput _ _ hw id v hv with h | h
    · exact hput _ _ hu id v h
    · exact .inr h
  have hr : ∀ v : Vertex V, (if l > v.level then upgrade { v with committed := false } l else { v with committed := false }).committed = false := by
    intro v; split <;> rfl
  intro id v hv
  unfold connectNeighbor at hv
  split at hv
  · exact .inl hv
  · rename_i w hw
    split at hv
    · exact .inl hv
    · split at hv
      · exact .inl hv
      · simp only at hv
        split at hv
        · exact hput _ _ (hr w) id v hv
        · split at hv
          · exact hput2 _ _ (setConns _ l _) (hr w) (hr w) id v hv
          · split at hv
            · exact hput _ _ (hr w) id v hv
            · split at hv
              · exact hput _ _ (hr w) id v hv
              · split at hv
                · exact hput _ _ (hr w) id v hv
                · exact hput2 _ _ (setConns _ l _) (hr w) (hr w) id v hv

/-- a step of an addition -/
theorem Calm.move (h : Calm s) {x : Nat} {p : Pc} {ix' : Index V} (hf : ∀ f, (s.fc f).active = false) (hkv : ix'.kv = s.ix.kv)
    (hc : ∀ id v, ix'.cache.get id = some v → s.ix.cache.get id = some v ∨ v.committed = false)
    (hx : ∀ v, p.active = true → s.ix.cache.get x = some v → v.committed = false) : Calm (s.at x ix' p) := by
  refine ⟨.inr hf, ?_, ?_, fun f => fcC_inactive (hf f)⟩
  · intro id v hv hcm
    rcases hc id v hv with h1 | h1
    · show ix'.kv.get id = _
      rw [hkv]; exact h.synced id v h1 hcm
    · rw [h1] at hcm; cases hcm
  · intro y v hy hv
    rcases hc y v hv with h1 | h1
    · by_cases hyx : y = x
      · subst hyx
        have hp : (s.at y ix' p).pc y = p := by simp [St.at]
        rw [hp] at hy
        exact hx v hy h1
      · have hp : (s.at x ix' p).pc y = s.pc y := by simp [St.at, hyx]
        rw [hp] at hy
        exact h.mine y v hy h1
    · exact h1

theorem calm_step {sees : Sees V} {s s' : St V} (hi : IdsOk s.ix) (h : Calm s) (hst : Step P J sees true s s') : Calm s' := by
  have hact : ∀ x, (s.pc x).active = true → ∀ f, (s.fc f).active = false := by
    intro x hx
    rcases h.apart with h1 | h1
    · rw [h1 x] at hx; cases hx
    · exact h1
  have hfact : ∀ f, (s.fc f).active = true → ∀ x, (s.pc x).active = false := by
    intro f hf
    rcases h.apart with h1 | h1
    · exact h1
    · rw [h1 f] at hf; cases hf
  have hget : ∀ x v, (s.pc x).active = true → s.ix.get x = some v → v.committed = false := by
    intro x v hx hv
    unfold Index.get at hv
    split at hv
    · rename_i w hw; cases hv; exact h.mine x v hx hw
    · cases hk : s.ix.kv.get x with
      | none => rw [hk] at hv; cases hv
      | some w => rw [hk] at hv; cases hv; rfl
  have hput : ∀ (u : Vertex V), u.committed = false → ∀ id v, (s.ix.put u).cache.get id = some v → s.ix.cache.get id = some v ∨ v.committed = false := by
    intro u hu id v hv
    have hv : (s.ix.cache.put u.id u).get id = some v := hv
    rw [Tab.get_put] at hv
    split at hv
    · cases hv; exact .inr hu
    · exact .inl hv
  -- a flush that changes neither vertices nor marks
  have hquiet : ∀ {f : Nat} {p : Fc V} {ix' : Index V}, (∀ x, (s.pc x).active = false) → ix'.cache = s.ix.cache → ix'.kv = s.ix.kv →
      FcC ix' p → Calm (s.fat f ix' p) := by
    intro f p ix' hq hc hk hp
    refine ⟨.inl hq, ?_, ?_, ?_⟩
    · intro id v hv hcm
      have hv : ix'.cache.get id = some v := hv
      show ix'.kv.get id = _
      rw [hk]; rw [hc] at hv; exact h.synced id v hv hcm
    · intro x v hx
      have : (s.pc x).active = true := hx
      rw [hq x] at this; cases this
    · intro y
      by_cases hy : y = f
      · have e : (s.fat f ix' p).fc y = p := by simp [St.fat, hy]
        rw [e]; exact hp
      · have e : (s.fat f ix' p).fc y = s.fc y := by simp [St.fat, hy]
        rw [e]
        show FcC ix' (s.fc y)
        have hy' := h.fc y
        cases hfy : s.fc y with
        | idle | ended => trivial
        | keys todo => rw [hfy] at hy'; intro id v hv; rw [hc] at hv; exact hy' id v hv
        | encoded v todo => rw [hfy] at hy'; unfold FcC; rw [hc]; exact hy'
        | stored i todo => rw [hfy] at hy'; unfold FcC; rw [hc, hk]; exact hy'
  cases hst with
  | snap x hp hx hc =>
    refine h.move (hc rfl) rfl (fun _ _ hv => .inl hv) ?_
    intro v _ hv
    unfold Index.get at hx
    rw [hv] at hx; cases hx
  | publish x e m hp _ =>
    exact h.move (hact x (by rw [hp]; rfl)) rfl (hput _ rfl) (fun v _ hv => h.mine x v (by rw [hp]; rfl) hv)
  | descend x e m ep hp hs => exact h.move (hact x (by rw [hp]; rfl)) rfl (fun _ _ hv => .inl hv) (fun v _ hv => h.mine x v (by rw [hp]; rfl) hv)
  | choose x l ep ep' nbs hp hs => exact h.move (hact x (by rw [hp]; rfl)) rfl (fun _ _ hv => .inl hv) (fun v _ hv => h.mine x v (by rw [hp]; rfl) hv)
  | set x l ep nbs v hp hv hl =>
    exact h.move (hact x (by rw [hp]; rfl)) rfl (hput _ (hget x v (by rw [hp]; rfl) hv)) (fun v _ hv => h.mine x v (by rw [hp]; rfl) hv)
  | connect x l ep nb todo hp =>
    refine h.move (hact x (by rw [hp]; rfl)) ?_ (connect_cache P _ x l s.ix nb) (fun v _ hv => h.mine x v (by rw [hp]; rfl) hv)
    rcases connectNeighbor_cases P (J x).vo x l s.ix nb with ⟨he, _⟩ | ⟨v, _, _, _, ⟨e, _, hu⟩ | ⟨_, _, _, _, hu, _⟩⟩
    · rw [he]
    · exact hu.same.kv
    · exact hu.same.kv
  | next x l ep hp => exact h.move (hact x (by rw [hp]; rfl)) rfl (fun _ _ hv => .inl hv) (fun v _ hv => h.mine x v (by rw [hp]; rfl) hv)
  | fails x e hp => exact h.move (hact x hp) rfl (fun _ _ hv => .inl hv) (fun v ha _ => by cases ha)
  | finish x ep w hp hw =>
    have hwc : w.committed = false := hget x w (by rw [hp]; rfl) hw
    refine h.move (hact x (by rw [hp]; rfl)) (by split <;> rfl) ?_ (fun v ha _ => by cases ha)
    intro id v hv
    have hv : (ite _ _ _ : Index V).cache.get id = some v := hv
    split at hv
    · exact hput { w with maint := false } hwc id v hv
    · exact hput { w with maint := false } hwc id v hv
  | flush f order hp hq ho => exact hquiet (hq rfl) rfl rfl (fun id v hv => .inl (ho id (Tab.mem_keys_of_get hv)))
  | skip f id todo hp hcm =>
    have h1 := h.fc f
    rw [hp] at h1
    refine hquiet (hfact f (by rw [hp]; rfl)) rfl rfl ?_
    intro i v hv
    rcases h1 i v hv with h2 | h2
    · rcases List.mem_cons.mp h2 with rfl | h2
      · exact .inr (hcm v hv)
      · exact .inl h2
    · exact .inr h2
  | encode f id todo v hp hv hcm =>
    have h1 := h.fc f
    rw [hp] at h1
    have hid := hi.cache id v hv
    refine hquiet (hfact f (by rw [hp]; rfl)) rfl rfl ⟨⟨v, by rw [hid]; exact hv, rfl⟩, ?_⟩
    intro i u hu
    rcases h1 i u hu with h2 | h2
    · rcases List.mem_cons.mp h2 with rfl | h2
      · exact .inl hid.symm
      · exact .inr (.inl h2)
    · exact .inr (.inr h2)
  | store f todo v hp =>
    have h1 := h.fc f
    rw [hp] at h1
    obtain ⟨⟨w, hw, hcore⟩, hrest⟩ := h1
    have hq := hfact f (by rw [hp]; rfl)
    have hkv : ∀ id u, s.ix.cache.get id = some u → s.ix.kv.get id = some (core u) →
        (s.ix.kv.put v.id { v with committed := false }).get id = some (core u) := by
      intro id u hu hk
      rw [Tab.get_put]
      split
      · rename_i hid
        subst hid
        rw [hw] at hu; cases hu
        rw [hcore]; rfl
      · exact hk
    refine ⟨.inl hq, ?_, ?_, ?_⟩
    · intro id u hu hcm
      exact hkv id u hu (h.synced id u hu hcm)
    · intro x u hx
      have : (s.pc x).active = true := hx
      rw [hq x] at this; cases this
    · intro y
      by_cases hy : y = f
      · have e : ∀ ix' p, (s.fat f ix' p).fc y = p := by intro _ _; simp [St.fat, hy]
        rw [e]
        refine ⟨⟨w, hw, ?_⟩, hrest⟩
        show (s.ix.kv.put v.id { v with committed := false }).get v.id = _
        rw [Tab.get_put, if_pos rfl, hcore]; rfl
      · have e : ∀ ix' p, (s.fat f ix' p).fc y = s.fc y := by intro _ _; simp [St.fat, hy]
        rw [e]
        have hy' := h.fc y
        cases hfy : s.fc y with
        | idle | ended => trivial
        | keys todo => rw [hfy] at hy'; exact hy'
        | encoded v todo => rw [hfy] at hy'; exact hy'
        | stored i todo =>
          rw [hfy] at hy'
          obtain ⟨⟨u, hu, hk⟩, hr⟩ := hy'
          exact ⟨⟨u, hu, hkv i u hu hk⟩, hr⟩
  | commit f i todo v hp hv =>
    have h1 := h.fc f
    rw [hp] at h1
    obtain ⟨⟨w, hw, hk⟩, hrest⟩ := h1
    rw [hv] at hw; cases hw
    have hid := hi.cache i v hv
    have hq := hfact f (by rw [hp]; rfl)
    have hcache : ∀ id u, (s.ix.put { v with committed := true }).cache.get id = some u →
        (id = i ∧ u = { v with committed := true }) ∨ (id ≠ i ∧ s.ix.cache.get id = some u) := by
      intro id u hu
      have hu : (s.ix.cache.put v.id { v with committed := true }).get id = some u := hu
      rw [Tab.get_put] at hu
      split at hu
      · rename_i he; cases hu; exact .inl ⟨he.trans hid, rfl⟩
      · rename_i he; exact .inr ⟨fun hc => he (hc.trans hid.symm), hu⟩
    have hself : (s.ix.put { v with committed := true }).cache.get i = some { v with committed := true } := by
      show (s.ix.cache.put v.id { v with committed := true }).get i = _
      rw [Tab.get_put, if_pos hid.symm]
    have hother : ∀ id, id ≠ i → (s.ix.put { v with committed := true }).cache.get id = s.ix.cache.get id := by
      intro id hne
      show (s.ix.cache.put v.id { v with committed := true }).get id = _
      rw [Tab.get_put, if_neg (by rw [hid]; exact hne)]
    have hmark : ∀ {Q : Nat → Prop}, (∀ id u, s.ix.cache.get id = some u → Q id ∨ u.committed = true) →
        ∀ id u, (s.ix.put { v with committed := true }).cache.get id = some u → Q id ∨ u.committed = true := by
      intro Q hQ id u hu
      rcases hcache id u hu with ⟨_, rfl⟩ | ⟨_, h2⟩
      · exact .inr rfl
      · exact hQ id u h2
    refine ⟨.inl hq, ?_, ?_, ?_⟩
    · intro id u hu hcm
      show s.ix.kv.get id = _
      rcases hcache id u hu with ⟨rfl, rfl⟩ | ⟨_, h2⟩
      · exact hk
      · exact h.synced id u h2 hcm
    · intro x u hx
      have : (s.pc x).active = true := hx
      rw [hq x] at this; cases this
    · intro y
      by_cases hy : y = f
      · have e : ∀ ix' p, (s.fat f ix' p).fc y = p := by intro _ _; simp [St.fat, hy]
        rw [e]
        intro id u hu
        rcases hcache id u hu with ⟨_, rfl⟩ | ⟨hne, h2⟩
        · exact .inr rfl
        · rcases hrest id u h2 with h3 | h3
          · exact absurd h3 hne
          · exact h3
      · have e : ∀ ix' p, (s.fat f ix' p).fc y = s.fc y := by intro _ _; simp [St.fat, hy]
        rw [e]
        show FcC (s.ix.put { v with committed := true }) (s.fc y)
        have hy' := h.fc y
        cases hfy : s.fc y with
        | idle | ended => trivial
        | keys todo => rw [hfy] at hy'; exact hmark (Q := fun id => id ∈ todo) hy'
        | encoded u todo =>
          rw [hfy] at hy'
          obtain ⟨⟨w, hw, hc⟩, hr⟩ := hy'
          refine ⟨?_, fun id u' hu' => ?_⟩
          · by_cases hne : u.id = i
            · rw [hne] at hw ⊢
              rw [hv] at hw; cases hw
              exact ⟨_, hself, hc⟩
            · exact ⟨w, by rw [hother _ hne]; exact hw, hc⟩
          · rw [← or_assoc]
            exact hmark (Q := fun id => id = u.id ∨ id ∈ todo) (fun id u'' h2 => by rw [or_assoc]; exact hr id u'' h2) id u' hu'
        | stored j todo =>
          rw [hfy] at hy'
          obtain ⟨⟨w, hw, hc⟩, hr⟩ := hy'
          refine ⟨?_, fun id u' hu' => ?_⟩
          · by_cases hne : j = i
            · rw [hne] at hw hc ⊢
              rw [hv] at hw; cases hw
              exact ⟨_, hself, hc⟩
            · exact ⟨w, by rw [hother _ hne]; exact hw, hc⟩
          · rw [← or_assoc]
            exact hmark (Q := fun id => id = j ∨ id ∈ todo) (fun id u'' h2 => by rw [or_assoc]; exact hr id u'' h2) id u' hu'
  | flushEnd f n hp => exact hquiet (hfact f (by rw [hp]; rfl)) rfl rfl trivial
  | flushFails f hp => exact hquiet (hfact f hp) rfl rfl trivial

theorem calm_begin (h : Synced ix0) : Calm (St.begin ix0) :=
  ⟨.inl (fun _ => rfl), h, fun x v hx => (by cases hx), fun _ => trivial⟩

theorem calm_reach (h0 : Start P ix0) (hs : Synced ix0) (h : Reach P J (seen P J) true ix0 s) : Calm s := by
  induction h with
  | refl => exact calm_begin hs
  | step hr hst ih =>
    obtain ⟨g, hi⟩ := inv_reach h0 hr
    exact calm_step hi.ids ih hst

/-! ## Schedules in which additions and flushes take turns -/

/-- an addition moves while no flush is under way, or a flush while no addition is -/
theorem Step.calmed {sees : Sees V} {s s' : St V} (h : Step P J sees false s s')
    (hc : ((∀ f, (s.fc f).active = false) ∧ s'.fc = s.fc) ∨ ((∀ x, (s.pc x).active = false) ∧ s'.pc = s.pc)) : Step P J sees true s s' := by
  cases h with
  | snap x hp hx _ =>
    refine .snap x hp hx (fun _ => ?_)
    rcases hc with hc | hc
    · exact hc.1
    · have := congrFun hc.2 x
      rw [hp] at this
      simp [St.at] at this
  | publish x e m hp hx => exact .publish x e m hp hx
  | descend x e m ep hp hs => exact .descend x e m ep hp hs
  | choose x l ep ep' nbs hp hs => exact .choose x l ep ep' nbs hp hs
  | set x l ep nbs v hp hv hl => exact .set x l ep nbs v hp hv hl
  | connect x l ep nb todo hp => exact .connect x l ep nb todo hp
  | next x l ep hp => exact .next x l ep hp
  | fails x e hp => exact .fails x e hp
  | finish x ep w hp hw => exact .finish x ep w hp hw
  | flush f order hp _ ho =>
    refine .flush f order hp (fun _ => ?_) ho
    rcases hc with hc | hc
    · have := congrFun hc.2 f
      rw [hp] at this
      simp [St.fat] at this
    · exact hc.1
  | skip f id todo hp hcm => exact .skip f id todo hp hcm
  | encode f id todo v hp hv hcm => exact .encode f id todo v hp hv hcm
  | store f todo v hp => exact .store f todo v hp
  | commit f i todo v hp hv => exact .commit f i todo v hp hv
  | flushEnd f n hp => exact .flushEnd f n hp
  | flushFails f hp => exact .flushFails f hp

theorem advance_fc {s s' : St V} {x : Nat} (h : advance P J s x = some s') : s'.fc = s.fc := by
  have key : ∀ ix p, (s.at x ix p).fc = s.fc := fun ix p => rfl
  unfold advance at h
  split at h
  · split at h
    · cases h; exact key _ _
    · cases h
  · split at h
    · cases h; exact key _ _
    · cases h
  · split at h
    · cases h; exact key _ _
    · cases h
  · split at h
    · cases h; exact key _ _
    · cases h
  · split at h
    · cases h; exact key _ _
    · cases h
  · split at h
    · split at h
      · cases h; exact key _ _
      · cases h
    · cases h
  · cases h; exact key _ _
  · cases h; exact key _ _
  · cases h

/-- additions in any order, no flush under way -/
theorem run_adds {n : Nat} (xs : List Nat) {s s' : St V} (hf : ∀ f, (s.fc f).active = false) (h0 : Reach P J (undisturbed P J) true ix0 s)
    (h : run P J n (xs.map .add) s = some s') : Reach P J (undisturbed P J) true ix0 s' ∧ s'.fc = s.fc := by
  induction xs generalizing s with
  | nil => cases h; exact ⟨h0, rfl⟩
  | cons x xs ih =>
    obtain ⟨s1, h1, h2⟩ := Option.bind_eq_some_iff.mp h
    have e := advance_fc h1
    obtain ⟨h3, h4⟩ := ih (s := s1) (by rw [e]; exact hf) (h0.step ((advance_step h1).calmed (.inl ⟨hf, e⟩))) h2
    exact ⟨h3, h4.trans e⟩

/-- flushes in any order, no addition under way -/
theorem run_flushes {n : Nat} (fs : List Nat) {s s' : St V} (hx : ∀ x, (s.pc x).active = false) (h0 : Reach P J (undisturbed P J) true ix0 s)
    (h : run P J n (fs.map .flush) s = some s') : Reach P J (undisturbed P J) true ix0 s' ∧ s'.pc = s.pc := by
  induction fs generalizing s with
  | nil => cases h; exact ⟨h0, rfl⟩
  | cons f fs ih =>
    obtain ⟨s1, h1, h2⟩ := Option.bind_eq_some_iff.mp h
    have e := fadvance_pc h1
    obtain ⟨h3, h4⟩ := ih (s := s1) (by rw [e]; exact hx) (h0.step ((fadvance_step h1).calmed (.inr ⟨hx, e⟩))) h2
    exact ⟨h3, h4.trans e⟩

theorem run_append {n : Nat} (ts us : List Turn) {s s' : St V} (h : run P J n (ts ++ us) s = some s') :
    ∃ t, run P J n ts s = some t ∧ run P J n us t = some s' := by
  induction ts generalizing s with
  | nil => exact ⟨s, rfl, h⟩
  | cons t ts ih =>
    cases t with
    | add x =>
      obtain ⟨s1, h1, h2⟩ := Option.bind_eq_some_iff.mp h
      obtain ⟨t, h3, h4⟩ := ih h2
      exact ⟨t, Option.bind_eq_some_iff.mpr ⟨s1, h1, h3⟩, h4⟩
    | flush f =>
      obtain ⟨s1, h1, h2⟩ := Option.bind_eq_some_iff.mp h
      obtain ⟨t, h3, h4⟩ := ih h2
      exact ⟨t, Option.bind_eq_some_iff.mpr ⟨s1, h1, h3⟩, h4⟩

end Fave.Weave
