import Verif.Lemmas.WeaveStep
/-!
# Flushes, the beginning, and all interleavings
-/
namespace Fave.Weave
variable {V D : Type} [Dist D]
open Index Queue Spec

variable {P : Params V D} {J : Nat → Job V D} {ix0 : Index V} {s : St V} {g : Gh}

/-- the same vertices, except for the mark of being committed -/
def Twin (ix ix' : Index V) : Prop :=
  ∀ id, ix'.get id = ix.get id ∨ ∃ v c, ix.get id = some v ∧ ix'.get id = some { v with committed := c }

theorem Twin.from {ix ix' : Index V} (h : Twin ix ix') {id : Nat} {v : Vertex V} (hv : ix.get id = some v) :
    ∃ v', ix'.get id = some v' ∧ v'.id = v.id ∧ v'.level = v.level ∧ v'.conns = v.conns ∧ v'.maint = v.maint ∧ v'.vec = v.vec := by
  rcases h id with h1 | ⟨w, c, h1, h2⟩
  · exact ⟨v, h1.trans hv, rfl, rfl, rfl, rfl, rfl⟩
  · rw [hv] at h1; cases h1; exact ⟨_, h2, rfl, rfl, rfl, rfl, rfl⟩

theorem Twin.to {ix ix' : Index V} (h : Twin ix ix') {id : Nat} {v' : Vertex V} (hv : ix'.get id = some v') :
    ∃ v, ix.get id = some v ∧ v'.id = v.id ∧ v'.level = v.level ∧ v'.conns = v.conns ∧ v'.maint = v.maint := by
  rcases h id with h1 | ⟨w, c, h1, h2⟩
  · exact ⟨v', h1.symm.trans hv, rfl, rfl, rfl, rfl⟩
  · rw [hv] at h2; cases h2; exact ⟨_, h1, rfl, rfl, rfl, rfl⟩

theorem Twin.has {ix ix' : Index V} (h : Twin ix ix') {l b : Nat} (hb : Has ix l b) : Has ix' l b := by
  obtain ⟨w, hw, hl⟩ := hb
  obtain ⟨w', h1, _, h2, _⟩ := h.from hw
  exact ⟨w', h1, by omega⟩

theorem Twin.linked {ix ix' : Index V} (h : Twin ix ix') {l a b : Nat} (hb : Linked ix' l a b) : Linked ix l a b := by
  obtain ⟨w, ls, hw, h1, h2⟩ := hb
  obtain ⟨v, h3, _, _, h4, _⟩ := h.to hw
  exact ⟨v, ls, h3, by rw [← h4]; exact h1, h2⟩

theorem Inv.flush (h : Inv P J ix0 s g) {f : Nat} {p : Fc V} {ix' : Index V} (ht : Twin s.ix ix') (hids : IdsOk ix')
    (hentry : ix'.entry = s.ix.entry) (hmax : ix'.maxLayer = s.ix.maxLayer)
    (hc : ∀ id v, s.ix.cache.get id = some v → ∃ w, ix'.cache.get id = some w) (pf : FcOk ix' p) : Inv P J ix0 (s.fat f ix' p) g := by
  have mono : Mono ix0 s.ix ix' g g s.ever s.ever :=
    ⟨fun _ _ h2 => ht.has h2, fun _ h2 => ⟨h2, rfl⟩, fun _ _ _ h2 => h2, by rw [hmax]; exact Nat.le_refl _, fun _ _ _ h2 => h2⟩
  refine ⟨h.gok, hids, ?_, ?_, ?_, ?_, ?_, ?_, ?_, ?_, ?_, ?_⟩
  · intro id w hw
    obtain ⟨v, h1, h2, h3, h4, _⟩ := ht.to hw
    obtain ⟨g1, g2, g3⟩ := h.good id v h1
    refine ⟨h2.trans g1, by rw [h4, h3]; exact g2, ?_⟩
    intro k links hk
    obtain ⟨g4, g5, g6, g7⟩ := g3 k links (by rw [← h4]; exact hk)
    exact ⟨g4, g5, g6, fun b hb => ht.has (g7 b hb)⟩
  · intro x w hx hw
    obtain ⟨v, h1, _, h3, _⟩ := ht.to hw
    rw [h3]; exact h.lvl x v hx h1
  · intro x hx
    obtain ⟨v, hv⟩ := Option.isSome_iff_exists.mp (h.old x hx)
    obtain ⟨w, hw, _⟩ := ht.from hv
    show (ix'.get x).isSome = true
    rw [hw]; rfl
  · show EntryOk ix0 ix' g ix'.entry ix'.maxLayer
    rw [hentry, hmax]; exact mono.entryOk h.entry
  · intro x hx
    show g.mm x ≤ ix'.maxLayer
    rw [hmax]; exact h.mmax x hx
  · intro x w hw hm
    obtain ⟨v, h1, _, _, _, h5⟩ := ht.to hw
    exact h.maint x v h1 (by rw [← h5]; exact hm)
  · intro l a b hh
    obtain ⟨h1, h2, h3, h4⟩ := h.ev l a b hh
    exact ⟨h1, h2, ht.has h3, ht.has h4⟩
  · intro l a b hh
    exact h.evl _ _ _ (ht.linked hh)
  · intro x
    refine (h.pc x).mono mono ?_ rfl (fun _ => rfl) ?_
    · intro h1
      rcases ht x with h2 | ⟨v, _, h2, _⟩
      · rw [h2]; exact h1
      · rw [h1] at h2; cases h2
    · intro l ep todo b _ _ _ h1 h2
      exact h1 (ht.linked h2)
  · intro y
    by_cases hy : y = f
    · have : (s.fat f ix' p).fc y = p := by simp [St.fat, hy]
      rw [this]; exact pf
    · have : (s.fat f ix' p).fc y = s.fc y := by simp [St.fat, hy]
      rw [this]; exact (h.fc y).upd hc

theorem inv_step (hP : P.maxConn ≤ P.maxConn0) {calm : Bool} {s s' : St V} (h : ∃ g, Inv P J ix0 s g) (hst : Step P J (seen P J) calm s s') :
    ∃ g, Inv P J ix0 s' g := by
  obtain ⟨g, h⟩ := h
  have hsame : ∀ {f : Nat} {p : Fc V}, FcOk s.ix p → Inv P J ix0 (s.fat f s.ix p) g :=
    fun hp => h.flush (fun _ => .inl rfl) h.ids rfl rfl (fun _ v hv => ⟨v, hv⟩) hp
  cases hst with
  | snap x hp hx _ => exact ⟨g, inv_snap h hp hx⟩
  | publish x e m hp _ => exact ⟨g, inv_publish h hp⟩
  | descend x e m ep hp hs => exact ⟨_, inv_descend h hp hs⟩
  | choose x l ep ep' nbs hp hs => exact inv_choose h hp hs
  | set x l ep nbs v hp hv hl => exact inv_set hP h hp hv hl
  | connect x l ep nb todo hp => exact ⟨g, inv_connect h hp⟩
  | next x l ep hp => exact ⟨g, inv_next h hp⟩
  | fails x e hp => exact ⟨g, inv_fails h hp⟩
  | finish x ep v hp hv => exact ⟨g, inv_finish h hp hv⟩
  | flush f order _ _ _ => exact ⟨g, hsame trivial⟩
  | skip f id todo _ _ => exact ⟨g, hsame trivial⟩
  | encode f id todo v _ hv _ => exact ⟨g, hsame ⟨v, by rw [h.ids.cache id v hv]; exact hv⟩⟩
  | store f todo v hf =>
    have h1 := h.fc f
    rw [hf] at h1
    obtain ⟨w, hw⟩ := h1
    refine ⟨g, h.flush ?_ ⟨h.ids.cache, ?_⟩ rfl rfl (fun _ v hv => ⟨v, hv⟩) ⟨w, hw⟩⟩
    · intro id
      refine .inl ?_
      unfold Index.get
      dsimp only
      by_cases hid : id = v.id
      · subst hid; rw [hw]
      · rw [Tab.get_put, if_neg hid]
    · intro id u hu
      have hu : (s.ix.kv.put v.id { v with committed := false }).get id = some u := hu
      rw [Tab.get_put] at hu
      split at hu
      · rename_i hid; cases hu; exact hid.symm
      · exact h.ids.kv id u hu
  | commit f id todo v hf hv =>
    have hid := h.ids.cache id v hv
    have hg : s.ix.get id = some v := by unfold Index.get; rw [hv]
    refine ⟨g, h.flush ?_ (idsOk_put h.ids _) rfl rfl (fun _ v hv => cache_put _ _ hv) trivial⟩
    intro y
    rw [get_put]
    split
    · rename_i hy
      have hy : y = v.id := hy
      rw [hid] at hy; subst hy
      exact .inr ⟨v, true, hg, rfl⟩
    · exact .inl rfl
  | flushEnd f n _ =>
    refine ⟨g, h.flush (fun _ => .inl rfl) ⟨h.ids.cache, h.ids.kv⟩ rfl rfl (fun _ v hv => ⟨v, hv⟩) trivial⟩
  | flushFails f _ => exact ⟨g, hsame trivial⟩

/-- what is asked of the index at the beginning -/
structure Start (P : Params V D) (ix : Index V) : Prop where
  ids : IdsOk ix
  links : LinksOk P.maxConn0 P.maxConn ix.get
  entry : ∃ v, ix.get ix.entry = some v ∧ ix.maxLayer ≤ v.level
  conn : P.maxConn ≤ P.maxConn0

theorem inv_begin (h : Start P ix0) : Inv P J ix0 (St.begin ix0) (Gh.init (bs ix0)) := by
  obtain ⟨v, hv, hl⟩ := h.entry
  have hlk : ∀ l a b, Linked ix0 l a b → bs ix0 a = true ∧ bs ix0 b = true ∧ Has ix0 l b ∧ Has ix0 l a := by
    rintro l a b ⟨w, ls, hw, h1, h2⟩
    obtain ⟨_, h3, h4⟩ := h.links a w hw
    obtain ⟨_, _, _, h5⟩ := h4 l ls h1
    obtain ⟨u, hu, h6⟩ := h5 b h2
    have := (List.getElem?_eq_some_iff.mp h1).1
    exact ⟨by rw [bs, hw]; rfl, by rw [bs, hu]; rfl, ⟨u, hu, h6⟩, ⟨w, hw, by omega⟩⟩
  refine ⟨Gh.init_ok, h.ids, h.links, ?_, fun x hx => hx, ⟨.inl (by rw [bs, show (St.begin ix0).ix.entry = ix0.entry from rfl, hv]; rfl), v, hv, hl⟩,
    fun x hx => absurd rfl hx, ?_, ?_, fun _ _ _ hh => hh, ?_, fun _ => trivial⟩
  · intro x w hx hw
    have hw : ix0.get x = some w := hw
    rw [bs, hw] at hx; cases hx
  · intro x w hw _
    have hw : ix0.get x = some w := hw
    exact .inl (by rw [bs, hw]; rfl)
  · intro l a b hh
    obtain ⟨h1, h2, h3, h4⟩ := hlk l a b hh
    refine ⟨?_, .inl h2, h3, h4⟩
    simp only [Gh.init, h1, h2, if_true]
  · intro x
    refine ⟨rfl, ?_⟩
    intro hx
    show ix0.get x = none
    cases hc : ix0.get x with
    | none => rfl
    | some w => rw [bs, hc] at hx; cases hx

theorem inv_reach {calm : Bool} (h0 : Start P ix0) (h : Reach P J (seen P J) calm ix0 s) : ∃ g, Inv P J ix0 s g := by
  induction h with
  | refl => exact ⟨_, inv_begin h0⟩
  | step _ hst ih => exact inv_step h0.conn ih hst

/-- a vertex keeps its vector and its level, and does not go back under maintenance -/
theorem keeps (hP : P.maxConn ≤ P.maxConn0) {calm : Bool} {s s' : St V} (h : Inv P J ix0 s g) (hst : Step P J (seen P J) calm s s') (id : Nat) (v : Vertex V)
    (hv : s.ix.get id = some v) : ∃ v', s'.ix.get id = some v' ∧ v'.vec = v.vec ∧ v'.level = v.level ∧ (v.maint = false → v'.maint = false) := by
  have hput : ∀ (u w : Vertex V), s.ix.get u.id = some w → u.vec = w.vec → u.level = w.level → (w.maint = false → u.maint = false) →
      ∃ v', (s.ix.put u).get id = some v' ∧ v'.vec = v.vec ∧ v'.level = v.level ∧ (v.maint = false → v'.maint = false) := by
    intro u w hw h1 h2 h3
    rw [get_put]
    split
    · rename_i hid; subst hid; rw [hv] at hw; cases hw; exact ⟨u, rfl, h1, h2, h3⟩
    · exact ⟨v, hv, rfl, rfl, fun hm => hm⟩
  cases hst with
  | snap x hp hx _ => exact ⟨v, hv, rfl, rfl, fun hm => hm⟩
  | publish x e m hp _ =>
    have h1 := h.pc x
    rw [hp] at h1
    refine ⟨v, ?_, rfl, rfl, fun hm => hm⟩
    show (s.ix.put _).get id = some v
    rw [get_put, if_neg]
    · exact hv
    · intro hid
      have hid : id = x := hid
      subst hid
      rw [h1.2.2.1] at hv; cases hv
  | descend x e m ep hp hs => exact ⟨v, hv, rfl, rfl, fun hm => hm⟩
  | choose x l ep ep' nbs hp hs => exact ⟨v, hv, rfl, rfl, fun hm => hm⟩
  | set x l ep nbs w hp hw hl =>
    exact hput (setConns w l nbs) w (by rw [show (setConns w l nbs).id = x from (h.ids.get hw : w.id = x)]; exact hw) rfl rfl (fun hm => hm)
  | connect x l ep nb todo hp =>
    have h1 := h.pc x
    rw [hp] at h1
    obtain ⟨_, _, _, _, htodo, _⟩ := h1
    obtain ⟨_, _, ⟨w0, hw0, hwl⟩, _⟩ := h.ev _ _ _ (htodo nb (by simp)).1
    show ∃ v', (connectNeighbor P (J x).vo x l s.ix nb).1.get id = some v' ∧ _
    rcases connectNeighbor_cases P (J x).vo x l s.ix nb with ⟨he, _⟩ | ⟨w, hw, hnx, _, hcase⟩
    · rw [he]; exact ⟨v, hv, rfl, rfl, fun hm => hm⟩
    · rw [hw] at hw0; cases hw0
      have hid0 := h.ids.get hw
      rcases hcase with ⟨e, _, hu⟩ | ⟨cur, links, _, _, hu, _⟩
      · rw [hu.get]
        split
        · rename_i hid
          have hid : id = nb := by rw [hid, raised_id]; exact hid0
          subst hid; rw [hv] at hw; cases hw
          exact ⟨_, rfl, raised_vec _ _, by rw [raised_same hwl], fun hm => by rw [raised_same hwl]; exact hm⟩
        · exact ⟨v, hv, rfl, rfl, fun hm => hm⟩
      · rw [hu.get]
        split
        · rename_i hid
          have hid : id = nb := by rw [hid]; show (raised _ l).id = nb; rw [raised_id]; exact hid0
          subst hid; rw [hv] at hw; cases hw
          exact ⟨_, rfl, raised_vec _ _, by show (raised _ _).level = _; rw [raised_same hwl],
            fun hm => by show (raised _ _).maint = false; rw [raised_same hwl]; exact hm⟩
        · exact ⟨v, hv, rfl, rfl, fun hm => hm⟩
  | next x l ep hp => exact ⟨v, hv, rfl, rfl, fun hm => hm⟩
  | fails x e hp => exact ⟨v, hv, rfl, rfl, fun hm => hm⟩
  | finish x ep w hp hw =>
    have := hput { w with maint := false } w (by rw [show ({ w with maint := false } : Vertex V).id = x from (h.ids.get hw : w.id = x)]; exact hw) rfl rfl (fun _ => rfl)
    obtain ⟨v', h1, h2⟩ := this
    refine ⟨v', ?_, h2⟩
    show (ite _ _ _ : Index V).get id = some v'
    split
    · exact h1
    · exact h1
  | flush f order _ _ _ => exact ⟨v, hv, rfl, rfl, fun hm => hm⟩
  | skip f id todo _ _ => exact ⟨v, hv, rfl, rfl, fun hm => hm⟩
  | encode f id todo v _ hv _ => exact ⟨_, by assumption, rfl, rfl, fun hm => hm⟩
  | store f todo w hf =>
    have h1 := h.fc f
    rw [hf] at h1
    obtain ⟨u, hu⟩ := h1
    refine ⟨v, ?_, rfl, rfl, fun hm => hm⟩
    rw [← hv]
    unfold Index.get
    dsimp only [St.fat]
    by_cases hid : id = w.id
    · subst hid; rw [hu]
    · rw [Tab.get_put, if_neg hid]
  | commit f i todo w hf hw =>
    have hid := h.ids.cache i w hw
    have hg : s.ix.get i = some w := by unfold Index.get; rw [hw]
    exact hput { w with committed := true } w (by rw [show ({ w with committed := true } : Vertex V).id = i from hid]; exact hg) rfl rfl (fun hm => hm)
  | flushEnd f n _ => exact ⟨v, hv, rfl, rfl, fun hm => hm⟩
  | flushFails f _ => exact ⟨v, hv, rfl, rfl, fun hm => hm⟩

/-- a vertex that appears holds the vector of its addition -/
theorem born {calm : Bool} {s s' : St V} (h : Inv P J ix0 s g) (hst : Step P J (seen P J) calm s s') (id : Nat) (v' : Vertex V)
    (hn : s.ix.get id = none) (hv : s'.ix.get id = some v') : v'.vec = (J id).q := by
  have hput : ∀ (u w : Vertex V), s.ix.get u.id = some w → (s.ix.put u).get id = some v' → False := by
    intro u w hw h1
    rw [get_put] at h1
    split at h1
    · rename_i hid; subst hid; rw [hw] at hn; cases hn
    · rw [hn] at h1; cases h1
  have hsame : s.ix.get id = some v' → v'.vec = (J id).q := fun h1 => by rw [hn] at h1; cases h1
  cases hst with
  | snap x hp hx _ => exact hsame hv
  | publish x e m hp _ =>
    have hv : (s.ix.put (newNode x (J x).q (J x).level)).get id = some v' := hv
    rw [get_put] at hv
    split at hv
    · rename_i hid; cases hv
      have hid : id = x := hid
      rw [hid]; rfl
    · exact hsame hv
  | descend x e m ep hp hs => exact hsame hv
  | choose x l ep ep' nbs hp hs => exact hsame hv
  | set x l ep nbs w hp hw hl =>
    exact (hput (setConns w l nbs) w (by rw [show (setConns w l nbs).id = x from (h.ids.get hw : w.id = x)]; exact hw) hv).elim
  | connect x l ep nb todo hp =>
    have hv : (connectNeighbor P (J x).vo x l s.ix nb).1.get id = some v' := hv
    rcases connectNeighbor_cases P (J x).vo x l s.ix nb with ⟨he, _⟩ | ⟨w, hw, _, _, hcase⟩
    · rw [he] at hv; exact hsame hv
    · have hid0 := h.ids.get hw
      rcases hcase with ⟨e, _, hu⟩ | ⟨cur, links, _, _, hu, _⟩
      · rw [hu.get] at hv
        split at hv
        · rename_i hid
          rw [raised_id, hid0] at hid
          subst hid; rw [hw] at hn; cases hn
        · exact hsame hv
      · rw [hu.get] at hv
        split at hv
        · rename_i hid
          have hid : id = (raised w l).id := hid
          rw [raised_id, hid0] at hid
          subst hid; rw [hw] at hn; cases hn
        · exact hsame hv
  | next x l ep hp => exact hsame hv
  | fails x e hp => exact hsame hv
  | finish x ep w hp hw =>
    have h1 := hput { w with maint := false } w (by rw [show ({ w with maint := false } : Vertex V).id = x from (h.ids.get hw : w.id = x)]; exact hw)
    have hv : (ite _ _ _ : Index V).get id = some v' := hv
    split at hv
    · exact (h1 hv).elim
    · exact (h1 hv).elim
  | flush f order _ _ _ => exact hsame hv
  | skip f id todo _ _ => exact hsame hv
  | encode f id todo v _ _ _ => exact hsame hv
  | store f todo w hf =>
    have h1 := h.fc f
    rw [hf] at h1
    obtain ⟨u, hu⟩ := h1
    refine hsame ?_
    rw [← hv]
    unfold Index.get
    dsimp only [St.fat]
    by_cases hid : id = w.id
    · subst hid; rw [hu]
    · rw [Tab.get_put, if_neg hid]
  | commit f i todo w hf hw =>
    have hid := h.ids.cache i w hw
    have hg : s.ix.get i = some w := by unfold Index.get; rw [hw]
    exact (hput { w with committed := true } w (by rw [show ({ w with committed := true } : Vertex V).id = i from hid]; exact hg) hv).elim
  | flushEnd f n _ => exact hsame hv
  | flushFails f _ => exact hsame hv

/-- which addition a step moves, if it ends one successfully -/
theorem ended_step {sees : Sees V} {calm : Bool} {s s' : St V} (hst : Step P J sees calm s s') (x : Nat) (h : s'.pc x = .ended none) :
    s.pc x = .ended none ∨ ∃ ep v, s.pc x = .layers 0 ep ∧ s.ix.get x = some v ∧ s'.ix.get v.id = some { v with maint := false } := by
  have key : ∀ (y : Nat) (ix : Index V) (p : Pc), (s.at y ix p).pc x = .ended none → p ≠ .ended none → s.pc x = .ended none := by
    intro y ix p h1 h2
    by_cases hxy : x = y
    · simp [St.at, hxy] at h1; exact absurd h1 h2
    · simpa [St.at, hxy] using h1
  cases hst with
  | snap y _ _ _ => exact .inl (key _ _ _ h (by simp))
  | publish y e m hp _ => exact .inl (key _ _ _ h (by simp))
  | descend y e m ep hp hs => exact .inl (key _ _ _ h (by simp))
  | choose y l ep ep' nbs hp hs => exact .inl (key _ _ _ h (by simp))
  | set y l ep nbs w hp hw hl => exact .inl (key _ _ _ h (by simp))
  | connect y l ep nb todo hp =>
    refine .inl (key _ _ _ h ?_)
    split <;> simp
  | next y l ep hp => exact .inl (key _ _ _ h (by simp))
  | fails y e hp => exact .inl (key _ _ _ h (by simp))
  | finish y ep w hp hw =>
    by_cases hxy : x = y
    · subst hxy
      refine .inr ⟨ep, w, hp, hw, ?_⟩
      show (ite _ _ _ : Index V).get w.id = _
      have := get_put s.ix { w with maint := false } w.id
      rw [if_pos rfl] at this
      split
      · exact this
      · exact this
    · exact .inl (by simpa [St.at, hxy] using h)
  | flush f order _ _ _ => exact .inl h
  | skip f id todo _ _ => exact .inl h
  | encode f id todo v _ _ _ => exact .inl h
  | store f todo w hf => exact .inl h
  | commit f i todo w hf hw => exact .inl h
  | flushEnd f n _ => exact .inl h
  | flushFails f _ => exact .inl h

/-- vectors, levels, and the end of additions -/
structure Facts (J : Nat → Job V D) (ix0 : Index V) (s : St V) : Prop where
  old : ∀ x v0, ix0.get x = some v0 → ∃ v, s.ix.get x = some v ∧ v.vec = v0.vec ∧ v.level = v0.level ∧ (v0.maint = false → v.maint = false)
  new : ∀ x v, ix0.get x = none → s.ix.get x = some v → v.vec = (J x).q
  done : ∀ x, s.pc x = .ended none → ix0.get x = none ∧ ∃ v, s.ix.get x = some v ∧ v.maint = false

theorem facts_reach {calm : Bool} (h0 : Start P ix0) (h : Reach P J (seen P J) calm ix0 s) : Facts J ix0 s := by
  induction h with
  | refl =>
    refine ⟨fun x v0 hv => ⟨v0, hv, rfl, rfl, fun hm => hm⟩, fun x v h1 h2 => ?_, fun x hx => by cases hx⟩
    have h2 : ix0.get x = some v := h2
    rw [h1] at h2; cases h2
  | step hr hst ih =>
    obtain ⟨g, hi⟩ := inv_reach h0 hr
    refine ⟨?_, ?_, ?_⟩
    · intro x v0 hv0
      obtain ⟨v, hv, h1, h2, h3⟩ := ih.old x v0 hv0
      obtain ⟨v', hv', h4, h5, h6⟩ := keeps h0.conn hi hst x v hv
      exact ⟨v', hv', h4.trans h1, h5.trans h2, fun hm => h6 (h3 hm)⟩
    · intro x v' hx hv'
      rename_i s _
      cases hc : s.ix.get x with
      | none => exact born hi hst x v' hc hv'
      | some v =>
        obtain ⟨v2, hv2, h4, _⟩ := keeps h0.conn hi hst x v hc
        rw [hv'] at hv2; cases hv2
        rw [h4]; exact ih.new x v hx hc
    · intro x hx
      rcases ended_step hst x hx with h1 | ⟨ep, v, h1, h2, h3⟩
      · obtain ⟨h2, v, hv, hm⟩ := ih.done x h1
        obtain ⟨v', hv', _, _, h6⟩ := keeps h0.conn hi hst x v hv
        exact ⟨h2, v', hv', h6 hm⟩
      · rw [hi.ids.get h2] at h3
        have h4 := hi.pc x
        rw [h1] at h4
        refine ⟨?_, _, h3, rfl⟩
        have h5 : bs ix0 x = false := h4.1
        cases hc : ix0.get x with
        | none => rfl
        | some w => rw [bs, hc] at h5; cases h5

end Fave.Weave
