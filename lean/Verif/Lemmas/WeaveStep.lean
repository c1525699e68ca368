import Verif.Lemmas.Weave
/-!
# Every step of an addition keeps the invariant
-/
namespace Fave.Weave
variable {V D : Type} [Dist D]
open Index Queue Spec

variable {P : Params V D} {J : Nat → Job V D} {ix0 : Index V} {s : St V} {g : Gh}

theorem Mono.refl (ix0 ix : Index V) (g : Gh) (ever : Nat → Nat → Nat → Prop) : Mono ix0 ix ix g g ever ever :=
  ⟨fun _ _ h => h, fun _ h => ⟨h, rfl⟩, fun _ _ _ h => h, Nat.le_refl _, fun _ _ _ h => h⟩

/-- steps that change neither the index nor the bookkeeping -/
theorem Inv.stay (h : Inv P J ix0 s g) {x : Nat} {p : Pc} (hne : s.pc x ≠ .ended none) (px : PcOk P ix0 s.ix g (s.at x s.ix p).ever x p) :
    Inv P J ix0 (s.at x s.ix p) g := by
  refine h.move h.gok h.ids h.good h.lvl (Mono.refl _ _ _ _) h.entry h.mmax ?_ ?_ px ?_ ?_
  · intro y v hv hm
    rcases h.maint y v hv hm with h1 | h1
    · exact .inl h1
    · refine .inr ?_
      have : y ≠ x := by rintro rfl; exact hne h1
      rw [if_neg this]; exact h1
  · intro l a b hl; exact .inl (h.evl _ _ _ hl)
  · intro y _; exact ⟨fun h1 => h1, rfl, fun _ => rfl, fun _ _ _ _ _ _ _ h1 => h1⟩
  · intro id v hv; exact ⟨v, hv⟩

theorem Inv.fresh (h : Inv P J ix0 s g) {x : Nat} (hx : s.ix.get x = none) : bs ix0 x = false := by
  cases hb : bs ix0 x with
  | false => rfl
  | true => have := h.old x hb; rw [hx] at this; cases this

theorem inv_snap (h : Inv P J ix0 s g) {x : Nat} (hp : s.pc x = .idle) (hx : s.ix.get x = none) :
    Inv P J ix0 (s.at x s.ix (.snap s.ix.entry s.ix.maxLayer)) g := by
  have h1 := h.pc x
  rw [hp] at h1
  exact h.stay (by rw [hp]; simp) ⟨h.fresh hx, h1.1, hx, h.entry, Nat.le_refl _⟩

theorem inv_next (h : Inv P J ix0 s g) {x l ep : Nat} (hp : s.pc x = .linking l ep []) : Inv P J ix0 (s.at x s.ix (.layers l ep)) g := by
  have h1 := h.pc x
  rw [hp] at h1
  exact h.stay (by rw [hp]; simp) ⟨h1.1, h1.2.1, h1.2.2.1, h1.2.2.2.2.2⟩

theorem inv_fails (h : Inv P J ix0 s g) {x : Nat} {e : Err} (hp : (s.pc x).active = true) : Inv P J ix0 (s.at x s.ix (.ended (some e))) g := by
  have h1 := h.pc x
  refine h.stay (fun h2 => by rw [h2] at hp; cases hp) ?_
  show bs ix0 x = false
  cases hc : s.pc x with
  | idle => rw [hc] at hp; cases hp
  | ended _ => rw [hc] at hp; cases hp
  | snap e m => rw [hc] at h1; exact h1.1
  | published e m => rw [hc] at h1; exact h1.1
  | layers n ep => rw [hc] at h1; exact h1.1
  | chosen l ep nbs => rw [hc] at h1; exact h1.1
  | linking l ep todo => rw [hc] at h1; exact h1.1

theorem inv_publish (h : Inv P J ix0 s g) {x e m : Nat} (hp : s.pc x = .snap e m) :
    Inv P J ix0 (s.at x (s.ix.put (newNode x (J x).q (J x).level)) (.published e m)) g := by
  have h1 := h.pc x
  rw [hp] at h1
  obtain ⟨hb, hun, hx, he, hm⟩ := h1
  have hu := upd_put s.ix (newNode x (J x).q (J x).level)
  have hmn : ∀ w, s.ix.get (newNode x (J x).q (J x).level).id = some w → w.level ≤ (newNode x (J x).q (J x).level).level := by
    intro w hw
    have hw : s.ix.get x = some w := hw
    rw [hx] at hw; cases hw
  have hnil : ∀ (k : Nat) (links : List Nat), (newNode x (J x).q (J x).level).conns[k]? = some links → links = [] := by
    intro k links hk
    simp only [newNode, List.getElem?_replicate] at hk
    split at hk
    · cases hk; rfl
    · cases hk
  have hlink : ∀ l a b, Linked (s.ix.put (newNode x (J x).q (J x).level)) l a b → Linked s.ix l a b := by
    intro l a b hl
    rcases linked_upd hu hl with ⟨_, links, h2, h3⟩ | ⟨_, h2⟩
    · rw [hnil _ _ h2] at h3; cases h3
    · exact h2
  have hmono : Mono ix0 s.ix (s.ix.put (newNode x (J x).q (J x).level)) g g s.ever s.ever :=
    ⟨fun _ _ h2 => has_upd hu hmn h2, fun _ h2 => ⟨h2, rfl⟩, fun _ _ _ h2 => h2, Nat.le_refl _, fun _ _ _ h2 => h2⟩
  refine h.move h.gok (idsOk_put h.ids _) ?_ ?_ hmono (hmono.entryOk h.entry) h.mmax ?_ ?_ ?_ ?_ (fun id v hv => cache_put id v hv)
  · refine good_upd hu hmn h.good (by simp [newNode]) ?_
    intro k links hk
    rw [hnil _ _ hk]
    exact ⟨List.nodup_nil, by simp, Nat.zero_le _, by simp⟩
  · intro y v hy hv
    rw [hu.get] at hv
    split at hv
    · rename_i hyx; cases hv
      have hyx : y = x := hyx
      rw [hyx]; rfl
    · exact h.lvl y v hy hv
  · intro y v hv hmt
    rw [hu.get] at hv
    split at hv
    · cases hv; cases hmt
    · rename_i hyx
      have hyx : y ≠ x := hyx
      rw [if_neg hyx]
      exact h.maint y v hv hmt
  · intro l a b hl
    exact .inl (h.evl _ _ _ (hlink _ _ _ hl))
  · refine ⟨hb, hun, ?_, hmono.entryOk he, hm⟩
    unfold Has
    rw [hu.get, if_pos (show x = (newNode x (J x).q (J x).level).id from rfl)]
    exact ⟨_, rfl, Nat.zero_le _⟩
  · intro y hy
    refine ⟨fun h2 => ?_, rfl, fun _ => rfl, ?_⟩
    · rw [hu.get, if_neg (show ¬ y = (newNode x (J x).q (J x).level).id from hy)]; exact h2
    · intro l ep todo b _ _ _ h2 h3
      exact h2 (hlink _ _ _ h3)

theorem Inv.on (h : Inv P J ix0 s g) {l b : Nat} (hb : Has s.ix l b) : bs ix0 b = true ∨ l ≤ lv J b := by
  cases hc : bs ix0 b with
  | true => exact .inl rfl
  | false =>
    obtain ⟨w, hw, hl⟩ := hb
    exact .inr (by show l ≤ (J b).level; rw [← h.lvl b w hc hw]; exact hl)

theorem Has.mono {ix : Index V} {l k b : Nat} (h : Has ix l b) (hk : k ≤ l) : Has ix k b := by
  obtain ⟨w, hw, hl⟩ := h
  exact ⟨w, hw, Nat.le_trans hk hl⟩

theorem inv_descend (h : Inv P J ix0 s g) {x e m ep : Nat} (hp : s.pc x = .published e m) (hs : (seen P J).entry s x e m ep) :
    Inv P J ix0 (s.at x s.ix (.layers (Nat.min (J x).level m + 1) ep)) (g.descend (lv J) x m ep) := by
  have h1 := h.pc x
  rw [hp] at h1
  obtain ⟨hb, hun, hx, he, hm⟩ := h1
  have hpx : ∀ l, g.ptr l x = none := by
    intro l
    cases hc : g.ptr l x with
    | none => rfl
    | some w => exact absurd hun (h.gok.p1 _ _ _ hc).2.2
  have hep : g.Known (bs ix0) ep ∧ (m ≤ (J x).level → bs ix0 ep = true ∨ g.mm ep ≤ m) ∧ Has s.ix (Nat.min (J x).level m) ep := by
    rcases hs with rfl | ⟨⟨v, hv, hv'⟩, l, a, hl, hlm, hev⟩
    · exact ⟨he.1.imp id (fun h1 => h1.1), fun _ => he.1.imp id (fun h1 => h1.2), he.2.mono (Nat.min_le_right _ _)⟩
    · refine ⟨?_, fun h1 => by omega, (h.ev _ _ _ hev).2.2.1.mono (Nat.le_trans (Nat.min_le_left _ _) (Nat.le_of_lt hl))⟩
      exact (h.ev _ _ _ hev).2.1
  obtain ⟨hk, hmm, hhas⟩ := hep
  have hun' : ∀ y, y ≠ x → (g.descend (lv J) x m ep).un y = g.un y := fun y hy => by simp [Gh.descend, hy]
  have hmono : Mono ix0 s.ix s.ix g (g.descend (lv J) x m ep) s.ever s.ever := by
    refine ⟨fun _ _ h2 => h2, ?_, fun _ _ _ h2 => h2, Nat.le_refl _, fun _ _ _ h2 => h2⟩
    intro b hb'
    have hbx : b ≠ x := by rintro rfl; exact hb' hun
    exact ⟨by rw [hun' b hbx]; exact hb', by simp [Gh.descend, hbx]⟩
  refine h.move (Gh.descend_ok h.gok hb hun hk hmm (h.on hhas)) h.ids h.good h.lvl hmono (hmono.entryOk h.entry) ?_ ?_ ?_ ?_ ?_
    (fun id v hv => ⟨v, hv⟩)
  · intro y hy
    by_cases hyx : y = x
    · simp only [Gh.descend, if_pos hyx]; exact hm
    · rw [hun' y hyx] at hy
      simp only [Gh.descend, if_neg hyx]; exact h.mmax y hy
  · intro y v hv hmt
    rcases h.maint y v hv hmt with h1 | h1
    · exact .inl h1
    · refine .inr ?_
      have : y ≠ x := by rintro rfl; rw [hp] at h1; cases h1
      rw [if_neg this]; exact h1
  · intro l a b hl; exact .inl (h.evl _ _ _ hl)
  · refine ⟨hb, hx, by simp [Gh.descend, lv], ?_⟩
    intro k hk'
    have hk' : k = Nat.min (J x).level m := by omega
    subst hk'
    refine ⟨by simp [Gh.descend, upd, lv], hhas, ?_⟩
    intro j hj
    have hne : ¬ j = Nat.min (lv J x) m := by show ¬ j = Nat.min (J x).level m; omega
    simp only [Gh.descend, if_neg hne]
    exact hpx j
  · intro y hy
    refine ⟨fun h2 => h2, hun' y hy, ?_, fun _ _ _ _ _ _ _ h2 => h2⟩
    intro l
    simp only [Gh.descend]
    split
    · simp [upd, hy]
    · rfl

theorem Inv.conn (h : Inv P J ix0 s g) {l ep b : Nat} (hk : g.Known (bs ix0) ep) (hh : Has s.ix l ep) (hc : Conn s.ever l ep b) :
    g.root l b = g.root l ep ∧ Has s.ix l b ∧ g.Known (bs ix0) b := by
  induction hc with
  | refl => exact ⟨rfl, hh, hk⟩
  | step _ he ih =>
    obtain ⟨h1, h2, h3, _⟩ := h.ev _ _ _ he
    exact ⟨h1.symm.trans ih.1, h3, h2⟩

theorem inv_choose (h : Inv P J ix0 s g) {x l ep ep' : Nat} {nbs : List Nat} (hp : s.pc x = .layers (l + 1) ep)
    (hs : (seen P J).choice s x l ep nbs ep') : ∃ g', Inv P J ix0 (s.at x s.ix (.chosen l ep' nbs)) g' := by
  have h1 := h.pc x
  rw [hp] at h1
  obtain ⟨hb, hx, hun, hbel⟩ := h1
  obtain ⟨hptr, hhas, hnone⟩ := hbel l rfl
  have hk : g.Known (bs ix0) ep := h.gok.k0 _ _ _ (.one hptr)
  obtain ⟨hlen, hnd, hconn, hep'⟩ := hs
  have hnb : ∀ b ∈ nbs, g.root l b = g.root l ep ∧ Has s.ix l b ∧ g.Known (bs ix0) b := fun b hb => h.conn hk hhas (hconn b hb)
  have he' : g.root l ep' = g.root l ep ∧ Has s.ix l ep' ∧ g.Known (bs ix0) ep' := by
    rcases hep' with rfl | h2
    · exact ⟨rfl, hhas, hk⟩
    · exact hnb _ h2
  cases l with
  | zero =>
    refine ⟨g, h.stay (by rw [hp]; simp) ⟨hb, hx, hun, hlen, hnd, ⟨ep, hptr, hnb⟩, ?_⟩⟩
    intro k hk'; cases hk'
  | succ k =>
    have htop : k + 1 ≤ g.top (lv J) x := (h.gok.p1 _ _ _ hptr).2.1
    have hptr' : ∀ j y, ¬ (j = k ∧ y = x) → (g.choose x k ep').ptr j y = g.ptr j y := by
      intro j y hj
      simp only [Gh.choose]
      split
      · rename_i hjk
        have : y ≠ x := fun hy => hj ⟨hjk, hy⟩
        simp [upd, this]
      · rfl
    have hmono : Mono ix0 s.ix s.ix g (g.choose x k ep') s.ever s.ever :=
      ⟨fun _ _ h2 => h2, fun _ h2 => ⟨h2, rfl⟩, fun _ _ _ h2 => h2, Nat.le_refl _, fun _ _ _ h2 => h2⟩
    refine ⟨g.choose x k ep', h.move (Gh.choose_ok h.gok hb hun (by omega) htop hptr (hnone k (by omega)) he'.1 he'.2.2 (h.on he'.2.1)) h.ids h.good
      h.lvl hmono (hmono.entryOk h.entry) h.mmax ?_ ?_ ?_ ?_ (fun id v hv => ⟨v, hv⟩)⟩
    · intro y v hv hmt
      rcases h.maint y v hv hmt with h1 | h1
      · exact .inl h1
      · refine .inr ?_
        have : y ≠ x := by rintro rfl; rw [hp] at h1; cases h1
        rw [if_neg this]; exact h1
    · intro l a b hl; exact .inl (h.evl _ _ _ hl)
    · refine ⟨hb, hx, hun, hlen, hnd, ⟨ep, ?_, hnb⟩, ?_⟩
      · rw [hptr' _ _ (by omega)]; exact hptr
      · intro j hj
        have hj : j = k := by omega
        subst hj
        refine ⟨by simp [Gh.choose, upd], he'.2.1.mono (by omega), ?_⟩
        intro i hi
        rw [hptr' _ _ (by omega)]
        exact hnone i (by omega)
    · intro y hy
      exact ⟨fun h2 => h2, rfl, fun l => hptr' _ _ (fun h3 => hy h3.2), fun _ _ _ _ _ _ _ h2 => h2⟩

theorem inv_set (hP : P.maxConn ≤ P.maxConn0) (h : Inv P J ix0 s g) {x l ep : Nat} {nbs : List Nat} {v : Vertex V}
    (hp : s.pc x = .chosen l ep nbs) (hv : s.ix.get x = some v) (hl : l < v.conns.length) :
    ∃ g', Inv P J ix0 (s.at x (s.ix.put (setConns v l nbs)) (.linking l ep nbs)) g' := by
  have h1 := h.pc x
  rw [hp] at h1
  obtain ⟨hb, hx, hun, hlen, hnd, ⟨e0, hptr, hnb⟩, hbel⟩ := h1
  have hid : v.id = x := h.ids.get hv
  have hu := upd_put s.ix (setConns v l nbs)
  have hid' : (setConns v l nbs).id = x := hid
  have hmn : ∀ w, s.ix.get (setConns v l nbs).id = some w → w.level ≤ (setConns v l nbs).level := by
    intro w hw
    rw [hid', hv] at hw; cases hw; exact Nat.le_refl _
  have hapart := h.gok.apart hptr
  have hset : ¬ g.Set (bs ix0) (lv J) l x := by
    rintro (h2 | ⟨n, h2, h3, _⟩)
    · rw [hb] at h2; cases h2
    · rw [hun] at h2; cases h2; omega
  have hrx : g.root l x = some x := h.gok.r1 _ _ hset
  have hself : x ∉ nbs := by
    intro hc
    obtain ⟨h2, _⟩ := hnb x hc
    rw [hrx] at h2
    exact hapart h2.symm
  obtain ⟨_, hcl, hlists⟩ := h.good x v hv
  have hlinks : ∀ k links, (setConns v l nbs).conns[k]? = some links → (k = l ∧ links = nbs) ∨ (k ≠ l ∧ v.conns[k]? = some links) := by
    intro k links hk
    rw [setConns_get, if_pos hl] at hk
    split at hk
    · rename_i hkl
      cases hk; exact .inl ⟨hkl, rfl⟩
    · rename_i hkl; exact .inr ⟨hkl, hk⟩
  have hroot : ∀ k w, (g.set x l e0).root k w = if k = l ∧ g.root k w = some x then g.root l e0 else g.root k w := fun _ _ => rfl
  have hmono : Mono ix0 s.ix (s.ix.put (setConns v l nbs)) g (g.set x l e0) s.ever s.ever := by
    refine ⟨fun _ _ h2 => has_upd hu hmn h2, ?_, ?_, Nat.le_refl _, fun _ _ _ h2 => h2⟩
    · intro b hb'
      refine ⟨?_, rfl⟩
      simp only [Gh.set]
      split
      · simp
      · exact hb'
    · intro k a b hab
      rw [hroot, hroot, hab]
  have hnotback : ∀ b ∈ nbs, ¬ Linked s.ix l b x := by
    intro b hb' hc
    obtain ⟨h2, _⟩ := h.ev _ _ _ (h.evl _ _ _ hc)
    obtain ⟨h3, _⟩ := hnb b hb'
    rw [hrx, h3] at h2
    exact hapart h2
  refine ⟨g.set x l e0, h.move (Gh.set_ok h.gok hb hun hptr) (idsOk_put h.ids _) ?_ ?_ hmono (hmono.entryOk h.entry) ?_ ?_ ?_ ?_ ?_
    (fun id v hv => cache_put id v hv)⟩
  · refine good_upd hu hmn h.good (by simpa [setConns] using hcl) ?_
    intro k links hk
    rw [hid']
    rcases hlinks k links hk with ⟨rfl, rfl⟩ | ⟨_, h2⟩
    · refine ⟨hnd, hself, ?_, fun b hb' => (hnb b hb').2.1⟩
      split <;> omega
    · exact hlists k links h2
  · intro y w hy hw
    rw [hu.get] at hw
    split at hw
    · rename_i hyx; cases hw
      rw [hid'] at hyx
      subst hyx
      exact h.lvl y v hy hv
    · exact h.lvl y w hy hw
  · intro y hy
    have : g.un y ≠ none := by
      by_cases hyx : y = x
      · subst hyx; rw [hun]; simp
      · simpa only [Gh.set, if_neg hyx] using hy
    exact h.mmax y this
  · intro y w hw hmt
    rw [hu.get] at hw
    have hold : ∃ w', s.ix.get y = some w' ∧ w'.maint = false := by
      split at hw
      · rename_i hyx; cases hw
        rw [hid'] at hyx; subst hyx
        exact ⟨v, hv, hmt⟩
      · exact ⟨w, hw, hmt⟩
    obtain ⟨w', hw', hmt'⟩ := hold
    rcases h.maint y w' hw' hmt' with h2 | h2
    · exact .inl h2
    · refine .inr ?_
      have : y ≠ x := by rintro rfl; rw [hp] at h2; cases h2
      rw [if_neg this]; exact h2
  · intro k a b hl'
    rcases linked_upd hu hl' with ⟨ha, links, h2, h3⟩ | ⟨_, h2⟩
    · rw [hid'] at ha; subst ha
      rcases hlinks k links h2 with ⟨rfl, rfl⟩ | ⟨_, h4⟩
      · refine .inr ?_
        obtain ⟨h5, h6, h7⟩ := hnb b h3
        refine ⟨?_, hmono.known h7, hmono.has _ _ h6⟩
        rw [hroot, hroot, if_pos ⟨rfl, hrx⟩, if_neg, h5]
        rintro ⟨_, h8⟩
        rw [h5] at h8; exact hapart h8
      · exact .inl (h.evl _ _ _ ⟨v, links, hv, h4, h3⟩)
    · exact .inl (h.evl _ _ _ h2)
  · refine ⟨hb, hmono.has _ _ hx, by simp [Gh.set], hnd, ?_, ?_⟩
    · intro b hb'
      refine ⟨.inr ⟨_, nbs, by rw [hu.get, if_pos hid'.symm], ?_, hb'⟩, ?_⟩
      · rw [setConns_get, if_pos rfl, if_pos hl]
      · intro hc
        rcases linked_upd hu hc with ⟨ha, _⟩ | ⟨_, h2⟩
        · rw [hid'] at ha; subst ha; exact hself hb'
        · exact hnotback b hb' h2
    · intro k hk
      obtain ⟨h2, h3, h4⟩ := hbel k hk
      exact ⟨h2, hmono.has _ _ h3, h4⟩
  · intro y hy
    refine ⟨fun h2 => ?_, ?_, fun _ => rfl, ?_⟩
    · rw [hu.get, hid', if_neg hy]; exact h2
    · simp [Gh.set, hy]
    · intro k ep1 todo b _ _ hev h2 hc
      rcases linked_upd hu hc with ⟨ha, links, h3, h4⟩ | ⟨_, h3⟩
      · rw [hid'] at ha; subst ha
        rcases hlinks k links h3 with ⟨rfl, rfl⟩ | ⟨_, h5⟩
        · obtain ⟨h6, _⟩ := h.ev _ _ _ hev
          obtain ⟨h7, _⟩ := hnb y h4
          rw [hrx, h7] at h6
          exact hapart h6
        · exact h2 ⟨v, links, hv, h5, h4⟩
      · exact h2 h3

/-- connecting a neighbour: it gains at most a link to `x` -/
theorem inv_link (h : Inv P J ix0 s g) {x l nb : Nat} {p : Pc} {v v' : Vertex V} {ix' : Index V} {cur links : List Nat}
    (hne : s.pc x ≠ .ended none) (hv : s.ix.get nb = some v) (hnx : nb ≠ x) (hcur : v.conns[l]? = some cur) (hids : IdsOk ix') (hu : Upd s.ix ix' v')
    (hid : v'.id = nb) (hlev : v'.level = v.level) (hmt : v'.maint = v.maint) (hconns : v'.conns = v.conns.set l links)
    (hlim : links.length ≤ maxConns P l) (hnd : links.Nodup) (hsub : ∀ i ∈ links, i ∈ x :: cur) (hx : Has s.ix l x)
    (hk : g.Known (bs ix0) x) (hroot : g.root l nb = g.root l x)
    (hc : ∀ id v, s.ix.cache.get id = some v → ∃ w, ix'.cache.get id = some w)
    (px : Mono ix0 s.ix ix' g g s.ever s.ever → PcOk P ix0 ix' g (s.at x ix' p).ever x p) : Inv P J ix0 (s.at x ix' p) g := by
  obtain ⟨_, hcl, hlists⟩ := h.good nb v hv
  have hmn : ∀ w, s.ix.get v'.id = some w → w.level ≤ v'.level := by
    intro w hw
    rw [hid, hv] at hw; cases hw; omega
  have hl : l < v.conns.length := (List.getElem?_eq_some_iff.mp hcur).1
  have hlinks : ∀ k ls, v'.conns[k]? = some ls → (k = l ∧ ls = links) ∨ (k ≠ l ∧ v.conns[k]? = some ls) := by
    intro k ls hk
    rw [hconns, List.getElem?_set] at hk
    by_cases hkl : l = k
    · rw [if_pos hkl, if_pos hl] at hk; cases hk; exact .inl ⟨hkl.symm, rfl⟩
    · rw [if_neg hkl] at hk; exact .inr ⟨fun h2 => hkl h2.symm, hk⟩
  have hlnk : ∀ k a b, Linked ix' k a b → Linked s.ix k a b ∨ (k = l ∧ a = nb ∧ b = x) := by
    intro k a b hl'
    rcases linked_upd hu hl' with ⟨ha, ls, h2, h3⟩ | ⟨_, h2⟩
    · rw [hid] at ha; subst ha
      rcases hlinks k ls h2 with ⟨rfl, rfl⟩ | ⟨_, h4⟩
      · rcases List.mem_cons.mp (hsub b h3) with rfl | h5
        · exact .inr ⟨rfl, rfl, rfl⟩
        · exact .inl ⟨v, cur, hv, hcur, h5⟩
      · exact .inl ⟨v, ls, hv, h4, h3⟩
    · exact .inl h2
  have hmono : Mono ix0 s.ix ix' g g s.ever s.ever :=
    ⟨fun _ _ h2 => has_upd hu hmn h2, fun _ h2 => ⟨h2, rfl⟩, fun _ _ _ h2 => h2, by rw [hu.same.maxLayer]; exact Nat.le_refl _,
      fun _ _ _ h2 => h2⟩
  refine h.move h.gok hids ?_ ?_ hmono ?_ ?_ ?_ ?_ (px hmono) ?_ hc
  · refine good_upd hu hmn h.good (by rw [hconns, hlev, List.length_set]; exact hcl) ?_
    intro k ls hk'
    rw [hid]
    rcases hlinks k ls hk' with ⟨rfl, rfl⟩ | ⟨_, h2⟩
    · obtain ⟨_, h3, _, h4⟩ := hlists k cur hcur
      refine ⟨hnd, ?_, hlim, ?_⟩
      · intro hc
        rcases List.mem_cons.mp (hsub nb hc) with h5 | h5
        · exact hnx h5
        · exact h3 h5
      · intro b hb
        rcases List.mem_cons.mp (hsub b hb) with rfl | h5
        · exact hx
        · exact h4 b h5
    · exact hlists k ls h2
  · intro y w hy hw
    rw [hu.get] at hw
    split at hw
    · rename_i hyx; cases hw
      rw [hid] at hyx
      subst hyx
      rw [hlev]; exact h.lvl y v hy hv
    · exact h.lvl y w hy hw
  · rw [hu.same.entry, hu.same.maxLayer]; exact hmono.entryOk h.entry
  · rw [hu.same.maxLayer]; exact h.mmax
  · intro y w hw hmt'
    rw [hu.get] at hw
    have hold : ∃ w', s.ix.get y = some w' ∧ w'.maint = false := by
      split at hw
      · rename_i hyx; cases hw
        rw [hid] at hyx; subst hyx
        exact ⟨v, hv, by rw [← hmt]; exact hmt'⟩
      · exact ⟨w, hw, hmt'⟩
    obtain ⟨w', hw', hmt''⟩ := hold
    rcases h.maint y w' hw' hmt'' with h2 | h2
    · exact .inl h2
    · refine .inr ?_
      have : y ≠ x := by rintro rfl; exact hne h2
      rw [if_neg this]; exact h2
  · intro k a b hl'
    rcases hlnk k a b hl' with h2 | ⟨rfl, rfl, rfl⟩
    · exact .inl (h.evl _ _ _ h2)
    · exact .inr ⟨hroot, hk, hmono.has _ _ hx⟩
  · intro y hy
    refine ⟨fun h2 => ?_, rfl, fun _ => rfl, ?_⟩
    · rw [hu.get, hid, if_neg]
      · exact h2
      · rintro rfl; rw [hv] at h2; cases h2
    · intro k ep1 todo b _ _ hev h2 hc'
      rcases hlnk _ _ _ hc' with h3 | ⟨_, _, h3⟩
      · exact h2 h3
      · exact hy h3

theorem connect_ids (P : Params V D) (vo : VecOracle V) (x l nb : Nat) {ix : Index V} (h : IdsOk ix) :
    IdsOk (connectNeighbor P vo x l ix nb).1 := (connectNeighbor_ext P vo x l ix nb).ids h

theorem raised_same {v : Vertex V} {l : Nat} (h : l ≤ v.level) : raised v l = { v with committed := false } := by
  unfold raised; rw [if_neg (by omega)]

theorem inv_connect (h : Inv P J ix0 s g) {x l ep nb : Nat} {todo : List Nat} (hp : s.pc x = .linking l ep (nb :: todo)) :
    Inv P J ix0 (s.at x (connectNeighbor P (J x).vo x l s.ix nb).1
      (match (connectNeighbor P (J x).vo x l s.ix nb).2 with | none => .linking l ep todo | some e => .ended (some e))) g := by
  have h1 := h.pc x
  rw [hp] at h1
  obtain ⟨hb, hx, hun, hnd, htodo, hbel⟩ := h1
  obtain ⟨hev, hnl⟩ := htodo nb (by simp)
  obtain ⟨hr, hk, hh, hhx⟩ := h.ev _ _ _ hev
  have hne : s.pc x ≠ .ended none := by rw [hp]; simp
  have hkx : g.Known (bs ix0) x := .inr (by rw [hun]; simp)
  have hnd' := List.nodup_cons.mp hnd
  rcases connectNeighbor_cases P (J x).vo x l s.ix nb with ⟨he, _⟩ | ⟨v, hv, hnx, _, hcase⟩
  · rw [he]
    exact h.stay hne ⟨hb, hx, hun, hnd'.2, fun b hb' => ⟨.inl (htodo b (by simp [hb'])).1, (htodo b (by simp [hb'])).2⟩, hbel⟩
  · obtain ⟨w, hw, hwl⟩ := hh
    rw [hv] at hw; cases hw
    have hrs := raised_same hwl
    obtain ⟨hid0, hcl, hlists⟩ := h.good nb v hv
    have hlt : l < v.conns.length := by omega
    obtain ⟨cur0, hcur0⟩ : ∃ cur, v.conns[l]? = some cur := ⟨v.conns[l], List.getElem?_eq_getElem hlt⟩
    obtain ⟨hcnd, hcs, hclim, hct⟩ := hlists l cur0 hcur0
    have hlim0 : cur0.length ≤ maxConns P l := hclim
    rcases hcase with ⟨e, h2, hu⟩ | ⟨cur, links, h2, hcur, hu, hcase⟩
    · rw [h2]
      rw [hrs] at hu
      refine inv_link (p := .ended (some e)) h hne hv hnx hcur0 (connect_ids P _ x l nb h.ids) hu hid0 rfl rfl (links := cur0) ?_ hlim0 hcnd
        (fun i hi => by simp [hi]) hhx hkx hr.symm (fun id v hv => cache_connect id v hv) (fun _ => hb)
      show v.conns = v.conns.set l cur0
      apply List.ext_getElem?
      intro k
      rw [List.getElem?_set]
      by_cases hkl : l = k
      · subst hkl; rw [if_pos rfl, if_pos hlt]; exact hcur0
      · rw [if_neg hkl]
    · rw [h2]
      rw [hrs] at hu hcur
      have hcc : cur = cur0 := by
        have h3 : v.conns[l]? = some cur := hcur
        rw [hcur0] at h3; cases h3; rfl
      subst hcc
      have hxc : x ∉ cur := fun hc => hnl ⟨v, cur, hv, hcur0, hc⟩
      have hprops : links.length ≤ maxConns P l ∧ links.Nodup ∧ ∀ i ∈ links, i ∈ x :: cur := by
        rcases hcase with ⟨h3, rfl⟩ | ⟨_, h4, h5, h6⟩
        · refine ⟨by simp; omega, ?_, ?_⟩
          · rw [List.nodup_append]
            refine ⟨hcnd, by simp, ?_⟩
            intro a ha b hb' hab
            rw [List.mem_singleton] at hb'
            subst hb'; subst hab
            exact hxc ha
          · intro i hi
            simp at hi ⊢
            exact hi.symm
        · exact ⟨h4, h5 (List.nodup_cons.mpr ⟨hxc, hcnd⟩), h6⟩
      refine inv_link (p := .linking l ep todo) h hne hv hnx hcur0 (connect_ids P _ x l nb h.ids) hu hid0 rfl rfl (links := links) rfl
        hprops.1 hprops.2.1 hprops.2.2 hhx hkx hr.symm (fun id v hv => cache_connect id v hv) ?_
      intro hmono
      refine ⟨hb, hmono.has _ _ hx, hun, hnd'.2, ?_, ?_⟩
      · intro b hb'
        obtain ⟨h3, h4⟩ := htodo b (by simp [hb'])
        refine ⟨.inl h3, ?_⟩
        intro hc
        rcases linked_upd hu hc with ⟨ha, _⟩ | ⟨_, h5⟩
        · have ha : b = v.id := ha
          rw [hid0] at ha; subst ha; exact hnd'.1 hb'
        · exact h4 h5
      · intro k hk'
        obtain ⟨h3, h4, h5⟩ := hbel k hk'
        exact ⟨h3, hmono.has _ _ h4, h5⟩

theorem inv_finish (h : Inv P J ix0 s g) {x ep : Nat} {v : Vertex V} (hp : s.pc x = .layers 0 ep) (hv : s.ix.get x = some v) :
    Inv P J ix0 (s.at x (if s.ix.maxLayer < (J x).level
        then { s.ix.put { v with maint := false } with entry := x, maxLayer := (J x).level }
        else s.ix.put { v with maint := false }) (.ended none)) g := by
  have h1 := h.pc x
  rw [hp] at h1
  obtain ⟨hb, hx, hun, _⟩ := h1
  generalize hix : (if s.ix.maxLayer < (J x).level
        then { s.ix.put { v with maint := false } with entry := x, maxLayer := (J x).level }
        else s.ix.put { v with maint := false }) = ix'
  have hid : v.id = x := h.ids.get hv
  have hget : ∀ id, ix'.get id = if id = x then some { v with maint := false } else s.ix.get id := by
    intro id
    have := get_put s.ix { v with maint := false } id
    subst hix
    split
    · rw [← hid]; exact this
    · rw [← hid]; exact this
  have hcache : ix'.cache = (s.ix.put { v with maint := false }).cache := by subst hix; split <;> rfl
  have hkv : ix'.kv = (s.ix.put { v with maint := false }).kv := by subst hix; split <;> rfl
  obtain ⟨_, hcl, hlists⟩ := h.good x v hv
  have hhas : ∀ l b, Has s.ix l b ↔ Has ix' l b := by
    intro l b
    unfold Has
    rw [hget]
    by_cases hbx : b = x
    · subst hbx; rw [if_pos rfl, hv]
      constructor
      · rintro ⟨w, hw, h2⟩; cases hw; exact ⟨_, rfl, h2⟩
      · rintro ⟨w, hw, h2⟩; cases hw; exact ⟨_, rfl, h2⟩
    · rw [if_neg hbx]
  have hlnk : ∀ l a b, Linked ix' l a b → Linked s.ix l a b := by
    rintro l a b ⟨w, ls, hw, h2, h3⟩
    rw [hget] at hw
    split at hw
    · rename_i ha; cases hw; subst ha; exact ⟨v, ls, hv, h2, h3⟩
    · exact ⟨w, ls, hw, h2, h3⟩
  have htop : s.ix.maxLayer ≤ ix'.maxLayer := by
    subst hix; split
    · show s.ix.maxLayer ≤ (J x).level; omega
    · exact Nat.le_refl _
  have hmono : Mono ix0 s.ix ix' g g s.ever s.ever :=
    ⟨fun _ _ h2 => (hhas _ _).mp h2, fun _ h2 => ⟨h2, rfl⟩, fun _ _ _ h2 => h2, htop, fun _ _ _ h2 => h2⟩
  have hids : IdsOk ix' := by
    have := idsOk_put h.ids { v with maint := false }
    exact ⟨by rw [hcache]; exact this.cache, by rw [hkv]; exact this.kv⟩
  refine h.move h.gok hids ?_ ?_ hmono ?_ ?_ ?_ ?_ ?_ ?_ ?_
  · intro id w hw
    rw [hget] at hw
    have hgood : ∀ w', s.ix.get id = some w' → w'.id = w.id → w'.level = w.level → w'.conns = w.conns → w.id = id ∧ w.conns.length = w.level + 1 ∧
        ∀ k links, w.conns[k]? = some links → links.Nodup ∧ id ∉ links ∧ links.length ≤ (if k = 0 then P.maxConn0 else P.maxConn) ∧
          ∀ b ∈ links, ∃ w, ix'.get b = some w ∧ k ≤ w.level := by
      intro w' hw' e1 e2 e3
      obtain ⟨g1, g2, g3⟩ := h.good id w' hw'
      rw [e1] at g1
      rw [e2, e3] at g2
      rw [e3] at g3
      refine ⟨g1, g2, ?_⟩
      intro k links hk
      obtain ⟨g4, g5, g6, g7⟩ := g3 k links hk
      exact ⟨g4, g5, g6, fun b hb' => (hhas _ _).mp (g7 b hb')⟩
    split at hw
    · rename_i he; cases hw; subst he
      exact hgood v hv rfl rfl rfl
    · exact hgood w hw rfl rfl rfl
  · intro y w hy hw
    rw [hget] at hw
    split at hw
    · rename_i he; cases hw; subst he; exact h.lvl y v hy hv
    · exact h.lvl y w hy hw
  · by_cases hm : s.ix.maxLayer < (J x).level
    · rw [if_pos hm] at hix
      have e1 : ix'.entry = x := by rw [← hix]
      have e2 : ix'.maxLayer = (J x).level := by rw [← hix]
      rw [e1, e2]
      refine ⟨.inr ⟨by rw [hun]; simp, ?_⟩, (hhas _ _).mp ⟨v, hv, ?_⟩⟩
      · have := h.mmax x (by rw [hun]; simp); omega
      · rw [h.lvl x v hb hv]; exact Nat.le_refl _
    · rw [if_neg hm] at hix
      have e1 : ix'.entry = s.ix.entry := by rw [← hix]; rfl
      have e2 : ix'.maxLayer = s.ix.maxLayer := by rw [← hix]; rfl
      rw [e1, e2]
      exact hmono.entryOk h.entry
  · intro y hy
    exact Nat.le_trans (h.mmax y hy) htop
  · intro y w hw hmt
    by_cases hyx : y = x
    · rw [if_pos hyx]; exact .inr rfl
    · rw [hget, if_neg hyx] at hw
      rw [if_neg hyx]; exact h.maint y w hw hmt
  · intro l a b hl; exact .inl (h.evl _ _ _ (hlnk _ _ _ hl))
  · exact ⟨hb, (hhas _ _).mp hx, hun⟩
  · intro y hy
    refine ⟨fun h2 => by rw [hget, if_neg hy]; exact h2, rfl, fun _ => rfl, ?_⟩
    intro l ep todo b _ _ _ h2 h3
    exact h2 (hlnk _ _ _ h3)
  · intro id w hw
    rw [hcache]; exact cache_put id w hw

end Fave.Weave
