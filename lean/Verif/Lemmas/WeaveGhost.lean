/-!
# Who enters a layer through whom

Bookkeeping for additions that run at the same time, used in `Lemmas/Weave`.  Below its top layer an addition enters each layer through a vertex
found one layer above.  If that vertex belongs to an addition that has not yet set its own links at this layer, the two are connected, but still
separate from the rest.  The pointers "enters through" never form a cycle; hence no addition meets itself, or a vertex already linked to it, when it
searches.
-/
namespace Fave.Weave

/-- one can get from `a` to `b` by following `p` at least once -/
inductive Lead (p : Nat → Option Nat) : Nat → Nat → Prop where
  | one {a b : Nat} : p a = some b → Lead p a b
  | cons {a b c : Nat} : p a = some b → Lead p b c → Lead p a c

theorem Lead.trans {p : Nat → Option Nat} {a b c : Nat} (h : Lead p a b) (h' : Lead p b c) : Lead p a c := by
  induction h with
  | one h => exact .cons h h'
  | cons h _ ih => exact .cons h (ih h')

theorem Lead.start {p : Nat → Option Nat} {a b : Nat} (h : Lead p a b) : ∃ c, p a = some c := by
  cases h with
  | one h => exact ⟨_, h⟩
  | cons h _ => exact ⟨_, h⟩

theorem Lead.mono {p p' : Nat → Option Nat} (hm : ∀ a b, p a = some b → p' a = some b) {a b : Nat} (h : Lead p a b) : Lead p' a b := by
  induction h with
  | one h => exact .one (hm _ _ h)
  | cons h _ ih => exact .cons (hm _ _ h) ih

/-- one more pointer -/
def upd (p : Nat → Option Nat) (x v : Nat) : Nat → Option Nat := fun a => if a = x then some v else p a

theorem upd_mono {p : Nat → Option Nat} {x v : Nat} (hn : p x = none) (a b : Nat) (h : p a = some b) : upd p x v a = some b := by
  unfold upd
  by_cases ha : a = x
  · subst ha; rw [hn] at h; cases h
  · rw [if_neg ha]; exact h

theorem Lead.upd {p : Nat → Option Nat} {x v a b : Nat} (h : Lead (upd p x v) a b) :
    Lead p a b ∨ (a = x ∨ Lead p a x) ∧ (v = b ∨ Lead p v b) := by
  induction h with
  | @one a b h =>
    unfold Weave.upd at h
    by_cases ha : a = x
    · rw [if_pos ha] at h; cases h; exact .inr ⟨.inl ha, .inl rfl⟩
    · rw [if_neg ha] at h; exact .inl (.one h)
  | @cons a b c h _ ih =>
    unfold Weave.upd at h
    by_cases ha : a = x
    · rw [if_pos ha] at h; cases h
      rcases ih with ih | ⟨_, ih⟩
      · exact .inr ⟨.inl ha, .inr ih⟩
      · exact .inr ⟨.inl ha, ih⟩
    · rw [if_neg ha] at h
      rcases ih with ih | ⟨ih, ih'⟩
      · exact .inl (.cons h ih)
      · refine .inr ⟨.inr ?_, ih'⟩
        rcases ih with rfl | ih
        · exact .one h
        · exact .cons h ih

/-- the bookkeeping -/
structure Gh where
  /-- how many layers (from below) have no links set yet; `none`: the addition has no entry yet -/
  un : Nat → Option Nat
  /-- the top layer the addition has read -/
  mm : Nat → Nat
  /-- `ptr l x`: where `x` enters layer `l` -/
  ptr : Nat → Nat → Option Nat
  /-- `root l w`: the addition without links at layer `l` that `w` hangs on; `none`: the old part -/
  root : Nat → Nat → Option Nat

variable (base : Nat → Bool) (lev : Nat → Nat)

/-- the highest layer at which the addition makes links -/
def Gh.top (g : Gh) (x : Nat) : Nat := Nat.min (lev x) (g.mm x)

/-- the links of `x` at layer `l` have been set -/
def Gh.Set (g : Gh) (l x : Nat) : Prop := base x = true ∨ ∃ n, g.un x = some n ∧ n ≤ l ∧ l ≤ g.top lev x

/-- old, or an addition that has its entry -/
def Gh.Known (g : Gh) (x : Nat) : Prop := base x = true ∨ g.un x ≠ none

/-- what holds throughout -/
structure Gh.Ok (g : Gh) : Prop where
  ac : ∀ l a, ¬ Lead (g.ptr l) a a
  r1 : ∀ l x, ¬ g.Set base lev l x → g.root l x = some x
  r2 : ∀ l w r, g.root l w = some r → ¬ g.Set base lev l r ∧ (w = r ∨ Lead (g.ptr l) w r)
  r3 : ∀ l w x, Lead (g.ptr l) w x → ¬ g.Set base lev l x → ∃ r, g.root l w = some r ∧ (r = x ∨ Lead (g.ptr l) r x)
  k : ∀ l w x, Lead (g.ptr l) w x → g.un x ≠ none → ¬ g.Set base lev (l + 1) x → l + 1 ≤ g.top lev x →
    Lead (g.ptr (l + 1)) w x ∨ g.top lev w ≤ l
  k0 : ∀ l w x, Lead (g.ptr l) w x → g.Known base x
  t : ∀ l w v, g.ptr l w = some v → g.mm w ≤ l → base v = true ∨ g.mm v ≤ l
  p1 : ∀ l w v, g.ptr l w = some v → base w = false ∧ l ≤ g.top lev w ∧ g.un w ≠ none
  on : ∀ l w v, g.ptr l w = some v → base v = true ∨ l ≤ lev v

variable {base lev}

theorem Gh.Ok.old {g : Gh} (h : g.Ok base lev) {l w x : Nat} (hl : Lead (g.ptr l) w x) (hm : g.mm w ≤ l) : base x = true ∨ g.mm x ≤ l := by
  induction hl with
  | one h1 => exact h.t _ _ _ h1 hm
  | @cons a b c h1 h2 ih =>
    rcases h.t _ _ _ h1 hm with hb | hb
    · obtain ⟨d, hd⟩ := h2.start
      rw [(h.p1 _ _ _ hd).1] at hb; cases hb
    · exact ih hb

/-- the entry of an addition does not hang on the addition -/
theorem Gh.Ok.apart {g : Gh} (h : g.Ok base lev) {l x ep : Nat} (hp : g.ptr l x = some ep) : g.root l ep ≠ some x := by
  intro hr
  rcases (h.r2 l ep x hr).2 with rfl | hl
  · exact h.ac _ _ (.one hp)
  · exact h.ac _ _ (.cons hp hl)

/-- at the beginning -/
def Gh.init (base : Nat → Bool) : Gh := ⟨fun _ => none, fun _ => 0, fun _ _ => none, fun _ w => if base w then none else some w⟩

theorem Gh.init_ok : (Gh.init base).Ok base lev := by
  have hl : ∀ l w x, ¬ Lead ((Gh.init base).ptr l) w x := fun l w x hh => by
    obtain ⟨c, hc⟩ := hh.start; cases hc
  refine ⟨fun l a => hl l a a, ?_, ?_, fun l w x hh _ => absurd hh (hl _ _ _), fun l w x hh _ _ _ => absurd hh (hl _ _ _),
    fun l w x hh => absurd hh (hl _ _ _), fun _ _ _ hh _ => ?_, fun _ _ _ hh => ?_, fun _ _ _ hh => ?_⟩
  rotate_left 2
  · cases hh
  · cases hh
  · cases hh
  · intro l x hs
    have : base x = false := by
      cases hb : base x with
      | false => rfl
      | true => exact absurd (.inl hb) hs
    simp [Gh.init, this]
  · intro l w r hr
    simp only [Gh.init] at hr
    split at hr
    · cases hr
    · cases hr
      rename_i hb
      refine ⟨?_, .inl rfl⟩
      rintro (h | ⟨n, hn, _⟩)
      · exact hb h
      · cases hn

/-- the addition `x`, which has read top layer `m`, gets its entry `v` -/
def Gh.descend (lev : Nat → Nat) (g : Gh) (x m v : Nat) : Gh :=
  { un := fun y => if y = x then some (Nat.min (lev x) m + 1) else g.un y
    mm := fun y => if y = x then m else g.mm y
    ptr := fun l => if l = Nat.min (lev x) m then upd (g.ptr l) x v else g.ptr l
    root := g.root }

theorem Gh.descend_ok {g : Gh} (h : g.Ok base lev) {x m v : Nat} (hb : base x = false) (hx : g.un x = none)
    (hv : g.Known base v) (hm : m ≤ lev x → base v = true ∨ g.mm v ≤ m) (hon : base v = true ∨ Nat.min (lev x) m ≤ lev v) :
    (g.descend lev x m v).Ok base lev := by
  have hvx : v ≠ x := by
    rintro rfl
    rcases hv with h1 | h1
    · rw [hb] at h1; cases h1
    · exact h1 hx
  have hpx : ∀ l, g.ptr l x = none := by
    intro l
    cases hp : g.ptr l x with
    | none => rfl
    | some w => exact absurd hx (h.p1 _ _ _ hp).2.2
  have hlx : ∀ l w, ¬ Lead (g.ptr l) w x := by
    intro l w hl
    rcases h.k0 _ _ _ hl with h1 | h1
    · rw [hb] at h1; cases h1
    · exact h1 hx
  have hset : ∀ l y, (g.descend lev x m v).Set base lev l y ↔ g.Set base lev l y := by
    intro l y
    unfold Gh.Set
    by_cases hy : y = x
    · subst hy
      simp only [Gh.descend, Gh.top, if_true, hx, hb]
      constructor
      · rintro (h1 | ⟨n, hn, h2, h3⟩)
        · cases h1
        · cases hn; omega
      · rintro (h1 | ⟨n, hn, h2, h3⟩)
        · cases h1
        · cases hn
    · simp only [Gh.descend, Gh.top, if_neg hy]
  have hmono : ∀ l a b, Lead (g.ptr l) a b → Lead ((g.descend lev x m v).ptr l) a b := by
    intro l a b hl
    refine hl.mono ?_
    intro a b hab
    simp only [Gh.descend]
    split
    · exact upd_mono (hpx l) a b hab
    · exact hab
  have hlead : ∀ l a b, Lead ((g.descend lev x m v).ptr l) a b →
      Lead (g.ptr l) a b ∨ l = Nat.min (lev x) m ∧ a = x ∧ (v = b ∨ Lead (g.ptr l) v b) := by
    intro l a b hl
    simp only [Gh.descend] at hl
    split at hl
    · rename_i he
      rcases hl.upd with h1 | ⟨h1, h2⟩
      · exact .inl h1
      · rcases h1 with h1 | h1
        · exact .inr ⟨he, h1, h2⟩
        · exact absurd h1 (hlx l a)
    · exact .inl hl
  have hknown : ∀ y, g.Known base y → (g.descend lev x m v).Known base y := by
    intro y hy
    rcases hy with hy | hy
    · exact .inl hy
    · refine .inr ?_
      simp only [Gh.descend]
      split
      · simp
      · exact hy
  have hptr : ∀ l w u, (g.descend lev x m v).ptr l w = some u → (g.ptr l w = some u ∧ w ≠ x) ∨ (l = Nat.min (lev x) m ∧ w = x ∧ u = v) := by
    intro l w u hp
    simp only [Gh.descend] at hp
    split at hp
    · unfold upd at hp
      split at hp
      · cases hp; rename_i h1 h2; exact .inr ⟨h1, h2, rfl⟩
      · rename_i h1 h2; exact .inl ⟨hp, h2⟩
    · refine .inl ⟨hp, ?_⟩
      rintro rfl
      rw [hpx l] at hp; cases hp
  refine ⟨?_, ?_, ?_, ?_, ?_, ?_, ?_, ?_, ?_⟩
  · intro l a hl
    rcases hlead _ _ _ hl with h1 | ⟨_, rfl, h1 | h1⟩
    · exact h.ac _ _ h1
    · exact hvx h1
    · exact hlx _ _ h1
  · intro l y hy
    exact h.r1 l y (fun hc => hy ((hset l y).mpr hc))
  · intro l w r hr
    obtain ⟨h1, h2⟩ := h.r2 l w r hr
    refine ⟨fun hc => h1 ((hset l r).mp hc), h2.imp id (hmono _ _ _)⟩
  · intro l w y hl hy
    have hy' : ¬ g.Set base lev l y := fun hc => hy ((hset l y).mpr hc)
    rcases hlead _ _ _ hl with h1 | ⟨he, rfl, h1⟩
    · obtain ⟨r, hr, h2⟩ := h.r3 l w y h1 hy'
      exact ⟨r, hr, h2.imp id (hmono _ _ _)⟩
    · refine ⟨w, h.r1 l w ?_, .inr hl⟩
      rintro (h2 | ⟨n, hn, _⟩)
      · rw [hb] at h2; cases h2
      · rw [hx] at hn; cases hn
  · intro l w y hl hu hy ht
    rcases hlead _ _ _ hl with h1 | ⟨he, rfl, h1⟩
    · by_cases hyx : y = x
      · subst hyx; exact absurd h1 (hlx _ _)
      · have hu' : g.un y ≠ none := by simpa only [Gh.descend, if_neg hyx] using hu
        have ht' : l + 1 ≤ g.top lev y := by simpa only [Gh.descend, Gh.top, if_neg hyx] using ht
        have hy' : ¬ g.Set base lev (l + 1) y := fun hc => hy ((hset _ y).mpr hc)
        rcases h.k l w y h1 hu' hy' ht' with h2 | h2
        · exact .inl (hmono _ _ _ h2)
        · refine .inr ?_
          have hwx : w ≠ x := by
            rintro rfl
            obtain ⟨c, hc⟩ := h1.start
            rw [hpx l] at hc; cases hc
          simpa only [Gh.descend, Gh.top, if_neg hwx] using h2
    · refine .inr ?_
      simp only [Gh.descend, Gh.top, if_true]
      rw [he]; exact Nat.le_refl _
  · intro l w y hl
    rcases hlead _ _ _ hl with h1 | ⟨he, rfl, h1 | h1⟩
    · exact hknown _ (h.k0 _ _ _ h1)
    · subst h1; exact hknown _ hv
    · exact hknown _ (h.k0 _ _ _ h1)
  · intro l w u hp hw
    have hu : ∀ y, base y = true ∨ g.Known base y ∧ g.mm y ≤ l → base y = true ∨ (g.descend lev x m v).mm y ≤ l := by
      rintro y (h1 | ⟨h1, h2⟩)
      · exact .inl h1
      · by_cases hyx : y = x
        · subst hyx
          rcases h1 with h1 | h1
          · exact .inl h1
          · exact absurd hx h1
        · refine .inr ?_
          simpa only [Gh.descend, if_neg hyx] using h2
    rcases hptr _ _ _ hp with ⟨h1, h2⟩ | ⟨he, rfl, rfl⟩
    · have hw' : g.mm w ≤ l := by simpa only [Gh.descend, if_neg h2] using hw
      exact hu u ((h.t _ _ _ h1 hw').imp id (fun h3 => ⟨h.k0 _ _ _ (.one h1), h3⟩))
    · have hw' : m ≤ l := by simpa only [Gh.descend, if_true] using hw
      have hlm : m ≤ lev w ∧ l = m := by
        rw [he] at hw' ⊢
        rcases Nat.le_total (lev w) m with h1 | h1
        · rw [show Nat.min (lev w) m = lev w from Nat.min_eq_left h1] at hw' ⊢; constructor <;> omega
        · rw [show Nat.min (lev w) m = m from Nat.min_eq_right h1] at hw' ⊢; exact ⟨h1, rfl⟩
      refine hu u ((hm hlm.1).imp id (fun h3 => ⟨hv, ?_⟩))
      omega
  · intro l w u hp
    rcases hptr _ _ _ hp with ⟨h1, h2⟩ | ⟨he, rfl, rfl⟩
    · obtain ⟨h3, h4, h5⟩ := h.p1 _ _ _ h1
      refine ⟨h3, ?_, ?_⟩
      · simpa only [Gh.descend, Gh.top, if_neg h2] using h4
      · simpa only [Gh.descend, if_neg h2] using h5
    · refine ⟨hb, ?_, ?_⟩
      · simp only [Gh.descend, Gh.top, if_true]; rw [he]; exact Nat.le_refl _
      · simp [Gh.descend]
  · intro l w u hp
    rcases hptr _ _ _ hp with ⟨h1, h2⟩ | ⟨he, rfl, rfl⟩
    · exact h.on _ _ _ h1
    · rw [he]; exact hon

/-- the addition `x`, at layer `l + 1`, finds its entry `v` to layer `l` -/
def Gh.choose (g : Gh) (x l v : Nat) : Gh := { g with ptr := fun k => if k = l then upd (g.ptr k) x v else g.ptr k }

theorem Gh.choose_set (g : Gh) (x l v k y : Nat) : (g.choose x l v).Set base lev k y = g.Set base lev k y := rfl

theorem Gh.choose_ok {g : Gh} (h : g.Ok base lev) {x l v ep n : Nat} (hb : base x = false) (hx : g.un x = some n) (hn : l + 1 < n)
    (ht : l + 1 ≤ g.top lev x) (hep : g.ptr (l + 1) x = some ep) (hnone : g.ptr l x = none) (hr : g.root (l + 1) v = g.root (l + 1) ep)
    (hv : g.Known base v) (hon : base v = true ∨ l + 1 ≤ lev v) : (g.choose x l v).Ok base lev := by
  have hmono : ∀ k a b, Lead (g.ptr k) a b → Lead ((g.choose x l v).ptr k) a b := by
    intro k a b hl
    refine hl.mono ?_
    intro a b hab
    simp only [Gh.choose]
    split
    · rename_i he; subst he; exact upd_mono hnone a b hab
    · exact hab
  have hlead : ∀ k a b, Lead ((g.choose x l v).ptr k) a b →
      Lead (g.ptr k) a b ∨ k = l ∧ (a = x ∨ Lead (g.ptr k) a x) ∧ (v = b ∨ Lead (g.ptr k) v b) := by
    intro k a b hl
    simp only [Gh.choose] at hl
    split at hl
    · rename_i he; exact hl.upd.imp id (fun h1 => ⟨he, h1⟩)
    · exact .inl hl
  have hptr : ∀ k w u, (g.choose x l v).ptr k w = some u → g.ptr k w = some u ∨ (k = l ∧ w = x ∧ u = v) := by
    intro k w u hp
    simp only [Gh.choose] at hp
    split at hp
    · unfold upd at hp
      split at hp
      · cases hp; rename_i h1 h2; exact .inr ⟨h1, h2, rfl⟩
      · exact .inl hp
    · exact .inl hp
  have hun : ∀ k, k < n → ¬ g.Set base lev k x := by
    rintro k hk (h1 | ⟨n', h1, h2, _⟩)
    · rw [hb] at h1; cases h1
    · rw [hx] at h1; cases h1; omega
  have hapart := h.apart hep
  have hvx : v ≠ x := by
    rintro rfl
    rw [h.r1 _ _ (hun (l + 1) hn)] at hr
    exact hapart hr.symm
  -- whoever `v` leads to and who has not set its links one layer up, `x` leads to one layer up
  have hup : ∀ y, v = y ∨ Lead (g.ptr l) v y → g.un y ≠ none → ¬ g.Set base lev (l + 1) y → l + 1 ≤ g.top lev y →
      Lead (g.ptr (l + 1)) x y := by
    intro y hy hu hs hty
    have hroot : ∃ r, g.root (l + 1) v = some r ∧ (r = y ∨ Lead (g.ptr (l + 1)) r y) := by
      rcases hy with rfl | hy
      · exact ⟨v, h.r1 _ _ hs, .inl rfl⟩
      · rcases h.k l v y hy hu hs hty with h1 | h1
        · exact h.r3 _ _ _ h1 hs
        · exfalso
          obtain ⟨c, hc⟩ := hy.start
          have hbv := (h.p1 _ _ _ hc).1
          rcases hon with h2 | h2
          · rw [hbv] at h2; cases h2
          · have hmv : g.mm v ≤ l := by
              have : Nat.min (lev v) (g.mm v) ≤ l := h1
              rcases Nat.le_total (lev v) (g.mm v) with h3 | h3
              · rw [show Nat.min (lev v) (g.mm v) = lev v from Nat.min_eq_left h3] at this; omega
              · rw [show Nat.min (lev v) (g.mm v) = g.mm v from Nat.min_eq_right h3] at this; exact this
            rcases h.old hy hmv with h3 | h3
            · exact hs (.inl h3)
            · have : g.top lev y ≤ g.mm y := Nat.min_le_right _ _
              omega
    obtain ⟨r, hr1, hr2⟩ := hroot
    rw [hr] at hr1
    have hxr : Lead (g.ptr (l + 1)) x r := by
      rcases (h.r2 _ _ _ hr1).2 with rfl | h1
      · exact .one hep
      · exact .cons hep h1
    rcases hr2 with rfl | hr2
    · exact hxr
    · exact hxr.trans hr2
  have hvl : ¬ Lead (g.ptr l) v x := fun hl =>
    h.ac _ _ (hup x (.inr hl) (by rw [hx]; simp) (hun (l + 1) hn) ht)
  refine ⟨?_, h.r1, ?_, ?_, ?_, ?_, ?_, ?_, ?_⟩
  · intro k a hl
    rcases hlead _ _ _ hl with h1 | ⟨rfl, h1, h2⟩
    · exact h.ac _ _ h1
    · rcases h1 with rfl | h1 <;> rcases h2 with rfl | h2
      · exact hvx rfl
      · exact hvl h2
      · exact hvl h1
      · exact hvl (h2.trans h1)
  · intro k w r hr'
    obtain ⟨h1, h2⟩ := h.r2 k w r hr'
    exact ⟨h1, h2.imp id (hmono _ _ _)⟩
  · intro k w y hl hy
    rcases hlead _ _ _ hl with h1 | ⟨rfl, h1, h2⟩
    · obtain ⟨r, hr1, hr2⟩ := h.r3 k w y h1 hy
      exact ⟨r, hr1, hr2.imp id (hmono _ _ _)⟩
    · rcases h1 with rfl | h1
      · exact ⟨w, h.r1 _ _ (hun k (by omega)), .inr hl⟩
      · obtain ⟨r, hr1, hr2⟩ := h.r3 k w x h1 (hun k (by omega))
        refine ⟨r, hr1, .inr ?_⟩
        have hxy : Lead ((g.choose x k v).ptr k) x y := by
          have hx1 : (g.choose x k v).ptr k x = some v := by simp [Gh.choose, upd]
          rcases h2 with rfl | h2
          · exact .one hx1
          · exact .cons hx1 (hmono _ _ _ h2)
        rcases hr2 with rfl | hr2
        · exact hxy
        · exact (hmono _ _ _ hr2).trans hxy
  · intro k w y hl hu hs hty
    rcases hlead _ _ _ hl with h1 | ⟨rfl, h1, h2⟩
    · exact (h.k k w y h1 hu hs hty).imp (hmono _ _ _) id
    · have hxy := hup y h2 hu hs hty
      rcases h1 with rfl | h1
      · exact .inl (hmono _ _ _ hxy)
      · rcases h.k k w x h1 (by rw [hx]; simp) (hun (k + 1) hn) ht with h3 | h3
        · exact .inl (hmono _ _ _ (h3.trans hxy))
        · exact .inr h3
  · intro k w y hl
    rcases hlead _ _ _ hl with h1 | ⟨rfl, h1, h2⟩
    · exact h.k0 _ _ _ h1
    · rcases h2 with rfl | h2
      · exact hv
      · exact h.k0 _ _ _ h2
  · intro k w u hp hw
    rcases hptr _ _ _ hp with h1 | ⟨rfl, rfl, rfl⟩
    · exact h.t _ _ _ h1 hw
    · exfalso
      have : g.top lev w ≤ g.mm w := Nat.min_le_right _ _
      have hw' : g.mm w ≤ k := hw
      omega
  · intro k w u hp
    rcases hptr _ _ _ hp with h1 | ⟨rfl, rfl, rfl⟩
    · exact h.p1 _ _ _ h1
    · exact ⟨hb, Nat.le_of_succ_le ht, by show g.un w ≠ none; rw [hx]; simp⟩
  · intro k w u hp
    rcases hptr _ _ _ hp with h1 | ⟨rfl, rfl, rfl⟩
    · exact h.on _ _ _ h1
    · exact hon.imp id (fun h1 => by omega)

/-- the addition `x` sets its links at layer `l`: what hangs on it now hangs where its entry does -/
def Gh.set (g : Gh) (x l ep : Nat) : Gh :=
  { g with
    un := fun y => if y = x then some l else g.un y
    root := fun k w => if k = l ∧ g.root k w = some x then g.root l ep else g.root k w }

theorem Gh.set_ok {g : Gh} (h : g.Ok base lev) {x l ep : Nat} (hb : base x = false) (hx : g.un x = some (l + 1))
    (hep : g.ptr l x = some ep) : (g.set x l ep).Ok base lev := by
  have ht : l ≤ g.top lev x := (h.p1 _ _ _ hep).2.1
  have hun : ∀ k, k ≤ l → ¬ g.Set base lev k x := by
    rintro k hk (h1 | ⟨n', h1, h2, _⟩)
    · rw [hb] at h1; cases h1
    · rw [hx] at h1; cases h1; omega
  have hset : ∀ k y, (g.set x l ep).Set base lev k y ↔ g.Set base lev k y ∨ k = l ∧ y = x := by
    intro k y
    unfold Gh.Set
    by_cases hy : y = x
    · subst hy
      simp only [Gh.set, if_true, hx, hb]
      constructor
      · rintro (h1 | ⟨n, hn, h2, h3⟩)
        · cases h1
        · cases hn
          by_cases hk : k = l
          · exact .inr ⟨hk, trivial⟩
          · exact .inl (.inr ⟨l + 1, rfl, by omega, h3⟩)
      · rintro ((h1 | ⟨n, hn, h2, h3⟩) | ⟨rfl, _⟩)
        · cases h1
        · cases hn; exact .inr ⟨l, rfl, by omega, h3⟩
        · exact .inr ⟨k, rfl, Nat.le_refl _, ht⟩
    · simp only [Gh.set, if_neg hy]
      constructor
      · exact .inl
      · rintro (h1 | ⟨_, h1⟩)
        · exact h1
        · exact absurd h1 hy
  have hapart := h.apart hep
  have hknown : ∀ y, g.un y ≠ none → (g.set x l ep).un y ≠ none := by
    intro y hy
    simp only [Gh.set]
    split
    · simp
    · exact hy
  have hknown' : ∀ y, (g.set x l ep).un y ≠ none → g.un y ≠ none := by
    intro y hy
    by_cases h1 : y = x
    · subst h1; rw [hx]; simp
    · simpa only [Gh.set, if_neg h1] using hy
  refine ⟨h.ac, ?_, ?_, ?_, ?_, ?_, h.t, ?_, h.on⟩
  · intro k y hy
    have h1 : ¬ g.Set base lev k y := fun hc => hy ((hset k y).mpr (.inl hc))
    have h2 : ¬ (k = l ∧ y = x) := fun hc => hy ((hset k y).mpr (.inr hc))
    have h3 := h.r1 k y h1
    simp only [Gh.set]
    rw [if_neg]
    · exact h3
    · rintro ⟨hk, h4⟩
      rw [h3] at h4; cases h4
      exact h2 ⟨hk, rfl⟩
  · intro k w r hr
    simp only [Gh.set] at hr
    split at hr
    · rename_i h1
      obtain ⟨rfl, h1⟩ := h1
      obtain ⟨h2, h3⟩ := h.r2 _ _ _ hr
      have hrx : r ≠ x := by rintro rfl; exact hapart hr
      refine ⟨?_, .inr ?_⟩
      · intro hc
        rcases (hset k r).mp hc with h4 | ⟨_, h4⟩
        · exact h2 h4
        · exact hrx h4
      · have hxr : Lead (g.ptr k) x r := by
          rcases h3 with rfl | h3
          · exact .one hep
          · exact .cons hep h3
        rcases (h.r2 _ _ _ h1).2 with rfl | h4
        · exact hxr
        · exact h4.trans hxr
    · rename_i h1
      obtain ⟨h2, h3⟩ := h.r2 _ _ _ hr
      refine ⟨?_, h3⟩
      intro hc
      rcases (hset k r).mp hc with h4 | ⟨h4, h5⟩
      · exact h2 h4
      · subst h5; exact h1 ⟨h4, hr⟩
  · intro k w y hl hy
    have h1 : ¬ g.Set base lev k y := fun hc => hy ((hset k y).mpr (.inl hc))
    have h2 : ¬ (k = l ∧ y = x) := fun hc => hy ((hset k y).mpr (.inr hc))
    have hl' : Lead (g.ptr k) w y := hl
    obtain ⟨r, hr, h3⟩ := h.r3 k w y hl' h1
    by_cases hc : k = l ∧ r = x
    · obtain ⟨rfl, rfl⟩ := hc
      have hry : Lead (g.ptr k) r y := by
        rcases h3 with h3 | h3
        · exact absurd ⟨rfl, h3.symm⟩ h2
        · exact h3
      have hey : ep = y ∨ Lead (g.ptr k) ep y := by
        cases hry with
        | one h4 => rw [hep] at h4; cases h4; exact .inl rfl
        | cons h4 h5 => rw [hep] at h4; cases h4; exact .inr h5
      have hroot : (g.set r k ep).root k w = g.root k ep := by
        simp only [Gh.set]; rw [if_pos ⟨trivial, hr⟩]
      rw [hroot]
      rcases hey with rfl | hey
      · exact ⟨ep, h.r1 _ _ h1, .inl rfl⟩
      · exact h.r3 _ _ _ hey h1
    · refine ⟨r, ?_, h3⟩
      simp only [Gh.set]
      rw [if_neg]
      · exact hr
      · rintro ⟨h4, h5⟩
        rw [hr] at h5; cases h5
        exact hc ⟨h4, rfl⟩
  · intro k w y hl hu hs hty
    exact h.k k w y hl (hknown' y hu) (fun hc => hs ((hset _ y).mpr (.inl hc))) hty
  · intro k w y hl
    exact (h.k0 k w y hl).imp id (hknown y)
  · intro k w u hp
    obtain ⟨h1, h2, h3⟩ := h.p1 k w u hp
    exact ⟨h1, h2, hknown w h3⟩

end Fave.Weave
