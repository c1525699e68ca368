import Verif.Model.Weave
import Verif.Spec.Links
import Verif.Lemmas.WeaveGhost
import Verif.Lemmas.InsertWF
/-!
# What holds in every state of additions and flushes running at the same time
-/
namespace Fave.Weave
variable {V D : Type} [Dist D]
open Index Queue Spec

/-- `b` exists, on level `l` or higher -/
def Has (ix : Index V) (l b : Nat) : Prop := ∃ w, ix.get b = some w ∧ l ≤ w.level

/-- the vertices there at the beginning -/
abbrev bs (ix0 : Index V) : Nat → Bool := fun x => (ix0.get x).isSome
/-- the drawn levels -/
abbrev lv (J : Nat → Job V D) : Nat → Nat := fun x => (J x).level

/-- a start of the search, with its top layer -/
def EntryOk (ix0 ix : Index V) (g : Gh) (e m : Nat) : Prop := (bs ix0 e = true ∨ g.un e ≠ none ∧ g.mm e ≤ m) ∧ Has ix m e

/-- the entry to layer `n - 1`, the highest without links, is fixed, and none below -/
def Below (ix : Index V) (g : Gh) (x n ep : Nat) : Prop := ∀ k, n = k + 1 → g.ptr k x = some ep ∧ Has ix k ep ∧ ∀ j, j < k → g.ptr j x = none

/-- what is known about an addition, depending on where it is -/
def PcOk (P : Params V D) (ix0 ix : Index V) (g : Gh) (ever : Nat → Nat → Nat → Prop) (x : Nat) : Pc → Prop
  | .idle => g.un x = none ∧ (bs ix0 x = false → ix.get x = none)
  | .snap e m => bs ix0 x = false ∧ g.un x = none ∧ ix.get x = none ∧ EntryOk ix0 ix g e m ∧ m ≤ ix.maxLayer
  | .published e m => bs ix0 x = false ∧ g.un x = none ∧ Has ix 0 x ∧ EntryOk ix0 ix g e m ∧ m ≤ ix.maxLayer
  | .layers n ep => bs ix0 x = false ∧ Has ix 0 x ∧ g.un x = some n ∧ Below ix g x n ep
  | .chosen l ep nbs => bs ix0 x = false ∧ Has ix 0 x ∧ g.un x = some (l + 1) ∧ nbs.length ≤ P.maxConn ∧ nbs.Nodup ∧
      (∃ e0, g.ptr l x = some e0 ∧ ∀ b ∈ nbs, g.root l b = g.root l e0 ∧ Has ix l b ∧ g.Known (bs ix0) b) ∧ Below ix g x l ep
  | .linking l ep todo => bs ix0 x = false ∧ Has ix 0 x ∧ g.un x = some l ∧ todo.Nodup ∧ (∀ b ∈ todo, ever l x b ∧ ¬ Linked ix l b x) ∧
      Below ix g x l ep
  | .ended none => bs ix0 x = false ∧ Has ix 0 x ∧ g.un x = some 0
  | .ended (some _) => bs ix0 x = false

/-- what is known about a flush -/
def FcOk (ix : Index V) : Fc V → Prop
  | .encoded v _ => ∃ w, ix.cache.get v.id = some w
  | .stored id _ => ∃ w, ix.cache.get id = some w
  | _ => True

/-- the invariant; `g` is bookkeeping -/
structure Inv (P : Params V D) (J : Nat → Job V D) (ix0 : Index V) (s : St V) (g : Gh) : Prop where
  gok : g.Ok (bs ix0) (lv J)
  ids : IdsOk s.ix
  good : LinksOk P.maxConn0 P.maxConn s.ix.get
  lvl : ∀ x v, bs ix0 x = false → s.ix.get x = some v → v.level = (J x).level
  old : ∀ x, bs ix0 x = true → (s.ix.get x).isSome = true
  entry : EntryOk ix0 s.ix g s.ix.entry s.ix.maxLayer
  mmax : ∀ x, g.un x ≠ none → g.mm x ≤ s.ix.maxLayer
  maint : ∀ x v, s.ix.get x = some v → v.maint = false → bs ix0 x = true ∨ s.pc x = .ended none
  ev : ∀ l a b, s.ever l a b → g.root l a = g.root l b ∧ g.Known (bs ix0) b ∧ Has s.ix l b ∧ Has s.ix l a
  evl : ∀ l a b, Linked s.ix l a b → s.ever l a b
  pc : ∀ x, PcOk P ix0 s.ix g s.ever x (s.pc x)
  fc : ∀ f, FcOk s.ix (s.fc f)

/-! ## one vertex changes -/

theorem has_upd {ix ix' : Index V} {v : Vertex V} (hu : Upd ix ix' v) (hm : ∀ w, ix.get v.id = some w → w.level ≤ v.level) {l b : Nat}
    (h : Has ix l b) : Has ix' l b := by
  obtain ⟨w, hw, hl⟩ := h
  unfold Has
  rw [hu.get]
  by_cases hb : b = v.id
  · rw [if_pos hb]; subst hb; exact ⟨v, rfl, Nat.le_trans hl (hm w hw)⟩
  · rw [if_neg hb]; exact ⟨w, hw, hl⟩

theorem good_upd {base upper : Nat} {ix ix' : Index V} {v : Vertex V} (hu : Upd ix ix' v) (hm : ∀ w, ix.get v.id = some w → w.level ≤ v.level)
    (h : LinksOk base upper ix.get) (hl : v.conns.length = v.level + 1)
    (hk : ∀ k links, v.conns[k]? = some links → links.Nodup ∧ v.id ∉ links ∧ links.length ≤ (if k = 0 then base else upper) ∧
      ∀ b ∈ links, Has ix k b) : LinksOk base upper ix'.get := by
  intro id w hw
  rw [hu.get] at hw
  by_cases hb : id = v.id
  · rw [if_pos hb] at hw; cases hw
    refine ⟨hb.symm, hl, ?_⟩
    intro k links hlk
    obtain ⟨h1, h2, h3, h4⟩ := hk k links hlk
    exact ⟨h1, hb ▸ h2, h3, fun b hb => has_upd hu hm (h4 b hb)⟩
  · rw [if_neg hb] at hw
    obtain ⟨h1, h2, h3⟩ := h id w hw
    refine ⟨h1, h2, ?_⟩
    intro k links hlk
    obtain ⟨h4, h5, h6, h7⟩ := h3 k links hlk
    exact ⟨h4, h5, h6, fun b hb => has_upd hu hm (h7 b hb)⟩

theorem linked_upd {ix ix' : Index V} {v : Vertex V} (hu : Upd ix ix' v) {l a b : Nat} (h : Linked ix' l a b) :
    (a = v.id ∧ ∃ links, v.conns[l]? = some links ∧ b ∈ links) ∨ (a ≠ v.id ∧ Linked ix l a b) := by
  obtain ⟨w, links, hw, hl, hb⟩ := h
  rw [hu.get] at hw
  by_cases ha : a = v.id
  · rw [if_pos ha] at hw; cases hw; exact .inl ⟨ha, links, hl, hb⟩
  · rw [if_neg ha] at hw; exact .inr ⟨ha, w, links, hw, hl, hb⟩

/-! ## others are not disturbed -/

/-- how a step changes what others rely on -/
structure Mono (ix0 : Index V) (ix ix' : Index V) (g g' : Gh) (ever ever' : Nat → Nat → Nat → Prop) : Prop where
  has : ∀ l b, Has ix l b → Has ix' l b
  un : ∀ b, g.un b ≠ none → g'.un b ≠ none ∧ g'.mm b = g.mm b
  root : ∀ l a b, g.root l a = g.root l b → g'.root l a = g'.root l b
  top : ix.maxLayer ≤ ix'.maxLayer
  ever : ∀ l a b, ever l a b → ever' l a b

theorem Mono.known {ix0 ix ix' : Index V} {g g' : Gh} {ever ever' : Nat → Nat → Nat → Prop} (h : Mono ix0 ix ix' g g' ever ever') {b : Nat}
    (hb : g.Known (bs ix0) b) : g'.Known (bs ix0) b := hb.imp id (fun h1 => (h.un b h1).1)

theorem Mono.entryOk {ix0 ix ix' : Index V} {g g' : Gh} {ever ever' : Nat → Nat → Nat → Prop} (h : Mono ix0 ix ix' g g' ever ever') {e m : Nat}
    (hb : EntryOk ix0 ix g e m) : EntryOk ix0 ix' g' e m := by
  refine ⟨hb.1.imp id (fun h1 => ?_), h.has _ _ hb.2⟩
  obtain ⟨h2, h3⟩ := h.un e h1.1
  exact ⟨h2, by rw [h3]; exact h1.2⟩

/-- what an addition relies on stays, if its own entries in the bookkeeping do and no link to it appears behind its back -/
theorem PcOk.mono {P : Params V D} {ix0 ix ix' : Index V} {g g' : Gh} {ever ever' : Nat → Nat → Nat → Prop}
    (h : Mono ix0 ix ix' g g' ever ever') {x : Nat} {p : Pc} (hn : ix.get x = none → ix'.get x = none)
    (hun : g'.un x = g.un x) (hptr : ∀ l, g'.ptr l x = g.ptr l x)
    (hlink : ∀ l ep todo b, p = .linking l ep todo → b ∈ todo → ever l x b → ¬ Linked ix l b x → ¬ Linked ix' l b x)
    (hp : PcOk P ix0 ix g ever x p) : PcOk P ix0 ix' g' ever' x p := by
  have hbelow : ∀ n ep, Below ix g x n ep → Below ix' g' x n ep := by
    intro n ep hb k hk
    obtain ⟨h1, h2, h3⟩ := hb k hk
    exact ⟨by rw [hptr]; exact h1, h.has _ _ h2, fun j hj => by rw [hptr]; exact h3 j hj⟩
  cases p with
  | idle => exact ⟨by rw [hun]; exact hp.1, fun hb => hn (hp.2 hb)⟩
  | snap e m => exact ⟨hp.1, by rw [hun]; exact hp.2.1, hn hp.2.2.1, h.entryOk hp.2.2.2.1, Nat.le_trans hp.2.2.2.2 h.top⟩
  | published e m => exact ⟨hp.1, by rw [hun]; exact hp.2.1, h.has _ _ hp.2.2.1, h.entryOk hp.2.2.2.1, Nat.le_trans hp.2.2.2.2 h.top⟩
  | layers n ep => exact ⟨hp.1, h.has _ _ hp.2.1, by rw [hun]; exact hp.2.2.1, hbelow _ _ hp.2.2.2⟩
  | chosen l ep nbs =>
    obtain ⟨h1, h2, h3, h4, h5, ⟨e0, h6, h7⟩, h8⟩ := hp
    refine ⟨h1, h.has _ _ h2, by rw [hun]; exact h3, h4, h5, ⟨e0, by rw [hptr]; exact h6, ?_⟩, hbelow _ _ h8⟩
    intro b hb
    obtain ⟨h9, h10, h11⟩ := h7 b hb
    exact ⟨h.root _ _ _ h9, h.has _ _ h10, h.known h11⟩
  | linking l ep todo =>
    obtain ⟨h1, h2, h3, h4, h5, h6⟩ := hp
    refine ⟨h1, h.has _ _ h2, by rw [hun]; exact h3, h4, ?_, hbelow _ _ h6⟩
    intro b hb
    obtain ⟨h7, h8⟩ := h5 b hb
    exact ⟨h.ever _ _ _ h7, hlink l ep todo b rfl hb h7 h8⟩
  | ended err =>
    cases err with
    | none => exact ⟨hp.1, h.has _ _ hp.2.1, by rw [hun]; exact hp.2.2⟩
    | some e => exact hp

theorem FcOk.upd {ix ix' : Index V} (hc : ∀ id v, ix.cache.get id = some v → ∃ w, ix'.cache.get id = some w) {p : Fc V} (h : FcOk ix p) :
    FcOk ix' p := by
  cases p with
  | encoded v _ => obtain ⟨w, hw⟩ := h; exact hc _ _ hw
  | stored id _ => obtain ⟨w, hw⟩ := h; exact hc _ _ hw
  | idle | keys _ | ended => trivial

theorem cache_put {ix : Index V} {u : Vertex V} (id : Nat) (v : Vertex V) (h : ix.cache.get id = some v) :
    ∃ w, (ix.put u).cache.get id = some w := by
  unfold Index.put
  simp only [Tab.get_put]
  by_cases h1 : id = u.id
  · rw [if_pos h1]; exact ⟨_, rfl⟩
  · rw [if_neg h1]; exact ⟨v, h⟩

theorem cache_put2 {ix : Index V} {u u' : Vertex V} (id : Nat) (v : Vertex V) (h : ix.cache.get id = some v) :
    ∃ w, ((ix.put u).put u').cache.get id = some w := by
  obtain ⟨w, hw⟩ := cache_put (u := u) id v h
  exact cache_put id w hw

theorem cache_connect {P : Params V D} {vo : VecOracle V} {x l nb : Nat} {ix : Index V} (id : Nat) (v : Vertex V)
    (h : ix.cache.get id = some v) : ∃ w, (connectNeighbor P vo x l ix nb).1.cache.get id = some w := by
  unfold connectNeighbor
  split
  · exact ⟨v, h⟩
  · split
    · exact ⟨v, h⟩
    · split
      · exact ⟨v, h⟩
      · simp only
        split
        · exact cache_put id v h
        · split
          · exact cache_put2 id v h
          · split
            · exact cache_put id v h
            · split
              · exact cache_put id v h
              · split
                · exact cache_put id v h
                · exact cache_put2 id v h

/-! ## one step of an addition -/

theorem Inv.move {P : Params V D} {J : Nat → Job V D} {ix0 : Index V} {s : St V} {g : Gh} (h : Inv P J ix0 s g) {x : Nat} {p : Pc}
    {ix' : Index V} {g' : Gh} (gok : g'.Ok (bs ix0) (lv J)) (ids : IdsOk ix') (good : LinksOk P.maxConn0 P.maxConn ix'.get)
    (lvl : ∀ y v, bs ix0 y = false → ix'.get y = some v → v.level = (J y).level)
    (mono : Mono ix0 s.ix ix' g g' s.ever s.ever)
    (entry : EntryOk ix0 ix' g' ix'.entry ix'.maxLayer)
    (mmax : ∀ y, g'.un y ≠ none → g'.mm y ≤ ix'.maxLayer)
    (maint : ∀ y v, ix'.get y = some v → v.maint = false → bs ix0 y = true ∨ (if y = x then p else s.pc y) = .ended none)
    (ev : ∀ l a b, Linked ix' l a b → s.ever l a b ∨ g'.root l a = g'.root l b ∧ g'.Known (bs ix0) b ∧ Has ix' l b)
    (px : PcOk P ix0 ix' g' (s.at x ix' p).ever x p)
    (py : ∀ y, y ≠ x → (s.ix.get y = none → ix'.get y = none) ∧ g'.un y = g.un y ∧ (∀ l, g'.ptr l y = g.ptr l y) ∧
      (∀ l ep todo b, s.pc y = .linking l ep todo → b ∈ todo → s.ever l y b → ¬ Linked s.ix l b y → ¬ Linked ix' l b y))
    (fc : ∀ id v, s.ix.cache.get id = some v → ∃ w, ix'.cache.get id = some w) : Inv P J ix0 (s.at x ix' p) g' := by
  have mono' : Mono ix0 s.ix ix' g g' s.ever (s.at x ix' p).ever := ⟨mono.has, mono.un, mono.root, mono.top, fun l a b hh => .inl hh⟩
  refine ⟨gok, ids, good, lvl, ?_, entry, mmax, maint, ?_, ?_, ?_, ?_⟩
  · intro y hy
    obtain ⟨v, hv⟩ := Option.isSome_iff_exists.mp (h.old y hy)
    obtain ⟨w, hw, _⟩ := mono.has 0 y ⟨v, hv, Nat.zero_le _⟩
    show (ix'.get y).isSome = true
    rw [hw]; rfl
  · rintro l a b (hh | hh)
    · obtain ⟨h1, h2, h3, h4⟩ := h.ev l a b hh
      exact ⟨mono.root _ _ _ h1, mono.known h2, mono.has _ _ h3, mono.has _ _ h4⟩
    · rcases ev l a b hh with h1 | ⟨h1, h2, h3⟩
      · obtain ⟨h2, h3, h4, h5⟩ := h.ev l a b h1
        exact ⟨mono.root _ _ _ h2, mono.known h3, mono.has _ _ h4, mono.has _ _ h5⟩
      · refine ⟨h1, h2, h3, ?_⟩
        obtain ⟨v, links, hv, hl, _⟩ := hh
        obtain ⟨_, h5, _⟩ := good a v hv
        have := (List.getElem?_eq_some_iff.mp hl).1
        exact ⟨v, hv, by omega⟩
  · intro l a b hh
    exact .inr hh
  · intro y
    by_cases hy : y = x
    · subst hy
      have : (s.at y ix' p).pc y = p := by simp [St.at]
      rw [this]; exact px
    · have : (s.at x ix' p).pc y = s.pc y := by simp [St.at, hy]
      rw [this]
      obtain ⟨h1, h2, h3, h4⟩ := py y hy
      exact (h.pc y).mono mono' h1 h2 h3 h4
  · intro f
    exact (h.fc f).upd fc

end Fave.Weave
