import Verif.Lemmas.WeaveSolo
import Verif.Lemmas.Select
import Verif.Lemmas.SearchMany
import Verif.Lemmas.SearchComplete
import Verif.Props.C02
/-!
# Additions at the same time that lose no links
-/
namespace Fave.Weave
variable {V D : Type} [Dist D]
open Index Queue Spec

variable {P : Params V D} {J : Nat → Job V D} {ix0 : Index V} {s : St V} {g : Gh}

/-- searches that find something: as `seen`, and at least one neighbour is chosen -/
def eager (P : Params V D) (J : Nat → Job V D) : Sees V where
  entry := (seen P J).entry
  choice s x l ep nbs ep' := (seen P J).choice s x l ep nbs ep' ∧ nbs ≠ []

theorem eager_step {calm : Bool} {s s' : St V} (h : Step P J (eager P J) calm s s') : Step P J (seen P J) calm s s' := by
  cases h with
  | snap x hp hx hc => exact .snap x hp hx hc
  | publish x e m hp hx => exact .publish x e m hp hx
  | descend x e m ep hp hs => exact .descend x e m ep hp hs
  | choose x l ep ep' nbs hp hs => exact .choose x l ep ep' nbs hp hs.1
  | set x l ep nbs v hp hv hl => exact .set x l ep nbs v hp hv hl
  | connect x l ep nb todo hp => exact .connect x l ep nb todo hp
  | next x l ep hp => exact .next x l ep hp
  | fails x e hp => exact .fails x e hp
  | finish x ep w hp hw => exact .finish x ep w hp hw
  | flush f order h1 h2 h3 => exact .flush f order h1 h2 h3
  | skip f id todo h1 h2 => exact .skip f id todo h1 h2
  | encode f id todo v h1 hv h2 => exact .encode f id todo v h1 hv h2
  | store f todo w hf => exact .store f todo w hf
  | commit f i todo w hf hw => exact .commit f i todo w hf hw
  | flushEnd f n h1 => exact .flushEnd f n h1
  | flushFails f h1 => exact .flushFails f h1

theorem eager_reach {calm : Bool} (h : Reach P J (eager P J) calm ix0 s) : Reach P J (seen P J) calm ix0 s := by
  induction h with
  | refl => exact .refl
  | step _ hst ih => exact ih.step (eager_step hst)

/-- an addition that is about to choose at layer `l` -/
theorem Inv.level (h : Inv P J ix0 s g) {x l ep : Nat} (hp : s.pc x = .layers (l + 1) ep) :
    bs ix0 x = false ∧ l ≤ (J x).level ∧ Has s.ix l ep ∧ ∀ b, Conn s.ever l ep b → Has s.ix l b ∧ b ≠ x := by
  have h1 := h.pc x
  rw [hp] at h1
  obtain ⟨hb, hx, hun, hbel⟩ := h1
  obtain ⟨hptr, hhas, _⟩ := hbel l rfl
  have htop := (h.gok.p1 _ _ _ hptr).2.1
  have hk : g.Known (bs ix0) ep := h.gok.k0 _ _ _ (.one hptr)
  refine ⟨hb, Nat.le_trans htop (Nat.min_le_left _ _), hhas, ?_⟩
  intro b hc
  obtain ⟨h2, h3, _⟩ := h.conn hk hhas hc
  refine ⟨h3, ?_⟩
  rintro rfl
  have hset : ¬ g.Set (bs ix0) (lv J) l b := by
    rintro (h2 | ⟨n, h2, h3, _⟩)
    · rw [hb] at h2; cases h2
    · rw [hun] at h2; cases h2; omega
  rw [h.gok.r1 _ _ hset] at h2
  exact h.gok.apart hptr h2.symm

/-- connected with `r` both ways on the base layer -/
def Hooked (ix : Index V) (r b : Nat) : Prop := Conn (Linked ix) 0 r b ∧ Conn (Linked ix) 0 b r

/-- has had links on the base layer, or was there before -/
def Passed (ix0 : Index V) (ever : Nat → Nat → Nat → Prop) (b : Nat) : Prop := bs ix0 b = true ∨ ∃ c, ever 0 b c

def Ready (ix0 ix : Index V) (ever : Nat → Nat → Nat → Prop) (b : Nat) : Prop := Passed ix0 ever b ∧ Hooked ix ix0.entry b

/-- a new vertex that has had no links on the base layer -/
def Bare (ix0 : Index V) (ever : Nat → Nat → Nat → Prop) (x : Nat) : Prop := bs ix0 x = false → ∀ b, ¬ ever 0 x b

def PcR (ix0 ix : Index V) (ever : Nat → Nat → Nat → Prop) (x : Nat) : Pc → Prop
  | .idle => Bare ix0 ever x
  | .snap e _ => Bare ix0 ever x ∧ Ready ix0 ix ever e
  | .published e _ => Bare ix0 ever x ∧ Ready ix0 ix ever e
  | .layers 0 _ => Ready ix0 ix ever x
  | .layers (n + 1) ep => Bare ix0 ever x ∧ (n = 0 → Ready ix0 ix ever ep)
  | .chosen 0 _ nbs => Bare ix0 ever x ∧ nbs ≠ [] ∧ ∀ b ∈ nbs, Ready ix0 ix ever b
  | .chosen (l + 1) ep _ => Bare ix0 ever x ∧ (l = 0 → Ready ix0 ix ever ep)
  | .linking 0 _ todo => Passed ix0 ever x ∧ (∃ nb, Linked ix 0 x nb ∧ Hooked ix ix0.entry nb) ∧ (∀ b ∈ todo, Ready ix0 ix ever b) ∧
      (todo = [] → Hooked ix ix0.entry x)
  | .linking (l + 1) ep _ => Bare ix0 ever x ∧ (l = 0 → Ready ix0 ix ever ep)
  | .ended none => Ready ix0 ix ever x
  | .ended (some _) => True

structure Joined (ix0 : Index V) (s : St V) : Prop where
  tombs : s.ix.tombs = []
  kept : ∀ a b, s.ever 0 a b → Linked s.ix 0 a b
  base : ∀ x, bs ix0 x = true → Hooked s.ix ix0.entry x
  rdy : ∀ a b, s.ever 0 a b → Ready ix0 s.ix s.ever b
  entry : Ready ix0 s.ix s.ever s.ix.entry
  pc : ∀ x, PcR ix0 s.ix s.ever x (s.pc x)

theorem conn0_mono {ix ix' : Index V} (h : ∀ a b, Linked ix 0 a b → Linked ix' 0 a b) {a b : Nat} (hc : Conn (Linked ix) 0 a b) :
    Conn (Linked ix') 0 a b := by
  induction hc with
  | refl => exact .refl _
  | step _ hh ih => exact ih.step (h _ _ hh)

theorem Conn.trans {e : Nat → Nat → Nat → Prop} {l a b c : Nat} (h : Conn e l a b) (h' : Conn e l b c) : Conn e l a c := by
  induction h' with
  | refl => exact h
  | step _ hh ih => exact ih.step hh

theorem Hooked.mono {ix ix' : Index V} (h : ∀ a b, Linked ix 0 a b → Linked ix' 0 a b) {r b : Nat} (hc : Hooked ix r b) : Hooked ix' r b :=
  ⟨conn0_mono h hc.1, conn0_mono h hc.2⟩

theorem Passed.mono {ever ever' : Nat → Nat → Nat → Prop} (h : ∀ a b, ever 0 a b → ever' 0 a b) {b : Nat} (hc : Passed ix0 ever b) :
    Passed ix0 ever' b := hc.imp id (fun ⟨c, hh⟩ => ⟨c, h _ _ hh⟩)

theorem Ready.mono {ix ix' : Index V} {ever ever' : Nat → Nat → Nat → Prop} (h : ∀ a b, Linked ix 0 a b → Linked ix' 0 a b)
    (h' : ∀ a b, ever 0 a b → ever' 0 a b) {b : Nat} (hc : Ready ix0 ix ever b) : Ready ix0 ix' ever' b := ⟨hc.1.mono h', hc.2.mono h⟩

theorem PcR.mono {ix ix' : Index V} {ever ever' : Nat → Nat → Nat → Prop} (h : ∀ a b, Linked ix 0 a b → Linked ix' 0 a b)
    (h' : ∀ a b, ever 0 a b → ever' 0 a b) {x : Nat} (hb : Bare ix0 ever x → Bare ix0 ever' x) {p : Pc} (hp : PcR ix0 ix ever x p) :
    PcR ix0 ix' ever' x p := by
  cases p with
  | idle => exact hb hp
  | snap e m => exact ⟨hb hp.1, hp.2.mono h h'⟩
  | published e m => exact ⟨hb hp.1, hp.2.mono h h'⟩
  | layers n ep =>
    cases n with
    | zero => exact Ready.mono h h' hp
    | succ n => exact ⟨hb hp.1, fun hn => (hp.2 hn).mono h h'⟩
  | chosen l ep nbs =>
    cases l with
    | zero => exact ⟨hb hp.1, hp.2.1, fun b hh => (hp.2.2 b hh).mono h h'⟩
    | succ l => exact ⟨hb hp.1, fun hn => (hp.2 hn).mono h h'⟩
  | linking l ep todo =>
    cases l with
    | zero =>
      obtain ⟨h1, ⟨nb, h2, h3⟩, h4, h5⟩ := hp
      exact ⟨h1.mono h', ⟨nb, h _ _ h2, h3.mono h⟩, fun b hh => (h4 b hh).mono h h', fun ht => (h5 ht).mono h⟩
    | succ l => exact ⟨hb hp.1, fun hn => (hp.2 hn).mono h h'⟩
  | ended e =>
    cases e with
    | none => exact Ready.mono h h' hp
    | some e => trivial

/-- one step of an addition -/
theorem Joined.move (h : Joined ix0 s) {x : Nat} {p : Pc} {ix' : Index V} (tombs : ix'.tombs = [])
    (mono : ∀ a b, Linked s.ix 0 a b → Linked ix' 0 a b)
    (new : ∀ a b, Linked ix' 0 a b → Linked s.ix 0 a b ∨ (Ready ix0 ix' (s.at x ix' p).ever b ∧ (a = x ∨ Passed ix0 s.ever a)))
    (entry : ix'.entry = s.ix.entry ∨ Ready ix0 ix' (s.at x ix' p).ever ix'.entry)
    (evl : ∀ a b, Linked s.ix 0 a b → s.ever 0 a b)
    (px : PcR ix0 ix' (s.at x ix' p).ever x p) : Joined ix0 (s.at x ix' p) := by
  have hev : ∀ a b, s.ever 0 a b → (s.at x ix' p).ever 0 a b := fun _ _ hh => .inl hh
  refine ⟨tombs, ?_, ?_, ?_, ?_, ?_⟩
  · rintro a b (hh | hh)
    · exact mono _ _ (h.kept _ _ hh)
    · exact hh
  · intro y hy; exact (h.base y hy).mono mono
  · rintro a b (hh | hh)
    · exact (h.rdy a b hh).mono mono hev
    · rcases new a b hh with h1 | h1
      · exact (h.rdy a b (evl _ _ h1)).mono mono hev
      · exact h1.1
  · rcases entry with h1 | h1
    · show Ready ix0 ix' _ ix'.entry
      rw [h1]; exact h.entry.mono mono hev
    · exact h1
  · intro y
    by_cases hy : y = x
    · subst hy
      rw [at_pc]; exact px
    · have : (s.at x ix' p).pc y = s.pc y := by simp [St.at, hy]
      rw [this]
      refine (h.pc y).mono mono hev ?_
      intro hb hby b hh
      rcases hh with hh | hh
      · exact hb hby b hh
      · rcases new _ _ hh with h1 | ⟨_, h1 | h1 | ⟨c, h1⟩⟩
        · exact hb hby b (evl _ _ h1)
        · exact hy h1
        · rw [hby] at h1; cases h1
        · exact hb hby c h1

/-- the base layer does not change -/
theorem Joined.same (h : Joined ix0 s) (hi : Inv P J ix0 s g) {x : Nat} {p : Pc} {ix' : Index V} (tombs : ix'.tombs = [])
    (iff : ∀ a b, Linked ix' 0 a b ↔ Linked s.ix 0 a b)
    (entry : ix'.entry = s.ix.entry ∨ Ready ix0 ix' (s.at x ix' p).ever ix'.entry)
    (px : (∀ b, Bare ix0 s.ever b → Bare ix0 (s.at x ix' p).ever b) → (∀ b, Ready ix0 s.ix s.ever b → Ready ix0 ix' (s.at x ix' p).ever b) →
      PcR ix0 ix' (s.at x ix' p).ever x p) : Joined ix0 (s.at x ix' p) := by
  refine h.move tombs (fun a b hh => (iff a b).mpr hh) (fun a b hh => .inl ((iff a b).mp hh)) entry (fun a b hh => hi.evl _ _ _ hh) ?_
  refine px ?_ (fun b hb => hb.mono (fun a b hh => (iff a b).mpr hh) (fun _ _ hh => .inl hh))
  intro b hb hbb c hc
  rcases hc with hc | hc
  · exact hb hbb c hc
  · exact hb hbb c (hi.evl _ _ _ ((iff _ _).mp hc))

/-- one vertex changes, but not its links on the base layer -/
theorem linked_upd0 {ix ix' : Index V} {v w : Vertex V} (hu : Upd ix ix' v) (hw : ix.get v.id = some w) (h0 : v.conns[0]? = w.conns[0]?) (a b : Nat) :
    Linked ix' 0 a b ↔ Linked ix 0 a b := by
  unfold Linked
  rw [hu.get]
  by_cases ha : a = v.id
  · subst ha
    rw [if_pos rfl, hw]
    constructor
    · rintro ⟨u, ls, hu', h1, h2⟩; cases hu'; exact ⟨w, ls, rfl, by rw [← h0]; exact h1, h2⟩
    · rintro ⟨u, ls, hu', h1, h2⟩; cases hu'; exact ⟨v, ls, rfl, by rw [h0]; exact h1, h2⟩
  · rw [if_neg ha]

theorem nodup_bound {l : List Nat} (h : l.Nodup) {n a : Nat} (hb : ∀ i ∈ l, i < n) (ha : a < n) (hn : a ∉ l) : l.length < n := by
  have h1 : (a :: l).Nodup := List.nodup_cons.mpr ⟨hn, h⟩
  have := List.Nodup.length_le_of_subset h1 (show a :: l ⊆ List.range n by
    intro i hi
    rw [List.mem_range]
    rcases List.mem_cons.mp hi with rfl | hi
    · exact ha
    · exact hb i hi)
  rw [List.length_cons, List.length_range] at this
  exact this

theorem joined_step {calm : Bool} {s s' : St V} (one : ∀ x y, 1 ≤ (J x).level → 1 ≤ (J y).level → x = y)
    (hi : Inv P J ix0 s g) (hsm : ∀ id v, s.ix.get id = some v → id < P.maxConn0) (h : Joined ix0 s) (hst : Step P J (eager P J) calm s s') :
    Joined ix0 s' := by
  have hrefl : ∀ a b, Linked s.ix 0 a b ↔ Linked s.ix 0 a b := fun _ _ => Iff.rfl
  have hflush : ∀ {f : Nat} {p : Fc V} {ix' : Index V}, Twin s.ix ix' → ix'.entry = s.ix.entry → ix'.tombs = s.ix.tombs →
      Joined ix0 (s.fat f ix' p) := by
    intro f p ix' ht he htb
    have hl : ∀ a b, Linked s.ix 0 a b → Linked ix' 0 a b := by
      rintro a b ⟨v, ls, hv, h1, h2⟩
      obtain ⟨w, hw, _, _, h4, _⟩ := ht.from hv
      exact ⟨w, ls, hw, by rw [h4]; exact h1, h2⟩
    refine ⟨by rw [← h.tombs]; exact htb, fun a b hh => hl _ _ (h.kept a b hh), fun y hy => (h.base y hy).mono hl,
      fun a b hh => (h.rdy a b hh).mono hl (fun _ _ hh => hh), ?_, fun y => (h.pc y).mono hl (fun _ _ hh => hh) id⟩
    show Ready ix0 ix' s.ever ix'.entry
    rw [he]; exact h.entry.mono hl (fun _ _ hh => hh)
  cases hst with
  | snap x hp hx _ =>
    have h1 := h.pc x
    rw [hp] at h1
    exact h.same hi h.tombs hrefl (.inl rfl) (fun hb hr => ⟨hb _ h1, hr _ h.entry⟩)
  | publish x e m hp _ =>
    have h1 := h.pc x
    rw [hp] at h1
    have h2 := hi.pc x
    rw [hp] at h2
    refine h.same hi h.tombs ?_ (.inl rfl) (fun hb hr => ⟨hb _ h1.1, hr _ h1.2⟩)
    intro a b
    unfold Linked
    rw [get_put]
    by_cases ha : a = x
    · subst ha
      rw [if_pos (show a = (newNode a (J a).q (J a).level).id from rfl), h2.2.2.1]
      constructor
      · rintro ⟨u, ls, hu, h3, h4⟩
        cases hu
        simp only [newNode, List.getElem?_replicate] at h3
        split at h3
        · cases h3; cases h4
        · cases h3
      · rintro ⟨u, ls, hu, _⟩; cases hu
    · rw [if_neg (show ¬ a = (newNode x (J x).q (J x).level).id from ha)]
  | descend x e m ep hp hs =>
    have h1 := h.pc x
    rw [hp] at h1
    refine h.same hi h.tombs hrefl (.inl rfl) (fun hb hr => ?_)
    refine ⟨hb _ h1.1, fun _ => hr _ ?_⟩
    rcases hs with rfl | ⟨⟨v, hv, hm⟩, _⟩
    · exact h1.2
    · rcases hi.maint ep v hv hm with h2 | h2
      · exact ⟨.inl h2, h.base _ h2⟩
      · have h3 := h.pc ep
        rw [h2] at h3; exact h3
  | choose x l ep ep' nbs hp hs =>
    have h1 := h.pc x
    rw [hp] at h1
    obtain ⟨⟨_, _, hconn, hep'⟩, hne⟩ := hs
    obtain ⟨hb, hlev, hhas, hfar⟩ := hi.level hp
    refine h.same hi h.tombs hrefl (.inl rfl) (fun hba hr => ?_)
    cases l with
    | zero =>
      refine ⟨hba _ h1.1, hne, fun b hb => hr _ ?_⟩
      have hc := hconn b hb
      cases hc with
      | refl => exact h1.2 rfl
      | step _ hh => exact h.rdy _ _ hh
    | succ l =>
      refine ⟨hba _ h1.1, fun hl => hr _ ?_⟩
      subst hl
      have h2 : Conn s.ever 1 ep ep' := by
        rcases hep' with rfl | h2
        · exact .refl _
        · exact hconn _ h2
      obtain ⟨h3, h4⟩ := hfar _ h2
      cases hc : bs ix0 ep' with
      | true => exact ⟨.inl hc, h.base _ hc⟩
      | false =>
        obtain ⟨w, hw, hl⟩ := h3
        have := hi.lvl ep' w hc hw
        exact absurd (one ep' x (by omega) hlev) h4
  | set x l ep nbs v hp hv hl =>
    have h1 := h.pc x
    rw [hp] at h1
    have h2 := hi.pc x
    rw [hp] at h2
    have hb := h2.1
    have hid : (setConns v l nbs).id = x := (hi.ids.get hv : v.id = x)
    have hu := upd_put s.ix (setConns v l nbs)
    cases l with
    | succ l =>
      refine h.same hi h.tombs ?_ (.inl rfl) (fun hba hr => ⟨hba _ h1.1, fun hl => hr _ (h1.2 hl)⟩)
      refine linked_upd0 hu (by rw [hid]; exact hv) ?_
      rw [setConns_get, if_neg (by omega)]
    | zero =>
      obtain ⟨hbare, hne, hnb⟩ := h1
      have hnew : ∀ a b, Linked (s.ix.put (setConns v 0 nbs)) 0 a b → Linked s.ix 0 a b ∨ (a = x ∧ b ∈ nbs) := by
        intro a b hh
        rcases linked_upd hu hh with ⟨ha, ls, h3, h4⟩ | ⟨_, h3⟩
        · rw [setConns_get, if_pos rfl, if_pos hl] at h3
          cases h3
          exact .inr ⟨ha.trans hid, h4⟩
        · exact .inl h3
      have hmono : ∀ a b, Linked s.ix 0 a b → Linked (s.ix.put (setConns v 0 nbs)) 0 a b := by
        rintro a b ⟨w, ls, hw, h3, h4⟩
        by_cases ha : a = x
        · subst ha
          exact absurd (hi.evl _ _ _ ⟨w, ls, hw, h3, h4⟩) (hbare hb b)
        · exact ⟨w, ls, by rw [hu.get, hid, if_neg ha]; exact hw, h3, h4⟩
      have hxn : ∀ b ∈ nbs, Linked (s.ix.put (setConns v 0 nbs)) 0 x b := by
        intro b hb'
        refine ⟨_, nbs, by rw [hu.get, if_pos hid.symm], ?_, hb'⟩
        rw [setConns_get, if_pos rfl, if_pos hl]
      refine h.move h.tombs hmono ?_ (.inl rfl) (fun a b hh => hi.evl _ _ _ hh) ?_
      · intro a b hh
        rcases hnew a b hh with h3 | ⟨h3, h4⟩
        · exact .inl h3
        · exact .inr ⟨(hnb b h4).mono hmono (fun _ _ hh => .inl hh), .inl h3⟩
      · obtain ⟨b0, hb0⟩ := List.exists_mem_of_ne_nil nbs hne
        exact ⟨.inr ⟨b0, .inr (hxn b0 hb0)⟩, ⟨b0, hxn b0 hb0, (hnb b0 hb0).2.mono hmono⟩,
          fun b hb' => (hnb b hb').mono hmono (fun _ _ hh => .inl hh), fun ht => absurd ht hne⟩
  | connect x l ep nb todo hp =>
    have h1 := h.pc x
    rw [hp] at h1
    have h2 := hi.pc x
    rw [hp] at h2
    obtain ⟨hb, hx, hun, hnd, htodo, hbel⟩ := h2
    obtain ⟨hev, hnl⟩ := htodo nb (by simp)
    obtain ⟨hr, hk, ⟨w0, hw0, hwl⟩, hhx⟩ := hi.ev _ _ _ hev
    obtain ⟨hid0, hcl, hlists⟩ := hi.good nb w0 hw0
    have hnd' := List.nodup_cons.mp hnd
    rcases connectNeighbor_cases P (J x).vo x l s.ix nb with ⟨he, hwhy⟩ | ⟨v, hv, hnx, _, hcase⟩
    · rw [he]
      cases l with
      | succ l => exact h.same hi h.tombs hrefl (.inl rfl) (fun hba hr => ⟨hba _ h1.1, fun hl => hr _ (h1.2 hl)⟩)
      | zero =>
        exfalso
        rcases hwhy with h3 | h3 | h3
        · rw [h3] at hw0; cases hw0
        · subst h3
          obtain ⟨v, ls, h3, h4, h5⟩ := h.kept _ _ hev
          exact ((hi.good _ v h3).2.2 0 ls h4).2.1 h5
        · rw [h.tombs] at h3; cases h3
    · rw [hw0] at hv; cases hv
      have hrs := raised_same hwl
      rcases hcase with ⟨e, h2, hu⟩ | ⟨cur, links, h2, hcur, hu, hcase⟩
      · rw [h2]
        rw [hrs] at hu
        refine h.same hi (by rw [hu.same.tombs]; exact h.tombs) (linked_upd0 (w := w0) hu (by rw [show ({ w0 with committed := false } : Vertex V).id = nb from hid0]; exact hw0) rfl)
          (.inl hu.same.entry) (fun _ _ => trivial)
      · rw [h2]
        rw [hrs] at hu hcur
        have hidn : (setConns { w0 with committed := false } l links).id = nb := hid0
        cases l with
        | succ l =>
          refine h.same hi (by rw [hu.same.tombs]; exact h.tombs) (linked_upd0 (w := w0) hu (by rw [hidn]; exact hw0) ?_) (.inl hu.same.entry)
            (fun hba hr => ⟨hba _ h1.1, fun hl => hr _ (h1.2 hl)⟩)
          rw [setConns_get, if_neg (by omega)]
        | zero =>
          obtain ⟨hpx, ⟨n0, hn0, hn0'⟩, hrd, _⟩ := h1
          have hcur' : w0.conns[0]? = some cur := hcur
          obtain ⟨hcnd, hcs, hclim, hct⟩ := hlists 0 cur hcur'
          have hlt : cur.length < P.maxConn0 := by
            refine nodup_bound hcnd (a := nb) ?_ (hsm nb w0 hw0) hcs
            intro i hi'
            obtain ⟨u, hu', _⟩ := hct i hi'
            exact hsm i u hu'
          have hlinks : links = cur ++ [x] := by
            rcases hcase with ⟨_, h3⟩ | ⟨h3, _⟩
            · exact h3
            · exact absurd hlt (Nat.not_lt.mpr h3)
          subst hlinks
          have hget : (connectNeighbor P (J x).vo x 0 s.ix nb).1.get nb = some (setConns { w0 with committed := false } 0 (cur ++ [x])) := by
            rw [hu.get, if_pos hidn.symm]
          have hl0 : (setConns { w0 with committed := false } 0 (cur ++ [x])).conns[0]? = some (cur ++ [x]) := by
            rw [setConns_get, if_pos rfl, if_pos (show 0 < w0.conns.length by omega)]
          have hnew : ∀ a b, Linked (connectNeighbor P (J x).vo x 0 s.ix nb).1 0 a b → Linked s.ix 0 a b ∨ (a = nb ∧ b = x) := by
            intro a b hh
            rcases linked_upd hu hh with ⟨ha, ls, h3, h4⟩ | ⟨_, h3⟩
            · rw [hl0] at h3; cases h3
              have ha := ha.trans hidn
              rcases List.mem_append.mp h4 with h5 | h5
              · exact .inl ⟨w0, cur, by rw [ha]; exact hw0, hcur', h5⟩
              · exact .inr ⟨ha, List.mem_singleton.mp h5⟩
            · exact .inl h3
          have hmono : ∀ a b, Linked s.ix 0 a b → Linked (connectNeighbor P (J x).vo x 0 s.ix nb).1 0 a b := by
            rintro a b ⟨w, ls, hw, h3, h4⟩
            by_cases ha : a = nb
            · subst ha
              rw [hw0] at hw; cases hw
              rw [hcur'] at h3; cases h3
              exact ⟨_, _, hget, hl0, List.mem_append_left _ h4⟩
            · exact ⟨w, ls, by rw [hu.get, if_neg (by rw [hidn]; exact ha)]; exact hw, h3, h4⟩
          have hrn := hrd nb (by simp)
          have hhook : Hooked (connectNeighbor P (J x).vo x 0 s.ix nb).1 ix0.entry x := by
            refine ⟨(conn0_mono hmono hrn.2.1).step ⟨_, _, hget, hl0, by simp⟩, ?_⟩
            exact ((Conn.refl x).step (hmono _ _ hn0)).trans (conn0_mono hmono hn0'.2)
          have hpx' : Passed ix0 (s.at x (connectNeighbor P (J x).vo x 0 s.ix nb).1 (.linking 0 ep todo)).ever x :=
            hpx.mono (fun _ _ hh => .inl hh)
          refine h.move (by rw [hu.same.tombs]; exact h.tombs) hmono ?_ (.inl hu.same.entry) (fun a b hh => hi.evl _ _ _ hh) ?_
          · intro a b hh
            rcases hnew a b hh with h3 | ⟨h3, h4⟩
            · exact .inl h3
            · subst h3; subst h4
              exact .inr ⟨⟨hpx', hhook⟩, .inr hrn.1⟩
          · exact ⟨hpx', ⟨n0, hmono _ _ hn0, hn0'.mono hmono⟩, fun b hb' => (hrd b (by simp [hb'])).mono hmono (fun _ _ hh => .inl hh), fun _ => hhook⟩
  | next x l ep hp =>
    have h1 := h.pc x
    rw [hp] at h1
    refine h.same hi h.tombs hrefl (.inl rfl) (fun hba hr => ?_)
    cases l with
    | zero => exact hr _ ⟨h1.1, h1.2.2.2 rfl⟩
    | succ l => exact ⟨hba _ h1.1, fun hl => hr _ (h1.2 hl)⟩
  | fails x e hp => exact h.same hi h.tombs hrefl (.inl rfl) (fun _ _ => trivial)
  | finish x ep w hp hw =>
    have h1 := h.pc x
    rw [hp] at h1
    have hid : w.id = x := hi.ids.get hw
    have hlk : ∀ a b, Linked (s.ix.put { w with maint := false }) 0 a b ↔ Linked s.ix 0 a b :=
      linked_upd0 (w := w) (upd_put s.ix { w with maint := false }) (by rw [show ({ w with maint := false } : Vertex V).id = x from hid]; exact hw) rfl
    split
    · refine h.same hi h.tombs hlk (.inr ?_) (fun _ hr => hr _ h1)
      exact Ready.mono (fun a b hh => (hlk a b).mpr hh) (fun _ _ hh => .inl hh) h1
    · exact h.same hi h.tombs hlk (.inl rfl) (fun _ hr => hr _ h1)
  | flush f order _ _ _ => exact hflush (fun _ => .inl rfl) rfl rfl
  | skip f id todo _ _ => exact hflush (fun _ => .inl rfl) rfl rfl
  | encode f id todo v _ hv _ => exact hflush (fun _ => .inl rfl) rfl rfl
  | store f todo v hf =>
    have h1 := hi.fc f
    rw [hf] at h1
    obtain ⟨w, hw⟩ := h1
    refine hflush (fun id => .inl ?_) rfl rfl
    unfold Index.get
    dsimp only
    by_cases hid : id = v.id
    · subst hid; rw [hw]
    · rw [Tab.get_put, if_neg hid]
  | commit f id todo v hf hv =>
    have hid := hi.ids.cache id v hv
    have hg : s.ix.get id = some v := by unfold Index.get; rw [hv]
    refine hflush (fun y => ?_) rfl rfl
    rw [get_put]
    split
    · rename_i hy
      have hy : y = v.id := hy
      rw [hid] at hy; subst hy
      exact .inr ⟨v, true, hg, rfl⟩
    · exact .inl rfl
  | flushEnd f n _ => exact hflush (fun _ => .inl rfl) rfl rfl
  | flushFails f _ => exact hflush (fun _ => .inl rfl) rfl rfl

theorem joined_begin (h0 : Start P ix0) (ht : ix0.tombs = []) (hc : ∀ x v, ix0.get x = some v → Hooked ix0 ix0.entry x) :
    Joined ix0 (St.begin ix0) := by
  have hb : ∀ x, bs ix0 x = true → Hooked ix0 ix0.entry x := by
    intro x hx
    cases hg : ix0.get x with
    | none => rw [bs, hg] at hx; cases hx
    | some v => exact hc x v hg
  have hl : ∀ a b, Linked ix0 0 a b → bs ix0 a = true ∧ bs ix0 b = true := by
    rintro a b ⟨w, ls, hw, h1, h2⟩
    obtain ⟨u, hu, _⟩ := ((h0.links a w hw).2.2 0 ls h1).2.2.2 b h2
    exact ⟨by rw [bs, hw]; rfl, by rw [bs, hu]; rfl⟩
  obtain ⟨v, hv, _⟩ := h0.entry
  have he : bs ix0 ix0.entry = true := by rw [bs, hv]; rfl
  refine ⟨ht, fun _ _ hh => hh, hb, fun a b hh => ⟨.inl (hl a b hh).2, hb _ (hl a b hh).2⟩, ⟨.inl he, hb _ he⟩, ?_⟩
  intro x hx b hh
  rw [(hl x b hh).1] at hx; cases hx

theorem joined_reach {calm : Bool} (one : ∀ x y, 1 ≤ (J x).level → 1 ≤ (J y).level → x = y) (h0 : Start P ix0) (ht : ix0.tombs = [])
    (hc : ∀ x v, ix0.get x = some v → Hooked ix0 ix0.entry x) (h : Reach P J (eager P J) calm ix0 s)
    (hsm : ∀ id v, s.ix.get id = some v → id < P.maxConn0) : Joined ix0 s := by
  induction h with
  | refl => exact joined_begin h0 ht hc
  | step hr hst ih =>
    obtain ⟨g, hi⟩ := inv_reach h0 (eager_reach hr)
    have hsm' : ∀ id v, _ → id < P.maxConn0 := fun id v hv => by
      obtain ⟨w, hw, _⟩ := keeps h0.conn hi (eager_step hst) id v hv
      exact hsm id w hw
    exact joined_step one hi hsm' (ih hsm') hst

/-! ## undisturbed searches find something -/

theorem chooseAt_ne [LawfulDist D] {ix : Index V} {j : Job V D} {x l ep ep' : Nat} {nbs : List Nat} (hm : 0 < P.maxConn) (hef : 0 < P.efC)
    (hsym : ∀ a b, P.metric.dist a b = P.metric.dist b a) (ht : ix.tombs = []) (hsm : ∀ id v, ix.get id = some v → id < P.visitedSize)
    (hep : ∃ v, ix.get ep = some v) (h : chooseAt P j x ix ep l = .ok (nbs, ep')) : nbs ≠ [] := by
  obtain ⟨v, hv⟩ := hep
  unfold chooseAt at h
  split at h
  · cases h
  · rename_i e he
    obtain ⟨he1, he2⟩ := pickEntry_ok hv he
    split at h
    · cases h
    · rename_i results hr
      split at h
      · cases h
      · rename_i kept hk
        have heps : Search.EpsOk ((ix.graph P).senv j.q none) [e] :=
          ⟨by simp, fun y hy => by simp at hy; subst hy; rw [he1]; exact hsm _ _ hv⟩
        have hgood := Graph.good_entry (g := ix.graph P) hsym none he2
        have hne : results.toList ≠ [] := by
          intro hn
          rcases Search.searchLayer_many heps (by
            intro y hy; simp at hy; subst hy
            exact ⟨y.dist, (Search.hasDist_iff _ _ _).mp (by rw [he1]; exact hgood)⟩) hr with h1 | h1
          · have h2 : results.size = 0 := by rw [← Array.length_toList, hn]; rfl
            have h3 : (1 : Int) ≤ P.efC := by exact_mod_cast hef
            omega
          · have := h1 e.id (.start _ (by simp)) ⟨by show ix.tombs.contains e.id = false; rw [ht]; rfl, fun _ p hp => by cases hp⟩
            rw [hn] at this; simp at this
        have hkn : kept.toList ≠ [] := by
          by_cases hsz : results.size < P.maxConn
          · unfold selectNeighbors at hk
            rw [if_pos hsz] at hk
            cases hk; exact hne
          · obtain ⟨kl, h1, _, _, _, h2⟩ := selectNeighbors_spec (by omega) hk
            obtain ⟨c, hc⟩ := List.exists_mem_of_ne_nil _ hne
            intro hn
            rw [hn] at h1
            have := List.Perm.nil_eq h1
            subst this
            rcases h2 c hc rfl with h3 | ⟨h3, _⟩ | ⟨s, h3, _⟩
            · cases h3
            · simp at h3; omega
            · cases h3
        have hnn : (drain lessMax kept).map Item.id ≠ [] := by
          intro hn
          have h1 := List.map_eq_nil_iff.mp hn
          have := drain_perm lessMax kept
          rw [h1] at this
          exact hkn (List.Perm.nil_eq this).symm
        simp only at h
        split at h
        · rename_i hl
          exact absurd (List.getLast?_eq_none_iff.mp hl) hnn
        · simp only [Except.ok.injEq, Prod.mk.injEq] at h
          obtain ⟨rfl, _⟩ := h
          exact hnn

/-- nobody is marked as deleted -/
theorem tombs_step {sees : Sees V} {calm : Bool} {s s' : St V} (hst : Step P J sees calm s s') : s'.ix.tombs = s.ix.tombs := by
  cases hst with
  | connect x l ep nb todo hp =>
    show (connectNeighbor P (J x).vo x l s.ix nb).1.tombs = _
    rcases connectNeighbor_cases P (J x).vo x l s.ix nb with ⟨he, _⟩ | ⟨v, _, _, _, ⟨e, _, hu⟩ | ⟨_, _, _, _, hu, _⟩⟩
    · rw [he]
    · exact hu.same.tombs
    · exact hu.same.tombs
  | finish x ep w hp hw =>
    show (ite _ _ _ : Index V).tombs = _
    split <;> rfl
  | _ => rfl

theorem reach_eager [LawfulDist D] {calm : Bool} (h0 : Start P ix0) (hm : 0 < P.maxConn) (hef : 0 < P.efC)
    (hsym : ∀ a b, P.metric.dist a b = P.metric.dist b a) (ht : ix0.tombs = []) (hv : P.cacheSize ≤ P.visitedSize)
    (hsm : ∀ id v, ix0.get id = some v → id < P.visitedSize) (h : Reach P J (undisturbed P J) calm ix0 s) :
    Reach P J (eager P J) calm ix0 s ∧ s.ix.tombs = [] := by
  induction h with
  | refl => exact ⟨.refl, ht⟩
  | @step s s' hr hst ih =>
    obtain ⟨hr', ht'⟩ := ih
    refine ⟨hr'.step ?_, (tombs_step hst).trans ht'⟩
    obtain ⟨hseen, hsm'⟩ := reach_seen h0 hv hsm hr
    obtain ⟨g, hi⟩ := inv_reach h0 hseen
    cases hst with
    | choose x l ep ep' nbs hp hs =>
      have h1 := hi.pc x
      rw [hp] at h1
      obtain ⟨_, ⟨w, hw, _⟩, _⟩ := h1.2.2.2 l rfl
      obtain ⟨h2, h3, h4, h5⟩ := chooseAt_found hsm' ⟨w, hw⟩ hs
      exact .choose x l ep ep' nbs hp ⟨⟨h2, h3, fun b hb => (h4 b hb).mono hi.evl, h5⟩, chooseAt_ne hm hef hsym ht' hsm' ⟨w, hw⟩ hs⟩
    | descend x e m ep hp hs =>
      have h1 := hi.pc x
      rw [hp] at h1
      obtain ⟨w, hw, _⟩ := h1.2.2.2.1.2
      refine .descend x e m ep hp ?_
      rcases findBest_found hsm' m ⟨w, hw⟩ hs with h2 | ⟨h2, l, a, h3, h4, h5⟩
      · exact .inl h2
      · exact .inr ⟨h2, l, a, h3, h4, hi.evl _ _ _ h5⟩
    | snap x hp hx hc => exact .snap x hp hx hc
    | publish x e m hp hx => exact .publish x e m hp hx
    | set x l ep nbs v hp hv hl => exact .set x l ep nbs v hp hv hl
    | connect x l ep nb todo hp => exact .connect x l ep nb todo hp
    | next x l ep hp => exact .next x l ep hp
    | fails x e hp => exact .fails x e hp
    | finish x ep w hp hw => exact .finish x ep w hp hw
    | flush f order h1 h2 h3 => exact .flush f order h1 h2 h3
    | skip f id todo h1 h2 => exact .skip f id todo h1 h2
    | encode f id todo v h1 hv h2 => exact .encode f id todo v h1 hv h2
    | store f todo w hf => exact .store f todo w hf
    | commit f i todo w hf hw => exact .commit f i todo w hf hw
    | flushEnd f n h1 => exact .flushEnd f n h1
    | flushFails f h1 => exact .flushFails f h1

/-! ## searches on a connected base layer -/

/-- if all vertices are connected on the base layer, a wide search returns everything in range -/
theorem found_all [LawfulDist D] {ix : Index V} {r : Nat} (hc : ∀ x v, ix.get x = some v → Hooked ix r x) (hlk : LinksOk P.maxConn0 P.maxConn ix.get)
    (ht : ix.tombs = []) (hsm : ∀ id v, ix.get id = some v → id < P.visitedSize)
    (hsym : ∀ a b, P.metric.dist a b = P.metric.dist b a) (sched : Graph.Scheds D) (q : V) (max : D) (ef : Nat)
    (hd : ∀ id v, ix.get id = some v → ∃ d, P.metric.dist (P.norm q) v.vec = some d)
    (R : List Nat) (hR : ∀ id, id ∈ R ↔ ∃ v, ix.get id = some v) (hef : R.length ≤ ef)
    (ids : List Nat) (ds : List D) (h : (ix.graph P).knnMaxDist sched q max ef none = .ok (ids, ds))
    (x : Nat) (v : Vertex V) (d : D) (hx : ix.get x = some v) (hdx : P.metric.dist (P.norm q) v.vec = some d)
    (h0 : Dist.lt d Dist.zero = false) (h1 : Dist.lt max d = false) : x ∈ ids := by
  have hsm' : (ix.graph P).Small := hsm
  obtain ⟨ret, hits, hret, rfl, _, _, hmem⟩ := C02.max_dist_hits_sorted_and_in_range _ _ _ _ _ _ _ _ hsm hsym h
  obtain ⟨d0, ep, hd0, hep, hl⟩ := Graph.retained_ok hret
  obtain ⟨hgo, w, hw⟩ := Graph.retained_start hsm' hsym hd0 hep none
  have hw : ix.get ep.id = some w := hw
  have hreach : ∀ y, Conn (Linked ix) 0 ep.id y → Spec.Reach ((ix.graph P).senv (P.norm q) none) 0 [ep.id] y := by
    intro y hy
    induction hy with
    | refl => exact .start _ (by simp)
    | step _ hh ih =>
      obtain ⟨u, ls, hu, h3, h4⟩ := hh
      obtain ⟨u', hu', _⟩ := ((hlk _ u hu).2.2 0 ls h3).2.2.2 _ h4
      obtain ⟨d', hd'⟩ := hd _ u' hu'
      exact .link _ _ d' ih ⟨u, ls, hu, Nat.zero_le _, h3, h4⟩ ⟨u', hu', hd'⟩
  have hall : ∀ y, Spec.Reach ((ix.graph P).senv (P.norm q) none) 0 [ep.id] y ↔ y ∈ R := by
    intro y
    constructor
    · intro hy
      rw [hR]
      cases hy with
      | start _ hm => simp at hm; rw [hm]; exact ⟨w, hw⟩
      | link a b d _ _ hb => obtain ⟨v, hv, _⟩ := hb; exact ⟨v, hv⟩
    · intro hy
      obtain ⟨u, hu⟩ := (hR y).mp hy
      exact hreach y (((hc _ w hw).2).trans (hc y u hu).1)
  have hin := Search.searchLayer_complete (Graph.epsOk_one hsm' (P.norm q) none hw)
    (by intro e he; simp at he; subst he; exact ⟨_, (Search.hasDist_iff _ _ _).mp hgo⟩) R hall (by exact_mod_cast hef) hl x
    ((hall x).mpr ((hR x).mpr ⟨v, hx⟩)) ⟨by show ix.tombs.contains x = false; rw [ht]; rfl, fun _ p hp => by cases hp⟩
  obtain ⟨y, hy, rfl⟩ := List.mem_map.mp hin
  refine List.mem_map_of_mem ((hmem y).mpr ⟨hy, ?_⟩)
  have hg := (Graph.retained_sound hsm' hsym hret).1 y hy
  obtain ⟨v', hv', hd'⟩ := (Search.hasDist_iff _ _ _).mp hg.1
  have hv' : ix.get y.id = some v' := hv'
  rw [hx] at hv'; cases hv'
  have hd' : P.metric.dist (P.norm q) v.vec = some y.dist := hd'
  rw [hdx] at hd'; cases hd'
  exact ⟨h0, h1⟩

end Fave.Weave
