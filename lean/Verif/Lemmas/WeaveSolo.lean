import Verif.Lemmas.WeaveReach
/-!
# Undisturbed searches, and one addition on its own
-/
namespace Fave.Weave
variable {V D : Type} [Dist D]
open Index Queue Spec

variable {P : Params V D} {J : Nat → Job V D} {ix0 : Index V} {s : St V} {g : Gh}

/-- what `findBestEntrypointForNode` finds -/
theorem findBest_found {ix : Index V} {sched : Graph.Scheds D} {q : V} {target : Nat} (hsm : ∀ id v, ix.get id = some v → id < P.visitedSize)
    (m : Nat) {ep ep' : Nat} (hep : ∃ v, ix.get ep = some v) (h : findBest P ix sched q target m ep = .ok ep') :
    ep' = ep ∨ (∃ v, ix.get ep' = some v ∧ v.maint = false) ∧ ∃ l a, target < l ∧ l ≤ m ∧ Linked ix l a ep' := by
  induction m generalizing ep with
  | zero => cases h; exact .inl rfl
  | succ m ih =>
    unfold findBest at h
    have hup : ∀ {e}, (∃ v, ix.get e = some v) → findBest P ix sched q target m e = .ok ep' →
        ep' = e ∨ (∃ v, ix.get ep' = some v ∧ v.maint = false) ∧ ∃ l a, target < l ∧ l ≤ m + 1 ∧ Linked ix l a ep' := by
      intro e he hh
      rcases ih he hh with h1 | ⟨h1, l, a, h2, h3, h4⟩
      · exact .inl h1
      · exact .inr ⟨h1, l, a, h2, by omega, h4⟩
    split at h
    · cases h; exact .inl rfl
    · rename_i htgt
      split at h
      · cases h
      · split at h
        · cases h
        · rename_i d _ _ res hr
          have hvis : ep < P.visitedSize := hsm ep _ hep.choose_spec
          have hres : ∀ y ∈ res.toList, y.id = ep ∨ ∃ a, Linked ix (m + 1) a y.id := by
            refine Search.searchLayer_closed (C := fun i => i = ep ∨ ∃ a, Linked ix (m + 1) a i) ?_ (fun y hy => by simp at hy; subst hy; exact .inl rfl)
              (keysOk P ix q none) ⟨by simp, fun y hy => by simp at hy; subst hy; exact hvis⟩ hr
            intro id v links b _ hv hl hb
            exact .inr ⟨id, v, links, hv, hl, hb⟩
          split at h
          · exact hup hep h
          · rename_i x _ hp
            have hx := hres x ((pop_perm lessMax hp).mem_iff.mpr (by simp))
            split at h
            · exact hup hep h
            · rename_i v hv
              by_cases hm : v.maint = true
              · rw [if_pos hm] at h; exact hup hep h
              · rw [if_neg hm] at h
                rcases hx with hx | ⟨a, hx⟩
                · rw [hx] at h; exact hup hep h
                · rcases hup ⟨v, hv⟩ h with h1 | h1
                  · subst h1
                    exact .inr ⟨⟨v, hv, by simpa using hm⟩, m + 1, a, by omega, Nat.le_refl _, hx⟩
                  · exact .inr h1

/-- what `chooseAt` chooses -/
theorem chooseAt_found {ix : Index V} {j : Job V D} {x l ep ep' : Nat} {nbs : List Nat} (hsm : ∀ id v, ix.get id = some v → id < P.visitedSize)
    (hep : ∃ v, ix.get ep = some v) (h : chooseAt P j x ix ep l = .ok (nbs, ep')) :
    nbs.length ≤ P.maxConn ∧ nbs.Nodup ∧ (∀ b ∈ nbs, Conn (Linked ix) l ep b) ∧ (ep' = ep ∨ ep' ∈ nbs) := by
  obtain ⟨v, hv⟩ := hep
  unfold chooseAt at h
  split at h
  · cases h
  · rename_i e he
    obtain ⟨he1, _⟩ := pickEntry_ok hv he
    split at h
    · cases h
    · rename_i results hr
      split at h
      · cases h
      · rename_i kept hk
        have heps : Search.EpsOk ((ix.graph P).senv j.q none) [e] :=
          ⟨by simp, fun y hy => by simp at hy; subst hy; rw [he1]; exact hsm _ _ hv⟩
        have hres : ∀ y ∈ results.toList, Conn (Linked ix) l ep y.id := by
          refine Search.searchLayer_closed (C := fun i => Conn (Linked ix) l ep i) ?_
            (fun y hy => by simp at hy; subst hy; rw [he1]; exact .refl _) (keysOk P ix j.q none) heps hr
          intro id v links b hc hv hl hb
          exact hc.step ⟨v, links, hv, hl, hb⟩
        have hnod : (results.toList.map Item.id).Nodup :=
          (Search.searchLayer_inv (P := fun _ => True) (fun _ _ => trivial) heps (fun _ _ => trivial) hr).2
        obtain ⟨b1, b2, b3⟩ := selected_ids hk
        have hall : ∀ b ∈ (drain lessMax kept).map Item.id, Conn (Linked ix) l ep b := by
          intro b hb
          obtain ⟨y, hy, rfl⟩ := List.mem_map.mp (b3 b hb)
          exact hres y hy
        simp only at h
        split at h
        · cases h; exact ⟨b1, b2 hnod, hall, .inl he1⟩
        · rename_i y hy
          simp only [Except.ok.injEq, Prod.mk.injEq] at h
          obtain ⟨rfl, rfl⟩ := h
          refine ⟨b1, b2 hnod, hall, ?_⟩
          split
          · exact .inl he1
          · exact .inr (List.mem_of_getLast? hy)

theorem Conn.mono {e e' : Nat → Nat → Nat → Prop} {l a b : Nat} (he : ∀ l a b, e l a b → e' l a b) (h : Conn e l a b) : Conn e' l a b := by
  induction h with
  | refl => exact .refl _
  | step _ hh ih => exact ih.step (he _ _ _ hh)

/-- numbers stay small -/
theorem small_step {sees : Sees V} {calm : Bool} {s s' : St V} {N : Nat} (hN : P.cacheSize ≤ N) (hk : ∀ id v, s.ix.get id = some v → id < N)
    (hi : IdsOk s.ix) (hfc : ∀ f, FcOk s.ix (s.fc f)) (hst : Step P J sees calm s s') : ∀ id v, s'.ix.get id = some v → id < N := by
  have hput : ∀ (u : Vertex V), u.id < N → ∀ id v, (s.ix.put u).get id = some v → id < N := by
    intro u hu id v hv
    rw [get_put] at hv
    split at hv
    · rename_i h; rw [h]; exact hu
    · exact hk id v hv
  cases hst with
  | snap x hp hx _ => exact hk
  | publish x e m hp hx => exact hput _ (show x < N by omega)
  | descend x e m ep hp hs => exact hk
  | choose x l ep ep' nbs hp hs => exact hk
  | set x l ep nbs v hp hv hl => exact hput _ (by rw [show (setConns v l nbs).id = x from (hi.get hv : v.id = x)]; exact hk _ _ hv)
  | connect x l ep nb todo hp =>
    intro id v hv
    have hv : (connectNeighbor P (J x).vo x l s.ix nb).1.get id = some v := hv
    rcases connectNeighbor_cases P (J x).vo x l s.ix nb with ⟨he, _⟩ | ⟨w, hw, _, _, hcase⟩
    · rw [he] at hv; exact hk _ _ hv
    · have hid0 := hi.get hw
      rcases hcase with ⟨e, _, hu⟩ | ⟨cur, links, _, _, hu, _⟩
      · rw [hu.get] at hv
        split at hv
        · rename_i hid
          rw [hid, raised_id, hid0]; exact hk _ _ hw
        · exact hk _ _ hv
      · rw [hu.get] at hv
        split at hv
        · rename_i hid
          rw [hid]
          show (raised w l).id < N
          rw [raised_id, hid0]; exact hk _ _ hw
        · exact hk _ _ hv
  | next x l ep hp => exact hk
  | fails x e hp => exact hk
  | finish x ep w hp hw =>
    intro id v hv
    have h1 := hput { w with maint := false } (by rw [show ({ w with maint := false } : Vertex V).id = x from (hi.get hw : w.id = x)]; exact hk _ _ hw) id v
    have hv : (ite _ _ _ : Index V).get id = some v := hv
    split at hv
    · exact h1 hv
    · exact h1 hv
  | flush f order _ _ _ => exact hk
  | skip f id todo _ _ => exact hk
  | encode f id todo v _ hv _ => exact hk
  | store f todo w hf =>
    have h1 := hfc f
    rw [hf] at h1
    obtain ⟨u, hu⟩ := h1
    intro id v hv
    unfold Index.get at hv
    dsimp only [St.fat] at hv
    by_cases hid : id = w.id
    · subst hid; exact hk w.id u (by unfold Index.get; rw [hu])
    · rw [Tab.get_put, if_neg hid] at hv
      exact hk id v hv
  | commit f i todo w hf hw =>
    have hid := hi.cache i w hw
    have hg : s.ix.get i = some w := by unfold Index.get; rw [hw]
    exact hput { w with committed := true } (by rw [show ({ w with committed := true } : Vertex V).id = i from hid]; exact hk _ _ hg)
  | flushEnd f n _ => exact hk
  | flushFails f _ => exact hk

/-- a step with an undisturbed search is a step -/
theorem step_seen {calm : Bool} {s s' : St V} (h : Inv P J ix0 s g) (hsm : ∀ id v, s.ix.get id = some v → id < P.visitedSize)
    (hst : Step P J (undisturbed P J) calm s s') : Step P J (seen P J) calm s s' := by
  cases hst with
  | snap x hp hx hc => exact .snap x hp hx hc
  | publish x e m hp hx => exact .publish x e m hp hx
  | descend x e m ep hp hs =>
    refine .descend x e m ep hp ?_
    have h1 := h.pc x
    rw [hp] at h1
    obtain ⟨w, hw, _⟩ := h1.2.2.2.1.2
    rcases findBest_found hsm m ⟨w, hw⟩ hs with h2 | ⟨h2, l, a, h3, h4, h5⟩
    · exact .inl h2
    · exact .inr ⟨h2, l, a, h3, h4, h.evl _ _ _ h5⟩
  | choose x l ep ep' nbs hp hs =>
    refine .choose x l ep ep' nbs hp ?_
    have h1 := h.pc x
    rw [hp] at h1
    obtain ⟨_, ⟨w, hw, _⟩, _⟩ := h1.2.2.2 l rfl
    obtain ⟨h2, h3, h4, h5⟩ := chooseAt_found hsm ⟨w, hw⟩ hs
    exact ⟨h2, h3, fun b hb => (h4 b hb).mono h.evl, h5⟩
  | set x l ep nbs v hp hv hl => exact .set x l ep nbs v hp hv hl
  | connect x l ep nb todo hp => exact .connect x l ep nb todo hp
  | next x l ep hp => exact .next x l ep hp
  | fails x e hp => exact .fails x e hp
  | finish x ep w hp hw => exact .finish x ep w hp hw
  | flush f order h1 h2 h3 => exact .flush f order h1 h2 h3
  | skip f id todo h1 h2 => exact .skip f id todo h1 h2
  | encode f id todo v h1 hv h2 => exact .encode f id todo v h1 hv h2
  | store f todo w hf => exact .store f todo w hf
  | commit f i todo w hf hw => exact .commit f i todo w hf hw
  | flushEnd f n h1 => exact .flushEnd f n h1
  | flushFails f h1 => exact .flushFails f h1

theorem reach_seen {calm : Bool} (h0 : Start P ix0) (hv : P.cacheSize ≤ P.visitedSize) (hsm : ∀ id v, ix0.get id = some v → id < P.visitedSize)
    (h : Reach P J (undisturbed P J) calm ix0 s) :
    Reach P J (seen P J) calm ix0 s ∧ ∀ id v, s.ix.get id = some v → id < P.visitedSize := by
  induction h with
  | refl => exact ⟨.refl, hsm⟩
  | step _ hst ih =>
    obtain ⟨g, hi⟩ := inv_reach h0 ih.1
    exact ⟨ih.1.step (step_seen hi ih.2 hst), small_step hv ih.2 hi.ids hi.fc hst⟩

/-! ## one addition on its own -/

/-- steps one after the other -/
inductive Steps (P : Params V D) (J : Nat → Job V D) (sees : Sees V) (calm : Bool) : St V → St V → Prop where
  | refl (s : St V) : Steps P J sees calm s s
  | step {s t u : St V} : Steps P J sees calm s t → Step P J sees calm t u → Steps P J sees calm s u

theorem Steps.trans {sees : Sees V} {calm : Bool} {s t u : St V} (h : Steps P J sees calm s t) (h' : Steps P J sees calm t u) :
    Steps P J sees calm s u := by
  induction h' with
  | refl => exact h
  | step _ h2 ih => exact ih.step h2

theorem Steps.reach {sees : Sees V} {calm : Bool} {s t : St V} (h : Steps P J sees calm s t) (h0 : Reach P J sees calm ix0 s) :
    Reach P J sees calm ix0 t := by
  induction h with
  | refl => exact h0
  | step _ h2 ih => exact ih.step h2

/-- others are where they were -/
def Others (s t : St V) (x : Nat) : Prop := (∀ y, y ≠ x → t.pc y = s.pc y) ∧ t.fc = s.fc

theorem Others.trans {s t u : St V} {x : Nat} (h : Others s t x) (h' : Others t u x) : Others s u x :=
  ⟨fun y hy => (h'.1 y hy).trans (h.1 y hy), h'.2.trans h.2⟩

theorem Others.at (s : St V) (x : Nat) (ix : Index V) (p : Pc) : Others s (s.at x ix p) x := ⟨fun y hy => by simp [St.at, hy], rfl⟩

theorem at_pc (s : St V) (x : Nat) (ix : Index V) (p : Pc) : (s.at x ix p).pc x = p := by simp [St.at]

theorem solo_connectAll {sees : Sees V} {calm : Bool} {x l ep : Nat} (todo : List Nat) {s : St V} (hp : s.pc x = .linking l ep todo)
    {ix' : Index V} {r : Option Err} (h : connectAll P (J x).vo x l s.ix todo = (ix', r)) :
    ∃ t, Steps P J sees calm s t ∧ Others s t x ∧ t.ix = ix' ∧
      t.pc x = (match (generalizing := false) r with | none => .linking l ep [] | some e => .ended (some e)) := by
  induction todo generalizing s with
  | nil => cases h; exact ⟨s, .refl s, ⟨fun _ _ => rfl, rfl⟩, rfl, hp⟩
  | cons nb todo ih =>
    have hstep := Step.connect (P := P) (J := J) (sees := sees) (calm := calm) (s := s) x l ep nb todo hp
    unfold connectAll at h
    cases hc : connectNeighbor P (J x).vo x l s.ix nb with
    | mk ix1 r1 =>
      rw [hc] at h hstep
      cases r1 with
      | some e =>
        cases h
        exact ⟨_, (Steps.refl s).step hstep, Others.at .., rfl, at_pc ..⟩
      | none =>
        obtain ⟨t, h1, h2, h3⟩ := ih (s := s.at x ix1 (.linking l ep todo)) (at_pc ..) h
        exact ⟨t, ((Steps.refl s).step hstep).trans h1, (Others.at ..).trans h2, h3⟩

theorem solo_doAtLevel {calm : Bool} {x l ep : Nat} {s : St V} (hp : s.pc x = .layers (l + 1) ep) {ix' : Index V} {r : Except Err Nat}
    (h : doAtLevel P (J x).vo (J x).sched (J x).q x s.ix ep l = (ix', r)) :
    ∃ t, Steps P J (undisturbed P J) calm s t ∧ Others s t x ∧ t.ix = ix' ∧
      t.pc x = (match (generalizing := false) r with | .ok ep' => .layers l ep' | .error e => .ended (some e)) := by
  have hfail : ∀ (e : Err), ix' = s.ix → r = .error e → ∃ t, Steps P J (undisturbed P J) calm s t ∧ Others s t x ∧ t.ix = ix' ∧
      t.pc x = (match (generalizing := false) r with | .ok ep' => .layers l ep' | .error e => .ended (some e)) := by
    rintro e rfl rfl
    exact ⟨_, (Steps.refl s).step (.fails x e (by rw [hp]; rfl)), Others.at .., rfl, at_pc ..⟩
  have hch : chooseAt P (J x) x s.ix ep l = chooseAt P (J x) x s.ix ep l := rfl
  conv at hch => rhs; unfold chooseAt
  unfold doAtLevel at h
  split at h
  · cases h; exact hfail _ rfl rfl
  · rename_i e he
    rw [he] at hch
    simp only at hch
    split at h
    · cases h; exact hfail _ rfl rfl
    · rename_i results hr
      rw [hr] at hch
      simp only at hch
      split at h
      · cases h; exact hfail _ rfl rfl
      · rename_i kept hk
        rw [hk] at hch
        simp only at hch h
        split at h
        · cases h; exact hfail _ rfl rfl
        · rename_i v hv
          split at h
          · cases h; exact hfail _ rfl rfl
          · rename_i hlen
            generalize hnb : (drain lessMax kept).map Item.id = nbs at *
            have key : ∀ ep', chooseAt P (J x) x s.ix ep l = .ok (nbs, ep') →
                ∀ {ix1 : Index V} {r1 : Option Err}, connectAll P (J x).vo x l (s.ix.put (setConns v l nbs)) nbs = (ix1, r1) →
                ∃ t, Steps P J (undisturbed P J) calm s t ∧ Others s t x ∧ t.ix = ix1 ∧
                  t.pc x = (match (generalizing := false) r1 with | none => .linking l ep' [] | some e => .ended (some e)) := by
              intro ep' hc ix1 r1 hca
              have s1 : Step P J (undisturbed P J) calm s (s.at x s.ix (.chosen l ep' nbs)) := .choose x l ep ep' nbs hp hc
              have s2 : Step P J (undisturbed P J) calm (s.at x s.ix (.chosen l ep' nbs)) _ :=
                .set x l ep' nbs v (at_pc ..) hv (by omega)
              obtain ⟨t, h1, h2, h3⟩ := solo_connectAll (P := P) (J := J) (sees := undisturbed P J) (calm := calm) nbs
                (s := (s.at x s.ix (.chosen l ep' nbs)).at x (s.ix.put (setConns v l nbs)) (.linking l ep' nbs)) (at_pc ..) hca
              exact ⟨t, (((Steps.refl s).step s1).step s2).trans h1, ((Others.at ..).trans (Others.at ..)).trans h2, h3⟩
            cases hl : nbs.getLast? with
            | none =>
              rw [hl] at hch
              cases hca : connectAll P (J x).vo x l (s.ix.put (setConns v l nbs)) nbs with
              | mk ix1 r1 =>
                rw [hca] at h
                obtain ⟨t, h1, h2, h3, h4⟩ := key _ hch hca
                cases r1 with
                | some e => cases h; exact ⟨t, h1, h2, h3, h4⟩
                | none =>
                  simp only [hl] at h
                  cases h
                  subst h3
                  exact ⟨_, h1.step (.next x l _ h4), h2.trans (Others.at ..), rfl, at_pc ..⟩
            | some y =>
              rw [hl] at hch
              cases hca : connectAll P (J x).vo x l (s.ix.put (setConns v l nbs)) nbs with
              | mk ix1 r1 =>
                rw [hca] at h
                obtain ⟨t, h1, h2, h3, h4⟩ := key _ hch hca
                cases r1 with
                | some e => cases h; exact ⟨t, h1, h2, h3, h4⟩
                | none =>
                  simp only [hl] at h
                  cases h
                  subst h3
                  exact ⟨_, h1.step (.next x l _ h4), h2.trans (Others.at ..), rfl, at_pc ..⟩

theorem solo_doLevels {calm : Bool} {x : Nat} (n : Nat) {ep : Nat} {s : St V} (hp : s.pc x = .layers n ep) {ix' : Index V} {r : Option Err}
    (h : doLevels P (J x).vo (J x).sched (J x).q x n s.ix ep = (ix', r)) :
    ∃ t, Steps P J (undisturbed P J) calm s t ∧ Others s t x ∧ t.ix = ix' ∧
      (match (generalizing := false) r with | none => ∃ ep', t.pc x = .layers 0 ep' | some e => t.pc x = .ended (some e)) := by
  induction n generalizing s ep with
  | zero => cases h; exact ⟨s, .refl s, ⟨fun _ _ => rfl, rfl⟩, rfl, ep, hp⟩
  | succ l ih =>
    unfold doLevels at h
    cases hd : doAtLevel P (J x).vo (J x).sched (J x).q x s.ix ep l with
    | mk ix1 r1 =>
      rw [hd] at h
      obtain ⟨t, h1, h2, h3, h4⟩ := solo_doAtLevel (calm := calm) hp hd
      cases r1 with
      | error e => cases h; exact ⟨t, h1, h2, h3, h4⟩
      | ok ep1 =>
        subst h3
        obtain ⟨u, h5, h6, h7⟩ := ih h4 h
        exact ⟨u, h1.trans h5, h2.trans h6, h7⟩

/-- One addition running on its own does what `connectNew` does. -/
theorem solo {calm : Bool} {x : Nat} {s : St V} (hp : s.pc x = .idle) (hx : s.ix.get x = none) (hc : calm = true → ∀ f, (s.fc f).active = false)
    (hxs : x < P.cacheSize) {ix' : Index V} {r : Option Err}
    (h : connectNew P (J x).vo (J x).sched (s.ix.put (newNode x (J x).q (J x).level)) x (J x).q (J x).level = (ix', r)) :
    ∃ t, Steps P J (undisturbed P J) calm s t ∧ Others s t x ∧ t.ix = ix' ∧ t.pc x = .ended r := by
  have s1 : Step P J (undisturbed P J) calm s (s.at x s.ix (.snap s.ix.entry s.ix.maxLayer)) := .snap x hp hx hc
  have s2 : Step P J (undisturbed P J) calm _ ((s.at x s.ix (.snap s.ix.entry s.ix.maxLayer)).at x
      (s.ix.put (newNode x (J x).q (J x).level)) (.published s.ix.entry s.ix.maxLayer)) :=
    .publish x s.ix.entry s.ix.maxLayer (at_pc ..) hxs
  generalize hu : (s.at x s.ix (.snap s.ix.entry s.ix.maxLayer)).at x (s.ix.put (newNode x (J x).q (J x).level))
      (.published s.ix.entry s.ix.maxLayer) = u at s2
  have hsu : Steps P J (undisturbed P J) calm s u := ((Steps.refl s).step s1).step s2
  have hou : Others s u x := by rw [← hu]; exact (Others.at ..).trans (Others.at ..)
  have hup : u.pc x = .published s.ix.entry s.ix.maxLayer := by rw [← hu]; exact at_pc ..
  have hui : u.ix = s.ix.put (newNode x (J x).q (J x).level) := by rw [← hu]; rfl
  have he : u.ix.entry = s.ix.entry := by rw [hui]; rfl
  have hm : u.ix.maxLayer = s.ix.maxLayer := by rw [hui]; rfl
  rw [← hui] at h
  unfold connectNew at h
  split at h
  · rename_i e _
    cases h
    exact ⟨_, hsu.step (.fails x e (by rw [hup]; rfl)), hou.trans (Others.at ..), rfl, at_pc ..⟩
  · rename_i ep hf
    have s3 : Step P J (undisturbed P J) calm u _ := .descend x _ _ ep hup (by rw [he, hm] at hf; exact hf)
    rw [hm] at h
    cases hd : doLevels P (J x).vo (J x).sched (J x).q x (Nat.min (J x).level s.ix.maxLayer + 1) u.ix ep with
    | mk ix1 r1 =>
      rw [hd] at h
      obtain ⟨t, h1, h2, h3, h4⟩ := solo_doLevels (calm := calm) _
        (s := u.at x u.ix (.layers (Nat.min (J x).level s.ix.maxLayer + 1) ep)) (at_pc ..) hd
      have hst : Steps P J (undisturbed P J) calm s t := (hsu.step s3).trans h1
      have hot : Others s t x := (hou.trans (Others.at ..)).trans h2
      cases r1 with
      | some e => cases h; exact ⟨t, hst, hot, h3, h4⟩
      | none =>
        obtain ⟨ep', h4⟩ := h4
        subst h3
        simp only at h
        split at h
        · cases h
          exact ⟨_, hst.step (.fails x .panic (by rw [h4]; rfl)), hot.trans (Others.at ..), rfl, at_pc ..⟩
        · rename_i v hv
          refine ⟨_, hst.step (.finish x ep' v h4 hv), hot.trans (Others.at ..), ?_, ?_⟩
          · show ite _ _ _ = ix'
            split at h
            · rename_i hlt
              have hlt : t.ix.maxLayer < (J x).level := hlt
              rw [if_pos hlt]; cases h; rfl
            · rename_i hlt
              have hlt : ¬ t.ix.maxLayer < (J x).level := hlt
              rw [if_neg hlt]; cases h; rfl
          · rw [at_pc]
            split at h <;> (cases h; rfl)

end Fave.Weave
