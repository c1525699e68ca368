import Verif.Model.Requests
/-!
# C52 — add requests at the same time keep documents and vectors together
-/
namespace Fave.C52
open Requests

/-- **The full property**: every stored document that has a number has it for itself, and the number stands for the document's vector. -/
def Together (s : St) : Prop :=
  (∀ d n v, s.doc d = some (some (n, v)) → s.node n = some v) ∧
  ∀ d e n v w, s.doc d = some (some (n, v)) → s.doc e = some (some (n, w)) → d = e

/-- invariant of requests one after the other -/
structure Inv (s : St) : Prop where
  vec : ∀ d n v, s.doc d = some (some (n, v)) → s.node n = some v
  inj : ∀ d e n v w, s.doc d = some (some (n, v)) → s.doc e = some (some (n, w)) → d = e
  busy : ∀ t n r d m v, s.pc t = .busy n r → s.doc d = some (some (m, v)) → m < n
  added : ∀ t n x y r d m v, s.pc t = .added n x y r → s.doc d = some (some (m, v)) → m < n
  node : ∀ t n x y r, s.pc t = .added n x y r → s.node n = some y
  quiet : s.quiet → ∀ d m v, s.doc d = some (some (m, v)) → m < s.count
  one : ∀ t u, (s.pc t).active = true → (s.pc u).active = true → t = u

theorem step_one {docs : Nat → List Doc} {s s' : St} (hi : Inv s) (h : Step docs true false s s') :
    ∀ t u, (s'.pc t).active = true → (s'.pc u).active = true → t = u := by
  have h1 := hi.one
  cases h with
  | start t h hq =>
    have hq := hq rfl
    intro a b
    have ha := hq a
    have hb := hq b
    grind [St.at, Pc.active]
  | addFails t n d v r stays h =>
    have ht : (s.pc t).active = true := by rw [h]; rfl
    have hp : (if stays then s.setNode n v else s).pc = s.pc := by split <;> rfl
    intro a b
    have := h1 a b
    have := h1 a t
    have := h1 t b
    simp only [St.at, hp]
    grind
  | add t n d v r h | put t n d v r h | marshalFails t n d v r h | plain t n d r h | flush t n h | refuses t n d r hf h | putFails t n d v r hf h
  | flushFails t n hf h =>
    have ht : (s.pc t).active = true := by rw [h]; rfl
    intro a b
    have := h1 a b
    have := h1 a t
    have := h1 t b
    simp only [St.at, St.setNode, St.setDoc]
    grind [Pc.active]

/-- an active request means the state is not quiet -/
theorem not_quiet {s : St} (t : Nat) (h1 : (s.pc t).active = true) : ¬ s.quiet := by
  intro h
  rw [h t] at h1
  cases h1

theorem step_inv {docs : Nat → List Doc} {s s' : St} (hi : Inv s) (h : Step docs true false s s') : Inv s' := by
  have h1 := step_one hi h
  obtain ⟨hvec, hinj, hbusy, hadded, hnode, hquiet, hone⟩ := hi
  cases h with
  | start t h hq =>
    have hq := hq rfl
    refine ⟨hvec, hinj, ?_, ?_, ?_, ?_, h1⟩
    · intro u n r d m v hu hd
      have := hquiet hq d m v hd
      have hx := hq u
      grind [St.at, Pc.active]
    · intro u n x y r d m v hu hd
      have hx := hq u
      grind [St.at, Pc.active]
    · intro u n x y r hu
      have hx := hq u
      grind [St.at, Pc.active]
    · intro hq'
      exact absurd hq' (not_quiet t (by simp [St.at, Pc.active]))
  | add t n d v r h =>
    refine ⟨?_, hinj, ?_, ?_, ?_, ?_, h1⟩
    · intro e m w he
      have := hbusy t n _ e m w h he
      have := hvec e m w he
      simp only [St.at, St.setNode] at *
      grind [Pc.active]
    · intro u k q e m w hu he
      have := hone u t
      have : (s.pc t).active = true := by rw [h]; rfl
      simp only [St.at, St.setNode] at *
      grind [Pc.active]
    · intro u k x y q e m w hu he
      have := hone u t
      have : (s.pc t).active = true := by rw [h]; rfl
      simp only [St.at, St.setNode] at *
      grind [Pc.active]
    · intro u k x y q hu
      have := hone u t
      have : (s.pc t).active = true := by rw [h]; rfl
      simp only [St.at, St.setNode] at *
      grind [Pc.active]
    · intro hq'
      exact absurd hq' (not_quiet t (by simp [St.at, Pc.active]))
  | addFails t n d v r stays h =>
    have hn : ∀ m, m < n → (if stays then s.setNode n v else s).node m = s.node m := by
      intro m hm
      split
      · simp only [St.setNode]; rw [if_neg (by omega)]
      · rfl
    have hd : (if stays then s.setNode n v else s).doc = s.doc := by split <;> rfl
    have hp : (if stays then s.setNode n v else s).pc = s.pc := by split <;> rfl
    have hc : (if stays then s.setNode n v else s).count = s.count := by split <;> rfl
    generalize (if stays then s.setNode n v else s) = s2 at hn hd hp hc h1 ⊢
    refine ⟨?_, ?_, ?_, ?_, ?_, ?_, h1⟩
    · intro e m w he
      have he : s2.doc e = _ := he
      rw [hd] at he
      have := hbusy t n _ e m w h he
      have := hvec e m w he
      show s2.node m = _
      rw [hn m (by assumption)]; assumption
    · intro a b m x y ha hb
      have ha : s2.doc a = _ := ha
      have hb : s2.doc b = _ := hb
      rw [hd] at ha hb
      exact hinj a b m x y ha hb
    · intro u k q e m w hu he
      have := hone u t
      have : (s.pc t).active = true := by rw [h]; rfl
      simp only [St.at, hp, hd] at *
      grind [Pc.active]
    · intro u k x y q e m w hu he
      have := hone u t
      have : (s.pc t).active = true := by rw [h]; rfl
      simp only [St.at, hp, hd] at *
      grind [Pc.active]
    · intro u k x y q hu
      have := hone u t
      have : (s.pc t).active = true := by rw [h]; rfl
      simp only [St.at, hp, hd] at *
      grind [Pc.active]
    · intro hq'
      exact absurd hq' (not_quiet t (by simp [St.at, Pc.active]))
  | put t n d v r h =>
    have hnv := hnode t n d v r h
    refine ⟨?_, ?_, ?_, ?_, ?_, ?_, h1⟩
    · intro e m w he
      have := hvec e m w
      simp only [St.at, St.setDoc] at *
      grind [Pc.active]
    · intro a b m x y ha hb
      have h2 := hadded t n d v r a m x h
      have h3 := hadded t n d v r b m y h
      have h4 := hinj a b m x y
      simp only [St.at, St.setDoc] at *
      grind [Pc.active]
    · intro u k q e m w hu he
      have := hone u t
      have : (s.pc t).active = true := by rw [h]; rfl
      have h2 := hadded t n d v r e m w h
      simp only [St.at, St.setDoc] at *
      grind [Pc.active]
    · intro u k x y q e m w hu he
      have := hone u t
      have : (s.pc t).active = true := by rw [h]; rfl
      simp only [St.at, St.setDoc] at *
      grind [Pc.active]
    · intro u k x y q hu
      have := hone u t
      have : (s.pc t).active = true := by rw [h]; rfl
      simp only [St.at, St.setDoc] at *
      grind [Pc.active]
    · intro hq'
      exact absurd hq' (not_quiet t (by simp [St.at, Pc.active]))
  | marshalFails t n d v r h =>
    refine ⟨hvec, hinj, ?_, ?_, ?_, ?_, h1⟩
    · intro u k q e m w hu he
      have := hone u t
      have : (s.pc t).active = true := by rw [h]; rfl
      have h2 := hadded t n d v r e m w h
      grind [St.at, Pc.active]
    · intro u k x y q e m w hu he
      have := hone u t
      have : (s.pc t).active = true := by rw [h]; rfl
      grind [St.at, Pc.active]
    · intro u k x y q hu
      have := hone u t
      have : (s.pc t).active = true := by rw [h]; rfl
      grind [St.at, Pc.active]
    · intro hq'
      exact absurd hq' (not_quiet t (by simp [St.at, Pc.active]))
  | plain t n d r h =>
    refine ⟨?_, ?_, ?_, ?_, ?_, ?_, h1⟩
    · intro e m w he
      have := hvec e m w
      simp only [St.at, St.setDoc] at *
      grind [Pc.active]
    · intro a b m x y ha hb
      have h4 := hinj a b m x y
      simp only [St.at, St.setDoc] at *
      grind [Pc.active]
    · intro u k q e m w hu he
      have := hone u t
      have : (s.pc t).active = true := by rw [h]; rfl
      have h2 := hbusy t n _ e m w h
      simp only [St.at, St.setDoc] at *
      grind [Pc.active]
    · intro u k x y q e m w hu he
      have := hone u t
      have : (s.pc t).active = true := by rw [h]; rfl
      simp only [St.at, St.setDoc] at *
      grind [Pc.active]
    · intro u k x y q hu
      have := hone u t
      have : (s.pc t).active = true := by rw [h]; rfl
      simp only [St.at, St.setDoc] at *
      grind [Pc.active]
    · intro hq'
      exact absurd hq' (not_quiet t (by simp [St.at, Pc.active]))
  | flush t n h =>
    refine ⟨hvec, hinj, ?_, ?_, ?_, ?_, h1⟩
    · intro u k q e m w hu he
      have := hone u t
      have : (s.pc t).active = true := by rw [h]; rfl
      grind [St.at, Pc.active]
    · intro u k x y q e m w hu he
      have := hone u t
      have : (s.pc t).active = true := by rw [h]; rfl
      grind [St.at, Pc.active]
    · intro u k x y q hu
      have := hone u t
      have : (s.pc t).active = true := by rw [h]; rfl
      grind [St.at, Pc.active]
    · intro _ e m w he
      exact hbusy t n [] e m w h he
  | refuses t n d r hf => cases hf
  | putFails t n d v r hf => cases hf
  | flushFails t n hf => cases hf

/-- **Requests one after the other**: if a request begins only when no other is under way, and neither storing a document nor the flush fails, every
document keeps its own number, and the number stands for its vector — at every moment, whichever additions to the index fail.
Missing for the full property: requests at the same time (`overlap_shares_number`, `overlap_harms_later`) and failures of the store
(`failed_store_shares_number`). -/
theorem requests_in_turn_partial (docs : Nat → List Doc) (s : St) (h : Reach docs true false s) : Together s := by
  have hi : Inv s := by
    induction h with
    | refl => exact ⟨nofun, nofun, nofun, nofun, nofun, fun _ => nofun, nofun⟩
    | step _ h ih => exact step_inv ih h
  exact ⟨hi.vec, hi.inj⟩

/-- **The stored number counts vectors without gaps**, even when requests overlap or fail: every number below it stands for a vector. -/
theorem no_gaps (docs : Nat → List Doc) (serial faults : Bool) (s : St) (h : Reach docs serial faults s) :
    ∀ n, n < s.count → (s.node n).isSome = true := by
  have hi : (∀ n, n < s.count → (s.node n).isSome = true) ∧ (∀ t n todo, s.pc t = .busy n todo → ∀ k, k < n → (s.node k).isSome = true) ∧
      (∀ t n d v todo, s.pc t = .added n d v todo → ∀ k, k ≤ n → (s.node k).isSome = true) := by
    induction h with
    | refl => exact ⟨nofun, nofun, nofun⟩
    | @step s s' _ h ih =>
      obtain ⟨i1, i2, i3⟩ := ih
      cases h with
      | start t h hq =>
        refine ⟨i1, ?_, ?_⟩ <;> simp only [St.at] <;> grind
      | add t n d v r h =>
        have := i2 t n _ h
        refine ⟨?_, ?_, ?_⟩ <;> simp only [St.at, St.setNode] <;> grind
      | addFails t n d v r stays h =>
        have := i2 t n _ h
        cases stays
        · simp only [Bool.false_eq_true, if_false, St.at]
          refine ⟨?_, ?_, ?_⟩ <;> grind
        · simp only [if_true, St.at, St.setNode]
          refine ⟨?_, ?_, ?_⟩ <;> grind
      | put t n d v r h | marshalFails t n d v r h =>
        have := i3 t n d v _ h
        refine ⟨?_, ?_, ?_⟩ <;> simp only [St.at, St.setDoc] <;> grind
      | plain t n d r h =>
        have := i2 t n _ h
        refine ⟨?_, ?_, ?_⟩ <;> simp only [St.at, St.setDoc] <;> grind
      | flush t n h =>
        have := i2 t n _ h
        refine ⟨?_, ?_, ?_⟩ <;> simp only [St.at] <;> grind
      | refuses t n d r hf h | putFails t n d v r hf h | flushFails t n hf h =>
        refine ⟨i1, ?_, ?_⟩ <;> simp only [St.at] <;> grind
  exact hi.1

/-- three requests: document 1 with vector 10, document 2 with vector 20, document 3 without text -/
def docs3 : Nat → List Doc
  | 0 => [(1, some 10)]
  | 1 => [(2, some 20)]
  | 2 => [(3, none)]
  | _ => []

/-- **Two requests at the same time give the same number to two documents**, and one vector is lost: nothing fails, both requests succeed, and a
search that finds number 0 returns the wrong document or both. -/
theorem overlap_shares_number : ∃ s, Reach docs3 false false s ∧ s.quiet ∧ ¬ Together s ∧
    s.doc 1 = some (some (0, 10)) ∧ s.doc 2 = some (some (0, 20)) ∧ s.node 0 = some 20 ∧ s.node 1 = none ∧ s.count = 1 := by
  refine ⟨_, .step (.step (.step (.step (.step (.step (.step (.step .refl
    (.start 0 rfl nofun)) (.start 1 rfl nofun))
    (.add 0 0 1 10 [] rfl)) (.put 0 0 1 10 [] rfl)) (.add 1 0 2 20 [] rfl)) (.put 1 0 2 20 [] rfl)) (.flush 0 1 rfl)) (.flush 1 1 rfl),
    ?_, ?_, rfl, rfl, rfl, rfl, rfl⟩
  · intro t
    match t with
    | 0 => exact rfl
    | 1 => exact rfl
    | t + 2 => exact rfl
  · intro h
    exact absurd (h.2 1 2 0 10 20 rfl rfl) (by decide)

/-- **…and requests at the same time harm later ones**: request 2 adds no vector at all, but it writes back the number of vectors it has read at its
beginning.  When both are over everything is in order, yet the next request, running alone, overwrites number 0. -/
theorem overlap_harms_later : ∃ s s', Reach docs3 false false s ∧ s.quiet ∧ Together s ∧ s.doc 1 = some (some (0, 10)) ∧ s.count = 0 ∧
    Reach docs3 false false s' ∧ s'.quiet ∧ ¬ Together s' ∧ s'.doc 1 = some (some (0, 10)) ∧ s'.doc 2 = some (some (0, 20)) ∧ s'.node 0 = some 20 := by
  have h1 : Reach docs3 false false _ := .step (.step (.step (.step (.step (.step (.step .refl
    (.start 2 rfl nofun)) (.start 0 rfl nofun)) (.add 0 0 1 10 [] rfl)) (.put 0 0 1 10 [] rfl)) (.flush 0 1 rfl)) (.plain 2 0 3 [] rfl)) (.flush 2 0 rfl)
  refine ⟨_, _, h1, ?_, ⟨?_, ?_⟩, rfl, rfl,
    .step (.step (.step (.step h1 (.start 1 rfl nofun)) (.add 1 0 2 20 [] rfl)) (.put 1 0 2 20 [] rfl)) (.flush 1 1 rfl), ?_, ?_, rfl, rfl, rfl⟩
  · intro t
    match t with
    | 0 => exact rfl
    | 1 => exact rfl
    | 2 => exact rfl
    | t + 3 => exact rfl
  · intro d n v hd
    match d, hd with
    | 1, hd => cases hd; rfl
    | 3, hd => cases hd
    | 0, hd => cases hd
    | 2, hd => cases hd
    | d + 4, hd => cases hd
  · intro d e n v w hd he
    match d, hd with
    | 1, hd =>
      match e, he with
      | 1, _ => rfl
      | 3, he => cases he
      | 0, he => cases he
      | 2, he => cases he
      | e + 4, he => cases he
    | 3, hd => cases hd
    | 0, hd => cases hd
    | 2, hd => cases hd
    | d + 4, hd => cases hd
  · intro t
    match t with
    | 0 => exact rfl
    | 1 => exact rfl
    | 2 => exact rfl
    | t + 3 => exact rfl
  · intro h
    exact absurd (h.2 1 2 0 10 20 rfl rfl) (by decide)

/-- two documents in the first request, one in the second -/
def docs4 : Nat → List Doc
  | 0 => [(1, some 10), (2, some 20)]
  | 1 => [(3, some 30)]
  | _ => []

/-- **A failure of the store** in the middle of a request has the same effect on requests one after the other: document 1 is stored, document 2 is
not, the number of vectors is not written; the next request gives number 0 again. -/
theorem failed_store_shares_number : ∃ s, Reach docs4 true true s ∧ ¬ Together s ∧
    s.doc 1 = some (some (0, 10)) ∧ s.doc 3 = some (some (0, 30)) ∧ s.node 0 = some 30 := by
  refine ⟨_, .step (.step (.step (.step (.step (.step (.step (.step (.step .refl
    (.start 0 rfl (fun _ _ => rfl))) (.add 0 0 1 10 _ rfl)) (.put 0 0 1 10 _ rfl)) (.add 0 1 2 20 _ rfl)) (.putFails 0 1 2 20 _ rfl rfl))
    (.start 1 rfl ?_)) (.add 1 0 3 30 _ rfl)) (.put 1 0 3 30 _ rfl)) (.flush 1 1 rfl), ?_, rfl, rfl, rfl⟩
  · intro _ t
    match t with
    | 0 => exact rfl
    | t + 1 => exact rfl
  · intro h
    exact absurd (h.2 1 3 0 10 30 rfl rfl) (by decide)

/-- requests one after the other, with an addition that fails and leaves its vector behind -/
example : ∃ s, Reach docs4 true false s ∧ s.quiet ∧ s.doc 1 = none ∧ s.doc 2 = some (some (0, 20)) ∧ s.doc 3 = some (some (1, 30)) ∧
    s.node 1 = some 30 ∧ s.count = 2 := by
  refine ⟨_, .step (.step (.step (.step (.step (.step (.step (.step (.step .refl
    (.start 0 rfl (fun _ _ => rfl))) (.addFails 0 0 1 10 _ true rfl)) (.add 0 0 2 20 _ rfl)) (.put 0 0 2 20 _ rfl)) (.flush 0 1 rfl))
    (.start 1 rfl ?_)) (.add 1 1 3 30 _ rfl)) (.put 1 1 3 30 _ rfl)) (.flush 1 2 rfl), ?_, rfl, rfl, rfl, rfl, rfl⟩
  · intro _ t
    match t with
    | 0 => exact rfl
    | t + 1 => exact rfl
  · intro t
    match t with
    | 0 => exact rfl
    | 1 => exact rfl
    | t + 2 => exact rfl

end Fave.C52
