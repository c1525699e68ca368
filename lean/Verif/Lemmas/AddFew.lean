import Verif.Lemmas.History
/-!
# Which vertices an addition touches
-/
namespace Fave.Index
open Queue Search
variable {V D : Type} [Dist D]

/-- the links of a vertex on a layer -/
def linksAt (v : Vertex V) (l : Nat) : List Nat := v.conns.getD l []

theorem getD_pad (a : List (List Nat)) (n k : Nat) : (a ++ List.replicate n []).getD k [] = a.getD k [] := by
  simp only [List.getD_eq_getElem?_getD]
  by_cases h : k < a.length
  · rw [List.getElem?_append_left h]
  · rw [List.getElem?_append_right (by omega), List.getElem?_eq_none (by omega : a.length ≤ k)]
    by_cases h2 : k - a.length < n
    · rw [List.getElem?_replicate, if_pos h2]; rfl
    · rw [List.getElem?_replicate, if_neg h2]

theorem linksAt_raised (v : Vertex V) (level l : Nat) : linksAt (raised v level) l = linksAt v l := by
  unfold raised linksAt
  split
  · exact getD_pad _ _ _
  · rfl

theorem linksAt_set {v : Vertex V} {level l k : Nat} {links : List Nat} (h : k ∈ linksAt (setConns v level links) l) :
    k ∈ linksAt v l ∨ (l = level ∧ k ∈ links) := by
  unfold linksAt setConns at h
  simp only [List.getD_eq_getElem?_getD, List.getElem?_set] at h
  by_cases h1 : level = l
  · subst h1
    by_cases h2 : level < v.conns.length
    · rw [if_pos rfl, if_pos h2] at h; exact .inr ⟨rfl, h⟩
    · rw [if_pos rfl, if_neg h2] at h; simp at h
  · rw [if_neg h1] at h; left; unfold linksAt; rw [List.getD_eq_getElem?_getD]; exact h

/-- from `s` to `s'` only the vertices of `L` have been put into the cache, and vertices other than `x` have got at most links to `x` -/
structure Touch (x : Nat) (L : List Nat) (s s' : Index V) : Prop where
  kv : s'.kv = s.kv
  ids : IdsOk s'
  cache : ∀ i, i ∉ L → s'.cache.get i = s.cache.get i
  links : ∀ i, i ≠ x → ∀ v', s'.get i = some v' → ∃ v, s.get i = some v ∧ ∀ l k, k ∈ linksAt v' l → k = x ∨ k ∈ linksAt v l

theorem Touch.refl (x : Nat) {s : Index V} (hi : IdsOk s) : Touch x [] s s :=
  ⟨rfl, hi, fun _ _ => rfl, fun _ _ v' h => ⟨v', h, fun _ _ h => .inr h⟩⟩

theorem Touch.mono {x : Nat} {L M : List Nat} {s s' : Index V} (h : Touch x L s s') (hm : ∀ i ∈ L, i ∈ M) : Touch x M s s' :=
  ⟨h.kv, h.ids, fun i hi => h.cache i (fun hl => hi (hm i hl)), h.links⟩

theorem Touch.trans {x : Nat} {L M : List Nat} {a b c : Index V} (h : Touch x L a b) (h' : Touch x M b c) : Touch x (L ++ M) a c := by
  refine ⟨h'.kv.trans h.kv, h'.ids, ?_, ?_⟩
  · intro i hi
    simp only [List.mem_append, not_or] at hi
    exact (h'.cache i hi.2).trans (h.cache i hi.1)
  · intro i hx v' hv'
    obtain ⟨v1, g1, k1⟩ := h'.links i hx v' hv'
    obtain ⟨v, g, k⟩ := h.links i hx v1 g1
    refine ⟨v, g, fun l j hj => ?_⟩
    rcases k1 l j hj with h | h
    · exact .inl h
    · exact k l j h

theorem Touch.get {x : Nat} {L : List Nat} {s s' : Index V} (h : Touch x L s s') {i : Nat} (hi : i ∉ L) : s'.get i = s.get i := by
  unfold Index.get
  rw [h.cache i hi, h.kv]

theorem cache_put (s : Index V) (v : Vertex V) {i : Nat} (h : i ≠ v.id) : (s.put v).cache.get i = s.cache.get i := by
  unfold put
  simp only [Tab.get_put, if_neg h]

theorem touch_put_self {x : Nat} {s : Index V} (hi : IdsOk s) {v : Vertex V} (hv : v.id = x) : Touch x [x] s (s.put v) := by
  refine ⟨rfl, idsOk_put hi v, ?_, ?_⟩
  · intro i h; exact cache_put s v (by simpa [hv] using h)
  · intro i hx v' hv'
    rw [get_put, if_neg (hv ▸ hx)] at hv'
    exact ⟨v', hv', fun _ _ h => .inr h⟩

theorem touch_put_old {x nb : Nat} {s : Index V} (hi : IdsOk s) {v u : Vertex V} (hg : s.get nb = some v) (hu : u.id = v.id)
    (hl : ∀ l k, k ∈ linksAt u l → k = x ∨ k ∈ linksAt v l) : Touch x [nb] s (s.put u) := by
  have hid : u.id = nb := hu.trans (hi.get hg)
  refine ⟨rfl, idsOk_put hi u, ?_, ?_⟩
  · intro i h; exact cache_put s u (by simpa [hid] using h)
  · intro i hx v' hv'
    rw [get_put] at hv'
    by_cases h : i = u.id
    · rw [if_pos h] at hv'; cases hv'
      rw [h, hid]; exact ⟨v, hg, hl⟩
    · rw [if_neg h] at hv'; exact ⟨v', hv', fun _ _ h => .inr h⟩

theorem connectNeighbor_cache (P : Params V D) (vo : VecOracle V) (x level : Nat) {s : Index V} (hi : IdsOk s) (nb i : Nat) (hne : i ≠ nb) :
    (connectNeighbor P vo x level s nb).1.cache.get i = s.cache.get i := by
  cases hg : s.get nb with
  | none => simp only [connectNeighbor, hg]
  | some v =>
    have hid := hi.get hg
    have hr : (if level > v.level then upgrade { v with committed := false } level else { v with committed := false }) =
        raised v level := rfl
    have e1 : (s.put (raised v level)).cache.get i = s.cache.get i := cache_put _ _ (by rw [raised_id, hid]; exact hne)
    have e2 : ∀ links, ((s.put (raised v level)).put (setConns (raised v level) level links)).cache.get i = s.cache.get i := fun links =>
      (cache_put _ (setConns (raised v level) level links) (show i ≠ (raised v level).id by rw [raised_id, hid]; exact hne)).trans e1
    simp only [connectNeighbor, hg]
    simp only [hr]
    split
    · rfl
    · split
      · rfl
      · split
        · exact e1
        · split
          · exact e2 _
          · split
            · exact e1
            · split
              · exact e1
              · split
                · exact e1
                · exact e2 _

theorem connectNeighbor_touch (P : Params V D) (vo : VecOracle V) (x level : Nat) {s : Index V} (hi : IdsOk s) (nb : Nat) :
    Touch x [nb] s (connectNeighbor P vo x level s nb).1 := by
  have hx := connectNeighbor_ext P vo x level s nb
  refine ⟨hx.same.kv, hx.ids hi, fun i h => connectNeighbor_cache P vo x level hi nb i (by simpa using h), ?_⟩
  intro i _ v' hv'
  rcases connectNeighbor_cases P vo x level s nb with ⟨h, _⟩ | ⟨v, hg, _, _, ⟨_, _, hu⟩ | ⟨cur, links, _, hc, hu, hl⟩⟩
  · rw [h] at hv'; exact ⟨v', hv', fun _ _ h => .inr h⟩
  · rw [hu.get] at hv'
    split at hv'
    · rename_i he
      cases hv'
      rw [raised_id, hi.get hg] at he
      exact ⟨v, he ▸ hg, fun l k hk => .inr (by rw [linksAt_raised] at hk; exact hk)⟩
    · exact ⟨v', hv', fun _ _ h => .inr h⟩
  · rw [hu.get] at hv'
    split at hv'
    · rename_i he
      cases hv'
      have he : i = (raised v level).id := he
      rw [raised_id, hi.get hg] at he
      refine ⟨v, he ▸ hg, fun l k hk => ?_⟩
      have hcur : cur = linksAt v level := by
        rw [← linksAt_raised v level level]
        unfold linksAt
        rw [List.getD_eq_getElem?_getD, hc]; rfl
      rcases linksAt_set hk with hk | ⟨hle, hk⟩
      · rw [linksAt_raised] at hk; exact .inr hk
      · rw [hle]
        rcases hl with ⟨_, rfl⟩ | ⟨_, _, _, hs⟩
        · rw [List.mem_append, List.mem_singleton] at hk
          rcases hk with hk | hk
          · exact .inr (hcur ▸ hk)
          · exact .inl hk
        · rcases List.mem_cons.mp (hs k hk) with hk | hk
          · exact .inl hk
          · exact .inr (hcur ▸ hk)
    · exact ⟨v', hv', fun _ _ h => .inr h⟩

theorem connectAll_touch (P : Params V D) (vo : VecOracle V) (x level : Nat) (nbs : List Nat) {s : Index V} (hi : IdsOk s) :
    Touch x nbs s (connectAll P vo x level s nbs).1 := by
  induction nbs generalizing s with
  | nil => exact Touch.refl x hi
  | cons nb nbs ih =>
    unfold connectAll
    have h := connectNeighbor_touch P vo x level hi nb
    split
    · rename_i he; rw [he] at h; exact h.mono (fun i hi => by simp at hi; simp [hi])
    · rename_i he; rw [he] at h; exact h.trans (ih h.ids)

theorem doAtLevel_touch (P : Params V D) (vo : VecOracle V) (sched : Graph.Scheds D) (q : V) (x : Nat) {s : Index V} (ep level : Nat)
    (hi : IdsOk s) : ∃ L, L.length ≤ P.maxConn ∧ Touch x (x :: L) s (doAtLevel P vo sched q x s ep level).1 := by
  have h0 : ∃ L : List Nat, L.length ≤ P.maxConn ∧ Touch x (x :: L) s s := ⟨[], Nat.zero_le _, (Touch.refl x hi).mono (fun _ h => by cases h)⟩
  unfold doAtLevel
  split
  · exact h0
  · split
    · exact h0
    · split
      · exact h0
      · rename_i kept hk
        simp only
        split
        · exact h0
        · rename_i v hv
          split
          · exact h0
          · have hlen : ((drain lessMax kept).map Item.id).length ≤ P.maxConn := by
              have := (selectNeighbors_sub hk).2
              rw [List.length_map, (drain_perm lessMax kept).length_eq]
              simpa using this
            have ht := (touch_put_self (v := setConns v level ((drain lessMax kept).map Item.id)) hi (show v.id = x from hi.get hv)).trans
              (connectAll_touch P vo x level ((drain lessMax kept).map Item.id) (idsOk_put hi _))
            have ht' : Touch x (x :: (drain lessMax kept).map Item.id) s _ := ht
            refine ⟨_, hlen, ?_⟩
            split
            · rename_i he; rw [he] at ht'; exact ht'
            · rename_i he; rw [he] at ht'
              split
              · exact ht'
              · exact ht'

theorem doLevels_touch (P : Params V D) (vo : VecOracle V) (sched : Graph.Scheds D) (q : V) (x n : Nat) {s : Index V} (ep : Nat)
    (hi : IdsOk s) : ∃ L, L.length ≤ n * P.maxConn ∧ Touch x (x :: L) s (doLevels P vo sched q x n s ep).1 := by
  induction n generalizing s ep with
  | zero => exact ⟨[], by simp, (Touch.refl x hi).mono (fun _ h => by cases h)⟩
  | succ level ih =>
    unfold doLevels
    obtain ⟨L, hL, h⟩ := doAtLevel_touch P vo sched q x ep level hi
    split
    · rename_i he; rw [he] at h
      exact ⟨L, by rw [Nat.succ_mul]; omega, h⟩
    · rename_i s1 ep1 he; rw [he] at h
      obtain ⟨M, hM, h'⟩ := ih ep1 h.ids
      refine ⟨L ++ M, by rw [List.length_append, Nat.succ_mul]; omega, (h.trans h').mono ?_⟩
      intro i hi
      simp only [List.mem_append, List.mem_cons] at hi ⊢
      grind

theorem touch_flags {x : Nat} {L : List Nat} {s t s' : Index V} (h : Touch x L s t) (h1 : s'.cache = t.cache) (h2 : s'.kv = t.kv) : Touch x L s s' := by
  have hg : ∀ id, s'.get id = t.get id := by intro id; unfold Index.get; rw [h1, h2]
  refine ⟨h2.trans h.kv, ⟨by rw [h1]; exact h.ids.cache, by rw [h2]; exact h.ids.kv⟩, fun i hi => by rw [h1]; exact h.cache i hi, ?_⟩
  intro i hx v' hv'
  rw [hg] at hv'
  exact h.links i hx v' hv'

theorem connectNew_touch (P : Params V D) (vo : VecOracle V) (sched : Graph.Scheds D) {s : Index V} (x : Nat) (q : V) (level : Nat) (hi : IdsOk s) :
    ∃ L, L.length ≤ (Nat.min level s.maxLayer + 1) * P.maxConn ∧ Touch x (x :: L) s (connectNew P vo sched s x q level).1 := by
  unfold connectNew
  split
  · exact ⟨[], Nat.zero_le _, (Touch.refl x hi).mono (fun _ h => by cases h)⟩
  · rename_i ep _
    obtain ⟨L, hL, h⟩ := doLevels_touch P vo sched q x (Nat.min level s.maxLayer + 1) ep hi
    refine ⟨L, hL, ?_⟩
    split
    · rename_i he; rw [he] at h; exact h
    · rename_i s1 he
      rw [he] at h
      split
      · exact h
      · rename_i v hv
        have h2 := (h.trans (touch_put_self (v := { v with maint := false }) h.ids (show v.id = x from h.ids.get hv))).mono
          (M := x :: L) (fun i hi => by simp only [List.mem_append, List.mem_cons] at hi ⊢; grind)
        simp only
        split
        · exact touch_flags h2 rfl rfl
        · exact h2

/-- whatever the outcome, an addition touches the new vertex and at most `maxConn` others on each layer -/
theorem add_touch (P : Params V D) (vo : VecOracle V) (sched : Graph.Scheds D) {s : Index V} (x : Nat) (vec : V) (level : Nat) (hi : IdsOk s) :
    ∃ L, L.length ≤ (Nat.min level s.maxLayer + 1) * P.maxConn ∧ Touch x (x :: L) s (add P vo sched s x vec level).1 := by
  have h0 : ∀ t : Index V, t.cache = s.cache → t.kv = s.kv → Touch x [x] s t := fun t h1 h2 =>
    touch_flags ((Touch.refl x hi).mono (fun _ h => by cases h)) h1 h2
  unfold add
  split
  · exact ⟨[], Nat.zero_le _, h0 _ rfl rfl⟩
  · unfold insertNode
    split
    · unfold insertInitial
      refine ⟨[], Nat.zero_le _, ?_⟩
      have h1 := h0 { s with once := true, entry := x, maxLayer := 0 } rfl rfl
      exact (h1.trans (touch_put_self (v := { id := x, level := 0, conns := [[]], maint := false, vec := P.norm vec, committed := false }) h1.ids rfl)).mono
        (fun i hi => by simpa using hi)
    · simp only
      split
      · exact ⟨[], Nat.zero_le _, h0 _ rfl rfl⟩
      · have h1 := h0 { s with once := true } rfl rfl
        have h2 := h1.trans (touch_put_self (v := newNode x (P.norm vec) level) h1.ids rfl)
        obtain ⟨L, hL, h⟩ := connectNew_touch P vo sched x (P.norm vec) level h2.ids
        refine ⟨L, hL, (h2.trans h).mono (fun i hi => ?_)⟩
        simp only [List.mem_append, List.mem_cons] at hi ⊢; grind

end Fave.Index
