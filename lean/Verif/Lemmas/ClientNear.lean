import Verif.Lemmas.ClientRun
/-! # Lemmas on the searches of the document client -/
namespace Fave.Client
variable {F D : Type} [Dist D] [DecidableEq F]

theorem lookupAll_length {o : Oracle F D} {docs : List (Props F)} {i : Nat} {ids : List Nat} {ps : List (Props F)}
    (h : lookupAll o docs i ids = .ok ps) : ps.length = ids.length := by
  induction ids generalizing i ps with
  | nil => cases h; rfl
  | cons id ids ih =>
    unfold lookupAll at h
    split at h
    · cases h
    · split at h
      · cases h
      · split at h
        · cases h
        · rename_i hps
          cases h
          simp [ih hps]

theorem lookupAll_take {o : Oracle F D} {docs : List (Props F)} {i : Nat} {ids : List Nat} {ps : List (Props F)}
    (h : lookupAll o docs i ids = .ok ps) (n : Nat) : lookupAll o docs i (ids.take n) = .ok (ps.take n) := by
  induction ids generalizing i ps n with
  | nil => cases h; simp [lookupAll]
  | cons id ids ih =>
    cases n with
    | zero => simp [lookupAll]
    | succ n =>
      unfold lookupAll at h
      split at h
      · cases h
      · rename_i hf
        split at h
        · cases h
        · rename_i p hp
          split at h
          · cases h
          · rename_i qs hps
            cases h
            rw [List.take_succ_cons, List.take_succ_cons, lookupAll, if_neg hf, hp, ih hps]

/-- the answer of the common part of the searches, and what it is made of -/
theorem nearWith_ok {E : Env F D} {o : Oracle F D} {w : World F} {c : Str} {q : List F} {max : D} {ef limit : Int}
    {docs : List (Props F)} {ds : List D} (h : (nearWith E o w c q max ef limit).2 = .ok (docs, ds)) :
    ∃ (idx : Index (List F)) (ids : List Nat) (dists : List D) (ids' : List Nat),
      (w.coll c).hasIdx = true ∧ idx = loaded o (w.coll c).idx ∧
      (idx.graph E.P).knnMaxDist (o.sched 0) q max ef none = .ok (ids, dists) ∧
      truncate limit ids dists = .ok (ids', ds) ∧ lookupAll o ((w.dbs.get c).getD ⟨[], []⟩).docs 0 ids' = .ok docs := by
  unfold nearWith at h
  split at h
  · cases h
  · rename_i hi
    simp only at h
    refine ⟨loaded o (w.coll c).idx, ?_⟩
    split at h
    · cases h
    · rename_i ids dists hk
      split at h
      · cases h
      · rename_i ids' ds' ht
        split at h
        · cases h
        · rename_i docs' hl
          cases h
          exact ⟨ids, dists, ids', by simpa using hi, rfl, hk, ht, hl⟩

/-- and conversely -/
theorem nearWith_of {E : Env F D} {o : Oracle F D} {w : World F} {c : Str} {q : List F} {max : D} {ef : Int} (limit : Int)
    {ids : List Nat} {dists : List D} (hi : (w.coll c).hasIdx = true)
    (hk : ((loaded o (w.coll c).idx).graph E.P).knnMaxDist (o.sched 0) q max ef none =
      .ok (ids, dists)) :
    (nearWith E o w c q max ef limit).2 = match truncate limit ids dists with
      | .error e => .error e
      | .ok (ids', ds) => match lookupAll o ((w.dbs.get c).getD ⟨[], []⟩).docs 0 ids' with
        | .error e => .error e
        | .ok docs => .ok (docs, ds) := by
  unfold nearWith
  rw [if_neg (by simp [hi])]
  simp only [hk]
  rfl

theorem truncate_ok {A B : Type} {limit : Int} {ids : List A} {dists : List B} {r : List A × List B}
    (h : truncate limit ids dists = .ok r) :
    (r = (ids, dists) ∧ (limit = 0 ∨ (ids.length : Int) ≤ limit)) ∨
    (0 < limit ∧ limit < ids.length ∧ r = (ids.take limit.toNat, dists.take limit.toNat)) := by
  unfold truncate at h
  split at h
  · rename_i hc
    split at h
    · cases h
    · cases h
      exact .inr ⟨by omega, hc.2, rfl⟩
  · rename_i hc
    cases h
    refine .inl ⟨rfl, ?_⟩
    by_cases h0 : limit = 0
    · exact .inl h0
    · right
      apply Int.not_lt.mp
      exact fun hl => hc ⟨h0, hl⟩

theorem near_length {E : Env F D} {o : Oracle F D} {w : World F} {c : Str} {q : List F} {max : D} {ef limit : Int}
    {docs : List (Props F)} {ds : List D} (h : (nearWith E o w c q max ef limit).2 = .ok (docs, ds)) (hl : limit ≠ 0) :
    (docs.length : Int) ≤ limit := by
  obtain ⟨idx, ids, dists, ids', _, _, _, ht, hd⟩ := nearWith_ok h
  rw [lookupAll_length hd]
  rcases truncate_ok ht with ⟨h1, h2 | h2⟩ | ⟨h1, h2, h3⟩
  · exact absurd h2 hl
  · cases h1; exact h2
  · cases h3
    rw [List.length_take]
    omega

theorem near_limit {E : Env F D} {o : Oracle F D} {w : World F} {c : Str} {q : List F} {max : D} {ef : Int} (limit : Int) (hl : 0 < limit)
    {docs : List (Props F)} {ds : List D} (h : (nearWith E o w c q max ef 0).2 = .ok (docs, ds)) :
    ∃ ds', (nearWith E o w c q max ef limit).2 = .ok (docs.take limit.toNat, ds') ∧
      ds'.take (docs.take limit.toNat).length = ds.take (docs.take limit.toNat).length := by
  obtain ⟨idx, ids, dists, ids', hi, hx, hk, ht, hd⟩ := nearWith_ok h
  have hlen := lookupAll_length hd
  subst hx
  rw [nearWith_of limit hi hk]
  rcases truncate_ok ht with ⟨h1, _⟩ | ⟨h1, _, _⟩
  · simp only [Prod.mk.injEq] at h1
    obtain ⟨rfl, rfl⟩ := h1
    by_cases hc : limit < ids'.length
    · have : truncate limit ids' ds = .ok (ids'.take limit.toNat, ds.take limit.toNat) := by
        unfold truncate
        rw [if_pos ⟨by omega, hc⟩, if_neg (by omega)]
      rw [this]
      simp only []
      rw [lookupAll_take hd]
      refine ⟨_, rfl, ?_⟩
      rw [List.length_take, List.take_take]
      congr 1
      omega
    · have : truncate limit ids' ds = .ok (ids', ds) := by
        unfold truncate
        rw [if_neg (fun hh => hc hh.2)]
      rw [this]
      simp only []
      rw [hd]
      refine ⟨ds, ?_, rfl⟩
      rw [List.take_of_length_le (by omega)]
  · omega

theorem near_negative {E : Env F D} {o : Oracle F D} {w : World F} {c : Str} {q : List F} {max : D} {ef : Int} (limit : Int) (hl : limit < 0)
    {docs : List (Props F)} {ds : List D} (h : (nearWith E o w c q max ef 0).2 = .ok (docs, ds)) :
    (nearWith E o w c q max ef limit).2 = .error .panic := by
  obtain ⟨idx, ids, dists, ids', hi, hx, hk, ht, hd⟩ := nearWith_ok h
  subst hx
  rw [nearWith_of limit hi hk]
  have : truncate limit ids dists = .error .panic := by
    unfold truncate
    rw [if_pos ⟨by omega, by omega⟩, if_pos hl]
  rw [this]

theorem serve_nearVector {E : Env F D} {o : Oracle F D} {w : World F} {name : Str} {q : List F} {max : D} {limit : Int}
    {docs : List (Props F)} {ds : List D} (h : (serve E w (.nearVector o name q max limit)).2 = .near docs ds) :
    ∃ w1, ensureOpen o w (ns ++ name) = (w1, none) ∧ (nearWith E o w1 (ns ++ name) q max 800 limit).2 = .ok (docs, ds) := by
  simp only [serve, nearVector] at h
  cases ho : ensureOpen o w (ns ++ name) with
  | mk w1 e =>
    rw [ho] at h
    cases e with
    | some e => cases h
    | none =>
      refine ⟨w1, rfl, ?_⟩
      simp only at h
      cases hr : (nearWith E o w1 (ns ++ name) q max 800 limit).2 with
      | error e => rw [hr] at h; cases h
      | ok r => rw [hr] at h; cases h; rfl

theorem serve_nearVector_of {E : Env F D} {o : Oracle F D} {w w1 : World F} {name : Str} {q : List F} {max : D} {limit : Int}
    (h : ensureOpen o w (ns ++ name) = (w1, none)) :
    (serve E w (.nearVector o name q max limit)).2 = .ofNear (nearWith E o w1 (ns ++ name) q max 800 limit).2 := by
  simp only [serve, nearVector, h]

theorem serve_nearText {E : Env F D} {o : Oracle F D} {w : World F} {name : Str} {text : Str} {max : D} {limit : Int}
    {docs : List (Props F)} {ds : List D} (h : (serve E w (.nearText o name text max limit)).2 = .near docs ds) :
    ∃ w1 q, ensureOpen o w (ns ++ name) = (w1, none) ∧ (nearWith E o w1 (ns ++ name) q max limit limit).2 = .ok (docs, ds) := by
  simp only [serve, nearText] at h
  cases ho : ensureOpen o w (ns ++ name) with
  | mk w1 e =>
    rw [ho] at h
    cases e with
    | some e => cases h
    | none =>
      simp only at h
      by_cases hl : (!w1.lookup) = true
      · rw [if_pos hl] at h; cases h
      · rw [if_neg hl] at h
        cases hc : o.corpi 0 text with
        | fail => rw [hc] at h; cases h
        | nil => rw [hc] at h; cases h
        | vec q =>
          rw [hc] at h
          refine ⟨w1, q, rfl, ?_⟩
          simp only at h
          cases hr : (nearWith E o w1 (ns ++ name) q max limit limit).2 with
          | error e => rw [hr] at h; cases h
          | ok r => rw [hr] at h; cases h; rfl

/-- there are at least as many distances as documents -/
theorem near_dists {E : Env F D} {o : Oracle F D} {w : World F} {c : Str} {q : List F} {max : D} {ef limit : Int}
    {docs : List (Props F)} {ds : List D} (h : (nearWith E o w c q max ef limit).2 = .ok (docs, ds)) : docs.length ≤ ds.length := by
  obtain ⟨idx, ids, dists, ids', _, _, hk, ht, hd⟩ := nearWith_ok h
  rw [lookupAll_length hd]
  have hlen : ids.length ≤ dists.length := by
    unfold Graph.knnMaxDist at hk
    split at hk
    · cases hk
    · cases hk; simp
  rcases truncate_ok ht with ⟨h1, _⟩ | ⟨_, _, h3⟩
  · cases h1; exact hlen
  · cases h3
    rw [List.length_take, List.length_take]
    omega

end Fave.Client
