import Verif.Model.Collection32
import Verif.Props.C36
import Verif.Props.C57
import Verif.Props.C64
/-!
# C65: searching in 32-bit arithmetic

Full claim: *a search returns the documents whose vectors point in nearly the direction asked for, with rounding: each one that is within
the limit by more than the rounding error, none that is beyond it by more, in the order of the angles up to the rounding error.*

False: `KnnSearchByVectorMaxDist` passes over negative distances, and rounding makes the distance of a vector to itself negative
(`exact_match_dropped`, `document_not_found`: a document with the vector [2, 3] is not found by asking for [2, 3], whatever the limit).
True for all vectors that differ from the query by more than the rounding error, in collections of up to 61 vectors
(`hits_near_truth_partial`, `documents_near_truth_partial`).
-/
namespace Fave
namespace C65
open Distance F32 C64 Client

local instance : Dist ℚ := fieldDist
local instance : LawfulDist ℚ := fieldLawful

theorem norm32_length (v : List ℚ) : (norm32 v).length = v.length := by
  obtain ⟨w, hw, hl, _⟩ := always_finite v
  unfold norm32
  rw [hw, List.length_map]
  simpa [vec] using hl

theorem metric32_none (avx : Bool) (junk : ℕ → ℕ → Num) (a b : List ℚ) (h : a.length ≠ b.length) : (metric32 avx junk).dist a b = none := by
  unfold metric32 distance
  simp only
  rw [if_pos]
  · rfl
  · simpa [vec] using h

/-- Only numbers come up, never infinities or not-a-number: the stored vectors are those that `Normalize` returns, and the distances of
stored vectors and queries of the same length, at most 2^22, are those that the distance function returns. -/
theorem always_numbers (avx : Bool) (junk : ℕ → ℕ → Num) (a b : List ℚ) :
    vec (norm32 a) = normalize ops (vec a) ∧
    (a.length = b.length → a.length ≤ 2 ^ 22 → ∃ d, (metric32 avx junk).dist (norm32 a) (norm32 b) = some d ∧
      distance ops avx junk .cosine (normalize ops (vec a)) (normalize ops (vec b)) = .ok (.fin d)) ∧
    (a.length ≠ b.length → (metric32 avx junk).dist (norm32 a) (norm32 b) = none) := by
  have hv : ∀ v : List ℚ, vec (norm32 v) = normalize ops (vec v) := by
    intro v
    obtain ⟨w, hw, _⟩ := always_finite v
    unfold norm32
    rw [hw]
    unfold vec
    rw [List.map_map, List.map_map]
    rfl
  refine ⟨hv a, ?_, ?_⟩
  · intro hl hn
    obtain ⟨d, hd⟩ := cosine_always_finite avx junk a b hl hn
    refine ⟨d, ?_, hd⟩
    unfold metric32
    simp only
    rw [hv, hv, hd]
    rfl
  · intro hl
    exact metric32_none avx junk _ _ (by rw [norm32_length, norm32_length]; exact hl)

theorem params32_ok (avx : Bool) (junk : ℕ → ℕ → Num) : (params32 avx junk).Ok where
  conn := by show (30 : Nat) ≤ 60; decide
  sizes := by show (25000 : Nat) ≤ 25500; decide
  lens := metric32_none avx junk
  norm := norm32_length

theorem metric32_some (avx : Bool) (junk : ℕ → ℕ → Num) (a b : List ℚ) (h : a.length = b.length) : ∃ d, (metric32 avx junk).dist a b = some d := by
  obtain ⟨d, hd⟩ := (C36.error_iff_lengths ops avx junk .cosine (vec a) (vec b)).2 (by simpa [vec] using h)
  exact ⟨d.val, by unfold metric32; simp only; rw [hd]; rfl⟩

theorem metric32_symm (avx : Bool) (junk : ℕ → ℕ → Num) (a b : List ℚ) : (metric32 avx junk).dist a b = (metric32 avx junk).dist b a := by
  unfold metric32
  simp only
  rw [C63.symmetric]

/-- how far two vectors are apart: one minus the cosine of the angle between them -/
noncomputable def apart (a b : List ℚ) : ℝ :=
  1 - ((List.zipWith (fun x y => x * y) a b).sum : ℚ) / (Real.sqrt (squares a : ℚ) * Real.sqrt (squares b : ℚ))

/-- the rounding error of a distance of vectors of length `n` -/
noncomputable def slack (n : ℕ) : ℝ := ((n : ℝ) + 8) / 2 ^ 20

theorem dist_near (avx : Bool) (junk : ℕ → ℕ → Num) (a b : List ℚ) (hl : a.length = b.length) (ha : Moderate a) (hb : Moderate b) (d : ℚ)
    (h : (metric32 avx junk).dist (norm32 a) (norm32 b) = some d) : |(d : ℝ) - apart a b| ≤ slack a.length := by
  obtain ⟨e, he, h1⟩ := cosine_near_truth_partial avx junk a b hl ha hb
  obtain ⟨d', hd', h2⟩ := (always_numbers avx junk a b).2.1 hl (ha.short.trans (by norm_num))
  rw [h] at hd'
  cases hd'
  rw [h2] at he
  cases he
  exact h1

/-- what the exact statement about hits means for the angles -/
theorem near_hits (avx : Bool) (junk : ℕ → ℕ → Num) (vs : List (List ℚ)) (q : List ℚ) (hq : ∀ u ∈ vs, u.length = q.length)
    (hm : ∀ u ∈ vs, Moderate u) (hqm : Moderate q) (max : ℚ) (hits : List (Item ℚ))
    (hsorted : hits.Pairwise (fun a b => Dist.lt b.dist a.dist = false))
    (hmem : ∀ id d, (⟨id, d⟩ : Item ℚ) ∈ hits ↔ ∃ u, vs[id]? = some u ∧ (metric32 avx junk).dist (norm32 q) (norm32 u) = some d ∧
        Dist.lt d Dist.zero = false ∧ Dist.lt max d = false) :
    (∀ x ∈ hits, ∃ u, vs[x.id]? = some u ∧ |(x.dist : ℝ) - apart q u| ≤ slack q.length ∧ apart q u ≤ max + slack q.length) ∧
    (∀ id u, vs[id]? = some u → slack q.length ≤ apart q u → apart q u + slack q.length ≤ max → id ∈ hits.map Item.id) ∧
    (∀ (i j : ℕ) (x y : Item ℚ), i < j → hits[i]? = some x → hits[j]? = some y → ∀ u v, vs[x.id]? = some u → vs[y.id]? = some v →
      apart q u ≤ apart q v + 2 * slack q.length) := by
  have near : ∀ x ∈ hits, ∃ u, vs[x.id]? = some u ∧ |(x.dist : ℝ) - apart q u| ≤ slack q.length ∧ x.dist ≤ max := by
    rintro ⟨id, d⟩ hx
    obtain ⟨u, h1, h2, _, h4⟩ := (hmem id d).1 hx
    have hu := List.mem_of_getElem? h1
    refine ⟨u, h1, dist_near avx junk q u (hq u hu).symm hqm (hm u hu) d h2, ?_⟩
    have : decide (max < d) = false := h4
    simpa using this
  refine ⟨?_, ?_, ?_⟩
  · intro x hx
    obtain ⟨u, h1, h2, h3⟩ := near x hx
    refine ⟨u, h1, h2, ?_⟩
    have h4 : (x.dist : ℝ) ≤ (max : ℝ) := by exact_mod_cast h3
    have := (abs_le.1 h2).1
    linarith
  · intro id u h1 h2 h3
    have hu := List.mem_of_getElem? h1
    obtain ⟨d, hd⟩ := metric32_some avx junk (norm32 q) (norm32 u) (by rw [norm32_length, norm32_length, hq u hu])
    have h4 := abs_le.1 (dist_near avx junk q u (hq u hu).symm hqm (hm u hu) d hd)
    have h5 : (0 : ℝ) ≤ (d : ℝ) := by linarith [h4.1]
    have h6 : (d : ℝ) ≤ (max : ℝ) := by linarith [h4.2]
    refine List.mem_map.2 ⟨⟨id, d⟩, (hmem id d).2 ⟨u, h1, hd, ?_, ?_⟩, rfl⟩
    · have : 0 ≤ d := by exact_mod_cast h5
      show decide (d < 0) = false
      simpa using this
    · have : d ≤ max := by exact_mod_cast h6
      show decide (max < d) = false
      simpa using this
  · intro i j x y hij hx hy u v hu hv
    obtain ⟨u', h1, h2, _⟩ := near x (List.mem_of_getElem? hx)
    obtain ⟨v', h3, h4, _⟩ := near y (List.mem_of_getElem? hy)
    rw [hu] at h1; cases h1
    rw [hv] at h3; cases h3
    obtain ⟨hi, rfl⟩ := List.getElem?_eq_some_iff.1 hx
    obtain ⟨hj, rfl⟩ := List.getElem?_eq_some_iff.1 hy
    have h5 : decide (hits[j].dist < hits[i].dist) = false := List.pairwise_iff_getElem.1 hsorted i j hi hj hij
    have h6 : hits[i].dist ≤ hits[j].dist := by simpa using h5
    have h7 : (hits[i].dist : ℝ) ≤ (hits[j].dist : ℝ) := by exact_mod_cast h6
    have h8 := (abs_le.1 h2).1
    have h9 := (abs_le.1 h4).2
    linarith

/-- In a collection of up to 61 moderate vectors, however it came about, a search by a moderate query returns: only vectors whose angle is
within the limit up to the rounding error, each once and with a distance that is right up to it; all whose angle is within the limit
and above zero by at least that error; in the order of the angles up to twice the error. -/
theorem hits_near_truth_partial (avx : Bool) (junk : ℕ → ℕ → Num) (s : Index (List ℚ)) (vs : List (List ℚ))
    (h : Index.Hist (params32 avx junk) s vs) (hn : vs ≠ []) (hsm : vs.length ≤ 61) (q : List ℚ) (hq : ∀ u ∈ vs, u.length = q.length)
    (hm : ∀ u ∈ vs, Moderate u) (hqm : Moderate q) (sched : Graph.Scheds ℚ) (max : ℚ) :
    ∃ (hits : List (Item ℚ)) (ds : List ℚ), (s.graph (params32 avx junk)).knnMaxDist sched q max 800 none = .ok (hits.map Item.id, ds) ∧
      ds.take hits.length = hits.map Item.dist ∧ (hits.map Item.id).Nodup ∧
      (∀ x ∈ hits, ∃ u, vs[x.id]? = some u ∧ |(x.dist : ℝ) - apart q u| ≤ slack q.length ∧ apart q u ≤ max + slack q.length) ∧
      (∀ id u, vs[id]? = some u → slack q.length ≤ apart q u → apart q u + slack q.length ≤ max → id ∈ hits.map Item.id) ∧
      (∀ (i j : ℕ) (x y : Item ℚ), i < j → hits[i]? = some x → hits[j]? = some y → ∀ u v, vs[x.id]? = some u → vs[y.id]? = some v →
        apart q u ≤ apart q v + 2 * slack q.length) := by
  obtain ⟨hits, ds, h1, h2, h3, h4, h5⟩ := C03.up_to_61_vectors_exact (metric32 avx junk) norm32 (fun _ => true) (metric32_none avx junk)
    (metric32_some avx junk) norm32_length (metric32_symm avx junk) s vs h hn hsm q hq sched max
  exact ⟨hits, ds, h1, h2, h3, near_hits avx junk vs q hq hm hqm max hits h4 h5⟩

theorem taken_length (L : ℕ) (o : Oracle ℚ ℚ) (ti : List Str) (docs : List (Option (Doc ℚ))) (i : ℕ) :
    ∀ x ∈ taken List.length L o ti i docs, x.2.length = L := by
  induction docs generalizing i with
  | nil => simp [taken]
  | cons d docs ih =>
    intro x hx
    cases d with
    | none => exact ih _ x hx
    | some d =>
      simp only [taken] at hx
      split at hx
      · exact ih _ x hx
      · split at hx
        · rename_i h
          rcases List.mem_cons.1 hx with rfl | hx
          · exact h
          · exact ih _ x hx
        · exact ih _ x hx

theorem shelf_length (L : ℕ) (name : Str) (rs : List (Req ℚ ℚ)) (s : Shelf ℚ) (h : ∀ x ∈ s.entries, x.2.length = L) :
    ∀ x ∈ (s.after List.length L name rs).entries, x.2.length = L := by
  unfold Shelf.after
  induction rs generalizing s with
  | nil => exact h
  | cons r rs ih =>
    apply ih
    cases r <;> simp only [Shelf.next] <;> (try split) <;> try exact h
    · simp
    · intro x hx
      rcases List.mem_append.1 hx with hx | hx
      · exact h x hx
      · exact taken_length L _ _ _ _ x hx

/-- the environment of the document client with 32-bit arithmetic — pkg/document/document.go:189-199 -/
def env (avx : Bool) (junk : ℕ → ℕ → Num) : Env ℚ ℚ := ⟨params32 avx junk, false⟩

/-- The same for the requests of users: after any orderly requests the answer to a search by vector shows the documents put whose vectors
have angles as in `hits_near_truth_partial`. -/
theorem documents_near_truth_partial (avx : Bool) (junk : ℕ → ℕ → Num) (L : ℕ) (hL : L ≠ 0) (name : Str) (dbs : Map (Db ℚ))
    (hf : dbs.get (ns ++ name) = none) (rs : List (Req ℚ ℚ)) (ht : OrderlyRun List.length L 30 name Shelf.start rs) (s : Shelf ℚ)
    (hs : s = Shelf.start.after List.length L name rs) (hp : s.pod = true) (hth : s.there = true) (hn : s.entries ≠ [])
    (o : Oracle ℚ ℚ) (ho : o.Works) (q : List ℚ) (hq : q.length = L) (hqm : Moderate q)
    (hm : ∀ x ∈ s.entries, Moderate x.2) (max : ℚ) :
    ∃ (hits : List (Item ℚ)) (docs : List (Props ℚ)) (ds : List ℚ),
      (serve (env avx junk) (run (env avx junk) (World.fresh true dbs) rs) (.nearVector o name q max 0)).2 = .near docs ds ∧
      (hits.map Item.id).Nodup ∧ docs.length = hits.length ∧
      (∀ (j : ℕ) (x : Item ℚ), hits[j]? = some x → ds[j]? = some x.dist ∧
        ∃ p e, docs[j]? = some p ∧ s.entries[x.id]? = some e ∧ StoredAs e.1 (x.id : Int) p ∧
          |(x.dist : ℝ) - apart q e.2| ≤ slack L ∧ apart q e.2 ≤ max + slack L) ∧
      (∀ id e, s.entries[id]? = some e → slack L ≤ apart q e.2 → apart q e.2 + slack L ≤ max → id ∈ hits.map Item.id) ∧
      (∀ (i j : ℕ) (x y : Item ℚ), i < j → hits[i]? = some x → hits[j]? = some y → ∀ d e, s.entries[x.id]? = some d → s.entries[y.id]? = some e →
        apart q d.2 ≤ apart q e.2 + 2 * slack L) := by
  obtain ⟨hits, docs, ds, h1, h2, h3, h4, h5, h6⟩ := C57.found_as_put_partial (env avx junk) (params32_ok avx junk)
    (by show 0 < 60; decide) rfl (fun _ => rfl) (metric32_some avx junk) (metric32_symm avx junk)
    (by show (30 : ℕ) < 25000; decide) (by show (30 : ℕ) ≤ 800; decide) L hL name dbs hf rs ht s hs hp hth hn o ho q hq max 0 (le_refl _)
  have hsh : C57.shown 0 hits = hits := by unfold C57.shown; exact if_pos rfl
  rw [hsh] at h5 h6
  subst hq
  have hget : ∀ (id : ℕ) (u : List ℚ), (s.entries.map Prod.snd)[id]? = some u ↔ ∃ x : Doc ℚ × List ℚ, s.entries[id]? = some x ∧ x.2 = u := by
    intro id u
    rw [List.getElem?_map]
    cases s.entries[id]? <;> simp
  obtain ⟨g1, g2, g3⟩ := near_hits avx junk (s.entries.map Prod.snd) q
    (by
      intro u hu
      obtain ⟨x, hx, rfl⟩ := List.mem_map.1 hu
      rw [hs] at hx
      exact shelf_length _ _ rs _ (by simp [Shelf.start]) x hx)
    (by
      intro u hu
      obtain ⟨x, hx, rfl⟩ := List.mem_map.1 hu
      exact hm x hx) hqm max hits h3
    (by
      intro id d
      rw [h4]
      constructor
      · rintro ⟨x, k1, k2⟩
        exact ⟨x.2, (hget id _).2 ⟨x, k1, rfl⟩, k2⟩
      · rintro ⟨u, k1, k2⟩
        obtain ⟨x, k3, rfl⟩ := (hget id _).1 k1
        exact ⟨x, k3, k2⟩)
  refine ⟨hits, docs, ds, h1, h2, h5, ?_, ?_, ?_⟩
  · intro j x hx
    obtain ⟨k1, p, e, k2, k3, k4⟩ := h6 j x hx
    obtain ⟨u, k5, k6, k7⟩ := g1 x (List.mem_of_getElem? hx)
    obtain ⟨e', k8, rfl⟩ := (hget _ _).1 k5
    rw [k3] at k8
    cases k8
    exact ⟨k1, p, e, k2, k3, k4, k6, k7⟩
  · intro id e he
    exact g2 id e.2 ((hget _ _).2 ⟨e, he, rfl⟩)
  · intro i j x y hij hx hy d e hd he
    exact g3 i j x y hij hx hy d.2 e.2 ((hget _ _).2 ⟨d, hd, rfl⟩) ((hget _ _).2 ⟨e, he, rfl⟩)

/-! ## where it is false -/

/-- The distance of [2, 3] to itself is negative, that of [1, 1] to itself positive, on every processor. -/
theorem self_distances (avx : Bool) (junk : ℕ → ℕ → Num) :
    (metric32 avx junk).dist (norm32 [2, 3]) (norm32 [2, 3]) = some (-1 / 2 ^ 23) ∧
    (metric32 avx junk).dist (norm32 [1, 1]) (norm32 [1, 1]) = some (1 / 2 ^ 24) := by
  have key : ∀ v : List ℚ, v.length = 2 → ∀ d, (distance ops false (fun _ _ => .nan) .cosine (vec v) (vec v)).toOption.map Num.val = some d →
      (some (ops.sub ops.one (Asm.blocked ops.toArith ops.fma (vec v) (vec v)))).map Num.val = some d → (metric32 avx junk).dist v v = some d := by
    intro v hv d h1 h2
    unfold metric32
    simp only
    cases avx
    · exact h1
    · rw [← h2]
      have hf : Asm.steps (vec v).length ≤ fuel (vec v).length := by
        have : (vec v).length = 2 := by simpa [vec] using hv
        rw [this]
        decide
      have : impl ops true junk .cosine (vec v) (vec v) = some (Asm.blocked ops.toArith ops.fma (vec v) (vec v)) := by
        show (Asm.dot ops.toArith junk _ _ _).getD none = _
        rw [Asm.dot_blocked _ _ (by rfl) hf]
        rfl
      unfold distance
      rw [if_neg (by simp), this]
      rfl
  refine ⟨key _ (norm32_length _) _ ?_ ?_, key _ (norm32_length _) _ ?_ ?_⟩ <;> decide +kernel

/-- A collection that holds just the vector [2, 3], however it came about, does not return it to a search for [2, 3], whatever the limit. -/
theorem exact_match_dropped (avx : Bool) (junk : ℕ → ℕ → Num) (s : Index (List ℚ)) (h : Index.Hist (params32 avx junk) s [[2, 3]])
    (sched : Graph.Scheds ℚ) (max : ℚ) :
    ∃ ds, (s.graph (params32 avx junk)).knnMaxDist sched [2, 3] max 800 none = .ok ([], ds) := by
  obtain ⟨hits, ds, h1, _, _, _, h5⟩ := C03.up_to_61_vectors_exact (metric32 avx junk) norm32 (fun _ => true) (metric32_none avx junk)
    (metric32_some avx junk) norm32_length (metric32_symm avx junk) s [[2, 3]] h (by simp) (by simp) [2, 3] (by simp) sched max
  cases hits with
  | nil => exact ⟨ds, h1⟩
  | cons x hits =>
    exfalso
    obtain ⟨u, k1, k2, k3, _⟩ := (h5 x.id x.dist).1 List.mem_cons_self
    have hu : u = [2, 3] := by simpa using List.mem_of_getElem? k1
    subst hu
    rw [(self_distances avx junk).1] at k2
    rw [← Option.some.inj k2] at k3
    exact absurd k3 (by decide +kernel)

/-- The vector [1, 1] is not returned to a search for [1, 1] with limit zero. -/
theorem limit_zero_misses (avx : Bool) (junk : ℕ → ℕ → Num) (s : Index (List ℚ)) (h : Index.Hist (params32 avx junk) s [[1, 1]])
    (sched : Graph.Scheds ℚ) :
    ∃ ds, (s.graph (params32 avx junk)).knnMaxDist sched [1, 1] 0 800 none = .ok ([], ds) := by
  obtain ⟨hits, ds, h1, _, _, _, h5⟩ := C03.up_to_61_vectors_exact (metric32 avx junk) norm32 (fun _ => true) (metric32_none avx junk)
    (metric32_some avx junk) norm32_length (metric32_symm avx junk) s [[1, 1]] h (by simp) (by simp) [1, 1] (by simp) sched 0
  cases hits with
  | nil => exact ⟨ds, h1⟩
  | cons x hits =>
    exfalso
    obtain ⟨u, k1, k2, _, k3⟩ := (h5 x.id x.dist).1 List.mem_cons_self
    have hu : u = [1, 1] := by simpa using List.mem_of_getElem? k1
    subst hu
    rw [(self_distances avx junk).2] at k2
    rw [← Option.some.inj k2] at k3
    exact absurd k3 (by decide +kernel)

/-- Documents with the vector [2, 3] are not in the answer to a search by the vector [2, 3], whatever was put into the collection besides,
whatever the limits. -/
theorem document_not_found (avx : Bool) (junk : ℕ → ℕ → Num) (name : Str) (dbs : Map (Db ℚ))
    (hf : dbs.get (ns ++ name) = none) (rs : List (Req ℚ ℚ)) (ht : OrderlyRun List.length 2 30 name Shelf.start rs) (s : Shelf ℚ)
    (hs : s = Shelf.start.after List.length 2 name rs) (hp : s.pod = true) (hth : s.there = true) (hn : s.entries ≠ [])
    (o : Oracle ℚ ℚ) (ho : o.Works) (max : ℚ) (limit : ℤ) (hl : 0 ≤ limit) (id : ℕ) (e : Doc ℚ) (he : s.entries[id]? = some (e, [2, 3])) :
    ∃ (docs : List (Props ℚ)) (ds : List ℚ),
      (serve (env avx junk) (run (env avx junk) (World.fresh true dbs) rs) (.nearVector o name [2, 3] max limit)).2 = .near docs ds ∧
      ∀ p ∈ docs, ¬ StoredAs e (id : Int) p := by
  obtain ⟨hits, docs, ds, h1, h2, h3, h4, h5, h6⟩ := C57.found_as_put_partial (env avx junk) (params32_ok avx junk)
    (by show 0 < 60; decide) rfl (fun _ => rfl) (metric32_some avx junk) (metric32_symm avx junk)
    (by show (30 : ℕ) < 25000; decide) (by show (30 : ℕ) ≤ 800; decide) 2 (by decide) name dbs hf rs ht s hs hp hth hn o ho [2, 3] rfl max limit hl
  refine ⟨docs, ds, h1, ?_⟩
  intro p hp hst
  obtain ⟨j, hj, rfl⟩ := List.mem_iff_getElem.1 hp
  have hj' : j < (C57.shown limit hits).length := by rw [← h5]; exact hj
  obtain ⟨x, hx⟩ : ∃ x, (C57.shown limit hits)[j]? = some x := ⟨_, List.getElem?_eq_getElem hj'⟩
  obtain ⟨_, p, e', k2, k3, k4⟩ := h6 j x hx
  rw [List.getElem?_eq_getElem hj] at k2
  cases k2
  have hid := hst.number.symm.trans k4.number
  simp only [Option.some.injEq, Val.int.injEq, Nat.cast_inj] at hid
  have hx' : x ∈ hits := by
    have := List.mem_of_getElem? hx
    unfold C57.shown at this
    split at this
    · exact this
    · exact List.mem_of_mem_take this
  obtain ⟨y, m1, m2, m3, _⟩ := (h4 x.id x.dist).1 hx'
  rw [← hid, he] at m1
  cases m1
  have m2 : (metric32 avx junk).dist (norm32 [2, 3]) (norm32 [2, 3]) = some x.dist := m2
  rw [(self_distances avx junk).1] at m2
  rw [← Option.some.inj m2] at m3
  exact absurd m3 (by decide +kernel)

/-! ## a case: three documents, two of which a search for the vector of the third returns -/

def books : Str := ['b', 'o', 'o', 'k', 's']
def docV (id : Char) (v : List ℚ) : Option (Doc ℚ) := some ⟨[id], [(vectorName, .floats v)]⟩
def three : List (List ℚ) := [[3, 4], [2, 3], [-4, 3]]
def oracle : Oracle ℚ ℚ :=
  { corpi := fun _ _ => .vec [1, 1], vo := fun _ _ _ _ id => (three.map norm32)[id]?, sched := fun _ _ => Sched.id, level := fun _ => 0 }
def story : List (Req ℚ ℚ) :=
  [.login true, .openPod true, .create oracle books [], .add oracle books [] [docV 'a' [3, 4], docV 'b' [2, 3], docV 'c' [-4, 3]]]

theorem works : oracle.Works :=
  ⟨rfl, rfl, rfl, rfl, rfl, rfl, rfl, rfl, rfl, rfl, rfl, fun _ => rfl, fun _ => rfl, fun _ => rfl, rfl, fun _ _ => ⟨_, rfl⟩⟩

theorem orderly : OrderlyRun List.length 2 30 books Shelf.start story := by
  refine ⟨trivial, trivial, fun _ => works, fun _ => ⟨works, ?_, ?_, by decide +kernel, by decide +kernel⟩, trivial⟩
  · intro x hx
    simp only [List.mem_cons, List.not_mem_nil, or_false] at hx
    rcases hx with rfl | rfl | rfl <;> exact ⟨_, rfl, .inr (.inl ⟨_, rfl⟩)⟩
  · intro _ i d v h1 h2
    match i with
    | 0 => cases h1; cases h2; rfl
    | 1 => cases h1; cases h2; rfl
    | 2 => cases h1; cases h2; rfl
    | n + 3 => simp at h1

theorem story_entries : (Shelf.start.after List.length 2 books story : Shelf ℚ).entries.map Prod.snd = three ∧
    (Shelf.start.after List.length 2 books story : Shelf ℚ).pod = true ∧ (Shelf.start.after List.length 2 books story : Shelf ℚ).there = true := by
  decide +kernel

theorem three_moderate : ∀ v ∈ three, Moderate v := by
  intro v hv
  simp only [three, List.mem_cons, List.not_mem_nil, or_false] at hv
  rcases hv with rfl | rfl | rfl
  · simpa using moderate_int [3, 4] (by decide) (by decide) (by decide)
  · simpa using moderate_int [2, 3] (by decide) (by decide) (by decide)
  · simpa using moderate_int [-4, 3] (by decide) (by decide) (by decide)

/-- the hypotheses of `documents_near_truth_partial` and `document_not_found` are met, and this is the answer: the document `b`, whose
vector is the query, is missing -/
example : OrderlyRun List.length 2 30 books Shelf.start story ∧
    (∀ x ∈ (Shelf.start.after List.length 2 books story : Shelf ℚ).entries, Moderate x.2) ∧
    (serve (env false fun _ _ => .nan) (run (env false fun _ _ => .nan) (World.fresh true []) story) (.nearVector oracle books [2, 3] 2 0)).2 =
      .near [[(idName, .str ['a']), (hnswName, .int 0)], [(idName, .str ['c']), (hnswName, .int 2)]]
        [12915 / 2 ^ 23, 15846583 / 2 ^ 24, 0] := by
  refine ⟨orderly, ?_, ?_⟩
  · intro x hx
    apply three_moderate
    rw [← story_entries.1]
    exact List.mem_map_of_mem hx
  · decide +kernel

/-- the hypotheses of `exact_match_dropped` -/
example (avx : Bool) (junk : ℕ → ℕ → Num) : ∃ s, Index.Hist (params32 avx junk) s [[2, 3]] :=
  ⟨_, .add (fun _ _ _ _ => none) (fun _ => Sched.id) [2, 3] 0 .init rfl⟩
example (avx : Bool) (junk : ℕ → ℕ → Num) : ∃ s, Index.Hist (params32 avx junk) s [[1, 1]] :=
  ⟨_, .add (fun _ _ _ _ => none) (fun _ => Sched.id) [1, 1] 0 .init rfl⟩

end C65
end Fave
