import Verif.Lemmas.ChangeShelf
import Verif.Props.C65
import Verif.Props.C66
/-!
# 32-bit arithmetic with infinities, where they do not occur
-/
namespace Fave.F32
open Distance Client

local instance : Dist Num := numDist
local instance : Dist ℚ := fieldDist

theorem numbers_vec {v : List Num} (h : Numbers v) : v = vec (v.map Num.val) := by
  unfold vec
  rw [List.map_map]
  conv_lhs => rw [← List.map_id v]
  apply List.map_congr_left
  intro x hx
  obtain ⟨a, rfl⟩ := h.2 x hx
  rfl

theorem vec_numbers {v : List ℚ} (h : v.length ≤ 2 ^ 22) : Numbers (vec v) := by
  refine ⟨by simpa [vec] using h, ?_⟩
  intro x hx
  obtain ⟨a, -, rfl⟩ := List.mem_map.1 hx
  exact ⟨a, rfl⟩

theorem val_vec (v : List ℚ) : (vec v).map Num.val = v := by
  unfold vec
  rw [List.map_map]
  conv_rhs => rw [← List.map_id v]
  rfl

/-- the distance of kept vectors is a number -/
theorem dist_fin (avx : Bool) (junk : ℕ → ℕ → Num) {a b : List Num} (ha : Numbers a) (hb : Numbers b) (hl : a.length = b.length) :
    ∃ d, distance ops avx junk .cosine (normalize ops a) (normalize ops b) = .ok (.fin d) := by
  rw [numbers_vec ha, numbers_vec hb]
  exact C64.cosine_always_finite avx junk _ _ (by simpa using hl) (by simpa using ha.1)

theorem norm_length (v : List Num) : (normalize ops v).length = v.length := by
  unfold Distance.normalize
  simp only
  split <;> simp

/-- the metric without infinities -/
def metricVal (avx : Bool) (junk : ℕ → ℕ → Num) : Metric (List Num) ℚ where
  dist a b := (distance ops avx junk .cosine a b).toOption.map Num.val
  len := List.length

/-- the server without infinities -/
def envVal (avx : Bool) (junk : ℕ → ℕ → Num) : Env Num ℚ := ⟨Index.faveParams (metricVal avx junk) (normalize ops) (fun _ => true), false⟩

theorem change : Change Num.fin where
  lt _ _ := rfl
  zero := rfl
  maxVal := by
    show Num.fin 340282346638528859811704183484516925440 = Num.fin ((2 ^ 24 - 1) * 2 ^ 104)
    norm_num

theorem env_same (avx : Bool) (junk : ℕ → ℕ → Num) : Env.Same Num.fin Kept Numbers (envVal avx junk) (envNum avx junk) where
  P := {
    len := rfl
    norm := rfl
    maxConn := rfl
    maxConn0 := rfl
    efC := rfl
    cacheSize := rfl
    visitedSize := rfl
    dist := by
      rintro a b ⟨v, hv, rfl⟩ ⟨u, hu, rfl⟩
      show (distance ops avx junk .cosine (normalize ops v) (normalize ops u)).toOption =
        ((distance ops avx junk .cosine (normalize ops v) (normalize ops u)).toOption.map Num.val).map Num.fin
      by_cases hl : v.length = u.length
      · obtain ⟨d, hd⟩ := dist_fin avx junk hv hu hl
        rw [hd]
        rfl
      · rw [(C36.error_iff_lengths ops avx junk .cosine _ _).1 (by rwa [norm_length, norm_length])]
        rfl
    jsonOk := by
      rintro a ⟨v, hv, rfl⟩
      show marshals (normalize ops v) = true
      rw [C66.marshals_normalized]
      unfold marshals
      rw [List.all_eq_true]
      intro x hx
      obtain ⟨a, rfl⟩ := hv.2 x hx
      rfl }
  replace := rfl
  norm v hv := ⟨v, hv, rfl⟩

theorem envVal_ok (avx : Bool) (junk : ℕ → ℕ → Num) : (envVal avx junk).P.Ok where
  conn := by show (30 : Nat) ≤ 60; decide
  sizes := by show (25000 : Nat) ≤ 25500; decide
  lens a b h := by
    show ((distance ops avx junk .cosine a b).toOption.map Num.val) = none
    rw [(C36.error_iff_lengths ops avx junk .cosine _ _).1 h]
    rfl
  norm := norm_length

theorem envVal_some (avx : Bool) (junk : ℕ → ℕ → Num) (a b : List Num) (h : (envVal avx junk).P.metric.len a = (envVal avx junk).P.metric.len b) :
    ∃ d, (envVal avx junk).P.metric.dist a b = some d := by
  obtain ⟨d, hd⟩ := (C36.error_iff_lengths ops avx junk .cosine a b).2 h
  exact ⟨d.val, by show (distance ops avx junk .cosine a b).toOption.map Num.val = _; rw [hd]; rfl⟩

theorem envVal_symm (avx : Bool) (junk : ℕ → ℕ → Num) (a b : List Num) : (envVal avx junk).P.metric.dist a b = (envVal avx junk).P.metric.dist b a := by
  show (distance ops avx junk .cosine a b).toOption.map Num.val = (distance ops avx junk .cosine b a).toOption.map Num.val
  rw [C63.symmetric]

/-- the entries of a collection are vectors of numbers if those of the requests are -/
theorem entries_numbers {L : ℕ} {name : Str} {rs : List (Req Num Num)} (h : ∀ r ∈ rs, Plain r) :
    ∀ x ∈ (Shelf.start.after List.length L name rs).entries, Numbers x.2 ∧ x.2.length = L := by
  intro x hx
  rcases after_from hx with h' | ⟨o, ti, docs, h1, h2, h3, j, h4⟩
  · cases h'
  refine ⟨?_, h2⟩
  obtain ⟨ho, hd⟩ := h _ h1
  obtain ⟨hl, hf⟩ := hd _ h3
  unfold vectorOf at h4
  split at h4
  · rename_i l e
    refine hl l _ e ?_
    unfold numbersOf at h4
    split at h4
    · rename_i hall
      rw [Option.some.injEq] at h4
      rw [← h4]
      clear h4 e hl hf
      induction l with
      | nil => rfl
      | cons a l ih =>
        obtain ⟨y, hy⟩ := Option.isSome_iff_exists.1 (hall a (by simp))
        simp only [List.map_cons, List.filterMap_cons, hy, List.cons.injEq, true_and]
        exact ih fun e he => hall e (by simp [he])
    · cases h4
  · rename_i v e
    rw [Option.some.injEq] at h4
    exact h4 ▸ hf v e
  all_goals
    first
    | (split at h4
       · split at h4
         · rename_i e
           rw [Option.some.injEq] at h4
           exact h4 ▸ ho.corpi _ _ _ e
         · cases h4
       · cases h4)
    | cases h4

end Fave.F32
