import Verif.Lemmas.LevelCount
import Verif.Lemmas.LevelRun
import Verif.Spec.ExampleIndex
/-!
# C69 — Layers are geometrically distributed and there are few of them

Full statement: a new vector reaches layer `l` with probability `M ^ -l` (`M` = maximum number of connections), so the average
layer is `1 / (M - 1)`; every draw gives a layer, and no index has more layers than a few.  Computed with 64-bit numbers from one of
2^53 equally likely draws and a logarithm that is exact to one part in 2^52 (pkg/hnsw/insert.go:230, index.go:244, 273).

**False** in one point: the draw 0 gives no layer but makes the addition panic (`zero_panics`).  The rest is proved:
`layers_geometric_partial` (every layer is reached with the right probability up to 2^-48), `average_layer_partial`,
`highest_layer_partial` and `few_layers_partial` (at most 10 with FaVe's `M = 30`, in every state the index can come to).
-/
namespace Fave.C69
open Fave.Level Fave.Index

/-- Among the 2^53 equally likely draws, the share of those that reach layer `l` is `M ^ -l`, up to 2^-48. -/
theorem layers_geometric_partial (log : ℚ → ℚ) (hl : GoodLog log) (M l : ℕ) (hM : 2 ≤ M) (hM' : M ≤ 2 ^ 53) (h1 : 1 ≤ l) :
    |((reaching log M l).card : ℝ) / 2 ^ 53 - ((M : ℝ) ^ l)⁻¹| ≤ 2⁻¹ ^ 48 := by
  have h2 := count_upper hl hM hM' h1
  have h3 := count_lower hl hM hM' h1
  have h4 : (2 : ℝ)⁻¹ ^ 49 ≤ 2⁻¹ ^ 48 := by norm_num
  rw [abs_le]
  constructor <;> linarith

/-- The average layer (a draw without a layer counting as 0) exceeds `1 / (M - 1)` by at most 2^-43. -/
theorem average_layer_partial (log : ℚ → ℚ) (hl : GoodLog log) (M : ℕ) (hM : 2 ≤ M) (hM' : M ≤ 2 ^ 53) :
    ((∑ k ∈ Finset.range (2 ^ 53), (target log M k).getD 0 : ℕ) : ℝ) / 2 ^ 53 ≤ 1 / (M - 1) + 2⁻¹ ^ 43 := average_le hl hM hM'

/-- Every draw but 0 gives a layer, and `M ^ layer` hardly exceeds 2^53. -/
theorem highest_layer_partial (log : ℚ → ℚ) (hl : GoodLog log) (M k : ℕ) (hM : 2 ≤ M) (hM' : M ≤ 2 ^ 53) (hk : 1 ≤ k) (hk' : k < 2 ^ 53) :
    ∃ t, target log M k = some t ∧ M ^ t ≤ 2 ^ 53 + 2 ^ 10 := by
  obtain ⟨y, hy, _⟩ := target_near hl hM hM' hk hk'
  exact ⟨_, hy, target_pow hl hM hM' hk' hy⟩

/-- With 30 connections: at most layer 10. -/
theorem at_most_ten {log : ℚ → ℚ} (hl : GoodLog log) {k t : ℕ} (hk' : k < 2 ^ 53) (ht : target log 30 k = some t) : t ≤ 10 := by
  have h := target_pow hl (by norm_num) (by norm_num) hk' ht
  by_contra hc
  have h3 : 30 ^ 11 ≤ 30 ^ t := Nat.pow_le_pow_right (by norm_num) (by omega)
  have : 30 ^ 11 ≤ 2 ^ 53 + 2 ^ 10 := h3.trans h
  norm_num at this

/-- In every state a collection can come to through additions with drawn layers, flushes (also interrupted ones), restarts and
searches — under all timings: no node, cached or stored, lies above layer 10, and searches begin at layer 10 or below. -/
theorem few_layers_partial {V D : Type} [Fave.Dist D] (log : ℚ → ℚ) (hl : GoodLog log) (P : Params V D) (scheds : ℕ → Graph.Scheds D)
    (ops : List (Op V D)) (hd : Drawn log 30 ops) :
    let s := (runAll P scheds init 0 ops).1
    s.maxLayer ≤ 10 ∧ (∀ id v, s.get id = some v → v.level ≤ 10) ∧ (∀ id v, s.kv.get id = some v → v.level ≤ 10) := by
  have h := low_runAll P scheds ops 0 (low_init 10) (fun vo x vec level hm => by
    obtain ⟨k, hk, ht⟩ := hd vo x vec level hm
    exact at_most_ten hl hk ht)
  exact ⟨h.top, fun id v hg => h.get hg, h.kv⟩

/-- **The full statement fails**: for the draw 0 there is no layer. -/
theorem zero_panics (log : ℚ → ℚ) (M : ℕ) : target log M 0 = none := rfl

/-! ## the hypotheses can be met -/

example : ∃ log, GoodLog log := exists_goodLog

theorem thirty_le : Real.log 30 ≤ 5 * Real.log 2 := by
  have h := Real.log_le_log (show (0 : ℝ) < 30 by norm_num) (show (30 : ℝ) ≤ 2 ^ 5 by norm_num)
  rw [Real.log_pow] at h
  exact_mod_cast h

theorem ten_le : 10 * Real.log 30 ≤ 50 * Real.log 2 := by linarith [thirty_le]

theorem two_pos : 0 < Real.log 2 := Real.log_pos (by norm_num)

/-- The bound is sharp: whatever the rounding errors, the draw 1 of FaVe's indices gives layer 10. -/
theorem ten_is_reached (log : ℚ → ℚ) (hl : GoodLog log) : target log 30 1 = some 10 := by
  obtain ⟨t, ht, h⟩ := reaches_of_le (k := 1) (l := 10) hl (M := 30) (by norm_num) (by norm_num) (by norm_num) (by norm_num) (by norm_num) (by
    have h1 := ten_le
    have h2 := two_pos
    have h3 : (2 : ℝ) ^ 53 = Real.exp (53 * Real.log 2) := by
      rw [show (53 : ℝ) * Real.log 2 = ((53 : ℕ) : ℝ) * Real.log 2 by norm_num, ← Real.log_pow, Real.exp_log (by norm_num)]
    rw [h3, ← Real.exp_add]
    push_cast
    rw [Real.one_le_exp_iff]
    norm_num
    linarith)
  rw [ht]
  exact congrArg some (Nat.le_antisymm (at_most_ten hl (by norm_num) ht) h)

/-- A draw of one sixty-fourth gives layer 1. -/
example (log : ℚ → ℚ) (hl : GoodLog log) : target log 30 (2 ^ 47) = some 1 := by
  have h0 := thirty_le
  have h2 := two_pos
  obtain ⟨t, ht, h⟩ := reaches_of_le (k := 2 ^ 47) (l := 1) hl (M := 30) (by norm_num) (by norm_num) (by norm_num) (by norm_num) (by norm_num) (by
    have h3 : (2 : ℝ) ^ 6 = Real.exp (6 * Real.log 2) := by
      rw [show (6 : ℝ) * Real.log 2 = ((6 : ℕ) : ℝ) * Real.log 2 by norm_num, ← Real.log_pow, Real.exp_log (by norm_num)]
    have h5 : 1 ≤ (2 : ℝ) ^ 6 * Real.exp (-(((1 : ℕ) : ℝ) * Real.log (30 : ℕ) * (1 + 2 * 2⁻¹ ^ 50))) := by
      rw [h3, ← Real.exp_add, Real.one_le_exp_iff]
      push_cast
      norm_num
      linarith
    push_cast at h5 ⊢
    norm_num at h5 ⊢
    linarith)
  rw [ht]
  refine congrArg some (Nat.le_antisymm ?_ h)
  by_contra hc
  have := reaches_le (l := 2) hl (by norm_num) (by norm_num) (by norm_num) (by norm_num) (by norm_num) ht (by omega)
  have h9 : 9 * Real.log 2 ≤ 2 * Real.log 30 := by
    have h := Real.log_le_log (show (0 : ℝ) < 2 ^ 9 by norm_num) (show (2 : ℝ) ^ 9 ≤ 30 ^ 2 by norm_num)
    rw [Real.log_pow, Real.log_pow] at h
    exact_mod_cast h
  have h3 : (2 : ℝ) ^ 6 = Real.exp (6 * Real.log 2) := by
    rw [show (6 : ℝ) * Real.log 2 = ((6 : ℕ) : ℝ) * Real.log 2 by norm_num, ← Real.log_pow, Real.exp_log (by norm_num)]
  have h5 : (2 : ℝ) ^ 6 * Real.exp (-(((2 : ℕ) : ℝ) * Real.log (30 : ℕ) * (1 - 2⁻¹ ^ 50))) < 1 := by
    rw [h3, ← Real.exp_add, Real.exp_lt_one_iff]
    push_cast
    norm_num
    linarith
  push_cast at h5 this
  norm_num at h5 this
  linarith

/-- a history with drawn layers: the second vector is put on layer 1, the third on layer 10 -/
example (log : ℚ → ℚ) (hl : GoodLog log) (h : target log 30 (2 ^ 47) = some 1) :
    Drawn (V := List Nat) (D := Nat) log 30 [.add Ex.vo 0 [0, 0] 1, .add Ex.vo 1 [10, 0] 1, .add Ex.vo 2 [30, 0] 10, .flush [0, 1, 2] 3, .restart] := by
  intro vo x vec level hm
  simp only [List.mem_cons, Op.add.injEq, reduceCtorEq, List.not_mem_nil, or_false] at hm
  rcases hm with ⟨_, _, _, rfl⟩ | ⟨_, _, _, rfl⟩ | ⟨_, _, _, rfl⟩
  · exact ⟨2 ^ 47, by norm_num, h⟩
  · exact ⟨2 ^ 47, by norm_num, h⟩
  · exact ⟨1, by norm_num, ten_is_reached log hl⟩

end Fave.C69
