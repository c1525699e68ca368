import Verif.Spec.AsmReads
/-! # An execution that ends without fault reads inside the slices -/
namespace Fave.Asm
variable {F : Type}

theorem readable_bytes {l : List F} {b n : Nat} (h : readable l b n = true) : b + 4 * n ≤ 4 * l.length := by
  unfold readable at h
  rw [Bool.and_eq_true, beq_iff_eq, decide_eq_true_eq] at h
  omega

theorem exec_reads {A : Arith F} {x y : List F} {s : St F} {i : Instr} (h : exec A x y s i ≠ .fault) :
    ∀ r ∈ i.reads, s.ptr r.1 + r.2.1 + r.2.2 ≤ 4 * (slice x y r.1).length := by
  intro r hr
  cases i <;> simp only [Instr.reads, List.mem_singleton, List.not_mem_nil] at hr <;> subst hr <;> simp only [exec] at h ⊢ <;>
    (split at h
     · rename_i hb; have := readable_bytes hb; omega
     · exact absurd rfl h)

theorem trace_reads {A : Arith F} {x y : List F} {prog : List Instr} : ∀ {fuel pc : Nat} {s : St F} {r : F},
    run A x y prog fuel pc s = some (some r) → ∀ e ∈ trace A x y prog fuel pc s, ∀ q ∈ e.1.reads,
      e.2.ptr q.1 + q.2.1 + q.2.2 ≤ 4 * (slice x y q.1).length
  | 0, _, _, _, h => by cases h
  | fuel + 1, pc, s, r, h => by
    intro e he
    simp only [run, trace] at h he
    cases hp : prog[pc]? with
    | none => rw [hp] at h; cases h
    | some i =>
      rw [hp] at h he
      simp only at h he
      rcases List.mem_cons.1 he with rfl | he
      · refine exec_reads (A := A) ?_
        intro hf; simp only at hf; rw [hf] at h; cases h
      · cases hx : exec A x y s i with
        | next s' => rw [hx] at h he; exact trace_reads h e he
        | goto to s' => rw [hx] at h he; exact trace_reads h e he
        | done r' => rw [hx] at he; cases he
        | fault => rw [hx] at he; cases he

end Fave.Asm
