import Verif.Lemmas.Search
/-! The number of results of a layer search. -/
namespace Fave.Search
open Queue
variable {V D : Type} [Dist D]

theorem consider_size {env : SEnv V D} {ef : Int} {level : Nat} {st st' : St D} {nd : Item D} {m : Int} (hm : ef ≤ m)
    (hi : (st.results.size : Int) ≤ m) (h : consider env ef level st nd = .ok st') : (st'.results.size : Int) ≤ m := by
  cases consider_ok h with
  | skip _ _ h => rw [h]; exact hi
  | cand _ h => rw [h]; exact hi
  | both _ _ _ _ r w hr _ h =>
    rw [h]
    show (r.size : Int) ≤ m
    have hs := insert_size lessMax st.results nd
    rcases hr with ⟨rfl, h1⟩ | ⟨⟨x, hx⟩, _⟩
    · omega
    · have := pop_size lessMax hx; omega

theorem considerAll_size {env : SEnv V D} {ef : Int} {level : Nat} {nds : List (Item D)} {st st' : St D} {m : Int} (hm : ef ≤ m)
    (hi : (st.results.size : Int) ≤ m) (h : considerAll env ef level st nds = .ok st') : (st'.results.size : Int) ≤ m := by
  induction nds generalizing st with
  | nil => cases h; exact hi
  | cons nd nds ih =>
    unfold considerAll at h
    split at h
    · cases h
    · rename_i st1 h1
      exact ih (consider_size hm hi h1) h

theorem loop_size {env : SEnv V D} {sched : Sched D} {ef : Int} {level : Nat} (fuel : Nat) {st st' : St D} {m : Int} (hm : ef ≤ m)
    (hi : (st.results.size : Int) ≤ m) (h : loop env sched ef level fuel st = .ok st') : (st'.results.size : Int) ≤ m := by
  induction fuel generalizing st with
  | zero => cases h
  | succ fuel ih =>
    unfold loop at h
    split at h
    · cases h; exact hi
    · split at h
      · cases h; exact hi
      · simp only at h
        split at h
        · exact ih (by exact hi) h
        · split at h
          · exact ih (by exact hi) h
          · split at h
            · cases h
            · split at h
              · cases h
              · rename_i st1 h1
                unfold expand at h1
                exact ih (considerAll_size hm (by exact hi) h1) h

/-- a search never keeps more than `ef` results, unless it was given more entry points -/
theorem searchLayer_size {env : SEnv V D} {sched : Sched D} {eps : List (Item D)} {ef : Int} {level : Nat} {r : Array (Item D)} {m : Int}
    (hm : ef ≤ m) (hl : (eps.length : Int) ≤ m) (h : searchLayer env sched eps ef level = .ok r) : (r.size : Int) ≤ m := by
  unfold searchLayer at h
  split at h
  · cases h
  · rename_i st hs
    split at h
    · cases h
    · rename_i st' hlp
      cases h
      refine loop_size _ hm ?_ hlp
      have h2 := (start_ok hs).2.1.length_eq
      have := List.length_filter_le (fun x : Item D => viable env level x.id) eps
      simp at h2 this; omega

end Fave.Search
