import Verif.Model.Basic
/-!
# Finite tables keyed by number (Go maps, LRU cache contents without eviction, key-value store)
-/
namespace Fave

/-- finite table; the first entry for a key counts -/
abbrev Tab (α : Type) := List (Nat × α)

namespace Tab
variable {α : Type}

/-- look-up -/
def get (t : Tab α) (k : Nat) : Option α :=
  match t with
  | [] => none
  | (k', v) :: t => if k' = k then some v else get t k

/-- insert or overwrite -/
def put (t : Tab α) (k : Nat) (v : α) : Tab α :=
  match t with
  | [] => [(k, v)]
  | (k', v') :: t => if k' = k then (k, v) :: t else (k', v') :: put t k v

/-- keys in order of first insertion -/
def keys (t : Tab α) : List Nat := t.map Prod.fst

@[simp] theorem get_nil (k : Nat) : get ([] : Tab α) k = none := rfl

theorem get_put (t : Tab α) (k : Nat) (v : α) (j : Nat) :
    (t.put k v).get j = if j = k then some v else t.get j := by
  induction t with
  | nil => simp only [put, get]; by_cases h : k = j <;> simp [h, eq_comm]
  | cons e t ih =>
    obtain ⟨k', v'⟩ := e
    simp only [put]
    by_cases h : k' = k
    · subst h
      simp only [if_true, get]
      by_cases h2 : k' = j
      · subst h2; simp
      · rw [if_neg h2, if_neg h2, if_neg (fun e => h2 e.symm)]
    · rw [if_neg h]; simp only [get, ih]
      by_cases h2 : k' = j
      · subst h2; simp [h]
      · simp [h2]

@[simp] theorem get_put_self (t : Tab α) (k : Nat) (v : α) : (t.put k v).get k = some v := by simp [get_put]

theorem get_put_ne (t : Tab α) {k j : Nat} (v : α) (h : j ≠ k) : (t.put k v).get j = t.get j := by simp [get_put, h]

theorem mem_keys_of_get {t : Tab α} {k : Nat} {v : α} (h : t.get k = some v) : k ∈ t.keys := by
  induction t with
  | nil => simp at h
  | cons e t ih =>
    obtain ⟨k', v'⟩ := e
    simp only [get] at h
    by_cases h1 : k' = k
    · subst h1; simp [keys]
    · rw [if_neg h1] at h; simp only [keys, List.map_cons, List.mem_cons]; exact .inr (ih h)

theorem keys_put (t : Tab α) (k : Nat) (v : α) : (t.put k v).keys = if k ∈ t.keys then t.keys else t.keys ++ [k] := by
  induction t with
  | nil => simp [put, keys]
  | cons e t ih =>
    obtain ⟨k', v'⟩ := e
    simp only [put]
    by_cases h : k' = k
    · subst h; simp [keys]
    · rw [if_neg h]
      simp only [keys, List.map_cons, List.mem_cons] at ih ⊢
      rw [ih]
      have h' : ¬ k = k' := fun e => h e.symm
      by_cases hk : k ∈ List.map Prod.fst t
      · simp [hk]
      · simp [hk, h']

theorem get_of_mem_keys {t : Tab α} {k : Nat} (h : k ∈ t.keys) : ∃ v, t.get k = some v := by
  induction t with
  | nil => simp [keys] at h
  | cons e t ih =>
    obtain ⟨k', v'⟩ := e
    simp only [get]
    by_cases h1 : k' = k
    · exact ⟨v', by rw [if_pos h1]⟩
    · rw [if_neg h1]
      simp only [keys, List.map_cons, List.mem_cons] at h
      rcases h with h | h
      · exact absurd h.symm h1
      · exact ih h

end Tab
end Fave
