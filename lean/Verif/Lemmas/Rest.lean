import Verif.Model.Rest
import Verif.Lemmas.ClientNear
/-! # Lemmas about the REST handlers -/
namespace Fave.Rest
open Client
variable {F D : Type} [Dist D]

/-- the type an index list gives a field: that of the last entry for the field which is not of type "bytes" -/
def lastType : List (Str × Str) → Str → Option IxType
  | [], _ => none
  | (f, t) :: l, k =>
    match lastType l k with
    | some x => some x
    | none => if f = k then (ixType t).getD none else none

theorem readIndexes_bad {l : List (Option (Str × Str))} (h : ∀ e ∈ l, e ≠ none) {f t : Str} (hm : some (f, t) ∈ l) (ht : ixType t = none) (m : Map IxType) :
    readIndexes (F := F) (D := D) l m = .error (.bad .indexType) := by
  induction l generalizing m with
  | nil => cases hm
  | cons e l ih =>
    cases e with
    | none => exact absurd rfl (h none (by simp))
    | some e =>
      obtain ⟨f', t'⟩ := e
      unfold readIndexes
      cases hx : ixType t' with
      | none => rfl
      | some x =>
        rcases List.mem_cons.mp hm with h1 | h1
        · cases h1; rw [ht] at hx; cases hx
        · cases x with
          | none => exact ih (fun e he => h e (by simp [he])) h1 _
          | some x => exact ih (fun e he => h e (by simp [he])) h1 _

theorem readIndexes_ok (l : List (Str × Str)) (h : ∀ e ∈ l, ixType e.2 ≠ none) (m : Map IxType) :
    ∃ m', readIndexes (F := F) (D := D) (l.map some) m = .ok m' ∧ ∀ k, m'.get k = (lastType l k).or (m.get k) := by
  induction l generalizing m with
  | nil => exact ⟨m, rfl, fun k => by simp [lastType]⟩
  | cons e l ih =>
    obtain ⟨f, t⟩ := e
    have hl := fun e he => h e (List.mem_cons_of_mem _ he)
    simp only [List.map_cons, readIndexes]
    cases hx : ixType t with
    | none => exact absurd hx (h (f, t) (by simp))
    | some x =>
      cases x with
      | none =>
        obtain ⟨m', h1, h2⟩ := ih hl m
        refine ⟨m', h1, fun k => ?_⟩
        rw [h2]
        simp only [lastType, hx]
        cases lastType l k <;> simp
      | some x =>
        obtain ⟨m', h1, h2⟩ := ih hl (m.set f x)
        refine ⟨m', h1, fun k => ?_⟩
        rw [h2, Map.get_set]
        simp only [lastType, hx]
        cases lastType l k with
        | some y => simp
        | none =>
          by_cases hk : k = f
          · subst hk; simp
          · rw [if_neg hk, if_neg (Ne.symm hk)]

theorem readDocs_some (l : List (RawDoc F)) : readDocs (l.map some) = some (l.map (fun d => d.props.map (fun p => (⟨d.id, p⟩ : Doc F)))) := by
  induction l with
  | nil => rfl
  | cons d l ih => simp only [List.map_cons, readDocs, ih]; rfl

theorem decodeProps_get {p p' : Props F} (h : decodeProps p = some p') (k : Str) : p'.get k = (p.get k).bind decode := by
  induction p generalizing p' with
  | nil => cases h; rfl
  | cons e l ih =>
    obtain ⟨k', v⟩ := e
    unfold decodeProps at h
    cases hv : decode v with
    | none => rw [hv] at h; cases h
    | some v' =>
      cases hl : decodeProps l with
      | none => rw [hv, hl] at h; cases h
      | some l' =>
        rw [hv, hl] at h
        cases h
        by_cases hk : k' = k
        · simp [Map.get, hk, hv]
        · have := ih hl
          simp only [Map.get, List.find?_cons, hk, decide_false] at this ⊢
          exact this

theorem decodeProps_some {p p' : Props F} (hd : decodeProps p = some p') {k : Str} {v : Val F} (hv : p.get k = some v) : ∃ v', decode v = some v' := by
  induction p generalizing p' with
  | nil => cases hv
  | cons e p ih =>
    obtain ⟨k', u⟩ := e
    unfold decodeProps at hd
    cases hu : decode u with
    | none => rw [hu] at hd; cases hd
    | some u' =>
      cases hp : decodeProps p with
      | none => rw [hu, hp] at hd; cases hd
      | some p'' =>
        by_cases hkk : k' = k
        · simp only [Map.get, List.find?_cons, hkk, decide_true, Option.map_some, Option.some.injEq] at hv
          subst hv
          exact ⟨u', hu⟩
        · have hv' : Map.get p k = some v := by
            simp only [Map.get, List.find?_cons, hkk, decide_false] at hv ⊢
            exact hv
          exact ih hp hv'

theorem get_map_val (m : Props F) (k : Str) : Map.get (m.map (fun e => (e.1, (RVal.val e.2 : RVal F D)))) k = (m.get k).map .val := by
  induction m with
  | nil => rfl
  | cons e m ih =>
    by_cases hk : e.1 = k
    · simp [Map.get, hk]
    · simp only [Map.get, List.map_cons, List.find?_cons, hk, decide_false] at ih ⊢
      exact ih

theorem showDoc_get (p : Props F) (k : Str) : (showDoc (D := D) p).props.get k = if k = idName ∨ k = vectorName then none else (p.get k).map .val := by
  simp only [showDoc, get_map_val, Map.get_del]
  by_cases h1 : k = vectorName
  · simp [h1]
  · by_cases h2 : k = idName <;> simp [h1, h2]

theorem showHit_get (p : Props F) (d : D) (k : Str) : (showHit p d).props.get k =
    if k = distanceName then some (.dist d) else if k = idName ∨ k = vectorName then none else (p.get k).map .val := by
  simp only [showHit, Map.get_set, showDoc_get]

theorem showHits_ok (docs : List (Props F)) (ds : List D) {l : List (RDoc F D)} (h : showHits docs ds = .ok l) :
    l.length = docs.length ∧ ∀ (j : Nat) (p : Props F), docs[j]? = some p →
      ∃ p' d, decodeProps p = some p' ∧ ds[j]? = some d ∧ l[j]? = some (showHit p' d) := by
  induction docs generalizing ds l with
  | nil => cases h; exact ⟨rfl, by intro j p hj; simp at hj⟩
  | cons p ps ih =>
    unfold showHits at h
    cases hp : decodeProps p with
    | none => rw [hp] at h; cases h
    | some p' =>
      rw [hp] at h
      cases ds with
      | nil => cases h
      | cons d ds =>
        simp only at h
        cases hs : showHits ps ds with
        | error e => rw [hs] at h; cases h
        | ok l' =>
          rw [hs] at h
          cases h
          obtain ⟨h1, h2⟩ := ih ds hs
          refine ⟨by simp [h1], ?_⟩
          intro j q hj
          cases j with
          | zero =>
            have : p = q := by simpa using hj
            subst this
            exact ⟨p', d, hp, rfl, rfl⟩
          | succ j => exact h2 j q hj

theorem showHits_total (docs : List (Props F)) (ds : List D) (hl : docs.length ≤ ds.length) (hd : ∀ p ∈ docs, (decodeProps p).isSome) :
    ∃ l, showHits docs ds = .ok l := by
  induction docs generalizing ds with
  | nil => exact ⟨[], rfl⟩
  | cons p ps ih =>
    cases ds with
    | nil => simp at hl
    | cons d ds =>
      obtain ⟨p', hp⟩ := Option.isSome_iff_exists.mp (hd p (by simp))
      obtain ⟨l, hs⟩ := ih ds (by simpa using hl) (fun q hq => hd q (by simp [hq]))
      exact ⟨showHit p' d :: l, by unfold showHits; simp only [hp, hs]⟩

end Fave.Rest
