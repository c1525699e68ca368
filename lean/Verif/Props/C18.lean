import Verif.Lemmas.Lookup
/-!
# C18: search answers pair each document with its distance
-/
namespace Fave
namespace C18
open Lookup
variable {E Doc : Type}

/-- what `DocFind` gives the goroutine of hit `i`: the look-ups may differ from call to call — document.go:529-530 -/
def outcomes (ids : List Nat) (find : Nat → Nat → Except E (List Doc)) (i : Nat) : Except E (List Doc) := find i (ids.getD i 0)

/-- In every interleaving: if the search answers with documents, every look-up found something, there is one document per hit, and the
`i`-th document is the first one found for the `i`-th hit (whose distance is the `i`-th distance). -/
theorem answer_pairs (ids : List Nat) (find : Nat → Nat → Except E (List Doc)) (notFound : Nat → E) (s : St E Doc)
    (h : Reach ids.length (outcomes ids find) notFound s) (docs : List (Option Doc)) (hm : s.main = .answered docs) :
    docs.length = ids.length ∧
    ∀ (i : Nat) (hi : i < ids.length), ∃ d rest, find i ids[i] = .ok (d :: rest) ∧ docs[i]? = some (some d) := by
  obtain ⟨h1, h2⟩ := (reach_inv h).ans docs hm
  refine ⟨h1, ?_⟩
  intro i hi
  obtain ⟨d, rest, h3, h4⟩ := h2 i hi
  refine ⟨d, rest, ?_, h4⟩
  rw [← h3]
  unfold outcomes
  rw [List.getD_eq_getElem?_getD, List.getElem?_eq_getElem hi]
  rfl

/-- In every interleaving: if the search answers with an error, it is the error of one of the look-ups, or that one of them found
nothing. -/
theorem error_genuine (ids : List Nat) (find : Nat → Nat → Except E (List Doc)) (notFound : Nat → E) (s : St E Doc)
    (h : Reach ids.length (outcomes ids find) notFound s) (e : E) (hm : s.main = .failed e) :
    ∃ (i : Nat) (hi : i < ids.length), find i ids[i] = .error e ∨ (find i ids[i] = .ok [] ∧ e = notFound i) := by
  obtain ⟨i, hi, hf⟩ := (reach_inv h).err e hm
  refine ⟨i, hi, ?_⟩
  have : outcomes ids find i = find i ids[i] := by
    unfold outcomes
    rw [List.getD_eq_getElem?_getD, List.getElem?_eq_getElem hi]
    rfl
  rw [← this]
  exact hf

/-- No interleaving panics (sending on a closed channel, closing twice, negative wait group). -/
theorem no_panic (ids : List Nat) (find : Nat → Nat → Except E (List Doc)) (notFound : Nat → E) (s : St E Doc)
    (h : Reach ids.length (outcomes ids find) notFound s) : s.panicked = false := (reach_inv h).calm

/-- No interleaving blocks or runs for ever: from every state some goroutine can go on until the caller has returned and all the
goroutines are finished (none is leaked), and that takes at most `7 · hits + 4` steps. -/
theorem ends (ids : List Nat) (find : Nat → Nat → Except E (List Doc)) (notFound : Nat → E) (s : St E Doc)
    (h : Reach ids.length (outcomes ids find) notFound s) :
    (Over ids.length s ∨ ∃ s', Step ids.length (outcomes ids find) notFound s s') ∧
    (∀ s', Step ids.length (outcomes ids find) notFound s s' → Lookup.measure ids.length s' < Lookup.measure ids.length s) ∧
    Lookup.measure ids.length s ≤ 7 * ids.length + 4 := by
  refine ⟨progress (reach_inv h), fun s' => measure_lt (reach_inv h), ?_⟩
  induction h with
  | start =>
    have : total (fun i => weight ((start ids.length : St E Doc).gs i)) ids.length = 4 * ids.length := by
      generalize ids.length = m
      have : ∀ k, total (fun i => weight ((start m : St E Doc).gs i)) k = 4 * k := by
        intro k
        induction k with
        | zero => rfl
        | succ k ih => rw [total, ih]; show 4 * k + 4 = _; omega
      exact this m
    unfold Lookup.measure
    rw [this]
    show 4 * ids.length + (ids.length - 0 + 2) + 2 ≤ _
    omega
  | step s s' hr hst ih =>
    have := measure_lt (reach_inv hr) hst
    omega

/-- Hence the search fails in every complete execution if some look-up fails or finds nothing, and succeeds in every complete
execution otherwise: the outcome does not depend on the interleaving. -/
theorem fails_iff (ids : List Nat) (find : Nat → Nat → Except E (List Doc)) (notFound : Nat → E) (s : St E Doc)
    (h : Reach ids.length (outcomes ids find) notFound s) (ho : Over ids.length s) :
    (∃ e, s.main = .failed e) ↔ ∃ (i : Nat) (hi : i < ids.length), ∀ d rest, find i ids[i] ≠ .ok (d :: rest) := by
  constructor
  · rintro ⟨e, he⟩
    obtain ⟨i, hi, h1 | ⟨h1, _⟩⟩ := error_genuine ids find notFound s h e he
    · exact ⟨i, hi, fun d rest hh => by rw [h1] at hh; cases hh⟩
    · exact ⟨i, hi, fun d rest hh => by rw [h1] at hh; cases hh⟩
  · rintro ⟨i, hi, hbad⟩
    rcases ho.1 with he | ⟨ds, hds⟩
    · exact he
    · obtain ⟨d, rest, h1, _⟩ := (answer_pairs ids find notFound s h ds hds).2 i hi
      exact (hbad d rest h1).elim

/-! ## the hypotheses are met -/

/-- look-ups for two hits, 7 and 9 -/
def exFind : Nat → Nat → Except String (List Nat) := fun _ id => .ok [id * 10, 0]

/-- an execution in which the second look-up overtakes the first -/
example : ∃ s : St String Nat, Reach 2 (outcomes [7, 9] exFind) (fun _ => "none") s ∧ s.main = .answered [some 70, some 90] := by
  refine ⟨_, .step _ _ (.step _ _ (.step _ _ (.step _ _ (.step _ _ (.step _ _ (.step _ _ (.step _ _ (.step _ _ .start
    (.launch _ 0 rfl (by decide))) (.launch _ 1 rfl (by decide))) (.found _ 1 90 [0] rfl rfl)) (.spawn _ rfl))
    (.wgDone _ 1 rfl)) (.found _ 0 70 [0] rfl rfl)) (.wgDone _ 0 rfl)) (.close _ rfl rfl)) (.finish _ rfl rfl rfl), rfl⟩

/-- an execution in which one look-up finds nothing and the caller returns while the other goroutine is still looking -/
example : ∃ s : St String Nat,
    Reach 2 (outcomes [7, 9] fun _ id => if id = 9 then .ok [] else .ok [id]) (fun _ => "none") s ∧
      s.main = .failed "none" ∧ s.gs 0 = .looking := by
  refine ⟨_, .step _ _ (.step _ _ (.step _ _ (.step _ _ (.step _ _ (.step _ _ .start
    (.launch _ 0 rfl (by decide))) (.launch _ 1 rfl (by decide))) (.empty _ 1 rfl rfl)) (.spawn _ rfl))
    (.send _ 1 _ rfl rfl (by decide))) (.recv _ _ _ rfl rfl), rfl, rfl⟩

end C18
end Fave
