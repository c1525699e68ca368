import Verif.Lemmas.ChangeClient
import Verif.Spec.Shelf
/-!
# What a collection should hold does not depend on how distances are compared
-/
namespace Fave.Client
variable {F D D' : Type} [Dist D] [Dist D'] {f : D → D'} {g : D' → D} {hgf : ∀ d, g (f d) = d}

theorem works_back {o : Oracle F D'} (h : o.Works) : (o.back f g hgf).Works := by
  cases h
  constructor <;> assumption

theorem works_of_back {o : Oracle F D'} (h : (o.back f g hgf).Works) : o.Works := by
  cases h
  constructor <;> assumption

theorem taken_back (len : List F → Nat) (L : Nat) (o : Oracle F D') (ti : List Str) : ∀ (docs : List (Option (Doc F))) (i : Nat),
    taken len L (o.back f g hgf) ti i docs = taken len L o ti i docs
  | [], _ => rfl
  | none :: ds, i => taken_back len L o ti ds (i + 1)
  | some d :: ds, i => by
    unfold taken
    rw [show vectorOf (o.back f g hgf) ti i d = vectorOf o ti i d from rfl, taken_back len L o ti ds (i + 1)]

theorem next_back (len : List F → Nat) (L : Nat) (name : Str) (s : Shelf F) (r : Req F D') :
    s.next len L name (r.back f g hgf) = s.next len L name r := by
  cases r <;> simp only [Req.back, Shelf.next, taken_back]

theorem after_back (len : List F → Nat) (L : Nat) (name : Str) (rs : List (Req F D')) (s : Shelf F) :
    s.after len L name (rs.map (Req.back f g hgf)) = s.after len L name rs := by
  unfold Shelf.after
  rw [List.foldl_map]
  simp only [next_back]

theorem orderly_back {len : List F → Nat} {L most : Nat} {name : Str} {s : Shelf F} {r : Req F D'} (h : Orderly len L most name s r) :
    Orderly len L most name s (r.back f g hgf) := by
  cases r with
  | create o n i => exact fun e => works_back (h e)
  | delete o n => exact fun e => works_back (h e)
  | add o n ti docs =>
    intro e
    obtain ⟨h1, h2, h3, h4, h5⟩ := h e
    exact ⟨works_back h1, h2, h3, by rwa [taken_back], by rwa [taken_back]⟩
  | get => exact h
  | _ => trivial

theorem orderlyRun_back {len : List F → Nat} {L most : Nat} {name : Str} : ∀ {rs : List (Req F D')} {s : Shelf F}, OrderlyRun len L most name s rs →
    OrderlyRun len L most name s (rs.map (Req.back f g hgf))
  | [], _, _ => trivial
  | r :: rs, s, h => ⟨orderly_back h.1, by
      show OrderlyRun len L most name (s.next len L name (r.back f g hgf)) _
      rw [next_back]
      exact orderlyRun_back h.2⟩

/-- where an entry comes from -/
theorem taken_from {len : List F → Nat} {L : Nat} {o : Oracle F D} {ti : List Str} : ∀ {docs : List (Option (Doc F))} {i : Nat} {x : Doc F × List F},
    x ∈ taken len L o ti i docs → len x.2 = L ∧ some x.1 ∈ docs ∧ ∃ j, vectorOf o ti j x.1 = some x.2
  | [], _, _, h => by cases h
  | none :: ds, i, x, h => by
    obtain ⟨h1, h2, h3⟩ := taken_from (docs := ds) (i := i + 1) (by simpa [taken] using h)
    exact ⟨h1, List.mem_cons_of_mem _ h2, h3⟩
  | some d :: ds, i, x, h => by
    unfold taken at h
    have ih := fun h' => taken_from (len := len) (L := L) (o := o) (ti := ti) (docs := ds) (i := i + 1) (x := x) h'
    split at h
    · obtain ⟨h1, h2, h3⟩ := ih h
      exact ⟨h1, List.mem_cons_of_mem _ h2, h3⟩
    · rename_i v hv
      split at h
      · rename_i hl
        rcases List.mem_cons.1 h with rfl | h
        · exact ⟨hl, by simp, i, hv⟩
        · obtain ⟨h1, h2, h3⟩ := ih h
          exact ⟨h1, List.mem_cons_of_mem _ h2, h3⟩
      · obtain ⟨h1, h2, h3⟩ := ih h
        exact ⟨h1, List.mem_cons_of_mem _ h2, h3⟩

/-- every entry was in an addition -/
theorem after_from {len : List F → Nat} {L : Nat} {name : Str} : ∀ {rs : List (Req F D)} {s : Shelf F} {x : Doc F × List F},
    x ∈ (s.after len L name rs).entries → x ∈ s.entries ∨
      ∃ o ti docs, Req.add o name ti docs ∈ rs ∧ len x.2 = L ∧ some x.1 ∈ docs ∧ ∃ j, vectorOf o ti j x.1 = some x.2
  | [], _, _, h => .inl h
  | r :: rs, s, x, h => by
    rcases after_from (rs := rs) (s := s.next len L name r) (by simpa [Shelf.after] using h) with h | ⟨o, ti, docs, h1, h2⟩
    · cases r <;> simp only [Shelf.next] at h <;> (try split at h) <;> try exact .inl h
      · cases h
      · rename_i o n ti docs _ hc
        rcases List.mem_append.1 h with h | h
        · exact .inl h
        · obtain ⟨h1, h2, h3⟩ := taken_from h
          exact .inr ⟨o, ti, docs, by rw [hc.1]; simp, h1, h2, h3⟩
    · exact .inr ⟨o, ti, docs, by simp [h1], h2⟩

end Fave.Client
