import Verif.Lemmas.Queue
import Verif.Spec.Queue
/-!
# C06 — the priority queue delivers in order and loses nothing
-/
namespace Fave.C06
open Fave.Queue Fave.Spec

/-- the heap code run on a sequence of operations (an attempt to pop an empty queue, a Go panic, is
answered `none`) -/
def run {α : Type} (less : α → α → Bool) : Array α → List (QOp α) → List (Option α) × Array α
  | q, [] => ([], q)
  | q, .insert x :: ops => run less (insert less q x) ops
  | q, .pop :: ops =>
    match pop less q with
    | none => let r := run less q ops; (none :: r.1, r.2)
    | some (x, q') => let r := run less q' ops; (some x :: r.1, r.2)

theorem run_refines {α : Type} (less : α → α → Bool) (first : List α → α → Prop) (P : Array α → Prop)
    (hperm : ∀ b b' x, b.Perm b' → first b x → first b' x)
    (hins : ∀ q x, P q → P (insert less q x))
    (hpop : ∀ q x q', P q → pop less q = some (x, q') → P q')
    (hfirst : ∀ q x q', P q → pop less q = some (x, q') → first q.toList x)
    (ops : List (QOp α)) (q : Array α) (bag : List α) (hq : P q) (hb : bag.Perm q.toList) :
    ∃ bag', BagRun first bag ops (run less q ops).1 bag' ∧ bag'.Perm (run less q ops).2.toList := by
  induction ops generalizing q bag with
  | nil => exact ⟨bag, .done bag, hb⟩
  | cons op ops ih =>
    cases op with
    | insert x =>
      obtain ⟨bag', h1, h2⟩ := ih (insert less q x) (x :: bag) (hins q x hq)
        ((hb.cons x).trans (insert_perm less q x).symm)
      exact ⟨bag', .insert _ _ _ _ _ h1, h2⟩
    | pop =>
      unfold run
      cases hp : pop less q with
      | none =>
        have hq0 := pop_none less hp
        have hb0 : bag = [] := by
          have : q = #[] := by simpa using hq0
          subst this; simpa using hb
        subst hb0
        obtain ⟨bag', h1, h2⟩ := ih q [] hq hb
        exact ⟨bag', .popEmpty _ _ _ h1, h2⟩
      | some r =>
        obtain ⟨x, q'⟩ := r
        obtain ⟨bag', h1, h2⟩ := ih q' q'.toList (hpop q x q' hq hp) (List.Perm.refl _)
        exact ⟨bag', .pop _ _ _ _ _ _ (hb.trans (pop_perm less hp)) (hperm _ _ _ hb.symm (hfirst q x q' hq hp)) h1, h2⟩

/-- Whatever is inserted and removed, a min queue (`NewMin`) behaves as a bag whose removals deliver an
item of least distance. -/
theorem min_queue_delivers_smallest {D : Type} [Dist D] [LawfulDist D] (ops : List (QOp (Item D))) :
    ∃ left, BagRun (fun bag x => ∀ y ∈ bag, Dist.lt y.dist x.dist = false) [] ops (run lessMin #[] ops).1 left
      ∧ left.Perm (run lessMin #[] ops).2.toList := by
  refine run_refines lessMin _ (Heap lessMin) ?_ ?_ ?_ ?_ ops #[] [] (heap_empty _) (List.Perm.refl _)
  · intro b b' x hp h y hy; exact h y (hp.mem_iff.mpr hy)
  · intro q x h; exact insert_heap swo_min h x
  · intro q x q' h hp; exact pop_heap swo_min h hp
  · intro q x q' h hp y hy; exact top_min swo_min h (pop_fst lessMin hp) y hy

/-- … and a max queue (`NewMax`) delivers an item of greatest distance. -/
theorem max_queue_delivers_largest {D : Type} [Dist D] [LawfulDist D] (ops : List (QOp (Item D))) :
    ∃ left, BagRun (fun bag x => ∀ y ∈ bag, Dist.lt x.dist y.dist = false) [] ops (run lessMax #[] ops).1 left
      ∧ left.Perm (run lessMax #[] ops).2.toList := by
  refine run_refines lessMax _ (Heap lessMax) ?_ ?_ ?_ ?_ ops #[] [] (heap_empty _) (List.Perm.refl _)
  · intro b b' x hp h y hy; exact h y (hp.mem_iff.mpr hy)
  · intro q x h; exact insert_heap swo_max h x
  · intro q x q' h hp; exact pop_heap swo_max h hp
  · intro q x q' h hp y hy; exact top_min swo_max h (pop_fst lessMax hp) y hy

/-- the queue with index (`NewMinWithIndex`) delivers an item of least distance. -/
theorem minIx_queue_delivers_smallest {D : Type} [Dist D] [LawfulDist D] (ops : List (QOp (ItemIx D))) :
    ∃ left, BagRun (fun bag x => ∀ y ∈ bag, Dist.lt y.dist x.dist = false) [] ops (run lessMinIx #[] ops).1 left
      ∧ left.Perm (run lessMinIx #[] ops).2.toList := by
  refine run_refines lessMinIx _ (Heap lessMinIx) ?_ ?_ ?_ ?_ ops #[] [] (heap_empty _) (List.Perm.refl _)
  · intro b b' x hp h y hy; exact h y (hp.mem_iff.mpr hy)
  · intro q x h; exact insert_heap swo_minIx h x
  · intro q x q' h hp; exact pop_heap swo_minIx h hp
  · intro q x q' h hp y hy; exact top_min swo_minIx h (pop_fst lessMinIx hp) y hy

/-- With any comparison at all (for instance float comparison in the presence of NaN) nothing is lost,
duplicated or invented, and a removal fails only on an empty queue. -/
theorem queue_loses_nothing {α : Type} (less : α → α → Bool) (ops : List (QOp α)) :
    ∃ left, BagRun (fun _ _ => True) [] ops (run less #[] ops).1 left
      ∧ left.Perm (run less #[] ops).2.toList :=
  run_refines less _ (fun _ => True) (fun _ _ _ _ _ => trivial) (fun _ _ _ => trivial)
    (fun _ _ _ _ _ => trivial) (fun _ _ _ _ _ => trivial) ops #[] [] trivial (List.Perm.refl _)

/-- Emptying a min queue lists its items in increasing order, none lost. -/
theorem drain_min_sorted {D : Type} [Dist D] [LawfulDist D] (xs : List (Item D)) :
    let q := xs.foldl (insert lessMin) #[]
    (drain lessMin q).Perm xs ∧ (drain lessMin q).Pairwise (fun a b => Dist.lt b.dist a.dist = false) := by
  have h : ∀ (xs : List (Item D)) (q : Array (Item D)), Heap lessMin q →
      Heap lessMin (xs.foldl (insert lessMin) q) ∧ (xs.foldl (insert lessMin) q).toList.Perm (xs ++ q.toList) := by
    intro xs
    induction xs with
    | nil => intro q hq; exact ⟨hq, List.Perm.refl _⟩
    | cons x xs ih =>
      intro q hq
      obtain ⟨h1, h2⟩ := ih (insert lessMin q x) (insert_heap swo_min hq x)
      refine ⟨h1, h2.trans ?_⟩
      refine ((insert_perm lessMin q x).append_left xs).trans ?_
      exact List.perm_middle
  obtain ⟨h1, h2⟩ := h xs #[] (heap_empty _)
  refine ⟨(drain_perm _ _).trans (by simpa using h2), drain_sorted swo_min h1⟩

/-! Non-vacuity: a run with inserts and removals really delivers in order. -/
example : (run (lessMin (D := Int)) #[]
    [.insert ⟨1, 5⟩, .insert ⟨2, 3⟩, .insert ⟨3, 4⟩, .pop, .insert ⟨4, -1⟩, .pop, .pop, .pop, .pop]).1
    = [some ⟨2, 3⟩, some ⟨4, -1⟩, some ⟨3, 4⟩, some ⟨1, 5⟩, none] := by decide
example : (run (lessMax (D := Int)) #[] [.insert ⟨1, 5⟩, .insert ⟨2, 3⟩, .insert ⟨3, 7⟩, .pop, .pop]).1
    = [some ⟨3, 7⟩, some ⟨1, 5⟩] := by decide
/-- NaN (`none`) in the queue: nothing lost -/
example : (run (lessMin (D := Option Int)) #[] [.insert ⟨1, none⟩, .insert ⟨2, some 3⟩, .insert ⟨3, some 1⟩, .pop, .pop, .pop]).1.length = 3 := by decide

end Fave.C06
