/-!
# Specification of a priority queue as a bag (independent of the heap)
-/
namespace Fave.Spec

/-- what a client does with a queue -/
inductive QOp (α : Type) where
  | insert (x : α)
  | pop

/-- `BagRun first bag ops outs bag'`: starting with the items `bag`, the operations `ops` may answer
`outs` and leave the items `bag'`.  A removal answers `none` exactly if the bag is empty; otherwise it
answers an item `x` of the bag that `first bag x` permits, and exactly that one item leaves the bag. -/
inductive BagRun {α : Type} (first : List α → α → Prop) :
    List α → List (QOp α) → List (Option α) → List α → Prop where
  | done (bag) : BagRun first bag [] [] bag
  | insert (x bag ops outs bag') : BagRun first (x :: bag) ops outs bag' →
      BagRun first bag (.insert x :: ops) outs bag'
  | popEmpty (ops outs bag') : BagRun first [] ops outs bag' →
      BagRun first [] (.pop :: ops) (none :: outs) bag'
  | pop (bag x rest ops outs bag') : bag.Perm (x :: rest) → first bag x → BagRun first rest ops outs bag' →
      BagRun first bag (.pop :: ops) (some x :: outs) bag'

end Fave.Spec
