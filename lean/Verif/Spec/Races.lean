import Verif.Spec.Locks
/-!
# Words for the claims about shared memory
-/
namespace Fave.Locks

/-- the `i`-th goroutine is about to use this memory: nothing but its own next step is missing -/
def uses (s : List Thread) (i : Nat) (c : Cell) (write : Bool) : Prop :=
  ∃ t, s[i]? = some t ∧ t.todo.head? = some (.acc c write)

/-- a data race: two goroutines are both about to use the same memory, and one of them writes -/
def Race (s : List Thread) (i j : Nat) (c : Cell) : Prop :=
  i ≠ j ∧ ∃ w w', uses s i c w ∧ uses s j c w' ∧ (w || w') = true

/-- the clean-ups -/
def cleaners : List Op := [.cleanUp, .cleanUpEntryFails, .cleanUpRemoveFails]

/-- the searches -/
def searchers : List Op := [.near, .search, .searchDist, .maxDist]

/-- the insertions -/
def inserters : List Op := [.add, .addDocuments]

/-- which calls race about which field: each of the left with each of the right -/
def table : Field → List (List Op × List Op)
  | .session => [([.login], [.addDocuments, .near, .getDocument])]
  | .pod => [([.openPod], [.addDocuments, .near, .getDocument, .add, .validate, .compress] ++ cleaners)]
  | .indices => []
  | .entry => [
      -- written under a read lock
      ([.near, .loadEntry], [.addDocuments, .add, .validate, .flush, .loadEntry, .delete] ++ searchers ++ cleaners),
      -- read without a lock
      ([.addDocuments, .validate, .flush] ++ searchers, [.addDocuments, .add, .delete] ++ cleaners)]
  | .layer => [(searchers, [.addDocuments, .add, .delete] ++ cleaners), (inserters, inserters ++ cleaners), (cleaners, [.delete])]
  | .once => [(inserters, [.cleanUp])]
  | .resetCtx => []
  | .tombs => []
  | .edges => [([.flush, .addDocuments], inserters ++ cleaners)]
  | .maint => [([.flush, .addDocuments], inserters ++ cleaners)]
  | .committed => [([.flush, .addDocuments], [.flush] ++ inserters ++ cleaners)]
  | .slot => [(inserters, inserters ++ [.validate] ++ cleaners), ([.compress], [.compress, .validate] ++ inserters ++ cleaners)]
  | .code => [(inserters, inserters ++ searchers ++ cleaners), ([.compress], [.near, .maxDist] ++ cleaners)]
  | .quant => [([.compress], [.compress] ++ inserters ++ searchers ++ cleaners)]
  | .lists => []
  | .file => []

/-- the two calls are in one row of the table -/
def racy (f : Field) (a b : Op) : Bool :=
  (table f).any fun r => (r.1.contains a && r.2.contains b) || (r.1.contains b && r.2.contains a)

end Fave.Locks
