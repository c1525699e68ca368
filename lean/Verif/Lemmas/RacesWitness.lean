import Verif.Lemmas.RacesTable
/-!
# For every row of the table of races, a run that ends in one
-/
namespace Fave.Locks

/-- a field, two calls, their decisions, and how many steps the first, the second and again the first of them takes -/
def witnesses : List (Field × Op × Op × List Nat × List Nat × Nat × Nat × Nat) := [
  (.session, .login, .addDocuments, [1], [1], 0, 2, 2),
  (.session, .login, .near, [1], [1], 0, 2, 2),
  (.session, .login, .getDocument, [1], [], 0, 0, 2),
  (.pod, .openPod, .addDocuments, [], [], 0, 0, 2),
  (.pod, .openPod, .near, [], [], 0, 0, 2),
  (.pod, .openPod, .getDocument, [], [], 0, 1, 2),
  (.pod, .openPod, .add, [], [1, 0, 1, 0, 0, 1, 1, 0, 0, 0, 0, 1, 1, 0, 1, 0, 0, 0, 0, 1, 1, 1, 0, 0, 1], 0, 27, 2),
  (.pod, .openPod, .validate, [], [1, 0, 1], 0, 6, 2),
  (.pod, .openPod, .compress, [], [1, 0, 1], 0, 6, 2),
  (.pod, .openPod, .cleanUp, [], [0, 1, 1, 1, 1, 0, 0, 1], 0, 18, 2),
  (.pod, .openPod, .cleanUpEntryFails, [], [0, 1, 1, 1, 0, 0, 1], 0, 18, 2),
  (.pod, .openPod, .cleanUpRemoveFails, [], [0, 1, 1, 1, 0, 0, 1], 0, 18, 2),
  (.entry, .addDocuments, .addDocuments, [1, 0, 1], [1, 0, 0, 1, 1, 1, 0, 1, 0, 1], 0, 16, 7),
  (.entry, .addDocuments, .near, [1, 0, 1], [1, 0, 1], 0, 8, 7),
  (.entry, .addDocuments, .add, [1, 0, 1], [1, 1, 0, 1, 0, 1], 0, 9, 7),
  (.entry, .addDocuments, .validate, [1, 0, 0, 1, 1, 1, 0, 1, 0, 1], [1], 0, 2, 16),
  (.entry, .addDocuments, .flush, [1, 0, 0, 1, 1, 1, 0, 1, 0, 1], [0, 1], 0, 0, 16),
  (.entry, .addDocuments, .loadEntry, [1, 0, 1], [], 0, 1, 7),
  (.entry, .addDocuments, .search, [1, 0, 0, 1, 1, 1, 0, 1, 0, 1], [1, 1], 0, 3, 16),
  (.entry, .addDocuments, .searchDist, [1, 0, 0, 1, 1, 1, 0, 1, 0, 1], [1, 1], 0, 3, 16),
  (.entry, .addDocuments, .maxDist, [1, 0, 0, 1, 1, 1, 0, 1, 0, 1], [], 0, 0, 16),
  (.entry, .addDocuments, .delete, [1, 0, 1], [0, 1, 1, 1, 1], 0, 20, 7),
  (.entry, .addDocuments, .cleanUp, [1, 0, 1], [0, 1, 0, 1, 1, 1, 1, 0, 0, 1], 0, 27, 7),
  (.entry, .addDocuments, .cleanUpEntryFails, [1, 0, 1], [0, 0, 1, 1, 1, 0, 0, 1], 0, 27, 7),
  (.entry, .addDocuments, .cleanUpRemoveFails, [1, 0, 1], [0, 0, 1, 1, 1, 0, 0, 1], 0, 27, 7),
  (.entry, .near, .near, [1, 0, 1], [1, 0, 1], 0, 8, 8),
  (.entry, .near, .add, [1, 0, 1], [1, 0, 1, 0], 0, 8, 8),
  (.entry, .near, .validate, [1, 0, 1], [1], 0, 2, 8),
  (.entry, .near, .flush, [1, 0, 1], [0, 1], 0, 0, 8),
  (.entry, .near, .loadEntry, [1, 0, 1], [], 0, 1, 8),
  (.entry, .near, .search, [1, 0, 1], [1, 1], 0, 3, 8),
  (.entry, .near, .searchDist, [1, 0, 1], [1, 1], 0, 3, 8),
  (.entry, .near, .maxDist, [1, 0, 1], [], 0, 0, 8),
  (.entry, .near, .delete, [1, 0, 1], [0, 1, 1], 0, 9, 8),
  (.entry, .near, .cleanUp, [1, 0, 1], [0, 1, 1, 1], 0, 12, 8),
  (.entry, .near, .cleanUpEntryFails, [1, 0, 1], [0, 1, 1], 0, 12, 8),
  (.entry, .near, .cleanUpRemoveFails, [1, 0, 1], [0, 1, 1], 0, 12, 8),
  (.entry, .add, .validate, [1, 1, 0, 1, 0, 1], [1], 0, 2, 9),
  (.entry, .add, .flush, [1, 1, 0, 1, 0, 1], [0, 1], 0, 0, 9),
  (.entry, .add, .loadEntry, [1, 0, 1, 0], [], 0, 1, 8),
  (.entry, .add, .search, [1, 1, 0, 1, 0, 1], [1, 1], 0, 3, 9),
  (.entry, .add, .searchDist, [1, 1, 0, 1, 0, 1], [1, 1], 0, 3, 9),
  (.entry, .add, .maxDist, [1, 1, 0, 1, 0, 1], [], 0, 0, 9),
  (.entry, .validate, .loadEntry, [1], [], 0, 1, 2),
  (.entry, .validate, .delete, [1], [0, 1, 1, 1, 1], 2, 20, 0),
  (.entry, .validate, .cleanUp, [1], [0, 1, 0, 1, 1, 1, 1, 0, 0, 1], 2, 27, 0),
  (.entry, .validate, .cleanUpEntryFails, [1], [0, 0, 1, 1, 1, 0, 0, 1], 2, 27, 0),
  (.entry, .validate, .cleanUpRemoveFails, [1], [0, 0, 1, 1, 1, 0, 0, 1], 2, 27, 0),
  (.entry, .flush, .loadEntry, [0, 1], [], 0, 1, 0),
  (.entry, .flush, .delete, [0, 1], [0, 1, 1, 1, 1], 0, 20, 0),
  (.entry, .flush, .cleanUp, [0, 1], [0, 1, 0, 1, 1, 1, 1, 0, 0, 1], 0, 27, 0),
  (.entry, .flush, .cleanUpEntryFails, [0, 1], [0, 0, 1, 1, 1, 0, 0, 1], 0, 27, 0),
  (.entry, .flush, .cleanUpRemoveFails, [0, 1], [0, 0, 1, 1, 1, 0, 0, 1], 0, 27, 0),
  (.entry, .loadEntry, .loadEntry, [], [], 0, 1, 1),
  (.entry, .loadEntry, .search, [], [1, 1], 0, 3, 1),
  (.entry, .loadEntry, .searchDist, [], [1, 1], 0, 3, 1),
  (.entry, .loadEntry, .maxDist, [], [], 0, 0, 1),
  (.entry, .loadEntry, .delete, [], [0, 1, 1], 0, 9, 1),
  (.entry, .loadEntry, .cleanUp, [], [0, 1, 1, 1], 0, 12, 1),
  (.entry, .loadEntry, .cleanUpEntryFails, [], [0, 1, 1], 0, 12, 1),
  (.entry, .loadEntry, .cleanUpRemoveFails, [], [0, 1, 1], 0, 12, 1),
  (.entry, .search, .delete, [1, 1], [0, 1, 1, 1, 1], 3, 20, 0),
  (.entry, .search, .cleanUp, [1, 1], [0, 1, 0, 1, 1, 1, 1, 0, 0, 1], 3, 27, 0),
  (.entry, .search, .cleanUpEntryFails, [1, 1], [0, 0, 1, 1, 1, 0, 0, 1], 3, 27, 0),
  (.entry, .search, .cleanUpRemoveFails, [1, 1], [0, 0, 1, 1, 1, 0, 0, 1], 3, 27, 0),
  (.entry, .searchDist, .delete, [1, 1], [0, 1, 1, 1, 1], 3, 20, 0),
  (.entry, .searchDist, .cleanUp, [1, 1], [0, 1, 0, 1, 1, 1, 1, 0, 0, 1], 3, 27, 0),
  (.entry, .searchDist, .cleanUpEntryFails, [1, 1], [0, 0, 1, 1, 1, 0, 0, 1], 3, 27, 0),
  (.entry, .searchDist, .cleanUpRemoveFails, [1, 1], [0, 0, 1, 1, 1, 0, 0, 1], 3, 27, 0),
  (.entry, .maxDist, .delete, [], [0, 1, 1, 1, 1], 0, 20, 0),
  (.entry, .maxDist, .cleanUp, [], [0, 1, 0, 1, 1, 1, 1, 0, 0, 1], 0, 27, 0),
  (.entry, .maxDist, .cleanUpEntryFails, [], [0, 0, 1, 1, 1, 0, 0, 1], 0, 27, 0),
  (.entry, .maxDist, .cleanUpRemoveFails, [], [0, 0, 1, 1, 1, 0, 0, 1], 0, 27, 0),
  (.layer, .addDocuments, .addDocuments, [1, 0, 0, 1, 1, 1, 0, 1, 0, 1],
    [1, 0, 0, 1, 1, 0, 1, 0, 0, 1, 1, 0, 0, 0, 0, 1, 1, 1, 0, 1], 0, 24, 17),
  (.layer, .addDocuments, .near, [1, 0, 0, 1, 1, 1, 0, 1, 0, 1], [1, 0, 1, 0, 1], 0, 11, 17),
  (.layer, .addDocuments, .add, [1, 0, 0, 1, 1, 1, 0, 1, 0, 1], [1, 0, 1, 0, 0, 1, 1, 0, 0, 0, 0, 1, 1, 1, 0, 1], 0, 17, 17),
  (.layer, .addDocuments, .search, [1, 0, 0, 1, 1, 1, 0, 1, 0, 1], [1, 1, 0, 1], 0, 4, 17),
  (.layer, .addDocuments, .searchDist, [1, 0, 0, 1, 1, 1, 0, 1, 0, 1], [1, 1, 0, 1], 0, 4, 17),
  (.layer, .addDocuments, .maxDist, [1, 0, 0, 1, 1, 1, 0, 1, 0, 1], [0, 1], 0, 1, 17),
  (.layer, .addDocuments, .cleanUp, [1, 0, 0, 1, 1, 1, 0, 1, 0, 1], [0, 1, 1, 1, 1, 0, 0, 0, 0, 0, 1, 0, 1, 0, 1, 0, 1, 0], 0, 30, 17),
  (.layer, .addDocuments, .cleanUpEntryFails, [1, 0, 0, 1, 1, 1, 0, 1, 0, 1], [0, 1, 1, 1, 0, 0, 0, 0, 0, 1, 0, 1, 0, 1, 0, 1, 0], 0, 30, 17),
  (.layer, .addDocuments, .cleanUpRemoveFails, [1, 0, 0, 1, 1, 1, 0, 1, 0, 1], [0, 1, 1, 1, 0, 0, 0, 0, 0, 1, 0, 1, 0, 1, 0, 1, 0], 0, 30, 17),
  (.layer, .near, .add, [1, 0, 1, 0, 1], [1, 1, 0, 1, 0, 1], 10, 10, 1),
  (.layer, .near, .delete, [1, 0, 1, 0, 1], [0, 1, 1, 1, 1], 10, 21, 1),
  (.layer, .near, .cleanUp, [1, 0, 1, 0, 1], [0, 1, 0, 1, 1, 1, 1, 0, 0, 1], 10, 28, 1),
  (.layer, .near, .cleanUpEntryFails, [1, 0, 1, 0, 1], [0, 0, 1, 1, 1, 0, 0, 1], 10, 28, 1),
  (.layer, .near, .cleanUpRemoveFails, [1, 0, 1, 0, 1], [0, 0, 1, 1, 1, 0, 0, 1], 10, 28, 1),
  (.layer, .add, .add, [1, 1, 0, 1, 0, 1], [1, 0, 1, 0, 0, 1, 1, 0, 0, 0, 0, 1, 1, 1, 0, 1], 0, 17, 10),
  (.layer, .add, .search, [1, 1, 0, 1, 0, 1], [1, 1, 0, 1], 0, 4, 10),
  (.layer, .add, .searchDist, [1, 1, 0, 1, 0, 1], [1, 1, 0, 1], 0, 4, 10),
  (.layer, .add, .maxDist, [1, 1, 0, 1, 0, 1], [0, 1], 0, 1, 10),
  (.layer, .add, .cleanUp, [1, 1, 0, 1, 0, 1], [0, 1, 1, 1, 1, 0, 0, 0, 0, 0, 1, 0, 1, 0, 1, 0, 1, 0], 0, 30, 10),
  (.layer, .add, .cleanUpEntryFails, [1, 1, 0, 1, 0, 1], [0, 1, 1, 1, 0, 0, 0, 0, 0, 1, 0, 1, 0, 1, 0, 1, 0], 0, 30, 10),
  (.layer, .add, .cleanUpRemoveFails, [1, 1, 0, 1, 0, 1], [0, 1, 1, 1, 0, 0, 0, 0, 0, 1, 0, 1, 0, 1, 0, 1, 0], 0, 30, 10),
  (.layer, .search, .delete, [1, 1, 0, 1], [0, 1, 1, 1, 1], 3, 21, 1),
  (.layer, .search, .cleanUp, [1, 1, 0, 1], [0, 1, 0, 1, 1, 1, 1, 0, 0, 1], 3, 28, 1),
  (.layer, .search, .cleanUpEntryFails, [1, 1, 0, 1], [0, 0, 1, 1, 1, 0, 0, 1], 3, 28, 1),
  (.layer, .search, .cleanUpRemoveFails, [1, 1, 0, 1], [0, 0, 1, 1, 1, 0, 0, 1], 3, 28, 1),
  (.layer, .searchDist, .delete, [1, 1, 0, 1], [0, 1, 1, 1, 1], 3, 21, 1),
  (.layer, .searchDist, .cleanUp, [1, 1, 0, 1], [0, 1, 0, 1, 1, 1, 1, 0, 0, 1], 3, 28, 1),
  (.layer, .searchDist, .cleanUpEntryFails, [1, 1, 0, 1], [0, 0, 1, 1, 1, 0, 0, 1], 3, 28, 1),
  (.layer, .searchDist, .cleanUpRemoveFails, [1, 1, 0, 1], [0, 0, 1, 1, 1, 0, 0, 1], 3, 28, 1),
  (.layer, .maxDist, .delete, [0, 1], [0, 1, 1, 1, 1], 0, 21, 1),
  (.layer, .maxDist, .cleanUp, [0, 1], [0, 1, 0, 1, 1, 1, 1, 0, 0, 1], 0, 28, 1),
  (.layer, .maxDist, .cleanUpEntryFails, [0, 1], [0, 0, 1, 1, 1, 0, 0, 1], 0, 28, 1),
  (.layer, .maxDist, .cleanUpRemoveFails, [0, 1], [0, 0, 1, 1, 1, 0, 0, 1], 0, 28, 1),
  (.layer, .delete, .cleanUp, [0, 1, 1, 1, 0, 1, 1, 0, 0, 1], [0, 1, 1, 1, 1, 0, 0, 0, 0, 0, 1, 0, 1, 0, 1, 0, 1, 0], 21, 30, 12),
  (.layer, .delete, .cleanUpEntryFails, [0, 1, 1, 1, 0, 1, 1, 0, 0, 1], [0, 1, 1, 1, 0, 0, 0, 0, 0, 1, 0, 1, 0, 1, 0, 1, 0], 21, 30, 12),
  (.layer, .delete, .cleanUpRemoveFails, [0, 1, 1, 1, 0, 1, 1, 0, 0, 1], [0, 1, 1, 1, 0, 0, 0, 0, 0, 1, 0, 1, 0, 1, 0, 1, 0], 21, 30, 12),
  (.once, .addDocuments, .cleanUp, [1, 0, 0, 1, 1], [0, 1, 0, 1, 0, 1, 0, 1, 1], 0, 19, 9),
  (.once, .add, .cleanUp, [1], [0, 1, 0, 1, 0, 1, 0, 1, 1], 0, 19, 2),
  (.edges, .addDocuments, .addDocuments, [1, 0, 0, 1, 1, 0, 1, 0, 0, 1, 1, 0, 0, 0, 0, 1, 1, 0, 1, 0, 0, 0, 0, 1, 0, 1, 0],
    [1, 0, 0, 0, 1, 1, 0, 1], 0, 8, 33),
  (.edges, .addDocuments, .add, [1, 0, 0, 0, 1, 1, 0, 1], [1, 0, 1, 0, 0, 1, 1, 0, 0, 0, 0, 1, 1, 0, 1, 0, 0, 0, 0, 1, 0, 1, 0], 0, 26, 8),
  (.edges, .addDocuments, .flush, [1, 0, 0, 1, 1, 0, 1, 0, 0, 1, 1, 0, 0, 0, 0, 1, 1, 0, 1, 0, 0, 0, 0, 1, 0, 1, 0], [1, 0, 1], 0, 1, 33),
  (.edges, .addDocuments, .cleanUp, [1, 0, 0, 0, 1, 1, 0, 1], [0, 1, 1, 1, 1, 0, 0, 0, 0, 0, 1, 0, 1, 0, 1, 0, 0, 0], 0, 26, 8),
  (.edges, .addDocuments, .cleanUpEntryFails, [1, 0, 0, 0, 1, 1, 0, 1], [0, 1, 1, 1, 0, 0, 0, 0, 0, 1, 0, 1, 0, 1, 0, 0, 0], 0, 26, 8),
  (.edges, .addDocuments, .cleanUpRemoveFails, [1, 0, 0, 0, 1, 1, 0, 1], [0, 1, 1, 1, 0, 0, 0, 0, 0, 1, 0, 1, 0, 1, 0, 0, 0], 0, 26, 8),
  (.edges, .add, .flush, [1, 0, 1, 0, 0, 1, 1, 0, 0, 0, 0, 1, 1, 0, 1, 0, 0, 0, 0, 1, 0, 1, 0], [1, 0, 1], 0, 1, 26),
  (.edges, .flush, .cleanUp, [1, 0, 1], [0, 1, 1, 1, 1, 0, 0, 0, 0, 0, 1, 0, 1, 0, 1, 0, 0, 0], 0, 26, 1),
  (.edges, .flush, .cleanUpEntryFails, [1, 0, 1], [0, 1, 1, 1, 0, 0, 0, 0, 0, 1, 0, 1, 0, 1, 0, 0, 0], 0, 26, 1),
  (.edges, .flush, .cleanUpRemoveFails, [1, 0, 1], [0, 1, 1, 1, 0, 0, 0, 0, 0, 1, 0, 1, 0, 1, 0, 0, 0], 0, 26, 1),
  (.maint, .addDocuments, .addDocuments, [1, 0, 0, 1, 1, 0, 1, 0], [1, 0, 0, 0, 1, 1, 0, 1, 0], 0, 9, 12),
  (.maint, .addDocuments, .add, [1, 0, 0, 0, 1, 1, 0, 1, 0], [1, 0, 1, 0], 0, 5, 9),
  (.maint, .addDocuments, .flush, [1, 0, 0, 1, 1, 0, 1, 0], [1, 0, 1, 0], 0, 2, 12),
  (.maint, .addDocuments, .cleanUp, [1, 0, 0, 0, 1, 1, 0, 1, 0], [0, 1, 1, 1, 1, 0, 0, 0, 0, 0, 1, 0, 1, 0, 1, 0, 0, 0, 0, 1, 0], 0, 30, 9),
  (.maint, .addDocuments, .cleanUpEntryFails, [1, 0, 0, 0, 1, 1, 0, 1, 0],
    [0, 1, 1, 1, 0, 0, 0, 0, 0, 1, 0, 1, 0, 1, 0, 0, 0, 0, 1, 0], 0, 30, 9),
  (.maint, .addDocuments, .cleanUpRemoveFails, [1, 0, 0, 0, 1, 1, 0, 1, 0],
    [0, 1, 1, 1, 0, 0, 0, 0, 0, 1, 0, 1, 0, 1, 0, 0, 0, 0, 1, 0], 0, 30, 9),
  (.maint, .add, .flush, [1, 0, 1, 0], [1, 0, 1, 0], 0, 2, 5),
  (.maint, .flush, .cleanUp, [1, 0, 1, 0], [0, 1, 1, 1, 1, 0, 0, 0, 0, 0, 1, 0, 1, 0, 1, 0, 0, 0, 0, 1, 0], 0, 30, 2),
  (.maint, .flush, .cleanUpEntryFails, [1, 0, 1, 0], [0, 1, 1, 1, 0, 0, 0, 0, 0, 1, 0, 1, 0, 1, 0, 0, 0, 0, 1, 0], 0, 30, 2),
  (.maint, .flush, .cleanUpRemoveFails, [1, 0, 1, 0], [0, 1, 1, 1, 0, 0, 0, 0, 0, 1, 0, 1, 0, 1, 0, 0, 0, 0, 1, 0], 0, 30, 2),
  (.committed, .addDocuments, .addDocuments, [1, 0, 0, 1, 1, 0, 1, 0, 0, 1, 1, 0, 0, 0, 0, 1, 1, 0, 1, 0, 0, 0, 0, 1, 0, 1, 0, 0, 1, 0, 1, 0],
    [1, 0, 0, 0, 1, 1], 0, 7, 37),
  (.committed, .addDocuments, .add, [1, 0, 0, 0, 1, 1],
    [1, 0, 1, 0, 0, 1, 1, 0, 0, 0, 0, 1, 1, 0, 1, 0, 0, 0, 0, 1, 0, 1, 0, 0, 1, 0, 1, 0], 0, 30, 7),
  (.committed, .addDocuments, .flush, [1, 0, 0, 1, 1, 0, 1, 0, 0, 1, 1, 0, 0, 0, 0, 1, 1, 0, 1, 0, 0, 0, 0, 1, 0, 1, 0, 0, 1, 0, 1, 0],
    [1], 0, 0, 37),
  (.committed, .addDocuments, .cleanUp, [1, 0, 0, 0, 1, 1],
    [0, 1, 1, 1, 1, 0, 0, 0, 0, 0, 1, 0, 1, 0, 1, 0, 0, 0, 0, 1, 0, 0, 0, 1, 1, 0, 1, 0, 0, 0, 0, 1, 0, 1, 0, 0, 1, 0, 1, 0], 0, 49, 7),
  (.committed, .addDocuments, .cleanUpEntryFails, [1, 0, 0, 0, 1, 1],
    [0, 1, 1, 1, 0, 0, 0, 0, 0, 1, 0, 1, 0, 1, 0, 0, 0, 0, 1, 0, 0, 0, 1, 1, 0, 1, 0, 0, 0, 0, 1, 0, 1, 0, 0, 1, 0, 1, 0], 0, 49, 7),
  (.committed, .addDocuments, .cleanUpRemoveFails, [1, 0, 0, 0, 1, 1],
    [0, 1, 1, 1, 0, 0, 0, 0, 0, 1, 0, 1, 0, 1, 0, 0, 0, 0, 1, 0, 0, 0, 1, 1, 0, 1, 0, 0, 0, 0, 1, 0, 1, 0, 0, 1, 0, 1, 0], 0, 49, 7),
  (.committed, .add, .flush, [1, 0, 1, 0, 0, 1, 1, 0, 0, 0, 0, 1, 1, 0, 1, 0, 0, 0, 0, 1, 0, 1, 0, 0, 1, 0, 1, 0], [1], 0, 0, 30),
  (.committed, .flush, .flush, [1], [1, 0, 1, 0, 0, 1], 0, 3, 0),
  (.committed, .flush, .cleanUp, [1],
    [0, 1, 1, 1, 1, 0, 0, 0, 0, 0, 1, 0, 1, 0, 1, 0, 0, 0, 0, 1, 0, 0, 0, 1, 1, 0, 1, 0, 0, 0, 0, 1, 0, 1, 0, 0, 1, 0, 1, 0], 0, 49, 0),
  (.committed, .flush, .cleanUpEntryFails, [1],
    [0, 1, 1, 1, 0, 0, 0, 0, 0, 1, 0, 1, 0, 1, 0, 0, 0, 0, 1, 0, 0, 0, 1, 1, 0, 1, 0, 0, 0, 0, 1, 0, 1, 0, 0, 1, 0, 1, 0], 0, 49, 0),
  (.committed, .flush, .cleanUpRemoveFails, [1],
    [0, 1, 1, 1, 0, 0, 0, 0, 0, 1, 0, 1, 0, 1, 0, 0, 0, 0, 1, 0, 0, 0, 1, 1, 0, 1, 0, 0, 0, 0, 1, 0, 1, 0, 0, 1, 0, 1, 0], 0, 49, 0),
  (.slot, .addDocuments, .addDocuments, [1, 0, 0, 1, 1, 1, 0, 1, 0, 1, 0, 1, 0, 0, 0], [1, 0, 0, 1, 1, 0, 1, 0, 0, 1, 1, 0, 0, 0], 0, 22, 19),
  (.slot, .addDocuments, .add, [1, 0, 0, 1, 1, 1, 0, 1, 0, 1, 0, 1, 0, 0, 0], [1, 0, 1, 0, 0, 1, 1, 0, 0, 0], 0, 15, 19),
  (.slot, .addDocuments, .validate, [1, 0, 0, 1, 1, 1, 0, 1, 0, 1, 0, 1, 0, 0, 0], [1, 0], 0, 4, 19),
  (.slot, .addDocuments, .compress, [1, 0, 0, 1, 1, 1, 0, 1, 0, 1, 0, 1, 0, 0, 0], [1, 0], 0, 4, 19),
  (.slot, .addDocuments, .cleanUp, [1, 0, 0, 1, 1, 1, 0, 1, 0, 1, 0, 1, 0, 0, 0], [0, 1, 1, 1, 1, 0, 0], 0, 16, 19),
  (.slot, .addDocuments, .cleanUpEntryFails, [1, 0, 0, 1, 1, 1, 0, 1, 0, 1, 0, 1, 0, 0, 0], [0, 1, 1, 1, 0, 0], 0, 16, 19),
  (.slot, .addDocuments, .cleanUpRemoveFails, [1, 0, 0, 1, 1, 1, 0, 1, 0, 1, 0, 1, 0, 0, 0], [0, 1, 1, 1, 0, 0], 0, 16, 19),
  (.slot, .add, .add, [1, 1, 0, 1, 0, 1, 0, 1, 0, 0, 0], [1, 0, 1, 0, 0, 1, 1, 0, 0, 0], 0, 15, 12),
  (.slot, .add, .validate, [1, 1, 0, 1, 0, 1, 0, 1, 0, 0, 0], [1, 0], 0, 4, 12),
  (.slot, .add, .compress, [1, 1, 0, 1, 0, 1, 0, 1, 0, 0, 0], [1, 0], 0, 4, 12),
  (.slot, .add, .cleanUp, [1, 1, 0, 1, 0, 1, 0, 1, 0, 0, 0], [0, 1, 1, 1, 1, 0, 0], 0, 16, 12),
  (.slot, .add, .cleanUpEntryFails, [1, 1, 0, 1, 0, 1, 0, 1, 0, 0, 0], [0, 1, 1, 1, 0, 0], 0, 16, 12),
  (.slot, .add, .cleanUpRemoveFails, [1, 1, 0, 1, 0, 1, 0, 1, 0, 0, 0], [0, 1, 1, 1, 0, 0], 0, 16, 12),
  (.slot, .validate, .compress, [1, 0, 1, 0, 0], [1, 0, 0, 1, 1], 0, 7, 9),
  (.slot, .compress, .compress, [1, 0, 1, 0, 0], [1, 0, 0, 1, 1], 0, 7, 9),
  (.slot, .compress, .cleanUp, [1, 0, 0, 1, 1], [0, 1, 1, 1, 1, 0, 0, 1, 0, 0], 6, 21, 1),
  (.slot, .compress, .cleanUpEntryFails, [1, 0, 0, 1, 1], [0, 1, 1, 1, 0, 0, 1, 0, 0], 6, 21, 1),
  (.slot, .compress, .cleanUpRemoveFails, [1, 0, 0, 1, 1], [0, 1, 1, 1, 0, 0, 1, 0, 0], 6, 21, 1),
  (.code, .addDocuments, .addDocuments, [1, 0, 0, 1, 1, 1, 0, 1, 0, 1, 0, 1, 1, 0, 0], [1, 0, 0, 1, 1, 0, 1, 0, 0, 1, 1, 1, 0, 0], 0, 23, 20),
  (.code, .addDocuments, .near, [1, 0, 0, 1, 1, 1, 0, 1, 0, 1, 0, 1, 1, 0, 0], [1, 0, 1, 1, 0], 0, 12, 20),
  (.code, .addDocuments, .add, [1, 0, 0, 1, 1, 1, 0, 1, 0, 1, 0, 1, 1, 0, 0], [1, 0, 1, 0, 0, 1, 1, 1, 0, 0], 0, 16, 20),
  (.code, .addDocuments, .search, [1, 0, 0, 1, 1, 1, 0, 1, 0, 1, 0, 1, 1, 0, 0], [0, 1, 0, 1, 1, 0], 0, 4, 20),
  (.code, .addDocuments, .searchDist, [1, 0, 0, 1, 1, 1, 0, 1, 0, 1, 0, 1, 1, 0, 0], [0, 1, 0, 1, 1, 0], 0, 4, 20),
  (.code, .addDocuments, .maxDist, [1, 0, 0, 1, 1, 1, 0, 1, 0, 1, 0, 1, 1, 0, 0], [1, 0], 0, 2, 20),
  (.code, .addDocuments, .cleanUp, [1, 0, 0, 1, 1, 1, 0, 1, 0, 1, 0, 1, 1, 0, 0], [0, 1, 1, 1, 1, 1, 0], 0, 16, 20),
  (.code, .addDocuments, .cleanUpEntryFails, [1, 0, 0, 1, 1, 1, 0, 1, 0, 1, 0, 1, 1, 0, 0], [0, 1, 1, 1, 1, 0], 0, 16, 20),
  (.code, .addDocuments, .cleanUpRemoveFails, [1, 0, 0, 1, 1, 1, 0, 1, 0, 1, 0, 1, 1, 0, 0], [0, 1, 1, 1, 1, 0], 0, 16, 20),
  (.code, .near, .add, [1, 0, 1, 1, 0], [1, 1, 0, 1, 0, 1, 0, 1, 1, 0, 0], 10, 13, 2),
  (.code, .near, .compress, [1, 0, 1, 1, 0], [1, 0, 0, 1, 0, 1, 0, 0], 0, 11, 12),
  (.code, .add, .add, [1, 1, 0, 1, 0, 1, 0, 1, 1, 0, 0], [1, 0, 1, 0, 0, 1, 1, 1, 0, 0], 0, 16, 13),
  (.code, .add, .search, [1, 1, 0, 1, 0, 1, 0, 1, 1, 0, 0], [0, 1, 0, 1, 1, 0], 0, 4, 13),
  (.code, .add, .searchDist, [1, 1, 0, 1, 0, 1, 0, 1, 1, 0, 0], [0, 1, 0, 1, 1, 0], 0, 4, 13),
  (.code, .add, .maxDist, [1, 1, 0, 1, 0, 1, 0, 1, 1, 0, 0], [1, 0], 0, 2, 13),
  (.code, .add, .cleanUp, [1, 1, 0, 1, 0, 1, 0, 1, 1, 0, 0], [0, 1, 1, 1, 1, 1, 0], 0, 16, 13),
  (.code, .add, .cleanUpEntryFails, [1, 1, 0, 1, 0, 1, 0, 1, 1, 0, 0], [0, 1, 1, 1, 1, 0], 0, 16, 13),
  (.code, .add, .cleanUpRemoveFails, [1, 1, 0, 1, 0, 1, 0, 1, 1, 0, 0], [0, 1, 1, 1, 1, 0], 0, 16, 13),
  (.code, .maxDist, .compress, [1, 0], [1, 0, 0, 1, 0, 1, 0, 0], 0, 11, 2),
  (.code, .compress, .cleanUp, [1, 0, 0, 1, 0, 1, 0, 0], [0, 1, 1, 1, 1, 1, 0], 0, 16, 11),
  (.code, .compress, .cleanUpEntryFails, [1, 0, 0, 1, 0, 1, 0, 0], [0, 1, 1, 1, 1, 0], 0, 16, 11),
  (.code, .compress, .cleanUpRemoveFails, [1, 0, 0, 1, 0, 1, 0, 0], [0, 1, 1, 1, 1, 0], 0, 16, 11),
  (.quant, .addDocuments, .compress, [1, 0, 0, 1, 1, 1, 0, 1, 0, 1, 0, 1, 1], [1], 0, 2, 18),
  (.quant, .near, .compress, [1, 0, 1, 1, 0, 0], [1], 0, 2, 14),
  (.quant, .add, .compress, [1, 1, 0, 1, 0, 1, 0, 1, 1], [1], 0, 2, 11),
  (.quant, .search, .compress, [0, 1, 0, 1, 1, 0, 0], [1], 0, 2, 6),
  (.quant, .searchDist, .compress, [0, 1, 0, 1, 1, 0, 0], [1], 0, 2, 6),
  (.quant, .maxDist, .compress, [1, 0, 0], [1], 0, 2, 4),
  (.quant, .compress, .compress, [1], [1], 0, 2, 2),
  (.quant, .compress, .cleanUp, [1], [0, 1, 1, 1, 1, 0, 0, 0, 1], 0, 18, 2),
  (.quant, .compress, .cleanUpEntryFails, [1], [0, 1, 1, 1, 0, 0, 0, 1], 0, 18, 2),
  (.quant, .compress, .cleanUpRemoveFails, [1], [0, 1, 1, 1, 0, 0, 0, 1], 0, 18, 2)]

/-- the two calls, the first for collection 1 -/
def callsOf (o : Nat) (a b : Op) (x y : List Nat) : List (Op × Nat × List Nat) := [(a, 1, x), (b, o, y)]

/-- the schedule of a witness -/
def turns (k m n : Nat) : List Nat := List.replicate k 0 ++ List.replicate m 1 ++ List.replicate n 0

/-- two accesses about to happen are to the same memory, of this field, and one is a write -/
def meets (f : Field) : Option Act → Option Act → Bool
  | some (.acc c w), some (.acc c' w') => c == c' && c.field == f && (w || w')
  | _, _ => false

/-- the run of a witness is possible and ends in a race -/
def good (o : Nat) (x : Field × Op × Op × List Nat × List Nat × Nat × Nat × Nat) : Bool :=
  match run (begin (callsOf o x.2.1 x.2.2.1 x.2.2.2.1 x.2.2.2.2.1)) (turns x.2.2.2.2.2.1 x.2.2.2.2.2.2.1 x.2.2.2.2.2.2.2) with
  | some [t, t'] => meets x.1 t.todo.head? t'.todo.head?
  | _ => false

theorem all_good : (witnesses.all (good 1)) = true := by decide +kernel

/-- what belongs to the process is raced for by calls for different collections as well -/
theorem all_good_apart : ((witnesses.filter fun x => x.1 == .session || x.1 == .pod).all (good 2)) = true := by decide +kernel

theorem all_there : (Field.all.all fun f => Op.all.all fun a => Op.all.all fun b => !racy f a b ||
    witnesses.any fun x => x.1 == f && ((x.2.1 == a && x.2.2.1 == b) || (x.2.1 == b && x.2.2.1 == a))) = true := by decide +kernel

theorem race_symm {s : List Thread} {i j : Nat} {c : Cell} (h : Race s i j c) : Race s j i c := by
  obtain ⟨hne, w, w', h1, h2, hw⟩ := h
  exact ⟨fun e => hne e.symm, w', w, h2, h1, by rw [Bool.or_comm]; exact hw⟩

theorem good_race {o : Nat} {f : Field} {a b : Op} {x y : List Nat} {k m n : Nat} (h : good o (f, a, b, x, y, k, m, n) = true) :
    ∃ s c, run (begin (callsOf o a b x y)) (turns k m n) = some s ∧ c.field = f ∧ Race s 0 1 c := by
  simp only [good] at h
  split at h
  · rename_i t t' hr
    unfold meets at h
    split at h
    · rename_i c w c' w' h1 h2
      simp only [Bool.and_eq_true, beq_iff_eq] at h
      obtain ⟨⟨rfl, hf⟩, hw⟩ := h
      exact ⟨_, c, hr, hf, by decide, w, w', ⟨t, rfl, h1⟩, ⟨t', rfl, h2⟩, hw⟩
    · simp at h
  · simp at h

/-- every row of the table happens, with two calls for one collection, and about the session and the pod with calls for two -/
theorem racy_race {o : Nat} {f : Field} {a b : Op} (h : racy f a b = true) (ho : o = 1 ∨ o = 2 ∧ f ∈ [Field.session, .pod]) : ∃ (x y : List Nat) (is : List Nat) (s : List Thread) (c : Cell),
    run (begin (callsOf o a b x y)) is = some s ∧ c.field = f ∧ Race s 0 1 c ∨
    run (begin (callsOf o b a x y)) is = some s ∧ c.field = f ∧ Race s 0 1 c := by
  have := List.all_eq_true.mp (List.all_eq_true.mp (List.all_eq_true.mp all_there f f.mem_all) a a.mem_all) b b.mem_all
  rw [h] at this
  simp only [Bool.not_true, Bool.false_or] at this
  obtain ⟨⟨f', a', b', x, y, k, m, n⟩, hm, hx⟩ := List.any_eq_true.mp this
  simp only [Bool.and_eq_true, Bool.or_eq_true, beq_iff_eq] at hx
  have hg : good o (f', a', b', x, y, k, m, n) = true := by
    rcases ho with rfl | ⟨rfl, ho⟩
    · exact List.all_eq_true.mp all_good _ hm
    · refine List.all_eq_true.mp all_good_apart _ (List.mem_filter.mpr ⟨hm, ?_⟩)
      simpa [hx.1] using ho
  obtain ⟨s, c, hr, hf, hrace⟩ := good_race hg
  obtain ⟨rfl, ⟨rfl, rfl⟩ | ⟨rfl, rfl⟩⟩ := hx
  · exact ⟨x, y, _, s, c, Or.inl ⟨hr, hf, hrace⟩⟩
  · exact ⟨x, y, _, s, c, Or.inr ⟨hr, hf, hrace⟩⟩

end Fave.Locks
