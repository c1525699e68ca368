# Formal model of FaVe in Lean 4 — design

Source under study: `/repo` (Go). The Go code is *read*, never built or run here.
The tie between code and model is the citation (`file:lines`) on every model definition.

## Layout

* `lean/Verif/Model/*`  executable model, function by function, every definition cites the Go source.
* `lean/Verif/Spec/*`   small independent specifications used in the statements.
* `lean/Verif/Lemmas/*` helper lemmas (not property statements).
* `lean/Verif/Props/*`  the property theorems, one file per property or group, each followed by an `example`
  that a concrete non-trivial case meets the hypotheses.

## General modelling decisions

* Go `float32` distances are an abstract type `D` with the Boolean comparison `lt` (Go's `<`; Go's `a > b` is `lt b a`).
  Statements that need an order assume `LawfulDist D` (strict weak order: irreflexive, transitive, co-transitive), which
  float32 without NaN satisfies. Statements without it hold for NaN too. The algebra of distance functions is proved over exact
  numbers (C36, C37); rounding to 32 bits is modelled in `Model/Float32` (C63, C64).
* Goroutines that compute neighbour distances: their only visible effect is the order of the collected list; the model
  takes a schedule `sched` that returns an arbitrary permutation at each step and theorems quantify over it.
* Random level: an arbitrary natural number argument (`math.Log(0)`, probability 2^-53, is not modelled).
* Go panics (index out of range, nil dereference) and errors are explicit values (`Err`).
* `for` loops over a queue are structural recursion with a fuel that is proved never to run out.
* fairOS-dfs (KV table, document DB), the HTTP layer and the vectoriser service are not in `/repo`.
  They are parameters with the following assumed behaviour: KV get returns the last put value for that key; a put is
  atomic; document find returns documents satisfying the condition.
* `encoding/json` and `strconv` are not in `/repo` either. `Model/Json` and `Model/Decimal` model what they do with the values stored here
  (texts as lists of characters, shortest decimals, rounding when read); that unmarshalling undoes marshalling for the structures of the index
  is proved, not assumed (C77); for documents, vectors and request bodies see C78, C79 and C80. Where `Model/Rest` and `Model/Client` take the
  values of a request as given, C80 shows that they are those the client wrote, and C78 and C79 what becomes of properties and vectors.
* hashicorp/golang-lru is not in `/repo` either; `Model/Lru` models its documented behaviour (recency list, `Add` and `Get` move to the
  front, `Add` beyond the capacity drops the least recently used entry).
* insert.go, search.go and vector_cache.go import `distancer` from weaviate, not from `/repo`; of it they use the interfaces and `Normalize`, of
  which pkg/hnsw/distancer/normalize.go is taken to be a copy. The distances themselves are those of `/repo` (document.go:12 passes
  `NewCosineDistanceProvider` of pkg/hnsw/distancer).
* Products and sums are rounded one by one, as on amd64; the Go language allows other processors to fuse them.
* Real concurrency (goroutines that share memory) is a small-step machine whose theorems range over all interleavings (C18, C33, C41);
  everything else is sequential, with the nondeterminism of goroutines inside one call as schedules.

## Trusted base

Lean 4.33 kernel, axioms `propext`, `Classical.choice`, `Quot.sound` at most (checked by `vcheck` and `#print axioms`);
no `sorry`, no own axioms, no `native_decide`, no `bv_decide`. The faithfulness of the hand-written model.

## What of the code is modelled

| code | model | not modelled |
|------|-------|--------------|
| pkg/hnsw/priorityqueue/queue.go, queue_with_index.go | `Model/Queue` (the comparison of queue_with_index.go as `lessMinIx`) | `NewMaxWithIndex` (unused) |
| pkg/hnsw/visited/*, pools.go | `Model/Visited`, `Model/Pools` | the byte slice is a list of `UInt8`; `connList` (unused) |
| pkg/hnsw/search.go, search_with_max_dist.go | `Model/Search`, `Model/Knn`, `Model/Config` (widths) | compressed vectors (`h.compressed`), metrics, debug output |
| pkg/hnsw/flat_search.go | `Model/Flat` | compressed vectors |
| pkg/hnsw/insert.go, neighbor_connections.go, heuristic.go, vertex.go, index.go (nodeByID, Flush, LoadEntrypoint, ...) | `Model/Insert`, `Model/History`, `Model/Level` (the random layer), `Model/Lru`, `Model/Conc`, `Model/Mem` (slices of vertex.go), `Model/Load` (`nodeByID` with objects), `Model/Weave` (additions and flushes at the same time) | metrics, commit log calls (no-op logger in FaVe), locks other than in `Model/Conc` and `Model/Weave`; `math.Log` (a parameter with a bound on its error) |
| pkg/hnsw/delete.go | `Model/Delete` | goroutine cycles (clean-up is one call) |
| pkg/hnsw/maintainance.go | `Model/Grow` | |
| pkg/hnsw/vector_cache.go | `Model/VecCache`, `Model/Closing` (the watcher goroutine) | vector_cache_prefiller.go (only writes a log line; its body is commented out) |
| pkg/hnsw/compress.go, compressed_vector_cache.go | `Model/Compress`, `Model/Closing` (droppings of the caches, several runs, closing) | the quantizer and the store of codes (other packages); errors before anything is changed |
| pkg/hnsw/commit_logger*.go, deserializer.go | `Model/CommitLog` | timers, PQ encoder contents beyond their bytes |
| pkg/hnsw/condensor.go, commit_log_combiner.go, corrupt_commit_logs_fixer.go, bufiowriter.go | `Model/Condense`, `LogFiles`, `Fixer`, `BufWriter` | operating system beyond "a crash leaves a prefix of the calls" |
| pkg/hnsw/commit_logger.go, startup.go (the start from the commit log, commented out in FaVe) | `Model/LogFiles`, `Keeper` | the cycles that decide when background work is done; failing disk operations; names that are not numbers |
| pkg/hnsw/backup.go | `Model/Backup` | the backup tool itself (the files are copied as they are) |
| pkg/hnsw/condensor_mmap*.go | `Model/Mmap` | the mapping itself (empty TODO in the code) |
| pkg/hnsw/config*.go, user_config.go, pq_config.go | `Model/Config` | |
| pkg/hnsw/distancer/* incl. AVX2 assembly | `Model/Distance`, `Model/Asm`, `Model/Float32` (rounding to 32 bits, infinities, not-a-number; C63-C66), `Model/Collection32` | the sign of zero; geographic distance in 32 bits |
| pkg/vectorizer/vector.go, rest/vectorizer.go | `Model/Wire`, `Model/Start` (`NewVectorizer`) | HTTP itself; `ToString` (unused) |
| pkg/document/document.go | `Model/Client`, `Model/Lookup`, `Model/Requests`, `Model/Made` (index objects made), `Model/Opening` (requests opening at the same time) | fairOS-dfs, HTTP vectoriser (parameters) |
| adapters/handlers/*, models/*.go, restapi parameter binding, URL builders, routing table | `Model/Rest`, `Model/Url`, `Model/Docs`, `Model/VecText`, `Model/Bodies`, `Model/Texts` (all put together), `Model/Replies` (status and text of every answer) | go-swagger runtime (its router after its documentation) |
| insert.go, neighbor_connections.go, heuristic.go: how much work they do | `Model/AddWork` | retries below the vector cache; reads of neighbours' records |
| nodeByID: which look-ups reach the storage | `Model/Fetch` | two look-ups of one vertex at the same moment (C56) |
| metrics.go and its callers | `Model/Metrics` | durations, size, start (insert_metrics.go) |
| prefetch_*, debug.go, generate_recall_datasets.go, restapi generated code, cmd | — | not modelled |

## Per property: what is modelled, how it is proved, outcome

"false" means that the full statement does not hold of the code; a concrete witness is proved beside the `_partial` theorem.

| id | modelled | proof | outcome |
|----|----------|-------|---------|
| C01 | `searchLayer` over real heaps and visited list, arbitrary graph/tombstones/allow list/schedule | loop invariant: results ⊆ visited ∩ stored, nodup, distances true | proved |
| C02 | `knnMaxDist` tail: drain max heap, filter | heap drain sorted + filter lemma | proved (order without NaN; witness that NaN breaks it) |
| C03 | `insert`, `flush`, `restart`, `knnMaxDist` | invariant "the links of the base level lead from every vector to every other" for ≤ 61 nodes (no list is cut before, `Lemmas/Connected`), + C04 | proved |
| C04 | `searchLayer` | invariant: visited closed under links of processed nodes when results never overflow | proved |
| C05 | `searchLayer` with fuel | measure unvisited + candidates decreases; fuel never runs out | proved |
| C06 | binary heap, both directions | heap invariant, permutation, refinement to multiset spec | proved |
| C07 | `ListSet`, `Pool` with `UInt8` marker and growth | refinement to a finite set | proved |
| C08 | `insert` | invariant by induction over additions | proved; witnesses for failed/retried additions |
| C09 | `insert` | every storage update only touches links | proved |
| C10 | `insert` + search | 62-vector history after which one vector is never found | false beyond 61; partial = up to 61 (sharp) |
| C11 | cache + KV + restart | view equality after flush | proved |
| C12 | flush as list of puts, crash = prefix | induction over prefix | proved |
| C13 | LRU cache with capacity | counting argument over all read/write orders | false beyond the capacity (10000); partial within it |
| C14 | `addDocuments` and all requests | induction over requests | partial; witnesses: interrupted addition, unreadable count, interleaving |
| C15 | `addDocuments` + handler | exact account of what is stored | false (silently passed over); partial |
| C16 | `insert` error path | invariant "all one dimension" + view equality | proved |
| C17 | vector cache index | totality of `add` below 25000; panic at 25000 | false at 25000; partial below |
| C18 | goroutines + channel transition system | invariant over all interleavings | proved |
| C19 | truncation code with Go slicing panic | case analysis | false (negative limit, text limit 0); partial |
| C20 | client state keyed by namespaced name, cache keys | injectivity + frame lemmas | proved |
| C21 | create/delete/list | refinement to a finite map of names | false (foreign databases, failed deletions); partial |
| C22 | guards | case analysis over all requests | false (crash instead of error); partial |
| C23, C24 | handlers | decision logic; JSON round trip | false parts witnessed; partial |
| C25, C26 | byte codec of commit log | round trip, torn tail | false parts witnessed (level 65535, torn entry point); partial |
| C27 | condensor writers + replay | refinement | false with older state; partial |
| C28, C29 | file-set model of combiner, fixer, condensor | induction, crash points | false parts witnessed; partial |
| C30 | bufio writer | refinement | proved |
| C31, C32 | arithmetic / sorted list | induction | C31 false near 2^64, partial; C32 proved |
| C33 | sharded cache, sequential and concurrent | refinement; invariant over interleavings | proved |
| C34, C35 | config parsing/updating | decision logic | false parts witnessed; partial |
| C36, C37 | distancers over a commutative ring / reals, AVX2 programs | algebra, loop invariants of the assembly | C36 partial, C37 proved |
| C38 | flatSearch | heap of size k invariant | proved |
| C39 | paging loop | induction with fuel | false with ties; partial |
| C40 | delete/clean-up | invariant | false parts witnessed; partial |
| C41 | concurrent insert as small-step machine | one lemma per invariant over all steps | proved |
| C42–C44 | document client | induction / decision logic | C42 proved; C43, C44 partial with witnesses |
| C45 | `searchLayer` | loop invariant: visited eligible vectors are kept or beaten by every kept one | proved |
| C46 | `searchTimeEF`, `autoEfFromK` with 64-bit wrap-around | case analysis | proved |
| C47 | deletion and all later requests | bisimulation with the client that never had the collection | false when a storage call fails; partial |
| C48 | `searchLayer`, `knnMaxDist`, histories | loop invariant: results full, or everything reachable kept | proved |
| C49 | `add` with unreadable vectors, restart | the heuristic meets ≥ maxConn candidates; invariant over all later executions | false from 30 vectors on; partial below |
| C50 | `selectNeighborsHeuristic`, `add`, `connectNeighborAtLevel` | loop invariant of the selection: kept list sorted and apart, every popped candidate kept or justified | proved |
| C51 | heap of arrays with slices; the functions of vertex.go on it; float decisions as parameters | refinement of plain lists (invariant: no common cell); invariant on the list an addition goes through; witness that a clean-up at the same time disturbs it | proved (for the loop: while additions run; a clean-up breaks it) |
| C52 | small-step machine of add requests: read count, add, store document, flush | inductive invariant for requests one after the other; witnesses: two overlapping requests share a number; an overlapping request without vectors harms a later one; a failed store shares a number | partial (false of the code) |
| C53 | `Model/Weave`: additions and flushes as small steps over `Model/Insert` (start and top layer read, vertex published, entry found, per layer: neighbours chosen, own links set, one neighbour connected per step, maintenance mark removed and start moved; a flush encodes, stores and marks one vertex per step). What a search may find under interference is left open (`seen`): only vertices reached from its entry by links there have been. | Invariant over all interleavings with bookkeeping (`Lemmas/WeaveGhost`): which addition entered which layer through which vertex. Per layer this relation has no cycle, so an addition never finds itself before it has set its links, nor a vertex already linked to it. Undisturbed searches are an instance (`links_ok_undisturbed`), whole additions are sequences of steps (`alone_as_before`), states of histories are starting points (`start_of_history`). | proved |
| C54 | `Model/Weave` (as C53) | negation: a schedule of two additions of level 1 (kernel computation), then for all searches after the restart by closure of the search under links; partial: second invariant on top of that of C53 (`Lemmas/WeaveJoin`): links of the base layer are never removed, only vertices with links of their own are entered or chosen there, and everything ever chosen is connected with the old start both ways; corollary for searches by completeness of the layer search | false: `setConnectionsAtLevel` overwrites links that others have made meanwhile; partial for at most one addition of level 1 or more and base-layer lists that do not get full |
| C55 | `Model/Weave` (as C53); `calm`: no flush begins while an addition is under way and the other way round | negation: a schedule of one addition of level 2 and two flushes (kernel computation), then for all searches after the restart by closure of the search under links; partial: invariant `Calm` on top of that of C53 (`Lemmas/WeaveCalm`): committed vertices are stored as they are, vertices under construction are not committed, a flush under way has dealt with every cached vertex that is not in its list | false: a flush that passes while a vertex is being linked stores it half-built and marks it as committed for good; partial for flushes that do not overlap with additions |
| C56 | `Model/Load`: objects on a heap, the cache of pointers, the store, threads in `nodeByID`, flushes, restarts | negation: a schedule of one search and one addition (kernel computation), then for all searches after the restart by closure of the search under links; partial: invariant (`Lemmas/Load`): an object in the cache belongs to one number, a thread that has an object has the one in the cache, a thread that is loading is the only one and its vertex is not cached, the value found is the outcome of the changes so far | false: two threads that load the same vertex have an object each, and the changes of one are lost; partial if no two threads load the same vertex at the same time, or if everything is cached |
| C57 | `Model/Client` against the specification machine `Shelf` (`Spec/Shelf`), which reads the contents off the requests | refinement (`Lemmas/ShelfAdd`, `Lemmas/Shelf`): the collection is as on the shelf before and after every orderly request (each vector entered, each document stored under its number, flush complete, opened databases have an index); then exactness of small collections (C03) carried through numbers to documents; negations: kernel computation | partial: orderly requests (working storage, readable documents, one vector length, at most 30 vectors, no look-up of single documents); false otherwise: after a restart a look-up of one document makes every search and addition panic, a failed creation likewise, and an empty collection answers with an error |
| C58 | `Model/Pools`: objects on a heap, the pools, threads whose variables keep pointing at objects put back; every function that uses pools as the sequence of its takings, uses and puttings back, with all early returns | the sequences of all calls pass a forward check of which variables hold an object (`Lemmas/Pools`, by the structure of the functions); invariant over all interleavings (`Lemmas/PoolsRun`): held objects are distinct, outside the pools, and equal to the replay of the holder's own operations | proved, for entry points whose ids fit the visited list (in FaVe all do, C17); objects held by calls that end with an error are never put back, which is harmless |
| C59 | `Model/Keeper`: directory, current file, buffer and clock as a machine whose steps are writing, spilling, flushing, switching, condensing, combining and stopping with the following start; the file operations are those of C25–C29 | invariant over all runs (`Lemmas/KeeperRun`, `KeeperStart`): the closed files hold operations that do the same after anything as what was written to them (`Lemmas/KeeperOps`), the current file and the buffer the rest; `nothing_lost_partial`, `restart_recovers_partial` | **false** in full: a clock set back makes the code condense and remove the file it writes to (`clock_set_back_loses`), deletions come undone (`deleted_node_returns`), and C26, C28. Partial: proved for a clock that does not go back, operations that only add, and stops not between renaming a combined log and removing its sources |
| C60 | `Model/Backup`: the three cycles as running or not, stopping with or without success, the decisions of `Shutdown` and `PauseMaintenance` | every pause from a state in which all or none run leads to such a state (`pause_once`), then induction over the calls: `pause_all_or_nothing_partial`, `pause_then_partial`; shutting down returns no error exactly when all is stopped (`shutdown_error_iff`); the two cycles of the log always run together (`log_cycles_together`) | **false** in full: the error of a failed commit log shutdown is lost if the context has not expired (`lost_error`); resuming never fails (`resume_never_fails`). Partial: proved if stopping the commit log fails only because the context expires |
| C61 | `Model/Backup` (`Dir.listFiles`) on top of `Model/Keeper` | from the invariant of C59: after a switch in a later second the current file is empty, so the closed files hold the whole history; empty files and the order do not matter (`Lemmas/Backup`); `backup_complete_partial` | **false** in full: within the second in which the current file was opened it is opened again and left out (`same_second_missing`); temporary files are listed and removed (`listed_and_removed`); listing does not check for a pause (`condensed_meanwhile_missing`). Partial: proved for a switch in a later second |
| C62 | Model/Compress: the vector cache, the cache of codes, the store of codes and the two parts of Compress as a machine with insertions, removals, look-ups and size checks in any order; the quantizer is any function | invariants before and after compression; the list without empty places compared with the places by induction; the order of the goroutines by a fold over any permutation | false: codes are kept under the position among the cached vectors instead of the id. Right if and only if there is no empty place before a vector (`right_iff_gapless`); otherwise `shifted`, witness `restart_mixes_up`; `inserted_meanwhile`, `small_limit_drops_all`, `dropped_for_good`; proved part `codes_right_partial` |
| C63 | Model/Float32: rounding to nearest (ties to even) of rationals to 24 places, smallest 2^-149, overflow to infinities, not-a-number; the operations of the distance functions and of the vector instructions; plugged into Model/Distance and Model/Asm | rounding shown to be IEEE's (`rounds_to_nearest`, `sqrt_rounded`); rounding the root to 64 bits first, as Go does, changes nothing (`sqrt_by_way_of_64_bits`); forward error analysis by induction over the loops and over the blocked sums that the assembly computes (from C36's loop invariants); sums are multiples of 2^-149, so adding never underflows | bound, agreement, ranking, symmetry, sign, self distance, Manhattan zero, Hamming count proved for all vectors; false as stated: `processors_differ`, `l2_zero_for_different` (underflow), `dot_not_a_number` (overflow with both signs); `hamming_counts` shows that counting stops at 2^24 |
| C64 | `Distance.normalize` with the operations of Model/Float32 (sum of squares rounded after each step, square root, division) | the computed sum of squares is near the true one (error analysis of C63), the square root is near (`sqrt_close`), the quotients are rounded multiples of the entries; Cauchy-Schwarz bounds the inner product; over the reals for the true cosine | length, direction, distance, range, order and multiples within bounds for moderate vectors; the results are finite for all vectors; false beyond: `too_large_is_zero`, `too_small_is_zero`, `lost_direction` (opposite vectors at distance one), `infinite_entry_not_a_number`; `self_distance_not_zero` and `not_idempotent` show that the bounds cannot be zero |
| C65 | Model/Collection32: index parameters with the normalisation and the cosine distance of Model/Float32; document client over them | `always_numbers` shows that only finite numbers come up, so the order of distances is lawful and C03 and C57 apply; C64 relates the distances to the angles | proved for vectors at least the rounding error away from the query (`hits_near_truth_partial`, `documents_near_truth_partial`); false for nearer ones: negative distances are passed over, and the distance of [2, 3] to itself is -2^-23 on every processor (`exact_match_dropped`, `document_not_found`); that of [1, 1] is positive (`limit_zero_misses`) |
| C66 | Collection32 (paramsNum: all values of float32, comparisons with not-a-number), Insert (flush up to the vertex that cannot be marshalled), Client; Spec/Poison | induction over histories: written vertices can be marshalled; a poisoned vertex stays in the cache, uncommitted, and stops every flush before the count is written; requests keep that; normalising keeps numbers numbers (C64) and turns infinities into not-a-number, which every distance then is | false: a document with the number 1e39 is accepted, makes its own and every later request to add documents fail until the restart, is returned by searches with distance not-a-number, hides other documents, and after the restart the numbers given since are given again so that a search returns the wrong document; true as long as all entries are numbers of float32 |
| C67 | Model/Url: builders, path cleaning, percent escaping, query strings, routing table, binding of path and query parameters, on byte strings; net/url, path and the go-openapi router after their documentation | unescaping inverts escaping (all bytes checked in the kernel, strings by induction); splitting inverts joining; cleaning keeps exactly the proper pieces; hence the piece list of an address is known in closed form for every name | round trip for all parameters that are not empty and names that are one piece (`round_trip_partial`), and for no other names (`round_trip_iff`); false otherwise: the address for "a/../b" deletes "b" (`deletes_another`); what is deleted is always a piece of the name (`lands_in_piece`); clients that escape names themselves can delete every collection (`every_name_deletable`) |
| C68 | Model/Search (an arbitrary permutation per expansion), Knn, Insert; Spec/Ties: operations without timing, absence of ties | two searches are related step by step: same visited set, same results, and candidate queues that differ only in candidates worse than all of a full set of results, which are never expanded; the nearest ef of a set are determined without ties; induction over the loop, the layers, the operations | false with ties (answer_depends_on_timing, links_depend_on_timing); true for all sequences without ties (histories_ignore_timing_partial) |
| C69 | Model/Level: 64-bit rounding, the normalizer, the draw and the layer, with `math.Log` as a parameter; Spec/Level: what is required of `math.Log`, the draws that reach a layer | the relative error of the whole computation is at most 2^-50 (`target_near`); the draws that reach a layer lie between two intervals whose sizes follow from `z exp(-z) <= 1`; the average by summing layer by layer; the layers of an index by induction over the operations (`low_runAll`) | **false** in one point: the draw 0 makes the addition panic (`zero_panics`). Partial: all else, with the probability exact up to 2^-48; layer 10 is reached (`ten_is_reached`) |
| C70 | Model/Client, Model/Rest, Model/Insert, Model/Search; Spec/Crash: the list of reasons, independent of how they come about | invariant of the index (`Index.Sound`): every vertex has its own number below the size of the cache, as many link lists as layers, links only below the size; kept by insertion, flush, crash and restart, and enough for insertion and search not to panic (`add_calm`, `knnMaxDist_calm`); then by cases over a document, induction over a batch, and over requests (`serve_cause`, `handle_cause`); `Equipped` for the index object | proved; every reason occurs (`each_reason_occurs`, `rest_reasons_occur`) |
| C71 | Model/Start: environment, configuration, the calls to the outside with their arguments, the client that results, the process; Spec/Start: what has to work, the plan of calls, pods with a past | cases over the answers of the outside (`newHandler_some`, `newHandler_calls`); every handler passes on at most one request to the client, which leaves session, pod and vectoriser alone (`handle_serve`, `handleAll_logged`) | proved; together with C70: in a serving process a missing pod is no reason for a crash |
| C72 | Model/Server: options, `hasScheme`, `Listen`, the start in `Serve`; a machine of signal handler, callers of `Shutdown`, serving loops, draining goroutines, `handleShutdown`, main | invariants of calls, servers and main kept by every step (`inv_next`); a number of remaining steps that each own step lowers (`left_next`); an own step is possible in each state in which a stop is wanted (`some_own`); simulation for later signals | the last clause is false with more than one server: after the first server that reports an error the channel is not read any more, the process ends while another server still waits for its requests (`others_cut_off`); proved for one server, the default. With only unknown words as schemes the process listens nowhere and says nothing (`unknown_words_listen_nowhere`) |
| C73 | Model/Api: the API object with its map of maps, all its calls, configureAPI, the description as a table, binding of a body; strings.ToUpper is a parameter that leaves the three methods alone | invariant (Shape) by induction over the sequence of calls: the registry is empty or the described table with handlers and builders read off the calls; statuses by cases over the handlers | proved but for the statuses: a look-up with an empty parameter is answered with the undeclared 422 (undeclared_status); 401, 403, 404, 500 are declared and never used; AddMiddlewareFor with a method in small letters writes to a nil map |
| C74 | Model/Locks: of each function the locking and the accesses to shared fields (for C76), as a program of sections (sequence, choice, loop, section, crossed sections, a lock kept); a list of decisions picks a path. Machine of any number of goroutines against `sync.Mutex`/`sync.RWMutex` with announcing writers. Left out: taking all shard locks of a vector cache, dropping the cache inside `Compress` (C90), goroutines inside one search (put one after the other), panics inside a section, locks inside the LRU caches and fairOS-dfs. | Every program respects one order of the kinds of locks (checked by a function on programs, proved sound by induction on programs); among goroutines on ordered paths the one that wants the highest lock can go on; a measure falls with every step; exclusion is an invariant; goroutines that have ended with a lock, and those that wait for them, are frozen for ever. | partial: false when the key-value store fails inside a clean-up. `removeTombstonesAndNodes` returns with `resetLock` locked if `KVDelete` fails (delete.go:610-613), `replaceDeletedEntrypoint` with the index read-locked if the vertex can not be read (delete.go:237-259). Proved: the exact locks left behind, that every later clean-up (or everything that has to write the index) hangs for ever, that it spreads to insertions through a deletion, and a state in which nothing can move. For the calls the server makes the claim is unconditional. |
| C75 | Model/CacheLocks: agents with their stage at each of the n shard locks (idle, announced, held), the maintenance lock, the unbuffered send on `cancel`, ticks from outside; one step per lock and agent. What is stored under the locks is in Model/VecCache (C33). Giving back all locks is one step. | Invariant by induction over schedules (one maintainer, one writer per lock, no writer beside readers, states reachable for each kind of agent, a drop ends with the watcher); where only one agent takes all locks, whoever waits waits for somebody who can go on; a measure falls with each inner step; the deadlock is built by induction on the number of locks and shown to stay by induction on what follows. | partial: false for `drop` beside `grow` or beside a tick that finds the cache full. `drop` takes all locks without the maintenance lock (vector_cache.go:199-202, `grow` and the watcher do take it: 175, 235), and each lock through its own goroutine (241-252), so for every n >= 2 two of them can each hold part of the locks; from then on neither ends and nobody else gets in. Also proved: at most one `drop` ever ends, as the watcher receives `cancel` once — Drop after Shutdown hangs. FaVe's server calls neither Drop nor Shutdown of an index, so it keeps the watcher's goroutine of a collection that is gone (watcher_stays). |
| C76 | Model/Locks as for C74, with the reads and writes of sixteen shared fields in the places where the functions make them (session, pod, table of indices; entry point, top layer, pointer to the Once, reset context, tombstones; connections, maintenance mark, committed mark of a vertex; slots of the two vector caches, quantiser, visited lists, log file). An access is a step of its own, so a race is a reachable state in which two goroutines are about to use the same memory and one of them writes. Branches are free, as for C74; the slots that share a lock count as one memory. Left out: writes before a vertex is visible, atomic fields, what LRU caches and sync.Pool do themselves. | A function collects, for each access of a program, the locks of the right owner around it; proved sound by induction on programs and on schedules (every lock of the set is held at the access). Two accesses whose sets share a lock, one of them for writing, can not both be next, as exclusive locks are exclusive (invariant of C74). The sets are compared for all pairs of calls by the kernel; for each of the 192 entries of the table a schedule is run by the kernel. | partial: the claim is false. For the requests of the server: two searches in one collection race for the entry point, which LoadEntrypoint writes under the read lock (insert.go:181-199); a search races with an insertion for entry point and top layer (search.go:470, 480 and search_with_max_dist.go:30, 41 read them without a lock); two AddDocuments race in Flush for connections, maintenance and committed marks (insert.go:117-163, no lock of the vertex), and for the slots that preload writes under the read lock (vector_cache.go:158-168). Login and OpenPod write under a lock that the others do not take to read, but the server calls them before it serves. The rest of the table involves Compress or the clean-up, which the server never starts. What is protected: the table of indices, the tombstones, the reset context, the visited lists, the log file. |
| C77 | Model/Json (texts of JSON: writing, reading with the grammar and escapes of encoding/json), Model/Decimal (formats of 24 and 53 bits, shortest decimal, plain and scientific notation, reading), Model/Stored (texts of vertex, entry point and counter, key-value table of texts) | the reader is shown to read every written value to its end by mutual induction; extension lemma (reading depends on nothing after the value, and needs no more fuel than its length) gives the refusal of prefixes; two different numbers of a format are so far apart that a decimal with 9 (17) digits rounds back; the table of texts refines the table of structures by induction on the changes | proved |
| C78 | `Model/Docs.lean`: the properties as they are read from the request (`take`: json.Number kept, last duplicate wins, keys in order), as they are stored (`kept`, `stored`: id and hnswId set, vector removed, text with HTML escapes), as a handler reads them (`floats`: float64), and the text of the answer (`shown`, `lookedUp`, `found`). JSON and decimals as in C77. | Induction over JSON values (`there_and_back`), on top of the C77 theorems that a written value is parsed back (`parse_render`) and that a float's shortest decimal is read back (`Fmt.lit_back`); `Lemmas/DecimalInt.lean` shows that whole numbers below 2^53 are written with their exact value; key tables as sorted lists. | partial: false for numbers that are no 64-bit float (9007199254740993 comes back as 9007199254740992, `full_claim_false`); a number beyond their range makes the document unreadable (`unreadable_iff`) and every search that finds it fail (`one_bad_document`); an infinite or NaN distance makes the handler panic after status 200 (`infinite_distance`). Proved: all else survives, numbers keep their nearest float, whole numbers below 2^53 their value. |
| C79 | `Model/VecText.lean`: `docComp`/`docVec` (json.Number to float64 to float32) and `searchVec` (directly to float32; null leaves zero), on the decimals of C77. | `Lemmas/DoubleRounding.lean`: rounding to the longer format and then to the shorter is rounding to the shorter, unless the first result is exactly halfway and was not so before (`Fmt.round_twice`, for any two formats with two bits between them); then lists by induction. | partial: false — 7.038531e-26, the shortest decimal of the float32 0x15ae43fd, is that float in a search and the next one in a document (`halfway_differs`); 1e39 is infinite in a document and refused in a search (`infinite_component`); null is refused in a document and zero in a search. Proved: the two agree except halfway (`vector_partial`), a document's component is almost the nearest (`nearly_nearest`), and texts written as 64-bit floats always agree (`doubles_survive`). |
| C80 | Model/Bodies: the structures of models/*.go as JSON values, with omitempty, nil slices and pointers; reading by folding over the members with the fields' decoders (strings, int64, float32, lists, pointers, free-form properties); `bind` reads the first value of the body | each field is read back from what was written (shortest decimals from C77, `take` is idempotent on tables in order); what is read satisfies the hypotheses of writing, by induction over the members; members for different fields commute, so a fold is invariant under permutations; texts longer than a value do not change it (Lemmas/JsonPrefix) | proved; a limit such as 10.0 or 1e1 is refused, a misspelt member is silently ignored, text after the request is ignored |
| C81 | Model/Wire: `query` (the text sent), `mapOf`/`corpi` (status, first JSON value of the answer as map[string][]float32, its entry `vector`), `equal` and `apart` (Vector.Equal, Vector.Distance) | JSON and decimals from C77 and C80; the map's entry is the last member of that name, by induction over the members (`entries_lookup`); Distance is the root of the plain l2 loop, so C63 applies | partial: a missing, null or misspelt `vector` is the empty vector, the document is passed over and the request succeeds (`full_claim_false`); a status other than 200 crashes (C70). Proved: which answers give which vector (`answer_iff`), that written vectors are understood exactly (`answer_back`), that components are nearest (`component_nearest`) |
| C82 | Model/Texts: `TReq` (requests with body texts), `read` (binding, Model/Bodies), `handled`/`serve` (handlers of Model/Rest over the client of Model/Client with 32-bit numbers), `docText` (the text kept for a document), answers as texts (Model/Docs) | every stored document is `keptProps` of one in a body, by induction over the history (`Client.serve_docs`, `run_docs`); the table kept for it is that of Model/Docs (`table_kept`), so C78 gives what is shown; success of an addition from C15, for worlds reached by any requests (`sane_run`, `run_client`) | proved; "mean" is C78's `Same` (numbers as their nearest 64-bit float); the names id, vector, hnswId, distance are FaVe's own |
| C83 | as C82, with the parameters of FaVe's index over all values of float32 (`envNum`); `meant`: what a body asks of the client | simulation: where only numbers occur, the server with distances in float32 and infinities does the same as one with rational distances, through queues, searches, additions, flushes and requests (Lemmas/Change, ChangeAdd, ChangeClient, ChangeShelf, Change32), so C57 applies; `serve_meant`/`run_meant` connect texts and client; C65 for the angles, C78 and C77 for the texts | false for a document that is exactly what is asked for (`exact_match_missing`), with infinite numbers (C66), after disorderly requests (C57); partial: up to 30 moderate vectors |
| C84 | Model/Replies on top of Model/Texts: status and text of every answer | every request is related to what it asks of the client; the list kept from requests and answers is shown to tally with the book of C21 step by step; bodies and lists are written and read with the round trips of C80 | partial: a foreign database with the prefix is listed, a deletion that fails in the storage is answered with 200 and the collection stays listed, an index of type bytes is accepted and never shown |
| C85 | Model/Panics: the functions of Model/Locks with the places at which they can panic and, for each section, whether giving back the lock is deferred; a panic leaves all callers and does only what was deferred; the machine is that of Model/Locks | by induction over the code the path with a panic still takes the locks in order and gives all back, so the argument of C74 applies; with damaged vertices the path lacks exactly the giving back of one vertex lock; following the chain of waiting from a lock of the process or of another collection never leads to that lock, because locks of the process are only held around locks of the process | false of the code for damaged vertices: search.go:215-243 does not defer, and the lock of the vertex is lost (`kept_exactly`); everything that needs the vertex hangs, and through insertions that wait also deletions (`missing_layer_hangs`, `missing_layer_hangs_deletions`). Proved for vertices with all their layers, and for the rest of the server in any case (`others_end`). |
| C86 | `Index.add`, `flushWrites` (Model/Insert); the node cache with loading: `Lru.read`, `write`, `flush`, new `puts` (Model/Lru) | a relation `Touch x L s s'` (cache entries outside `L` untouched, other vertices gain at most links to `x`) carried through `connectNeighbor`, `connectAll`, `doAtLevel`, `doLevels`, `connectNew`, `add`; counting for the writes; for the cache, the puts of a flush are the uncommitted entries, and an automaton with three standings per vertex is an invariant | the bound on additions is proved in full. That a flush writes only what changed holds in the process that created the collection (as long as everything fits into the node cache); in general it is **false**: `nodeByID` puts loaded vertices into the cache without the mark `Committed`, so that after a restart every vertex that was merely looked up is written again (`looked_up_is_written`, `unchanged_is_written`); the rewriting is harmless (`rewriting_changes_nothing`) |
| C87 | Model/Feed: `documentCache` (LRU), the indices with their vector caches (Model/VecCache), look-ups and additions as goroutines, `Step` | invariant over all executions (every vector in a slot, on its way or in `documentCache` has its origin in the history of this process under this name and number); for the LRU cache, exact contents below the capacity, and an order invariant (`Behind`) above it | **false**: deleting a collection leaves its vectors in `documentCache`, and a re-created collection is served them (`deleted_vector_delivered`; the wrong answer stays in the vector cache after the addition); the same when a number is given again after a failed request (`replaced_vector_delivered`); after a restart (`nothing_after_restart`) and beyond 1000 vectors (`forgotten`) nothing is found.  Proved: every answer was given under this name and number in this process (`fed_right`), hence right if only one vector was (`own_vector_partial`); up to 1000 vectors none is missed (`found_partial`) |
| C88 | Model/Client (`serve`, `run`, `ensureOpen`, `nearWith`, `getDocument`, `addDocuments`), Spec/Reads (which requests read) | a relation between states that reading requests cannot tell apart (`Like`), preserved by searches with any failures; equality of states for reads from a collection in step (`Settled`), an invariant established by answered searches and successful additions; induction over the sequence of requests | **false**: an index opened by an addition starts at number 0, one that was searched before at the stored start vertex, and the addition stores whichever it is: after a restart, a document is found or not found depending on whether somebody searched before the next addition (`search_leaves_trace`); so does a search that fails to read the start vertex (`failed_read_leaves_trace`); a look-up after a restart makes later searches panic (`lookup_leaves_trace`).  Proved: reads are not affected by searches and listings before them, in any state and with any failures (`reading_unaffected_partial`); after an answered search or a successful addition reads change nothing until the next restart, deletion, creation or failed addition (`no_trace_partial`) |
| C89 | Model/Work (`loopWork`, `layerWork`, `layerAsked`, `descendAsked`, `searchAsked`: the loops of Model/Search and Model/Knn with the started goroutines recorded) | induction over the main loop with the invariant that every candidate is marked as visited and was asked for once; the numbers stay below n because links of a collection lead to stored vectors (`hist_inv`) | proved: `each_once`, `results_were_asked`, `few_at_once` for one layer of any graph; `search_work`, `most_at_once` for whole searches in a collection.  The bound is per layer: the start vertex is asked for again on each layer (`start_again`) |
| C90 | Model/Closing: small-step machine of `Drop`/`Shutdown`, runs of `Compress` from the configuration update on, users of `compressActionLock`, and the two watchers with their unbuffered cancel channels | invariant over all steps (who holds the lock, which watcher has gone, what was dropped); for the orderly use a finite table of phases, and draining runs built from every state | false as a whole: a second closing waits for ever (`second_close`); two runs of `Compress` leave `compressActionLock` held for ever (`two_runs`, `nobody_enters`); a closing beside a run, in either order, waits for ever (`close_beside_run`, `run_beside_close`); after the closing of an uncompressed index the compressed cache's watcher is still running (`watcher_stays`, `close_leaves_watcher`). Proved: at most one dropping of each cache returns (`one_drop`), and used in order every call returns and only that watcher stays (`orderly_partial`, `closed_partial`) |
| C91 | Model/Made: the calls of `hnsw.New` in each request of Model/Client, counted since the start of the process | induction over the number of repetitions; for the bound induction over the requests with the number of names whose database is closed as potential | false: `n` creations and deletions of one collection, all answered with success, leave `n` indices (`cycles_leave_indices`); with a table left over from a deletion each search fails and leaves one (`failing_searches_leave_indices`, `failing_searches_reachable`). Proved: without deletions, restarts and failures at most one per creation and per name (`few_indices_partial`), none for an open collection (`open_makes_none`); the count agrees with the model of the requests (`count_is_right`) |
| C92 | Model/Opening: machine of any number of requests (check, make, enter into the map, open, take from the map, work), creations, deletions, look-ups; index objects of Model/Insert with their own memory over one table, keeping the vertices they read | invariant of the orderly executions; invariance of the settled states; witnesses computed by a function whose moves are proved to be steps, and that no search finds the lost vector for all searches (closure of the base layer) | false: `refused_beside`, `two_in_use`, `added_vector_lost` (only additions and searches), `added_vector_lost_by_create` (everything answered with success), `panics_beside_deletion`. Proved: `one_index_partial` for orderly executions, `settles` for all |
| C93 | Model/Flat, Model/Knn on the histories of Model/History | completeness of the layer search on a base layer that is connected (up to maxConn0+1) or links everything with everything (up to maxConn), frame lemma for leftovers of refused vectors, exactness of the way through the filter (C38), uniqueness of the answer up to ties; witnesses computed | false: `fave_31_nearest_missed` (FaVe's settings, 31 vectors, k = 1), `beyond_61_nearest_missed` (any settings, 62 vectors), `unflushed_finds_nothing`, `leftover_in_filter_fails`. Proved up to these sizes: `search_by_vector_exact_partial`, `fave_exact_partial` (30 vectors any k, 61 vectors if k reaches their number), `default_exact_partial` (61 vectors), `nearest_unique` (both ways and all schedules agree) |
| C94 | Model/Flat (`Paging.searchByDistance` over `searchByVector`), Model/Knn, Model/History | the first page of 100 is complete for small collections (C93; the width is at least the number asked for, C46) and the next page is empty; sorted prefix = everything in range | false: `beyond_61_missed` (62 vectors, any settings, distance, limit), `unflushed_finds_nothing`. Proved: `distance_search_exact_partial`, `up_to_61_exact_partial` |
| C95 | `Model/Metrics`: gauges behind pointers that may be nil, the methods, calls as agents with the place they have reached; one step per method or per section under `tombstoneLock`. Durations, size and start are left out | induction over the steps of all interleavings; for the marks an invariant (at most one clean-up, its list is a list of marked ids without repetition) under which each step changes the surplus of the gauge by a known amount | false for the marks: an id marked twice is counted twice and never taken off (`deleted_twice`, `searched_twice`, `found_at_once`), two clean-ups at once give -1 (`cleaned_twice`), an index opened anew keeps the old number (`opened_anew`). Proved: threads, insertions, deletions, no panic, no influence; the gauge of marks is right if no id is marked by two calls and there is one clean-up, and else never too low |
| C96 | `Model/AddWork`: the recursions of `Model/Insert` once more, counting the distances and the reads of the vector cache instead of answering; the searches count as in `Model/Work`. Retries below the vector cache and reads of neighbours' records are not counted | invariants of the graph under construction (`Mid`) carried through the layers; the heuristic asks at most (candidates)·(links) distances, an overfull neighbour has maxConn0 + 1 candidates; that the counts are honest is shown by `unread_irrelevant`: no read counted means no dependence on the oracle | proved; the bound n + 1 is attained by an example |
| C97 | `Model/Fetch`: the look-ups of a search in order (`searchReads`), and which operations on the LRU cache of `Model/Lru` become a `KVGet`. A look-up is one step (look-ups of the same vertex at the same time: C56) | invariant: what fits into the cache stays in it, so a stored node is fetched at its first look-up only; the look-ups of a search stay below n (links lead to stored vectors); `search_depends_on_reads`: graphs that agree on the listed look-ups give the same answer, so none is left out | true while the vertices in use fit into the cache (FaVe: 10000); false beyond: `every_read_fetches` (cap + 1 nodes in turn: every look-up is a fetch, for every capacity and for ever), `fetches_at_least`; a missing node is asked for every time (`absent_every_time`) |
| C98 | `Model/Search`, `Model/Knn`, `Model/Client` (nothing new); `Spec/Ties` for the absence of ties | simulation: as long as the narrow search runs the wide one pops the same candidates, keeps what the narrow one keeps and differs from it only in items the narrow one can no longer reach; after that results are only replaced by nearer ones. Counting turns this into the claim place by place | true without ties, also for the request with text, whose limit is the width; false with ties: `wider_can_lose` (ten additions; the search for three hits returns the vector searched for, the search for four does not) |
| C99 | `Model/Search`, `Model/Knn`, `Model/Client` (nothing new); `Spec/Ties` for allow lists and the absence of ties | maximal distance and limit: induction on the list the loop goes through; the answers of the client by the look-ups of a prefix being a prefix. Allow list: the simulation of C98 with a list on the wide side, whose excluded items are candidates only | equality for the maximal distance (both searches) and the limit (search by vector), no exceptions; for the allow list true without ties; false with ties: `filter_can_lose` (twelve additions; the nearest hit is permitted, and the restricted search does not find it) |
| C100 | `Model/Insert`, `Model/Search`, `Model/Knn` (nothing new) | consequence of the choice rules of C50 (counting: one of the old links has no place, and neither reason for that can apply); the layers are closed under the links (`searchLayer_closed`), so that a vertex without incoming links is not reached; the witness is computed; up to 61 vectors by the exactness of C03 | false: a vertex full of copies never links to anything else (`copies_keep_out`, all parameters), what is not linked is found by no search (`unlinked_never_found`), so a vector linked only to such vertices is lost when it is added (`newcomer_hidden`, all parameters and histories), `hidden_by_copies`: four copies hide all three vectors added afterwards (small link limits; evaluated with FaVe's limits: 70 copies hide the vectors added next); true up to 61 vectors |
| C101 | Index.add, flush, loadEntry, reopen, knnMaxDist (Model/Index, Model/Insert, Model/History) | Invariant over later steps: nothing outside the set links into it, in memory and (for restarts) in storage. For additions (Lemmas/Lost): the entry point lies outside, the search of a layer stays outside (searchLayer_closed), so the new vertex links outside only, and reconnecting a neighbour adds the new vertex only. | proved |
| C102 | Index.add, Index.flush, knnMaxDist (Model/Insert, Model/Knn; nothing new) | Simulation (Lemmas/Alike): two states with the same vertices up to the dirty flag, same entry point and top layer. Searches of a layer agree (searchLayer_frame), hence the choice of neighbours and the reconnection; a flush stays in the relation. Both divisions simulate the run without flushes in between. | proved; `empty_request_matters` and `restart_matters` show that both provisos are needed |
| C103 | Index.add with the behaviour of the vector cache as a parameter (VecOracle; Model/Insert, nothing new) | The cache is only read to choose among maxConn or more candidates and to reconnect a full neighbour. Invariant Mid of C08 during the addition: candidates are distinct vertices below n, link lists distinct and without their owner, hence shorter than maxConn (Lemmas/NoCache). | proved; `cache_matters_at_bound` shows that the bound is exact |

## Findings about the code

Search and index: from 62 vectors on stored vectors can become unreachable (C10), up to 61 never (C03). A restart forgets the layers (C11) and, from 30 vectors on, makes
every later addition fail silently (C49); the same happens without restart once more than 1000 vectors were added, since `documentCache` holds 1000.
`documentCache` keeps the vectors of deleted collections: additions to a collection that was deleted and made again can be served vectors of the
deleted one, and link by them (C87; a timing of a three-second timer is needed).
Only searches load the stored start vertex: an addition that is the first request after a restart starts from number 0 and stores that, so that
vectors found before can be out of reach for good, while a search before the addition would have kept them (C88).
More than 10000 vectors in one batch lose vectors (C13). Number 25000 crashes (C17). A flush without vectors, or a retried half-failed addition,
makes a vector link to itself (C08). `LoadEntrypoint` writes under a read lock and can move the start to a lower vector (C41). A crash during a flush
leaves links to unused numbers (C12). A vector of the wrong length leaves an unlinked node behind (C16).
A clean-up running during an addition can change the list the addition goes through (C51). Add requests that overlap give the
same number to several documents, and even a request without vectors can make later requests overwrite vectors (C52).
Two vectors of level 1 or more added at the same time: the links one has made to the other on the base layer are overwritten when the other sets its
own (`setConnectionsAtLevel`), and the vector may be lost for ever after a restart (C54). A flush that passes while a vector is being linked stores it half-built and marks it as
committed, so that later flushes skip it; if it is the new search start, nothing else can be found after a restart (C55). A search that loads a vertex from the store at the same time as an
addition makes the addition lose its change of that vertex, and the added vector can be lost with it (C56).
**Exact matches can be missing from every answer**: rounding makes the cosine distance of, say, [2, 3] to itself negative, and `KnnSearchByVectorMaxDist` skips
negative distances (C65). Vectors whose squares overflow or underflow 32 bits are stored as zero vectors (C64). A number
beyond the range of `float32` is accepted, cannot be written, and makes every later addition fail until the restart (C66).
FaVe's collections leave all search settings at 0: `SearchByVector` (not used by FaVe's requests) searches with width k and can miss the nearest
vector from 31 vectors on; before the first flush it finds nothing (C93).
The node cache holds 10000 vertices: of collections beyond that, vertices looked up in turn are fetched from the storage every single time, and vertices that are missing are asked for at every look-up (C97).
A text search with a higher limit can lose the exact match a lower limit finds, if vectors are equally far from the query (C98; without ties never).
With an allow list the search can lose a permitted vector, even the nearest, that it finds without the list, if vectors are equally far from the query (C99; without ties never).
Many copies of one document fill link lists for good: vectors added later get no link and are found by no search (C100; not up to 61 vectors).
What the links no longer lead to is never found again, whatever is added later (C101); before a flush, a restart may bring it back from the stored links.
Paging duplicates and loses results at ties (C39). Flat search crashes for limit 0 (C38). Ids near 2^64 shrink tables (C31).

Deletion (unused by FaVe): a deleted start is returned again after the clean-up; a restart forgets the marks; changed links are not flushed again;
`isOnlyNode` is always true, so that deleting the start resets the index; several error paths leave locks held (C40).
The gauge of deletion marks counts an id again whenever it is marked again, and never takes the surplus off (C95).

Commit log: a torn entry-point record resets the start (C26); condensing loses deletions relative to older logs and may create nodes (C27); a crash of the
combiner leaves a second condensed log, whose links are then appended twice (C28); a failed condensing is retried by appending to the half-written file (C29).

Client and REST: negative limits crash; text limit 0 gives at most one result (C19); concurrent additions and additions interrupted before the flush
reuse numbers (C14); documents are passed over silently (C15); failed deletions are answered with success (C21, C47); `=` in look-ups (C44); non-string
vectorised properties crash (C42); null indexes/documents and non-object properties crash (C23); properties called `distance`/`hnswId` are replaced and
integers above 2^53 rounded (C24). A look-up of one document after a restart makes every later search and addition panic; a search in an empty collection
fails (C57). Configuration: see C34, C35.
Indices are never closed by FaVe: creating and deleting a collection leaves an index with its goroutines behind, and so does every search that fails to
open the database (C91). Closing twice, closing beside a run of `Compress` and two runs of `Compress` wait for ever, the last two with the lock that every
search needs (C90).
Two requests right after a restart (or a creation of a collection that exists, beside an addition) work with two index objects over one table, which
overwrite each other's vertices: a vector added with success is found by no search any more (C92).
