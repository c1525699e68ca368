{"id": "C01", "title": "Search hits are genuine", "statement": "Every hit of a nearest-vector search is a vector that is really stored in the collection, is listed at most once, carries no deletion mark, passes the caller's id filter, and the distance reported next to it is the distance between the query and that stored vector.", "quantifier": "every link graph between stored vectors (also cyclic, self-linked, with dangling links), every query, every search width, every filter, every set of deletion marks and every order in which the concurrent distance computations finish", "why_tests_cant": "The neighbour distances are computed by goroutines whose completion order decides the contents of two heaps; tests see a few graphs and a few schedules.", "anchors": ["pkg/hnsw/search.go: searchLayerByVector, insertViableEntrypointsAsCandidatesAndResults, distanceToFloatNode", "pkg/hnsw/search_with_max_dist.go: KnnSearchByVectorMaxDist"]}
{"id": "C02", "title": "Hits are ordered and in range", "statement": "A distance-bounded search lists its hits in order of increasing distance, every hit has a distance between 0 and the requested maximum, and no candidate retained by the search whose distance lies in that range is left out.", "quantifier": "every graph, query, maximum distance, search width and goroutine schedule", "why_tests_cant": "Order and range of the answer depend on heap contents produced by arbitrary graphs; sampling cannot exclude a misplaced hit.", "anchors": ["pkg/hnsw/search_with_max_dist.go: KnnSearchByVectorMaxDist", "pkg/hnsw/priorityqueue/queue.go"]}
{"id": "C03", "title": "Small collections are searched exactly", "statement": "As long as a collection holds at most 61 vectors (all of one length), a search by vector returns exactly the stored vectors whose distance to the query is between 0 and the requested maximum, closest first, whatever the random levels drawn at insertion, whatever the goroutine schedules and whatever number of process restarts between batches.", "quantifier": "every sequence of at most 61 added vectors, every draw of random levels, every schedule, every placement of flush+restart between batches, every query and maximum distance", "why_tests_cant": "The claim is over all insertion histories with random levels; a test fixes the seed and a handful of histories.", "anchors": ["pkg/hnsw/insert.go: insert, insertInitialElement, Flush, LoadEntrypoint", "pkg/hnsw/neighbor_connections.go: doAtLevel, connectNeighborAtLevel", "pkg/hnsw/heuristic.go: selectNeighborsHeuristic", "pkg/hnsw/search_with_max_dist.go"]}
{"id": "C04", "title": "Wide searches see everything reachable", "statement": "If the search width is at least the number of stored vectors that can be reached by following links from where the search starts, the search returns all of them (those without deletion mark and allowed by the filter), hence the true nearest ones among them.", "quantifier": "every graph, every start, every width at least the number of reachable vectors, every filter, every schedule", "why_tests_cant": "Early termination and eviction from the result heap depend on the visiting order; only a proof covers all orders and graphs.", "anchors": ["pkg/hnsw/search.go: searchLayerByVector"]}
{"id": "C05", "title": "Search always terminates", "statement": "A nearest-vector search finishes on every finite link graph, after examining each stored vector at most once per level, even if the graph has cycles, self links, duplicate links or links to missing vectors.", "quantifier": "every finite graph, start, width, filter and schedule", "why_tests_cant": "Non-termination appears only on particular cyclic graphs; testing cannot prove its absence.", "anchors": ["pkg/hnsw/search.go: searchLayerByVector", "pkg/hnsw/visited/list_set.go"]}
{"id": "C06", "title": "Priority queue delivers in order and loses nothing", "statement": "Whatever inserts and removals are performed, a min queue always removes an item whose distance is smallest among those present (a max queue: largest), and the items present are always exactly those inserted and not yet removed.", "quantifier": "every sequence of inserts and removals, every distance order without NaN; the no-loss part for every comparison result whatsoever, including NaN", "why_tests_cant": "Heap bugs show only for particular shapes; sequences are unbounded.", "anchors": ["pkg/hnsw/priorityqueue/queue.go: Insert, Pop, Top, heapify", "pkg/hnsw/priorityqueue/queue_with_index.go"]}
{"id": "C07", "title": "Visited set behaves like a set across reuse", "statement": "After any sequence of marking, resetting (any number of times, past the 255-step version counter wrap-around) and automatic growth, an id is reported visited exactly if it was marked since the last reset; a list taken from the pool never reports anything visited.", "quantifier": "every sequence of visit/reset/visited calls with arbitrary ids below the platform int range; every sequence of borrow/return on the pool", "why_tests_cant": "The wrap-around happens every 255 reuses and growth depends on the largest id; the state space is unbounded.", "anchors": ["pkg/hnsw/visited/list_set.go: Visit, Visited, Reset, growth", "pkg/hnsw/visited/pool.go: Borrow, Return"]}
{"id": "C08", "title": "Adding vectors keeps the link graph well formed", "statement": "After any sequence of successful additions with fresh ids, every stored vector has one link list per level up to its level, every link leads to another stored vector that also exists on that level, no link list contains the vector itself or a duplicate, no list exceeds its configured maximum (60 on the base level, 30 above), and the search start is a stored vector.", "quantifier": "every sequence of additions, every draw of levels, every schedule, every distance function", "why_tests_cant": "Invariants must hold after each of unboundedly many inserts with random levels.", "anchors": ["pkg/hnsw/insert.go: insert", "pkg/hnsw/neighbor_connections.go", "pkg/hnsw/heuristic.go", "pkg/hnsw/vertex.go"]}
{"id": "C09", "title": "Adding never alters stored vectors", "statement": "Adding a vector, whether it succeeds or fails, never removes an already stored vector with another id and never changes its value or its id; it can only change link lists.", "quantifier": "every state, every added vector, every failure point inside the addition", "why_tests_cant": "Failure points inside an insert are hard to trigger and there are many.", "anchors": ["pkg/hnsw/insert.go: insert", "pkg/hnsw/neighbor_connections.go: connectNeighborAtLevel"]}
{"id": "C10", "title": "Every stored vector can be found", "statement": "After any sequence of successful additions, a search with unlimited width and distance finds every stored vector.", "quantifier": "every sequence of additions of any length", "why_tests_cant": "Needs reachability in every graph the insertion procedure can build; link pruning starts only beyond 30 vectors and depends on geometry.", "anchors": ["pkg/hnsw/neighbor_connections.go: connectNeighborAtLevel", "pkg/hnsw/heuristic.go: selectNeighborsHeuristic"]}
{"id": "C11", "title": "Restart is invisible after a completed batch", "statement": "If a batch of additions completed (everything flushed), then a fresh process over the same storage returns for every query with a given start the same vectors, links and distances as the old process, the same next document number, and the same search start.", "quantifier": "every history of additions and flushes followed by a restart, every query", "why_tests_cant": "Requires equality of two states over all queries and histories.", "anchors": ["pkg/hnsw/insert.go: Flush, LoadEntrypoint, GetDocCount", "pkg/hnsw/index.go: nodeByID"]}
{"id": "C12", "title": "A crash while flushing never loses completed batches", "statement": "If the process dies at any point while a batch is being flushed, every vector and document number of earlier completed batches is still there after restart; the document counter is either the old or the new one and, if it is the new one, every vector of the batch is stored.", "quantifier": "every crash point (every prefix of the storage writes), every history", "why_tests_cant": "Crash points are as many as there are storage writes; tests do not crash.", "anchors": ["pkg/hnsw/insert.go: Flush, GetDocCount"]}
{"id": "C13", "title": "No stored vector is lost to the node cache", "statement": "A vector whose addition reported success is written to storage by the next successful flush, whatever number of vectors was added before and whatever was read in between.", "quantifier": "every number of additions in a batch, every read pattern, every cache capacity", "why_tests_cant": "Loss needs more uncommitted vectors than the cache capacity (10000); tests are far smaller.", "anchors": ["pkg/hnsw/index.go: New (indexCache), nodeByID", "pkg/hnsw/insert.go: Flush"]}
{"id": "C14", "title": "Vector numbers are unique and consecutive", "statement": "Successive calls to add documents give each vectorised document of a collection a number never given before in that collection; the numbers of successfully indexed documents are consecutive and documents without vector get the number -1.", "quantifier": "every sequence of batches, every mixture of vectorised, non-vectorised and failing documents; for concurrent calls every interleaving", "why_tests_cant": "Interleavings of concurrent requests and failure patterns are unbounded.", "anchors": ["pkg/document/document.go: AddDocuments", "pkg/hnsw/insert.go: Flush, GetDocCount"]}
{"id": "C15", "title": "Success of an add request means every document was stored", "statement": "If an add-documents request is answered with success, every document of the request is in the document store and every document that had a vector or text to vectorise can be returned by a search.", "quantifier": "every request, every pattern of failures of the vectoriser, the index and the store", "why_tests_cant": "Failure patterns inside a batch are combinatorial.", "anchors": ["pkg/document/document.go: AddDocuments", "adapters/handlers/documents.go: FaveAddDocumentsHandler"]}
{"id": "C16", "title": "Vectors of the wrong length are refused without damage", "statement": "Adding a vector whose length differs from that of the vectors already in the collection fails and leaves the stored vectors, their links and the search start as they were, so that every later search answers as before.", "quantifier": "every reachable collection and every vector of a different length", "why_tests_cant": "Needs equality of all later searches, for all states.", "anchors": ["pkg/hnsw/insert.go: insert", "pkg/hnsw/neighbor_connections.go: pickEntrypoint", "pkg/hnsw/index.go: distBetweenNodeAndVec"]}
{"id": "C17", "title": "Collections can grow without bound", "statement": "Adding a valid vector to a collection never crashes, whatever number of vectors the collection already holds.", "quantifier": "every collection size", "why_tests_cant": "Sizes beyond 25000 are not exercised by tests.", "anchors": ["pkg/hnsw/vector_cache.go: preload, get", "pkg/hnsw/maintainance.go: growIndexToAccomodateNode"]}
{"id": "C18", "title": "Search answers pair each document with its distance", "statement": "For every completion order of the parallel document look-ups, a document search either returns an error (exactly if some look-up failed or found nothing) or returns, in the order of the hits, the document that belongs to each hit together with that hit's distance.", "quantifier": "every list of hits, every outcome of each look-up, every interleaving of the look-up goroutines, the closing goroutine and the receiver", "why_tests_cant": "Needs all interleavings of goroutines on a channel.", "anchors": ["pkg/document/document.go: GetNearDocuments, GetNearDocumentsByVector"]}
{"id": "C19", "title": "The limit is honoured and never crashes a search", "statement": "A document search returns at most `limit` documents, namely the closest ones; limit 0 means no limit; no value of limit makes the request crash.", "quantifier": "every integer limit and every hit list", "why_tests_cant": "Boundary values (0, negative, larger than the hit list) over all hit lists.", "anchors": ["pkg/document/document.go: GetNearDocuments, GetNearDocumentsByVector", "adapters/handlers/documents.go"]}
{"id": "C20", "title": "Collections are isolated from each other", "statement": "No operation on one collection changes the documents, vectors, counters or search answers of another collection, and different collection names never share storage or cached vectors.", "quantifier": "every pair of distinct collection names, every operation, every state", "why_tests_cant": "Quantifies over all names and states.", "anchors": ["pkg/document/document.go: CreateCollection, DeleteCollection, AddDocuments (namespace, documentCache keys)"]}
{"id": "C21", "title": "Collection listing reflects create and delete", "statement": "The list of collections contains exactly the names created and not deleted since (successful deletions), each once and without internal prefix, never foreign stores of the same pod, and shows for each collection the indexes requested at creation plus the internal number index.", "quantifier": "every history of create/delete requests with arbitrary names and index lists, including re-creation", "why_tests_cant": "Unbounded histories.", "anchors": ["pkg/document/document.go: CreateCollection, DeleteCollection, GetCollections", "adapters/handlers/collections.go"]}
{"id": "C22", "title": "No data access without login and open pod", "statement": "Every request made before a successful login and opening of a pod returns an error and has no effect on stored data.", "quantifier": "every request type and argument, every history of login/open attempts", "why_tests_cant": "All request kinds and histories.", "anchors": ["pkg/document/document.go: Login, OpenPod, CreateCollection, DeleteCollection, GetCollections, AddDocuments, GetNearDocuments, GetDocument"]}
{"id": "C23", "title": "Malformed REST requests are refused before any effect", "statement": "A request with blank collection name, missing required list or text, or an unknown index type is answered with status 400 and leaves all stored data unchanged; a request that passes these checks is handed on with exactly the content the user sent.", "quantifier": "every request body", "why_tests_cant": "Unbounded request bodies.", "anchors": ["adapters/handlers/collections.go", "adapters/handlers/documents.go"]}
{"id": "C24", "title": "REST search answers keep the document intact", "statement": "Each document in a REST search answer has the id and all user properties of the stored document (except properties named id and vector) plus its distance; nothing else is altered.", "quantifier": "every stored document and distance", "why_tests_cant": "All documents, in particular such with properties called id, vector or distance.", "anchors": ["adapters/handlers/documents.go: FaveGetNearestDocumentsHandler, GetDocumentsHandlerFunc"]}
{"id": "C25", "title": "Commit-log records round trip", "statement": "Replaying a commit log written by the index reproduces exactly the sequence of operations that was written, for every operation and argument in range; replay consumes exactly the bytes written.", "quantifier": "every sequence of log operations with ids below 2^64 and levels below 2^16", "why_tests_cant": "All byte patterns and lengths.", "anchors": ["pkg/hnsw/deserializer.go", "pkg/hnsw/condensor.go: writers"]}
{"id": "C26", "title": "A torn commit log replays to the last complete operation", "statement": "If a commit log is cut at any byte (crash while writing), replay succeeds with the state produced by the complete operations before the cut and reports the number of bytes of those operations as the valid length.", "quantifier": "every log and every cut position", "why_tests_cant": "Every byte position of every log.", "anchors": ["pkg/hnsw/deserializer.go: Do"]}
{"id": "C27", "title": "Condensing a commit log preserves the replayed state", "statement": "Replaying the condensed form of a commit log gives the same vectors, links, search start and deletion marks as replaying the original, also when further logs were replayed before.", "quantifier": "every log, every state before the log", "why_tests_cant": "All operation sequences.", "anchors": ["pkg/hnsw/condensor.go: MemoryCondensor.Do", "pkg/hnsw/deserializer.go"]}
{"id": "C28", "title": "Combining commit logs preserves their order and content", "statement": "Combining small condensed logs never changes the sequence of operations obtained by replaying all logs in file order, and an interruption at any point followed by start-up clean-up leaves a set of files that replays to the same state.", "quantifier": "every set of log files with sizes, every crash point during combining", "why_tests_cant": "Crash points times file sets.", "anchors": ["pkg/hnsw/commit_log_combiner.go", "pkg/hnsw/corrupt_commit_logs_fixer.go", "pkg/hnsw/commit_logger.go"]}
{"id": "C29", "title": "Start-up clean-up removes exactly the half-written condensed logs", "statement": "At start-up a condensed log is discarded exactly if its uncondensed original is still present; no original and no complete condensed log is ever removed.", "quantifier": "every set of file names", "why_tests_cant": "All directory contents.", "anchors": ["pkg/hnsw/corrupt_commit_logs_fixer.go: Do", "pkg/hnsw/condensor.go: Do"]}
{"id": "C30", "title": "Buffered log writer writes the bytes in order", "statement": "For every sequence of writes and flushes, the bytes in the file followed by the buffered bytes are exactly the bytes accepted so far in order; after a write error nothing more is accepted and every later call reports the error.", "quantifier": "every sequence of writes (any sizes), flushes, and every pattern of short or failing underlying writes", "why_tests_cant": "Write sizes relative to the buffer boundary and failure positions are unbounded.", "anchors": ["pkg/hnsw/bufiowriter.go: Write, WriteByte, WriteString, Flush"]}
{"id": "C31", "title": "Growing the id table keeps its content", "statement": "Whenever the id table must grow to hold an id, the new table is larger than the id and contains the old content unchanged.", "quantifier": "every table size and id", "why_tests_cant": "All sizes incl. rounding of the growth factor.", "anchors": ["pkg/hnsw/maintainance.go: growIndexToAccomodateNode"]}
{"id": "C32", "title": "The memory-mapped condensor's index keeps ids sorted, unique and with their maximum level", "statement": "After any sequence of node observations the index lists each id once, in increasing order, with the largest level seen, and the computed byte ranges of different nodes do not overlap and fill the file exactly.", "quantifier": "every sequence of (id, level) observations", "why_tests_cant": "Unbounded sequences in any order.", "anchors": ["pkg/hnsw/condensor_mmap_analyzer.go: UpsertNodeMaxLevel", "pkg/hnsw/condensor_mmap.go: calculateOffsets"]}
{"id": "C33", "title": "The vector cache never returns a wrong vector", "statement": "A look-up in the vector cache returns the vector last loaded for that id, or the (normalised) vector of the backing source, whatever clearing, growing, deletion and look-up operations happened before; never the vector of another id.", "quantifier": "every sequence of cache operations and every backing source", "why_tests_cant": "Unbounded histories with periodic clearing.", "anchors": ["pkg/hnsw/vector_cache.go"]}
{"id": "C34", "title": "Index configuration parsing is total and defaults are applied", "statement": "Parsing an index configuration either reports an error or yields a configuration in which every absent setting has its default and every present numeric setting has the given value, and a maximum-connections value below 4 or construction width below 4 is always refused.", "quantifier": "every configuration map", "why_tests_cant": "All combinations of settings and types.", "anchors": ["pkg/hnsw/user_config.go: ParseAndValidateConfig, SetDefaults, validate, optionalIntFromMap"]}
{"id": "C35", "title": "Immutable index settings cannot be changed", "statement": "A configuration update that changes construction width, maximum connections, clean-up interval or distance function is refused, every other update is accepted, and an accepted update changes only the mutable settings.", "quantifier": "every pair of old and new configuration", "why_tests_cant": "All pairs.", "anchors": ["pkg/hnsw/config_update.go: ValidateUserConfigUpdate, UpdateUserConfig"]}
{"id": "C36", "title": "Distance functions are symmetric, correct and length checked", "statement": "Each distance function is symmetric in its arguments, is zero (dot-product: minus the squared length) for equal vectors, is non-negative where the documentation says so, and reports an error exactly if the vectors differ in length; the blocked vector-instruction algorithm computes the same sum as the plain loop (exact arithmetic).", "quantifier": "every pair of vectors of every length", "why_tests_cant": "All lengths including the remainders of the 32-element blocks.", "anchors": ["pkg/hnsw/distancer/*.go", "pkg/hnsw/distancer/asm/dot.go", "pkg/hnsw/distancer/asm/l2.go"]}
{"id": "C37", "title": "Cosine search ignores vector length", "statement": "Normalising makes every non-zero vector have length one, leaves zero vectors unchanged, keeps cosine distances between 0 and 2, and makes the search answer independent of positive scaling of the query and of the stored vectors (exact arithmetic).", "quantifier": "every vector and every positive factor", "why_tests_cant": "All real vectors.", "anchors": ["pkg/hnsw/distancer/normalize.go", "pkg/hnsw/distancer/cosine_dist.go", "pkg/hnsw/insert.go: Add", "pkg/hnsw/search_with_max_dist.go"]}
{"id": "C38", "title": "Brute-force search is exact", "statement": "A search restricted to a small id filter returns the k closest stored vectors among the filtered ids, closest first, whatever the order of the filter.", "quantifier": "every filter, k, set of stored vectors and deletion marks", "why_tests_cant": "All filters and k including 0.", "anchors": ["pkg/hnsw/flat_search.go: flatSearch"]}
{"id": "C39", "title": "Distance-limited paging search is complete and stops", "statement": "The search that pages through results until a target distance returns each result at most once, only results within the distance, as many as the underlying search can deliver up to the limit, and always stops.", "quantifier": "every underlying result list, target distance and limit", "why_tests_cant": "All result lists and limits.", "anchors": ["pkg/hnsw/search.go: SearchByVectorDistance, searchByDistParams, searchTimeEF, autoEfFromK"]}
{"id": "C40", "title": "Deleted vectors are never returned and clean-up removes all links to them", "statement": "From the moment a deletion returns, no search returns the deleted id; after a completed clean-up no remaining vector links to a deleted one and the deletion mark is gone.", "quantifier": "every graph, every set of deletions, every search", "why_tests_cant": "All graphs.", "anchors": ["pkg/hnsw/delete.go: Delete, CleanUpTombstonedNodes, reassignNeighborsOf, removeTombstonesAndNodes", "pkg/hnsw/search.go"]}
{"id": "C41", "title": "Concurrent additions agree on the search start", "statement": "When several additions run concurrently, the very first element is initialised exactly once, and at the end the search start is a vector on the highest level drawn by any of them (or the first one), whatever the interleaving.", "quantifier": "every number of concurrent additions, every level drawn and every interleaving at lock granularity", "why_tests_cant": "Interleavings.", "anchors": ["pkg/hnsw/insert.go: insert, insertInitialElement"]}
{"id": "C42", "title": "Which text is vectorised is determined by the request", "statement": "The text sent to the vectoriser for a document is the concatenation, in the requested order, of the requested properties the document has, each followed by a space; documents with none of them are stored with number -1 and never appear in nearest-document answers.", "quantifier": "every property list and document", "why_tests_cant": "All property lists.", "anchors": ["pkg/document/document.go: AddDocuments"]}
{"id": "C43", "title": "Every hit has its document", "statement": "Every vector a search can return belongs to a stored document, so a search never fails because a hit's document is missing.", "quantifier": "every history of add requests including failing ones, every crash between document write and flush", "why_tests_cant": "Failure patterns and histories.", "anchors": ["pkg/document/document.go: AddDocuments, GetNearDocuments"]}
{"id": "C44", "title": "Looking up a document by property returns a matching document", "statement": "A look-up by property and value returns a stored document of that collection satisfying the condition, or reports that there is none; a look-up never answers with a document that does not match.", "quantifier": "every stored set of documents, every property and value including blank ones", "why_tests_cant": "All values.", "anchors": ["pkg/document/document.go: GetDocument", "adapters/handlers/documents.go: GetDocumentsHandlerFunc"]}
{"id": "C45", "title": "Search answers are locally optimal", "statement": "When a search of width ef ends, every allowed, unmarked vector that is directly linked from a kept hit is itself kept, or at least ef hits are kept and that vector is no closer to the query than any of them; the search never keeps a farther vector in place of a closer one it has come across.", "quantifier": "every graph, every query, width, allow list and completion order of the parallel distance computations", "why_tests_cant": "Ranges over all graphs and all schedules; tests can only check a few fixed graphs.", "anchors": ["pkg/hnsw/search.go: searchLayerByVector", "pkg/hnsw/search_with_max_dist.go: KnnSearchByVectorMaxDist"]}
{"id": "C46", "title": "The search width is never smaller than the number of results asked for", "statement": "A search for k results is at least k wide; a configured width of 1 or more is used unless k is larger; otherwise the width is k times the factor, kept between the configured minimum and maximum unless k is larger; asking for more results never narrows the search.", "quantifier": "every configuration and every k, including products that overflow", "why_tests_cant": "Ranges over all integers, in particular the overflowing ones.", "anchors": ["pkg/hnsw/search.go: searchTimeEF, autoEfFromK"]}
{"id": "C47", "title": "A deleted collection leaves nothing behind", "statement": "After a deletion answered with success, every later request about the collection — including creation, additions and searches under the same name — is answered exactly as if the collection had never existed.", "quantifier": "every state, every deletion, every sequence of later requests", "why_tests_cant": "Ranges over all states and all later request sequences, and needs partial storage failures.", "anchors": ["pkg/document/document.go: DeleteCollection, CreateCollection"]}
{"id": "C48", "title": "Searches are not short of results", "statement": "A search of width ef returns min(ef, number of eligible vectors reachable from the search start) results, not fewer; in a collection of at most maxConn vectors it returns min(ef, number of vectors).", "quantifier": "every graph, start, query, allow list, deletion marks, schedule; every history of at most maxConn vectors", "why_tests_cant": "Quantifies over all graphs and all schedules; a missing result shows only for particular shapes of the graph.", "anchors": ["pkg/hnsw/search.go: searchLayerByVector, knnSearchByVector"]}
{"id": "C49", "title": "Additions keep working after a restart", "statement": "After a restart, or once the vectors of earlier additions have left the caches of vectors, vectors of the right length can still be added to a collection.", "quantifier": "every history, restart, later attempt, content of the caches of vectors", "why_tests_cant": "The failure depends on the collection size at the restart and shows as silently dropped documents; that it lasts for ever quantifies over all later executions.", "anchors": ["pkg/document/document.go: vectorForID, AddDocuments", "pkg/hnsw/heuristic.go: selectNeighborsHeuristic", "pkg/hnsw/insert.go: Add"]}
{"id": "C50", "title": "A new vector is linked to near and spread-out neighbours", "statement": "Of the vectors found for a new vector, a nearest one is linked; of two linked ones the farther is not nearer to the other than to the new vector; every found vector left out is nearer to a linked, not farther one than to the new vector, or all places are taken by vectors not farther away. The same holds for the links of a full neighbour when it is linked back.", "quantifier": "every history, every vector, every schedule, any distances with ties", "why_tests_cant": "Ranges over all graphs, distances and orders of equal distances; tests see a few data sets.", "anchors": ["pkg/hnsw/heuristic.go: selectNeighborsHeuristic", "pkg/hnsw/neighbor_connections.go: doAtLevel, connectNeighborAtLevel"]}
{"id": "C51", "title": "Link lists share no memory", "statement": "Link lists are slices and several slices may share an array, but no two link lists do: any interleaving of the operations of additions and clean-ups leaves every link list as the same operations on plain lists would. An addition going through the links it has chosen goes through exactly these, although that list may be the memory of the links it has set and other additions change these meanwhile.", "quantifier": "all sequences of operations of any number of additions and clean-ups, all capacities and growth decisions, all numbers of links", "why_tests_cant": "Aliasing shows only when capacities, lengths and interleavings of goroutines line up; tests and the race detector see a few of them.", "anchors": ["pkg/hnsw/vertex.go: setConnectionsAtLevel, appendConnectionAtLevelNoLock, resetConnectionsAtLevelNoLock, upgradeToLevelNoLock", "pkg/hnsw/neighbor_connections.go: doAtLevel, connectNeighborAtLevel", "pkg/hnsw/insert.go: insert", "pkg/hnsw/delete.go: reassignNeighbor"]}
{"id": "C52", "title": "Add requests at the same time keep documents and vectors together", "statement": "Whatever add requests run at the same time on a collection, every stored document that has a vector number has it for itself, and the number stands for the document's own vector.", "quantifier": "any number of requests with any documents, all interleavings of their steps, all failures of additions", "why_tests_cant": "The outcome depends on how requests overlap; tests issue one request after the other.", "anchors": ["pkg/document/document.go: AddDocuments", "pkg/hnsw/insert.go: Flush, GetDocCount"]}
{"id": "C53", "title": "Additions and flushes at the same time keep the link graph well formed", "statement": "Any number of additions (each with a number of its own) and flushes run at the same time on a well-formed, non-empty index, in any interleaving of their steps, with failures anywhere and with searches that see others' changes half-way. At every moment every link list is without repetition, has no link back to its own vertex, is within the limit of its layer and leads only to existing vertices of that layer; the search start exists on the top layer; older vertices keep vector and level; a new vertex holds the vector and level of its addition; vertices of successful additions are present and not under maintenance. An addition nobody disturbs does exactly what the sequential model does.", "quantifier": "all parameters, metrics, starting indices, numbers of additions and flushes, vectors, levels, vector-cache answers, schedules, interleavings and failures", "why_tests_cant": "a test sees a few interleavings; that no interleaving makes a vertex link to itself or twice to the same neighbour depends on an order among the additions (who enters a layer through whom) that no finite set of runs establishes", "anchors": ["pkg/hnsw/insert.go:118-164", "pkg/hnsw/insert.go:201-311", "pkg/hnsw/neighbor_connections.go:23-236", "pkg/hnsw/index.go:391-428", "pkg/hnsw/vertex.go:52-121"]}
{"id": "C54", "title": "Vectors added at the same time can all be found", "statement": "Any number of additions run at the same time, with flushes in between, on an index whose vectors are all connected on the base layer, and all succeed. Afterwards every vector can be reached from the search start on the base layer, and a search that is wide enough returns every vector in range, before and after a restart.", "quantifier": "all parameters, metrics, starting indices, numbers of additions and flushes, vectors, levels, schedules and interleavings, queries, widths and limits", "why_tests_cant": "the loss needs one addition to enter the base layer through another addition's vertex in the moment between its links on layer 1 and its links on layer 0; a test hits that window rarely, and that nothing else loses links is a statement about all interleavings", "anchors": ["pkg/hnsw/insert.go:201-311", "pkg/hnsw/neighbor_connections.go:60-136", "pkg/hnsw/neighbor_connections.go:111", "pkg/hnsw/vertex.go:59-80", "pkg/hnsw/search.go:100-420"]}
{"id": "C55", "title": "A flush stores what is in memory, also if vectors are being added", "statement": "Any number of additions and flushes run at the same time. A vertex marked as committed is in the store as it is in memory, and after a flush that ran from beginning to end when no addition was under way any more, a restart finds every vertex as it was in memory and starts searches at the same vertex.", "quantifier": "all parameters, metrics, starting indices, numbers of additions and flushes, vectors, levels, schedules, interleavings and failures", "why_tests_cant": "the damage needs a flush to pass between the publication of a vertex and its last link, and shows only after a restart; that there is no other way for memory and store to differ is a statement about all interleavings", "anchors": ["pkg/hnsw/insert.go:118-164", "pkg/hnsw/insert.go:230-308", "pkg/hnsw/vertex.go:35-39", "pkg/hnsw/vertex.go:59-80", "pkg/hnsw/neighbor_connections.go:138-218"]}
{"id": "C56", "title": "Changes of vertices are not lost when vertices are loaded from the store", "statement": "Searches, additions, flushes and restarts run at the same time on a collection whose vertices are partly in the store only. At every moment a look-up of a vertex delivers what all the changes made to it so far lead to.", "quantifier": "all store contents, all numbers of threads, all uses (look, any change, publication) of any vertices, all interleavings", "why_tests_cant": "the loss needs a second thread between the miss and the insertion into the cache, which lasts as long as one read from the store; that nothing else loses changes is a statement about all interleavings", "anchors": ["pkg/hnsw/index.go:594-623", "pkg/hnsw/search.go:200-215", "pkg/hnsw/neighbor_connections.go:138-218", "pkg/hnsw/insert.go:118-139", "pkg/hnsw/insert.go:271"]}
{"id": "C57", "title": "What was put in is what is found", "statement": "Whatever requests a server has handled, the contents of a collection are what the requests say: the documents added since its last creation, with the vectors they brought or got. A search by vector in a collection that is there is answered with the stored documents of exactly the entries in range, closest first, each with its true distance, cut to the limit.", "quantifier": "all metrics, vectors, documents, sequences of requests of all kinds (restarts, deletions, other collections, failing log-ins), schedules, queries, ranges, limits", "why_tests_cant": "it compares every answer after every sequence of requests with a specification that knows nothing of graphs, caches, flushes and numbers; a test compares a few answers after a few sequences", "anchors": ["pkg/document/document.go:146-208", "pkg/document/document.go:210-246", "pkg/document/document.go:287-454", "pkg/document/document.go:456-555", "pkg/document/document.go:557-651", "pkg/document/document.go:653-678"]}
{"id": "C58", "title": "Pooled objects belong to one user at a time", "statement": "Searches and additions take visited lists, queues and slices from pools shared by all of them and put them back. In every interleaving, whatever errors end a call early and whatever the pools deliver, an object that somebody is still going to use is as if it had been made for them: it holds only their own marks and elements, it is in no pool, and nobody else is going to use it; a queue just taken is empty and has the capacity asked for.", "quantifier": "all sizes, all numbers of threads, all sequences of searches and linkings per thread, all marks, queue operations and early errors, all interleavings, all choices of sync.Pool", "why_tests_cant": "an object put back too early, twice, or used afterwards does harm only if another thread takes it at that moment; sync.Pool makes this depend on processors and garbage collection", "anchors": ["pkg/hnsw/pools.go:21-158", "pkg/hnsw/visited/pool.go:39-66", "pkg/hnsw/search.go:164-325", "pkg/hnsw/search.go:464-546", "pkg/hnsw/search_with_max_dist.go:22-87", "pkg/hnsw/index.go:391-429", "pkg/hnsw/heuristic.go:23-135", "pkg/hnsw/neighbor_connections.go:74-136"]}
{"id": "C59", "title": "A commit log in use keeps every operation through switching, condensing, combining and restarts", "statement": "However operations are written and flushed, the current file switched, older files condensed and combined meanwhile, and wherever the process stops and starts again: it always starts again, and a start restores the effect of everything that had been flushed when it last stopped, followed by a leading part of what was written after that, and then of everything written since.", "quantifier": "all sequences of writing, partial and complete flushing, time passing, switching, condensing, combining and stopping (at every byte), all limits, all iteration orders", "why_tests_cant": "what is lost depends on where a stop falls between the steps of several background tasks and on the second in which a file was opened; tests try a few sequences", "anchors": ["pkg/hnsw/commit_logger.go:94-245", "pkg/hnsw/commit_logger.go:492-607", "pkg/hnsw/condensor.go:32-111", "pkg/hnsw/commit_log_combiner.go:41-203", "pkg/hnsw/corrupt_commit_logs_fixer.go:43-70", "pkg/hnsw/startup.go:50-101"]}
{"id": "C60", "title": "Pausing maintenance is all or nothing", "statement": "After PauseMaintenance without error no background work runs; after an error all of it runs as before. ResumeMaintenance starts all of it and fails if nothing was paused. So after any sequence of calls background work runs or is stopped as a whole, as the caller knows from the answers.", "quantifier": "all sequences of pausing and resuming, all combinations of cycles that cannot be stopped, contexts expired or not", "why_tests_cant": "a cycle that cannot be stopped in time has to be provoked in each of three places and in combination, with and without an expired context", "anchors": ["pkg/hnsw/backup.go:24-72", "pkg/hnsw/backup.go:144-150", "pkg/hnsw/commit_logger.go:404-454", "pkg/hnsw/commit_logger.go:609-611", "pkg/hnsw/index.go:655-664"]}
{"id": "C61", "title": "The files listed for a backup hold everything written before", "statement": "After background work is paused and the commit log is switched, the files listed for a backup exist, do not change while operations are written, and restore exactly the effect of everything written before the switch; listing fails if background work is not paused.", "quantifier": "all runs of the commit log before (writing, flushing, switching, condensing, combining, stops and starts), everything written afterwards, all orders of copying", "why_tests_cant": "tests wait longer than a second between opening a log and backing it up, and have no leftovers of failed work", "anchors": ["pkg/hnsw/backup.go:74-142", "pkg/hnsw/commit_logger.go:170-245", "pkg/hnsw/commit_logger.go:487-542"]}
{"id": "C62", "title": "Compressing keeps every vector's code under its own id", "statement": "After Compress every vertex is compared through the code of its own vector: looking up the code of an id gives the encoding of the vector of that id, whatever was inserted, removed, loaded or dropped before and after.", "quantifier": "all histories of insertions, removals, look-ups and checks of the cache sizes before and after compression, all orders in which the goroutines handle the vectors, all quantizers", "why_tests_cant": "The codes are right exactly if the vector cache has no empty place before a vector, which holds in every test that inserts consecutive ids and compresses; after a restart or a dropped cache the codes silently belong to other vertices.", "anchors": ["pkg/hnsw/compress.go:40-124", "pkg/hnsw/compressed_vector_cache.go:42-214", "pkg/hnsw/insert.go:106-112", "pkg/hnsw/insert.go:263-269", "pkg/hnsw/delete.go:614-618"]}
{"id": "C63", "title": "Distances in 32-bit arithmetic stay near the true ones", "statement": "With every operation rounded to float32, each distance of two finite vectors of equal length is a finite number within an explicit bound of the true distance, the same on every processor up to the bound, symmetric, never negative where the true one is not, and zero exactly for equal vectors where the true one is.", "quantifier": "all vectors of float32 numbers of every length, all five distances, plain loops and vector instructions, whatever the registers held before", "why_tests_cant": "The error grows with the length and the magnitudes; the failures (overflow, underflow, different results on different processors) need values or lengths that no test uses, and a test on one processor never sees the other implementation.", "anchors": ["pkg/hnsw/distancer/dot_product.go:23-91", "pkg/hnsw/distancer/l2.go:16-76", "pkg/hnsw/distancer/manhattan.go:20-82", "pkg/hnsw/distancer/hamming.go:18-80", "pkg/hnsw/distancer/cosine_dist.go:23-69", "pkg/hnsw/distancer/asm/dot_amd64.s:8-55", "pkg/hnsw/distancer/asm/l2_amd64.s:8-64"]}
{"id": "C64", "title": "Normalising in 32-bit arithmetic keeps the direction, within limits", "statement": "Normalize gives every finite vector that is not zero the length one and its direction up to an explicit rounding bound, and the cosine distance of two normalised vectors is within an explicit bound of one minus the cosine of the angle between the vectors given; it is always a finite number.", "quantifier": "all vectors of float32 numbers, with and without vector instructions, whatever the registers held before; the bounds for up to 2^20 numbers whose squares add up to between 2^-100 and 2^126", "why_tests_cant": "The error depends on the length and on all entries; overflow and underflow of the squares turn a vector silently into the zero vector, for magnitudes no test uses, and tests compare with a tolerance that hides which bound holds.", "anchors": ["pkg/hnsw/distancer/normalize.go:16-32", "pkg/hnsw/distancer/cosine_dist.go:23-69", "pkg/hnsw/insert.go:70-75", "pkg/document/document.go:352-380"]}
{"id": "C65", "title": "Searching in 32-bit arithmetic returns what the angles say, up to rounding", "statement": "A search returns every document whose vector is within the limit by more than the rounding error, none that is beyond it by more, each with a distance that is right up to the rounding error, in the order of the true angles up to twice that error.", "quantifier": "all histories of collections of up to 61 vectors, all orderly sequences of user requests, all moderate vectors and queries, all limits, with and without vector instructions", "why_tests_cant": "Whether a stored vector is at a tiny positive, zero or negative distance from itself depends on the rounding of its entries; the tests use a few vectors for which it happens to be not negative.", "anchors": ["pkg/hnsw/search_with_max_dist.go:22-87", "pkg/hnsw/distancer/normalize.go:16-32", "pkg/hnsw/distancer/cosine_dist.go:23-69", "pkg/hnsw/insert.go:70-75", "pkg/document/document.go:557-651"]}
{"id": "C66", "title": "What the index accepts it can write", "statement": "After a successful addition to the index a Flush succeeds if the storage does: every accepted vector can be marshalled. One document cannot keep the others of the collection from being stored, found or numbered.", "quantifier": "for all vectors of finite, infinite and not-a-number 32-bit values, all sequences of additions, flushes cut short anywhere, restarts, all requests in between, all schedules, with and without vector instructions", "why_tests_cant": "a test would have to send a number beyond the range of float32 (1e39 is valid JSON), notice that the failing request is not the end of it, and try every later request; that vectors of numbers can always be written holds for all magnitudes and all histories", "anchors": ["pkg/hnsw/insert.go:118-164", "pkg/hnsw/vertex.go:18-27", "pkg/document/document.go:355-386", "pkg/document/document.go:445-453", "pkg/hnsw/distancer/normalize.go:16-32", "pkg/hnsw/search_with_max_dist.go:66-87"]}
{"id": "C67", "title": "Addresses made by the URL builders lead back to their operation and parameters", "statement": "For every operation and all parameters, the address made by its URL builder is read by the server as a request for the same operation with the same parameters; in particular the address for deleting a collection deletes that collection and no other.", "quantifier": "all operations, all collection names, properties and values as arbitrary byte strings", "why_tests_cant": "names and values are arbitrary byte strings; the path is cleaned after the name has been put in, so only a proof over all names shows which names survive the cleaning, the escaping and the routing", "anchors": ["restapi/operations/fave_delete_collection_urlbuilder.go:40-59", "restapi/operations/fave_get_documents_urlbuilder.go:41-72", "restapi/operations/fave_delete_collection_parameters.go:44-71", "restapi/operations/fave_get_documents_parameters.go:56-144", "restapi/operations/fave_api.go:304-342"]}
{"id": "C68", "title": "Links and answers do not depend on goroutine timing", "statement": "The links an addition makes and the answer of a search do not depend on the order in which the goroutines that compute the distances of a candidate's neighbours finish: any two timings of the same sequence of additions, flushes, restarts and searches give the same index and the same answers.", "quantifier": "all sequences of operations, all vectors, levels, vector cache behaviours and limits, all pairs of orders of all goroutines of all searches", "why_tests_cant": "the order of goroutines is not under the control of a test; the number of orders grows with the factorial of the number of links at every step of every search, and a difference in one step may show only after many further additions", "anchors": ["pkg/hnsw/search.go:198-316", "pkg/hnsw/search.go:243-274", "pkg/hnsw/search_with_max_dist.go:22-87", "pkg/hnsw/index.go:391-428", "pkg/hnsw/neighbor_connections.go:73-136", "pkg/hnsw/heuristic.go:23-135"]}
{"id": "C69", "title": "Layers are geometrically distributed and there are few of them", "statement": "A new vector reaches layer l with probability M^-l, where M is the maximum number of connections, and the average layer is 1/(M-1), although the layer is computed with rounded 64-bit numbers. Every draw gives a layer, and with FaVe's M = 30 no node of any index ever lies above layer 10.", "quantifier": "all 2^53 draws, all l >= 1, all M from 2 to 2^53, all logarithm functions with a relative error of at most 2^-52, all sequences of operations and timings", "why_tests_cant": "the 2^53 draws cannot be gone through, layers beyond 5 or 6 hardly ever occur in tests, and a draw of 0 never does", "anchors": ["pkg/hnsw/insert.go:230-243", "pkg/hnsw/insert.go:296-308", "pkg/hnsw/index.go:244", "pkg/hnsw/index.go:273", "pkg/document/document.go:197", "pkg/hnsw/user_config.go:48"]}
{"id": "C70", "title": "A request ends in a panic only for one of a short list of reasons", "statement": "Whatever happened before, a request to the client panics only without pod, without index object on an open database, for a negative limit, if the vectoriser answers with a status other than 200, or because a document is null, is to be vectorised from a property that is no string, or finds no place in the vector cache; at the REST interface also for a null index or document. Creations, deletions, listings and look-ups of single documents never panic; insertions and searches in the index never leave the range of a slice.", "quantifier": "all sequences of requests with all failures of storage and vectoriser, schedules, layers and restarts", "why_tests_cant": "that there is no further reason is a statement about all states of the index and all interleavings; tests only find reasons", "anchors": ["pkg/document/document.go:287-454", "pkg/document/document.go:456-651", "pkg/hnsw/insert.go:201-293", "pkg/hnsw/search.go:105-352", "pkg/hnsw/neighbor_connections.go:52-316", "pkg/hnsw/vector_cache.go:75-85", "adapters/handlers/collections.go:11-92", "adapters/handlers/documents.go:13-142"]}
{"id": "C71", "title": "A server that serves is logged in, has its pod open, and has a vectoriser exactly if one is configured", "statement": "The process serves requests exactly if the storage library, the vectoriser (if VECTORIZER_URL is set), the login and the pod (made if it is not there) work, called in this order and up to the first failure; otherwise it answers nothing. While it serves it stays logged in with its pod open, whatever it is asked. Without VECTORIZER_URL it answers every search for a text with an error and adds no document that would have to be vectorised. A start changes nothing stored. Configuration values are those of the environment; only the Bee address and the stamp have defaults.", "quantifier": "all environments, all answers of the outside, all pods left by earlier processes, all sequences of requests", "why_tests_cant": "the combinations of failing services and environment variables are many, and that no request ends the login is a statement about all sequences of requests", "anchors": ["adapters/handlers/environment.go:7-51", "adapters/handlers/defaults.go:3-16", "adapters/handlers/handler.go:21-79", "pkg/document/document.go:61-144", "restapi/configure_fave.go:26-67", "pkg/vectorizer/rest/vectorizer.go:24-41"]}
{"id": "C72", "title": "The server listens as configured and is shut down once, in order and in finitely many steps", "statement": "The servers that run are those of the schemes given (http if none is), each once, exactly if their listeners open and, for https, certificate and key are given and load and the certificate authority, if given, is read; https takes what is not set from http. However many signals and calls of Shutdown there are, in whatever order everything happens: the channel is closed at most once; the hook after shutdown runs only when no request is in flight; main returns only after all servers have stopped; without being asked the process goes on; when asked it is never stuck and ends after at most 5n+6 steps of its own plus three for each signal and two for each further call; signals after the first change nothing; requests are cut off only if the shutdown of their server failed.", "quantifier": "all options, all answers of the outside, any number of servers, signals, calls, requests, all interleavings", "why_tests_cant": "the interleavings of signal handler, callers, serving loops, draining goroutines and main cannot be forced in a test, and a double close or a lost wake-up shows in few of them", "anchors": ["restapi/server.go:36-53", "restapi/server.go:68-104", "restapi/server.go:138-150", "restapi/server.go:153-326", "restapi/server.go:329-397", "restapi/server.go:400-447", "restapi/server.go:489-507", "cmd/fave-server/main.go:27-55", "restapi/configure_fave.go:64-84"]}
{"id": "C73", "title": "Every operation of the interface description is served by its own handler, with a declared status", "statement": "After any sequence of calls of the API object (setting handlers, consumers, producers; Init, Serve, AddMiddlewareFor), HandlerFor has a handler exactly for the methods and paths of the embedded description, each with the operation of that id, the handler set last before the registry was made and the middleware added for this operation in the order of the calls; before the registry is made there is none, and settings made later change nothing. After configureAPI each operation is served by the method of the handler meant for it. The calls panic exactly if AddMiddlewareFor is called for a described operation with the method not in capitals. Validate reports exactly what is missing. Consumers and producers are found exactly for the registered media types and application/json. Every answer has a status declared for its operation - false for a look-up with an empty parameter (422).", "quantifier": "all sequences of calls, all methods and paths as strings, all requests and worlds", "why_tests_cant": "the order in which handlers are set, the registry is made and middleware is added is unbounded, and methods and paths are arbitrary strings", "anchors": ["restapi/operations/fave_api.go:24-71", "restapi/operations/fave_api.go:187-228", "restapi/operations/fave_api.go:247-293", "restapi/operations/fave_api.go:304-385", "restapi/configure_fave.go:26-67", "restapi/embedded_spec.go:38-390", "restapi/operations/fave_create_collection_parameters.go:48-84", "adapters/handlers/collections.go:11-92", "adapters/handlers/documents.go:13-142"]}
{"id": "C74", "title": "Nothing waits for ever for a lock of the client or of the index", "statement": "Let any number of calls of the document client (Login, OpenPod, CreateCollection, DeleteCollection, GetCollections, AddDocuments, GetNearDocuments, GetNearDocumentsByVector) and of the index (Add, ValidateBeforeInsert, Flush, LoadEntrypoint, SearchByVector, SearchByVectorDistance, KnnSearchByVectorMaxDist, Delete, Compress, CleanUpTombstonedNodes) run at the same time, on any collections and any paths. In every interleaving, until all calls have ended, one of them can go on; so every interleaving ends after a bounded number of steps with all calls ended. A call that has ended holds no lock. A lock held for writing is held by nobody else.", "quantifier": "for all numbers of concurrent calls, all collections, all paths through every function, all schedules", "why_tests_cant": "A deadlock needs one particular interleaving of several goroutines; tests see a handful of schedules, and the two paths on which a lock is never given back need a failing store.", "anchors": ["pkg/hnsw/insert.go:56-311", "pkg/hnsw/search.go:70-85", "pkg/hnsw/search.go:164-325", "pkg/hnsw/delete.go:31-166", "pkg/hnsw/delete.go:176-440", "pkg/hnsw/delete.go:561-631", "pkg/hnsw/neighbor_connections.go:60-236", "pkg/hnsw/heuristic.go:23-135", "pkg/hnsw/flat_search.go:19-74", "pkg/hnsw/vector_cache.go:75-168", "pkg/hnsw/compress.go:40-107", "pkg/document/document.go:99-655"]}
{"id": "C75", "title": "Nothing waits for ever for a lock of a vector cache", "statement": "Let any number of accesses to single entries of a vector cache (get, prefetch, preload, delete, storing after a miss), of grow and of drop run at the same time as the goroutine that watches over its size. In every interleaving, until everybody is done, somebody can go on without waiting for a tick, and the number of steps is bounded; so everybody can always be brought to the end. A lock held for writing is held by nobody else, neither for writing nor for reading. The watcher ends exactly with a drop.", "quantifier": "for all numbers of locks, all numbers and kinds of concurrent users, all schedules, all ticks", "why_tests_cant": "grow, drop and a full tick take all 512 locks through 512 goroutines each; the bad cases need two of them to share the locks out between them, which a test run practically never shows.", "anchors": ["pkg/hnsw/vector_cache.go:75-168", "pkg/hnsw/vector_cache.go:171-263", "pkg/hnsw/compressed_vector_cache.go:61-243"]}
{"id": "C76", "title": "Which calls race for which memory", "statement": "No two goroutines that run calls of the client or of the index ever use the same shared field at the same time, one of them to write it, without a lock that keeps them apart. Where this fails: a race happens in some interleaving of some calls if and only if the field and the two calls are in the given table; outside of the table no number of goroutines and no schedule leads to one.", "quantifier": "for all numbers and kinds of concurrent calls, all collections they are for, all paths through the functions, all schedules, all reachable states", "why_tests_cant": "The race detector only reports the interleavings that a run happens to show, and the repository's tests do not run calls of the client at the same time at all.", "anchors": ["pkg/document/document.go:99-144", "pkg/document/document.go:287-678", "pkg/hnsw/insert.go:81-311", "pkg/hnsw/search.go:164-531", "pkg/hnsw/delete.go:31-628", "pkg/hnsw/neighbor_connections.go:23-289", "pkg/hnsw/vector_cache.go:71-168", "pkg/hnsw/compress.go:27-107"]}
{"id": "C77", "title": "What an index stores as JSON is what it reads back", "statement": "Every vertex, entry point and counter that Flush writes to the key-value table as JSON is read back by nodeByID, LoadEntrypoint and GetDocCount as exactly what was written, after any sequence of writes and removals under any keys; every 32-bit number survives the way through its shortest decimal; a vertex is refused by the encoder exactly if its vector contains an infinity or not-a-number; the keys of nodes, entry point and counter never collide; and a value of which only a proper beginning was stored is refused (a torn entry point is read as 0), never taken for another value.", "quantifier": "all vertices (numbers within their Go types, vectors of arbitrary finite float32), all choices of which empty slices are nil, all sequences of writes and removals, all proper prefixes of a stored value, all JSON values with arbitrary strings and nesting", "why_tests_cant": "There are 2^32 numbers per component, unboundedly many strings and nestings; a number that changes in its last place on the way through the text, or a cut text that is read as a smaller number, shows up in no ordinary test.", "anchors": ["pkg/hnsw/insert.go:27-36", "pkg/hnsw/insert.go:117-199", "pkg/hnsw/index.go:594-623", "pkg/hnsw/vertex.go:18-27", "pkg/hnsw/delete.go:251-258", "pkg/hnsw/delete.go:610", "pkg/hnsw/compress.go:60-67"]}
{"id": "C78", "title": "The properties of a document come back as they were sent", "statement": "Whatever properties a document is added with, a look-up or a search answers with them: every string, truth value, list and table as it was, and every number with its value. Exceptions by design are the names id, vector, hnswId and (in a search) distance, which FaVe sets or removes itself.", "quantifier": "every JSON text of a request, every document of any nesting, every list of documents found, every distance", "why_tests_cant": "Documents have unboundedly many shapes and numbers; a test sees a few, and the numbers that tests use (small integers, short decimals) are exactly those that survive.", "anchors": ["pkg/document/document.go:345-441", "adapters/handlers/documents.go:26-36", "adapters/handlers/documents.go:57-77", "adapters/handlers/documents.go:97-117", "adapters/handlers/documents.go:129-142", "restapi/configure_fave.go:43", "restapi/operations/fave_get_nearest_documents_responses.go:48-57", "models/document.go:20-28"]}
{"id": "C79", "title": "A vector text is the same vector for a document and for a search", "statement": "The same JSON text, given as the vector of a document and as the vector of a search, is accepted or refused by both, and stands for the same 32-bit floats.", "quantifier": "every JSON value in place of a vector, every decimal in it", "why_tests_cant": "The two readings differ for about one in a hundred million decimals (when a 64-bit float falls exactly between two 32-bit ones), and agree on every number a test would write down.", "anchors": ["pkg/document/document.go:349-371", "pkg/document/document.go:390-392", "models/nearest_documents_by_vector_request.go:30", "adapters/handlers/documents.go:85-91", "restapi/configure_fave.go:43"]}
{"id": "C80", "title": "The server reads the request that the client wrote", "statement": "A request that is written as the body of a call (MarshalBinary) is read by the server (BindRequest) as the same request: no field, element, number or character changes, nil and empty lists are told apart, and neither the order of the members nor unknown members nor anything after the request matters. A limit that is no int64, a distance beyond a 32-bit float or a name that is not a string refuses the whole request.", "quantifier": "for all requests of the four kinds (any documents with any properties a decoder can produce, any int64 limit, any finite 32-bit float distance and components, any texts), and for all body texts that are read", "why_tests_cant": "Round trip over all strings, numbers, nestings and field combinations, and over all texts for re-writing; tests try a few bodies.", "anchors": ["models/add_documents_request.go:20-30", "models/document.go:20-28", "models/collection.go:20-27", "models/index.go:18-25", "models/nearest_documents_request.go:18-31", "models/nearest_documents_by_vector_request.go:18-31", "restapi/operations/fave_add_documents_parameters.go:47-84", "restapi/operations/fave_get_nearest_documents_by_vector_parameters.go:47-84", "restapi/configure_fave.go:43"]}
{"id": "C81", "title": "The vector of a text is the one the vectoriser computed", "statement": "A document or a search whose text is sent to the vectoriser gets the vector that the vectoriser wrote, component by component rounded to the nearest 32-bit float; if there is no such vector, the request fails.", "quantifier": "every text sent, every status and text of an answer, every vector of 32-bit floats; every pair of vectors for Equal and Distance", "why_tests_cant": "Ranges over all answer texts, incl. malformed, misspelt, duplicated and trailing members, and all numbers; tests mock one or two answers.", "anchors": ["pkg/vectorizer/rest/vectorizer.go:43-70", "pkg/vectorizer/vector.go:12-71", "pkg/document/document.go:408-425", "pkg/hnsw/insert.go:59-61"]}
{"id": "C82", "title": "From text to text: answers only show what requests said", "statement": "Whatever requests a server was sent - any texts as bodies, any failures, log-ins and restarts - every document in the text of an answer stands in the text of an earlier request to add documents to the same collection, the collection has not been deleted since, and the properties mean what they meant there. A document of an addition that was answered with success is shown by a look-up that finds it, unless the addition passed it over or a number in it is beyond the range of 64-bit floats.", "quantifier": "every history of requests with arbitrary body texts, storage failures, vectoriser answers and restarts; every answer text", "why_tests_cant": "Ranges over all histories of arbitrary texts through decoding, storage, search and encoding; tests send a few well-formed bodies and look at a few answers.", "anchors": ["adapters/handlers/documents.go:13-142", "adapters/handlers/collections.go:11-92", "pkg/document/document.go:326-678", "restapi/operations/fave_add_documents_parameters.go:53-83"]}
{"id": "C83", "title": "From text to text: a search finds what it should", "statement": "The text of the answer to a search shows exactly the documents that the bodies of earlier requests put into the collection and whose vectors are within the limit asked for: closest first, no more than asked for, each with its properties and its distance, in the 32-bit arithmetic of the code and in the decimal numbers of the texts.", "quantifier": "every history of requests with arbitrary body texts that mean orderly requests with finite numbers, every search body, every schedule of the caches, with and without AVX2", "why_tests_cant": "Ranges over all histories of texts and all vectors through decoding, normalisation, graph building, search, storage and encoding, with rounding in each step; tests compare a few answers with recorded ones.", "anchors": ["adapters/handlers/documents.go:13-120", "pkg/document/document.go:326-600", "pkg/hnsw/search_with_max_dist.go:20-87", "pkg/hnsw/distancer/cosine_dist.go:23-48"]}
{"id": "C84", "title": "Answers are JSON that says whether it worked, and the list of collections is right", "statement": "Every answer is one JSON value whose kind agrees with the status; a request is answered with 200 only if it was carried out; the list of collections, as a text, shows exactly the collections created and not deleted since, with the indexes asked for; and sending its entries to another server creates the same collections there.", "quantifier": "all sequences of requests of all kinds with arbitrary texts as bodies, all behaviours of storage and vectoriser, all error texts; for the list: creations and deletions that do not fail half-way in the storage, on pods without databases of other applications that look like collections", "why_tests_cant": "Tests compare a few answers; they cannot range over all bodies, histories, failures and error texts, nor show that no answer pairs a success status with an error text or that a list never shows a deleted collection.", "anchors": ["adapters/handlers/collections.go:11-92", "adapters/handlers/helpers.go:8-27", "adapters/handlers/documents.go:13-142", "models/error_response.go:20-24", "models/collection.go:20-27", "restapi/operations/fave_get_collections_responses.go:48-63"]}
{"id": "C85", "title": "A panic leaves nothing locked", "statement": "Whatever requests run at the same time, and wherever one of them panics (no pod, no index object, a null document, a property that is no text, a vectoriser without answer, a negative limit, no place in the vector cache, a level that cannot be computed), every lock it holds is given back, so that the other requests go on and all of them end. A vertex that the key-value store hands out with too few layers makes a search panic as well; nothing that needs that vertex may hang because of it, and nothing in other collections may.", "quantifier": "for all numbers of simultaneous calls, all paths through the functions, all places of panics, all schedules and all sets of collections with damaged vertices", "why_tests_cant": "a lock that is not given back shows only when another request, at the right moment, needs the same lock; tests run one request at a time, and a test that provokes a panic usually ends with it.", "anchors": ["pkg/hnsw/search.go:215-243", "pkg/hnsw/insert.go:57-115", "pkg/hnsw/insert.go:201-311", "pkg/hnsw/vector_cache.go:158-168", "pkg/document/document.go:287-651", "pkg/hnsw/index.go:594-622"]}
{"id": "C86", "title": "Adding touches few vertices, and a flush writes what was touched", "statement": "An addition, whatever its outcome, changes the new vertex and at most maxConn (30) others on each layer it is linked on, and gives no other vertex a link to anything but the new one. A flush writes exactly the vertices that changed since the last flush, so a batch of k base-layer additions costs at most 31k+2 writes.", "quantifier": "every state reachable by any operations, every addition with any outcome, level, goroutine schedule and vector-cache behaviour; every sequence of additions; every sequence of look-ups, changes and flushes of the node cache", "why_tests_cant": "the number of writes depends on the graph, the levels and on which vertices the searches happened to load; a test sees one graph, and cannot tell a needed write from a superfluous one because both leave the same table", "anchors": ["pkg/hnsw/neighbor_connections.go:60-236", "pkg/hnsw/insert.go:118-164", "pkg/hnsw/index.go:594-623", "pkg/hnsw/vertex.go:26", "pkg/hnsw/heuristic.go:23-135"]}
{"id": "C87", "title": "The vectors links are chosen by are those of the collection", "statement": "Whenever an addition asks for the vector of a number of its collection, it gets the (normalised) vector that is stored under that number in that collection: never a vector of another collection or number, never an outdated one, and never none.", "quantifier": "every interleaving of any number of additions, look-ups, cache clearings, index creations, collection deletions and restarts, any collection names, numbers, vectors, cache sizes", "why_tests_cant": "the answer depends on when the three-second timer empties the vector cache relative to the steps of an addition, and on what deleted collections or failed requests left in a cache of 1000 entries shared by all collections; a test sees one timing and rarely more than 1000 vectors", "anchors": ["pkg/document/document.go:92-95", "pkg/document/document.go:161-167", "pkg/document/document.go:210-246", "pkg/document/document.go:376-426", "pkg/hnsw/vector_cache.go:75-120", "pkg/hnsw/vector_cache.go:218-239", "pkg/hnsw/insert.go:105-112", "pkg/hnsw/index.go:227-233"]}
{"id": "C88", "title": "Reading leaves no trace", "statement": "Listing collections, searching and looking up a document do not change what any other request is answered: with these requests left out, every other request gets the same answer.", "quantifier": "every state of the server, every sequence of requests with every choice of failing storage calls, vectoriser answers, levels and schedules", "why_tests_cant": "the trace shows only in what later requests do, for particular orders of restart, search, addition and look-up and for graphs in which the start vertex matters; a test compares one pair of sequences", "anchors": ["pkg/document/document.go:248-285", "pkg/document/document.go:456-555", "pkg/document/document.go:557-651", "pkg/document/document.go:653-678", "pkg/hnsw/insert.go:118-164", "pkg/hnsw/insert.go:181-199"]}
{"id": "C89", "title": "A search looks at no vector twice on a layer", "statement": "On each layer a search computes the distance of each vector at most once and expands each vertex at most once, whatever the graph looks like and in whatever order the goroutines finish, also if it ends with an error or a panic. A search in a collection of n vectors therefore computes at most n distances per layer, and an expansion starts at most as many goroutines as a vertex may have links.", "quantifier": "every graph (also damaged ones), every query, width, filter, set of entry points and order of the goroutines; for the bounds in n every history of additions, flushes and restarts", "why_tests_cant": "a test sees the answer, not the work; repeated work does not change the answer and shows only as time, in graphs with cycles and for certain orders of the goroutines", "anchors": ["pkg/hnsw/search.go:164-325", "pkg/hnsw/search.go:232-274", "pkg/hnsw/search_with_max_dist.go:22-64"]}
{"id": "C90", "title": "An index can be closed, and then nothing of it is running", "statement": "Drop and Shutdown of an index return, and afterwards none of its goroutines is running. Switching on compression returns too and keeps nobody waiting.", "quantifier": "every interleaving of any number of goroutines that close, compress, search, add and delete, and of the two watcher goroutines of the caches; every failure of the run of Compress", "why_tests_cant": "a test closes an index once, at the end; what goes wrong is a goroutine waiting for ever for a receiver that has gone, after a second call or for certain orders of two calls, and a goroutine left behind, which no test looks for", "anchors": ["pkg/hnsw/index.go:625-676", "pkg/hnsw/vector_cache.go:199-231", "pkg/hnsw/compressed_vector_cache.go:168-198", "pkg/hnsw/compress.go:95-109", "pkg/hnsw/config_update.go:100-125"]}
{"id": "C91", "title": "Deleting a collection gives back what it used", "statement": "The indices in memory (each has two goroutines and two caches with 25000 places) are those of the collections that are open: deleting a collection ends its index, and requests that fail leave none behind.", "quantifier": "every sequence of requests and restarts, every failure of the storage and of the vectoriser, every number of repetitions", "why_tests_cant": "the answers are right; what is left behind is seen only in the memory of a process that has been running for long", "anchors": ["pkg/document/document.go:189-246", "pkg/document/document.go:312-329", "pkg/document/document.go:479-496", "pkg/document/document.go:581-598", "pkg/hnsw/index.go:232-235"]}
{"id": "C92", "title": "All requests for a collection use the same index", "statement": "At any time the requests that work on a collection work with the same index object; a request is not refused because another one opens the collection at the same time; and two additions one after the other do not undo each other.", "quantifier": "every interleaving of any number of additions, searches, look-ups, creations and deletions of one collection, over any stored collection, with any failures of index creation and of opening", "why_tests_cant": "needs two requests between the check whether the collection is open and its opening, right after a restart; the harm shows only in a later search for a vector whose addition was answered with success", "anchors": ["pkg/document/document.go:290-339", "pkg/document/document.go:458-513", "pkg/document/document.go:560-609", "pkg/document/document.go:146-246", "pkg/document/document.go:653-664", "pkg/hnsw/index.go:594-623", "pkg/hnsw/insert.go:118-164"]}
{"id": "C93", "title": "SearchByVector returns the k nearest vectors", "statement": "SearchByVector succeeds and returns exactly the k nearest of the vectors that were added (and pass the caller's filter), closest first, with their true distances, whichever of its two ways (through the filter or along the links) it takes.", "quantifier": "every history of additions with any levels and schedules, refused vectors, flushes and restarts; every query, k, filter and search settings", "why_tests_cant": "the tests of the index use default search settings and few vectors; FaVe's collections leave all search settings at 0, so the width is k; the first wrong answer needs 31 vectors in a particular position, and the empty answer before the first flush needs a store that has not been written", "anchors": ["pkg/hnsw/search.go:36-85", "pkg/hnsw/search.go:464-546", "pkg/hnsw/flat_search.go:19-74", "pkg/hnsw/index.go:579-592", "pkg/hnsw/index.go:246-268", "pkg/document/document.go:188-199"]}
{"id": "C94", "title": "SearchByVectorDistance returns everything within the distance", "statement": "SearchByVectorDistance returns exactly the added vectors whose distance to the query is at most the target distance (or within the rounding tolerance of it), each once, closest first.", "quantifier": "every history of additions with any levels and schedules, refused vectors, flushes and restarts; every query, distance, limit, filter and search settings, with a different schedule for every page", "why_tests_cant": "the answer is put together from several independent searches; completeness over all histories, settings and schedules cannot be sampled", "anchors": ["pkg/hnsw/search.go:86-162", "pkg/hnsw/search.go:548-620", "pkg/hnsw/search.go:70-85", "pkg/hnsw/search.go:464-546", "pkg/hnsw/index.go:579-592"]}
{"id": "C95", "title": "The numbers an index reports about itself are right", "statement": "Whatever calls run at the same time on an index with metrics, the gauge of deletion marks shows how many ids are marked, the gauge of clean-up threads how many clean-ups are under way, and the counters of insertions and deletions how many there were. Reporting never panics and changes nothing else; an index without metrics (as FaVe opens it) touches no gauge.", "quantifier": "for all sets of calls (deletions, searches that meet a node that is gone, insertions, clean-ups with any outcome), all interleavings of their steps, and all values left in the gauges", "why_tests_cant": "A wrong number appears only when particular calls interleave, or after an id was marked a second time; it then stays. No test covers all interleavings of any number of calls.", "anchors": ["pkg/hnsw/metrics.go:21-181", "pkg/hnsw/delete.go:31-86", "pkg/hnsw/delete.go:176-218", "pkg/hnsw/delete.go:586-632", "pkg/hnsw/search.go:447-462", "pkg/hnsw/search.go:494-506", "pkg/hnsw/insert.go:57-64", "pkg/document/document.go:188-199"]}
{"id": "C96", "title": "The work of an addition is bounded", "statement": "Adding a vector to a collection of n vectors computes on each layer at most n + 1 distances to find the neighbours. Choosing and linking them takes on each layer a number of distances and of reads of the vector cache that depends only on the settings and not on n (FaVe: 113430 distances, 5550 reads). An addition that reads no vector has the same outcome whatever the vector cache delivers; additions to collections with fewer vectors than a vertex may have links (FaVe: 30) read none.", "quantifier": "for all histories of additions, flushes, restarts and failures, all vectors and levels, all answers of the vector cache (errors included), all orders in which the distances arrive, and additions that fail as well as those that succeed", "why_tests_cant": "A cost that grows with the collection shows only on large collections, and a rare path (an overfull neighbour, a failing read) may never be taken by a test; the bound is about every reachable graph and every behaviour of the storage.", "anchors": ["pkg/hnsw/insert.go:40-240", "pkg/hnsw/neighbor_connections.go:24-300", "pkg/hnsw/heuristic.go:19-110", "pkg/hnsw/search.go:117-241", "pkg/hnsw/index.go:391-428", "pkg/hnsw/index.go:437-510", "pkg/hnsw/vector_cache.go:75-140", "pkg/document/document.go:188-199"]}
{"id": "C97", "title": "Each vector is fetched from the storage once", "statement": "After an index has been opened, however many searches run, each vector is fetched from the storage at most once, so that at most n fetches are made for a collection of n vectors; look-ups of vectors that were looked up before fetch nothing.", "quantifier": "for all histories of the collection, all numbers of searches with any queries, widths, filters and orders of goroutines, all interleavings of their look-ups; for the cache: all capacities, all sequences of reads, writes and flushes", "why_tests_cant": "The cost appears only with more vertices than the cache holds or with particular orders of look-ups, on a network storage that tests replace by a map; the number of fetches is not part of any answer.", "anchors": ["pkg/hnsw/index.go:159", "pkg/hnsw/index.go:217", "pkg/hnsw/index.go:594-623", "pkg/hnsw/search.go:164-325", "pkg/hnsw/search.go:353-376", "pkg/hnsw/search.go:419-432", "pkg/hnsw/search_with_max_dist.go:22-87", "pkg/hnsw/insert.go:118-140"]}
{"id": "C98", "title": "A wider search is never worse", "statement": "Of two searches for the same query, the one that asks for more hits returns at least as many, place by place they are no farther away, and no true neighbour that the narrower search found is missing.", "quantifier": "for all graphs, queries, widths 1 <= ef <= ef', maximal distances, filters and orders of goroutines (different ones for the two searches); for all histories of a collection; for all states of the service", "why_tests_cant": "Recall is measured on averages over one data set; that a larger limit can make a single answer worse appears only for particular graphs with equal distances and particular layouts of the candidate heap.", "anchors": ["pkg/hnsw/search.go:164-325", "pkg/hnsw/search_with_max_dist.go:22-87", "pkg/document/document.go:456-555", "pkg/hnsw/priorityqueue/queue.go:20-130"]}
{"id": "C99", "title": "The conditions of a search act as conditions", "statement": "A search with a smaller maximal distance, a lower limit or an allow list returns what the search without the condition returns, less what the condition excludes: the hits that meet the condition keep their order and distances and none of them is lost.", "quantifier": "for all graphs, queries, widths, pairs of maximal distances, of limits and of allow lists, and orders of goroutines; for all states of the service and failures of the storage; for the allow list also for all histories of a collection", "why_tests_cant": "It relates two runs of an approximate search, each of which is allowed to miss vectors, so that there is no expected answer to compare with; the loss of a permitted hit by a filter appears only for particular graphs with equal distances.", "anchors": ["pkg/hnsw/search_with_max_dist.go:22-87", "pkg/hnsw/search.go:164-325", "pkg/document/document.go:456-555", "pkg/document/document.go:557-651"]}
{"id": "C100", "title": "Copies of a document hide nothing", "statement": "A document added many times (the same text, hence the same vector) makes no other document of the collection impossible to find.", "quantifier": "for all histories of a collection, link limits, numbers of copies, queries, widths, distance limits, allow lists and orders of goroutines", "why_tests_cant": "The loss begins when a link list is full of copies (61 with FaVe's parameters); a test has to know which vertex that is and then look for a vector added later. That no search whatsoever finds it cannot be shown by trying queries.", "anchors": ["pkg/hnsw/neighbor_connections.go:138-218", "pkg/hnsw/heuristic.go:24-135", "pkg/hnsw/search_with_max_dist.go:22-87"]}
{"id": "C101", "title": "What is lost stays lost", "statement": "A stored vector to which the links of the graph lead from no place where a search may start (the entry point, the stored entry point, number 0) is never returned by a later search: no sequence of successful or refused additions, flushes and loads of the entry point brings it back, although it stays stored under its number. After a successful flush this also holds across restarts. The same holds for whole groups of vectors that nothing outside the group links to. Before a flush, a restart goes back to the stored links and may bring a vector back.", "quantifier": "for every history of a collection, every set of vectors cut off in it, every later sequence of steps with any vectors, levels, schedules and vector-cache behaviour, and every search", "why_tests_cant": "'never again' ranges over all later additions; that no choice of vector, level or schedule makes a new vertex link to an unreachable one needs an invariant over the search for neighbours, the choice among them and the reconnection of the neighbours.", "anchors": ["pkg/hnsw/insert.go:57-290", "pkg/hnsw/neighbor_connections.go:23-290", "pkg/hnsw/search.go:164-325", "pkg/hnsw/neighbor_connections.go:138-218", "pkg/hnsw/heuristic.go:23-112", "pkg/hnsw/search_with_max_dist.go:22-87"]}
{"id": "C102", "title": "How additions are divided into requests does not matter", "statement": "Adding the same vectors in the same order gives the same collection - the same vertices and links, entry point and top layer, the same answers to all searches, the same stored vertices, entry point and count - however the additions are divided into requests, each of which ends with a flush, provided no request is empty and the process is not restarted in between. More generally, what an addition or a search does depends on the vertices, the entry point and the top layer only, not on what has been flushed or cached.", "quantifier": "for every state a collection can be in, every sequence of additions with any vectors, levels, goroutine schedules and vector-cache behaviour, every two divisions into non-empty requests, every order of the cache keys in the flushes, and every search", "why_tests_cant": "the number of divisions grows exponentially and each has its own dirty flags; equality of all later answers is a simulation between the two runs.", "anchors": ["pkg/document/document.go:337-443", "pkg/hnsw/insert.go:57-164", "pkg/hnsw/insert.go:201-311", "pkg/hnsw/neighbor_connections.go:23-316", "pkg/hnsw/search_with_max_dist.go:22-87"]}
{"id": "C103", "title": "Small collections do not depend on the vector cache", "statement": "While a collection has fewer than maxConn (FaVe: 30) vectors, an addition neither succeeds nor fails nor links differently because of what the vector cache, which is emptied every three seconds and by every restart, delivers: the resulting state and the error, if any, are the same. The same holds for whole sequences of requests up to maxConn vectors. From maxConn vectors on it does depend on the cache.", "quantifier": "for every state a collection of fewer than maxConn vectors can be in, every vector, level and goroutine schedule, and every two behaviours of the vector cache; every sequence of requests up to maxConn vectors", "why_tests_cant": "the cache's answers depend on a timer; non-interference compares all pairs of behaviours in all reachable states.", "anchors": ["pkg/hnsw/neighbor_connections.go:73-236", "pkg/hnsw/heuristic.go:23-112", "pkg/hnsw/vector_cache.go:45-85", "pkg/hnsw/vector_cache.go:218-239"]}
