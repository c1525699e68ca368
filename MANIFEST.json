{
 "claims": [
  {
   "property": "C01",
   "status": "proved",
   "theorems": [
    "Fave.C01.layer_hits_genuine",
    "Fave.C01.max_dist_hits_genuine",
    "Fave.C01.knn_hits_genuine"
   ],
   "note": ""
  },
  {
   "property": "C02",
   "status": "proved",
   "theorems": [
    "Fave.C02.max_dist_hits_sorted_and_in_range",
    "Fave.C02.nan_breaks_order"
   ],
   "note": "Order law (no NaN) assumed; nan_breaks_order shows it is needed."
  },
  {
   "property": "C03",
   "status": "proved",
   "theorems": [
    "Fave.C03.small_collections_exact",
    "Fave.C03.up_to_61_vectors_exact"
   ],
   "note": "Assumes distances obey an order (no NaN), are symmetric and defined for equal lengths; the search width must be at least the number of vectors (800 for vector queries; for text queries the width is the limit)."
  },
  {
   "property": "C04",
   "status": "proved",
   "theorems": [
    "Fave.C04.wide_layer_search_returns_all_reachable",
    "Fave.C04.wide_search_returns_all_reachable"
   ],
   "note": ""
  },
  {
   "property": "C05",
   "status": "proved",
   "theorems": [
    "Fave.C05.layer_search_terminates",
    "Fave.C05.search_terminates",
    "Fave.C05.search_succeeds",
    "Fave.C05.layer_search_examines_each_once"
   ],
   "note": ""
  },
  {
   "property": "C06",
   "status": "proved",
   "theorems": [
    "Fave.C06.min_queue_delivers_smallest",
    "Fave.C06.max_queue_delivers_largest",
    "Fave.C06.minIx_queue_delivers_smallest",
    "Fave.C06.queue_loses_nothing",
    "Fave.C06.drain_min_sorted"
   ],
   "note": ""
  },
  {
   "property": "C07",
   "status": "proved",
   "theorems": [
    "Fave.C07.visited_iff_marked_since_reset",
    "Fave.C07.borrowed_list_is_clean"
   ],
   "note": ""
  },
  {
   "property": "C08",
   "status": "proved",
   "theorems": [
    "Fave.C08.links_well_formed",
    "Fave.C08.links_well_formed_fave",
    "Fave.C08.self_link_after_flush_without_vectors",
    "Fave.C08.self_link_after_failed_addition"
   ],
   "note": "The negative lemmas show what happens outside successful additions (flush without vectors, retried failed addition)."
  },
  {
   "property": "C09",
   "status": "proved",
   "theorems": [
    "Fave.C09.addition_keeps_other_vectors",
    "Fave.C09.stored_vectors_are_the_added_ones"
   ],
   "note": ""
  },
  {
   "property": "C10",
   "status": "partial",
   "theorems": [
    "Fave.C10.stored_vector_lost",
    "Fave.C10.stored_vectors_found_partial"
   ],
   "note": "False beyond 61 vectors: stored_vector_lost is a 62-vector history with FaVe's parameters after which one stored vector is returned by no search at all. stored_vectors_found_partial: every history of at most 61 vectors finds all of them."
  },
  {
   "property": "C11",
   "status": "proved",
   "theorems": [
    "Fave.C11.restart_after_flush_invisible",
    "Fave.C11.restart_after_flush_keeps_vectors",
    "Fave.C11.restart_forgets_layers"
   ],
   "note": "Same start given: layer searches agree. restart_forgets_layers shows that the number of upper layers is not restored."
  },
  {
   "property": "C12",
   "status": "proved",
   "theorems": [
    "Fave.C12.crash_keeps_completed_batches",
    "Fave.C12.crash_leaves_link_to_unused_number"
   ],
   "note": ""
  },
  {
   "property": "C13",
   "status": "partial",
   "theorems": [
    "Fave.C13.recently_used_is_stored_partial",
    "Fave.C13.nothing_lost_if_fits",
    "Fave.C13.batch_beyond_capacity_loses",
    "Fave.C13.fave_bound",
    "Fave.C13.change_lost"
   ],
   "note": "False beyond the cache's capacity: of more than cap new vectors between two flushes at least one is always lost (batch_beyond_capacity_loses, for every capacity, every order of reads and writes; FaVe: 10000, fave_bound). Proved: nothing is lost while all nodes used fit; a node written is stored if fewer than cap others were used before the flush."
  },
  {
   "property": "C14",
   "status": "partial",
   "theorems": [
    "Fave.C14.batch_numbers",
    "Fave.C14.numbers_consecutive_partial",
    "Fave.C14.broken_off_reuses",
    "Fave.C14.unread_count_restarts",
    "Fave.C14.concurrent_collide"
   ],
   "note": "Proved for all sequences of requests in which additions can read the stored count and do not break off after giving a number, and no deletion removes the vectors only; negations with witnesses for a broken-off addition, an unreadable count and two concurrent additions."
  },
  {
   "property": "C15",
   "status": "partial",
   "theorems": [
    "Fave.C15.success_stores_partial",
    "Fave.C15.success_stores_all",
    "Fave.C15.added_then_found_partial",
    "Fave.C15.passed_over_silently",
    "Fave.C15.vectoriser_failure_is_silent"
   ],
   "note": "False: documents are passed over silently (passed_over_silently, vectoriser_failure_is_silent). Proved: on success every document is stored or was passed over for one of the named reasons (success_stores_partial); without such failures all are stored (success_stores_all); a document added with its vector is found by later searches of small collections (added_then_found_partial)."
  },
  {
   "property": "C16",
   "status": "proved",
   "theorems": [
    "Fave.C16.one_length",
    "Fave.C16.wrong_length_refused"
   ],
   "note": ""
  },
  {
   "property": "C17",
   "status": "partial",
   "theorems": [
    "Fave.C17.additions_succeed_partial",
    "Fave.C17.full_collection_crashes",
    "Fave.C17.all_sizes_reachable",
    "Fave.C17.growth_is_bounded"
   ],
   "note": "False at 25000 vectors: vector cache slice never grows, so number 25000 panics (growth_is_bounded, full_collection_crashes, all_sizes_reachable). Below that every valid addition succeeds (additions_succeed_partial)."
  },
  {
   "property": "C18",
   "status": "proved",
   "theorems": [
    "Fave.C18.answer_pairs",
    "Fave.C18.error_genuine",
    "Fave.C18.no_panic",
    "Fave.C18.ends",
    "Fave.C18.fails_iff"
   ],
   "note": "All interleavings of the look-up goroutines, the closing goroutine and the receiver; no panic, no deadlock, no leak, bounded number of steps."
  },
  {
   "property": "C19",
   "status": "partial",
   "theorems": [
    "Fave.C19.limit_honoured_partial",
    "Fave.C19.at_most_limit",
    "Fave.C19.negative_limit_crashes",
    "Fave.C19.text_limit_zero_at_most_one",
    "Fave.C19.text_limit_zero_loses_documents"
   ],
   "note": "false of the code: a negative limit crashes, and for text searches limit 0 means at most one document; proved: a positive limit gives the first n documents of the sorted unlimited answer, every answer has at most limit documents"
  },
  {
   "property": "C20",
   "status": "proved",
   "theorems": [
    "Fave.C20.others_unchanged",
    "Fave.C20.foreign_unchanged",
    "Fave.C20.answers_independent",
    "Fave.C20.cache_keys_distinct",
    "Fave.C20.cache_keys_of_two_pods"
   ],
   "note": "frame and non-interference for every request and failure; cache keys are injective within the one pod the client uses"
  },
  {
   "property": "C21",
   "status": "partial",
   "theorems": [
    "Fave.C21.listing_exact_partial",
    "Fave.C21.indexes_requested",
    "Fave.C21.foreign_database_listed",
    "Fave.C21.failed_deletion_answered_with_success"
   ],
   "note": "false of the code: foreign databases with the prefix are listed, failed deletions are answered with success; proved exact for pods without such databases and requests that do not fail half-way"
  },
  {
   "property": "C22",
   "status": "partial",
   "theorems": [
    "Fave.C22.refused_partial",
    "Fave.C22.closed_until_opened",
    "Fave.C22.pod_needs_session",
    "Fave.C22.add_crashes",
    "Fave.C22.no_session_no_access"
   ],
   "note": "additions and searches without pod crash instead of returning an error; proved: no effect on anything, error or crash, for every history"
  },
  {
   "property": "C23",
   "status": "partial",
   "theorems": [
    "Fave.C23.malformed_refused",
    "Fave.C23.create_handed_on_partial",
    "Fave.C23.add_handed_on_partial",
    "Fave.C23.searches_handed_on",
    "Fave.C23.bytes_index_dropped",
    "Fave.C23.null_index_crashes",
    "Fave.C23.null_document_crashes",
    "Fave.C23.bad_properties_crash_half_way",
    "Fave.C23.listed_as_reported"
   ],
   "note": "malformed_refused, *_handed_on: malformed requests refused with 400 (422 at binding) without any effect, the others handed on exactly. False parts witnessed: bytes index dropped, null index/document crash, non-object properties crash half-way."
  },
  {
   "property": "C24",
   "status": "partial",
   "theorems": [
    "Fave.C24.hits_intact_partial",
    "Fave.C24.text_hits_intact_partial",
    "Fave.C24.hits_total",
    "Fave.C24.lookup_intact_partial",
    "Fave.C24.added_document_comes_back_partial",
    "Fave.C24.distance_property_replaced",
    "Fave.C24.hnswId_property_replaced",
    "Fave.C24.large_integer_rounded"
   ],
   "note": "hits_intact_partial / text_hits_intact_partial / lookup_intact_partial for plain values (null, strings, integers up to 53 bits, other kinds); added_document_comes_back_partial from POST to search. False parts witnessed: properties called distance or hnswId are replaced, integers beyond 2^53 rounded."
  },
  {
   "property": "C25",
   "status": "partial",
   "theorems": [
    "Fave.C25.encoding_injective",
    "Fave.C25.replay_reproduces_partial",
    "Fave.C25.replay_from_scratch_partial",
    "Fave.C25.replay_piecewise_partial",
    "Fave.C25.last_level_crashes",
    "Fave.C25.huge_id_crashes",
    "Fave.C25.quantisation_miscounted",
    "Fave.C25.negative_id_crashes"
   ],
   "note": "Encoding injective for all arguments in range; replay computes the meaning of the operations for all logs that fit the reader's tables. False at level 65535 and for ids no table can hold (crash), and the reported length is wrong for quantisation records."
  },
  {
   "property": "C26",
   "status": "partial",
   "theorems": [
    "Fave.C26.torn_log_partial",
    "Fave.C26.truncation_repairs_partial",
    "Fave.C26.torn_entry_point_reset",
    "Fave.C26.truncation_destroys_records"
   ],
   "note": "Every cut of every log: nodes, links, marks exact; search start exact unless the cut is inside a SetEntryPoint record (then reset to 0: torn_entry_point_reset); valid length exact unless quantisation records precede it."
  },
  {
   "property": "C27",
   "status": "partial",
   "theorems": [
    "Fave.C27.condense_preserves_partial",
    "Fave.C27.condense_first_partial",
    "Fave.C27.deletion_forgotten",
    "Fave.C27.unmark_forgotten",
    "Fave.C27.clear_forgotten",
    "Fave.C27.reset_forgotten",
    "Fave.C27.level_clear_forgotten",
    "Fave.C27.phantom_node",
    "Fave.C27.too_many_links"
   ],
   "note": "Proved for every older state and every log that takes nothing away which is older than the log (Condensable), in particular every first log without quantisation data. False otherwise: witnesses for deletions, unmarking, clearing, reset, phantom nodes and more than 65535 links."
  },
  {
   "property": "C28",
   "status": "partial",
   "theorems": [
    "Fave.C28.combine_preserves",
    "Fave.C28.combineAll_preserves",
    "Fave.C28.combineAll_finishes",
    "Fave.C28.interrupted_partial",
    "Fave.C28.interrupted_recovers_partial",
    "Fave.C28.interrupted_combine_duplicates_links",
    "Fave.C28.stale_condensed_destroys_original",
    "Fave.C28.combineAll_leftovers"
   ],
   "note": "Completed combining (one round, and a whole run of the combiner with its termination) leaves the replayed bytes unchanged for every clean directory; every crash point is characterised. The crash half is false: between the renaming and the removal of the second source that log is replayed twice (witness with a duplicated link); proved harmless if the second log only overwrites. Not covered: failing disk operations other than a crash, names that are not time stamps."
  },
  {
   "property": "C29",
   "status": "partial",
   "theorems": [
    "Fave.C29.removes_exactly",
    "Fave.C29.stops_at_failure",
    "Fave.C29.original_never_removed",
    "Fave.C29.agrees_on_text",
    "Fave.C29.condense_interrupted_partial",
    "Fave.C29.condense_interrupted_recovers_partial",
    "Fave.C29.complete_condensed_removed",
    "Fave.C29.retry_appends_to_half_written"
   ],
   "note": "Removal rule proved for all lists of names as text, with failing removals. The literal clause 'no complete condensed log is removed' is false (witness); instead every crash point of condensing is proved to restart to the same state under the conditions of C27. A failed attempt followed by a retry corrupts the log (witness)."
  },
  {
   "property": "C30",
   "status": "proved",
   "theorems": [
    "Fave.C30.bytes_in_order",
    "Fave.C30.success_means_all",
    "Fave.C30.error_sticks",
    "Fave.C30.flushed"
   ],
   "note": "All calls (Write, WriteByte, WriteRune, WriteString, Flush), every buffer size, every behaviour of the file; Reset is not modelled (unused)."
  },
  {
   "property": "C31",
   "status": "partial",
   "theorems": [
    "Fave.C31.grow_keeps_content_partial",
    "Fave.C31.grow_only_if_needed",
    "Fave.C31.grow_fails_iff",
    "Fave.C31.grown_size",
    "Fave.C31.huge_id_truncates"
   ],
   "note": "False for ids of 2^64-25000 and above (huge_id_truncates: the uint64 sum wraps and the table shrinks); proved for all other ids and all table contents."
  },
  {
   "property": "C32",
   "status": "proved",
   "theorems": [
    "Fave.C32.index_exact",
    "Fave.C32.analyze_exact",
    "Fave.C32.unknown_operation_fails",
    "Fave.C32.ranges_partition",
    "Fave.C32.size_wraps"
   ],
   "note": "Every sequence of observations and the bytes of every log of known operations; ranges partition the file when the total fits 64 bits. Witness: at level 65535 the computed size wraps. Mapping/writing the file is an empty TODO in the code."
  },
  {
   "property": "C33",
   "status": "proved",
   "theorems": [
    "Fave.C33.lookup_exact",
    "Fave.C33.lookup_many",
    "Fave.C33.holds_few",
    "Fave.C33.genuine",
    "Fave.C33.stale_answer_wins",
    "Fave.C33.racing_grow_shrinks"
   ],
   "note": "Exact answers for operations one after the other; for goroutines at the same time every returned vector was loaded or fetched for that id. Executions show that an older source answer can replace a newer vector and that racing growth can shrink the table."
  },
  {
   "property": "C34",
   "status": "partial",
   "theorems": [
    "Fave.C34.absent_has_default",
    "Fave.C34.present_has_value_partial",
    "Fave.C34.accepted_at_least_four",
    "Fave.C34.small_refused_partial",
    "Fave.C34.no_map",
    "Fave.C34.well_formed_accepted",
    "Fave.C34.decimal_point_refused",
    "Fave.C34.not_a_number_becomes_zero",
    "Fave.C34.huge_negative_accepted",
    "Fave.C34.fraction_cut_off",
    "Fave.C34.not_a_bool_keeps_default"
   ],
   "note": "Absent settings have their default (full); present settings have the given value and values below 4 are refused for 64-bit integers. False beyond: huge negative numbers are accepted as MaxInt64, float fractions are cut off, non-numbers become 0 (negations proved)."
  },
  {
   "property": "C35",
   "status": "partial",
   "theorems": [
    "Fave.C35.immutable_change_refused_partial",
    "Fave.C35.other_change_accepted",
    "Fave.C35.distance_change_accepted",
    "Fave.C35.own_config_refused",
    "Fave.C35.update_effect",
    "Fave.C35.update_outcome",
    "Fave.C35.update_does_not_check",
    "Fave.C35.refused_update_changes_settings"
   ],
   "note": "Refusal of changes to construction width, connections and clean-up interval; exact effect of an update. False for the distance (a change is accepted), for the repository's own configuration type (always refused), and a refused update may already have changed settings (negations proved)."
  },
  {
   "property": "C36",
   "status": "partial",
   "theorems": [
    "Fave.C36.error_iff_lengths",
    "Fave.C36.symmetric",
    "Fave.C36.no_junk",
    "Fave.C36.correct",
    "Fave.C36.avx_same",
    "Fave.C36.step_wrap",
    "Fave.C36.zero_iff_equal",
    "Fave.C36.triangle",
    "Fave.C36.self_partial",
    "Fave.C36.cosine_self_not_zero",
    "Fave.C36.geo_error_iff",
    "Fave.C36.geo_refuses_equal_lengths",
    "Fave.C36.geo_symmetric",
    "Fave.C36.geo_self_nonneg",
    "Fave.C36.reads_inside"
   ],
   "note": "Exact sums, symmetry (rounding included), length checks, absence of out-of-range reads and agreement of the vector instructions (modelled instruction by instruction) with the plain loops are proved for every length. False parts with witnesses: the cosine distance of equal vectors not of length one is not zero; geographic distance refuses equal lengths other than two. Rounding is in C63."
  },
  {
   "property": "C37",
   "status": "proved",
   "theorems": [
    "Fave.C37.unit_length",
    "Fave.C37.same_direction",
    "Fave.C37.scale_invariant",
    "Fave.C37.cosine_range",
    "Fave.C37.cosine_extremes",
    "Fave.C37.query_scale",
    "Fave.C37.add_scale",
    "Fave.C37.history_scale",
    "Fave.C37.stored_range"
   ],
   "note": "Exact arithmetic with any square root; instantiated with the real numbers. Rounded arithmetic (overflow of the squared length, underflow to the zero vector) is outside the model."
  },
  {
   "property": "C38",
   "status": "proved",
   "theorems": [
    "Fave.C38.brute_force_exact",
    "Fave.C38.brute_force_fails_iff",
    "Fave.C38.brute_force_error_is_no_crash",
    "Fave.C38.filter_order_irrelevant",
    "Fave.C38.negative_limit_crashes",
    "Fave.C38.zero_limit_crashes"
   ],
   "note": "searchByVector with a filter below the cut-off, over every graph, filter, k and deletion marks; failure condition and crashes for limit 0 / negative limits stated separately."
  },
  {
   "property": "C39",
   "status": "partial",
   "theorems": [
    "Fave.C39.paging_stops",
    "Fave.C39.paging_in_range",
    "Fave.C39.paging_complete_partial",
    "Fave.C39.paging_flat_partial",
    "Fave.C39.ties_duplicate_and_lose",
    "Fave.C39.limit_exceeded"
   ],
   "note": "Always stops and stays in range for every underlying search. Completeness and no duplicates are false with ties (ties_duplicate_and_lose) and the limit is no upper bound (limit_exceeded); proved for consistent underlying searches and brute-force searches without ties."
  },
  {
   "property": "C40",
   "status": "partial",
   "theorems": [
    "Fave.C40.deleted_not_found_partial",
    "Fave.C40.deleted_not_in_knn_partial",
    "Fave.C40.deleted_not_in_pages_partial",
    "Fave.C40.cleaned_no_links_partial",
    "Fave.C40.cleaned_marks_gone",
    "Fave.C40.cleaned_and_restarted_gone",
    "Fave.C40.returned_after_clean_up",
    "Fave.C40.restart_forgets_marks",
    "Fave.C40.interrupted_removal_keeps_node",
    "Fave.C40.unflushed_keeps_links",
    "Fave.C40.changes_not_stored",
    "Fave.C40.relinked_badly",
    "Fave.C40.start_loses_links",
    "Fave.C40.reset_cuts_off",
    "Fave.C40.missing_start_is_reported"
   ],
   "note": "Proved: from the return of a deletion until a clean-up begins to remove (or the process restarts) no kind of search returns the id; after a completed clean-up no remaining stored vector links to a deleted one, all marks are gone, remaining vectors are still there, deleted ones are no longer stored. False of the code and witnessed: clean-up brings a deleted start back and loses a remaining vector; restart forgets marks; unflushed vectors keep links; changed links are not stored again."
  },
  {
   "property": "C41",
   "status": "proved",
   "theorems": [
    "Fave.C41.initialised_at_most_once",
    "Fave.C41.initialised_exactly_once",
    "Fave.C41.start_is_highest",
    "Fave.C41.start_read_is_consistent",
    "Fave.C41.search_breaks_start"
   ],
   "note": "Small-step machine, every shared access and lock a step. A search under way (LoadEntrypoint) can reset the start: search_breaks_start."
  },
  {
   "property": "C42",
   "status": "proved",
   "theorems": [
    "Fave.C42.text_is_concatenation",
    "Fave.C42.text_empty_iff",
    "Fave.C42.only_that_text_is_sent",
    "Fave.C42.without_text_number_minus_one",
    "Fave.C42.minus_one_never_found"
   ],
   "note": "text sent, crash on non-string properties, number -1 and its absence from answers"
  },
  {
   "property": "C43",
   "status": "partial",
   "theorems": [
    "Fave.C43.every_hit_has_document_partial",
    "Fave.C43.every_text_hit_has_document_partial",
    "Fave.C43.unmarshalled_breaks_search",
    "Fave.C43.failed_write_breaks_search",
    "Fave.C43.replaced_breaks_search"
   ],
   "note": "True for collections kept in order (every_hit_has_document_partial: any run of requests in which additions succeed, lose no numbered document and refuse only wrong-length vectors). False in general: witnesses for a document that cannot be marshalled, a failed write and a replaced id."
  },
  {
   "property": "C44",
   "status": "partial",
   "theorems": [
    "Fave.C44.lookup_matches_partial",
    "Fave.C44.lookup_stays_inside",
    "Fave.C44.blank_gets_any_document",
    "Fave.C44.ambiguous_conditions"
   ],
   "note": "false for blank or =-containing property/value (any document, or undecidable conditions); proved exact for plain ones, assuming the storage library understands plain conditions"
  },
  {
   "property": "C45",
   "status": "proved",
   "theorems": [
    "Fave.C45.layer_result_locally_optimal",
    "Fave.C45.layer_result_not_worse_than_entry",
    "Fave.C45.search_result_locally_optimal"
   ],
   "note": ""
  },
  {
   "property": "C46",
   "status": "proved",
   "theorems": [
    "Fave.C46.at_least_k",
    "Fave.C46.configured",
    "Fave.C46.automatic_bounds",
    "Fave.C46.automatic",
    "Fave.C46.monotone"
   ],
   "note": "All configurations and k, with 64-bit wrapping."
  },
  {
   "property": "C47",
   "status": "partial",
   "theorems": [
    "Fave.C47.deleted_leaves_nothing_partial",
    "Fave.C47.vectors_survive",
    "Fave.C47.documents_survive"
   ],
   "note": "False if one of the two storage calls of the deletion fails, since the answer is success all the same (vectors_survive, documents_survive). Proved: if both succeed, every later request is answered as in a pod where the collection never existed. Vectors kept in the client's document cache are an arbitrary function of this model; that the vectors of a deleted collection stay there and can be delivered for a re-created one is C87 (deleted_vector_delivered)."
  },
  {
   "property": "C48",
   "status": "proved",
   "theorems": [
    "Fave.C48.result_count",
    "Fave.C48.hit_count",
    "Fave.C48.small_collection_count"
   ],
   "note": "result counts for one layer, for the whole index, and for collections of at most maxConn vectors"
  },
  {
   "property": "C49",
   "status": "partial",
   "theorems": [
    "Fave.C49.small_collections_grow_partial",
    "Fave.C49.refused_without_vectors",
    "Fave.C49.refuses_for_ever",
    "Fave.C49.thirty_vectors_then_restart"
   ],
   "note": "false: a collection of maxConn (30) vectors refuses every vector after a restart, for ever (refuses_for_ever, thirty_vectors_then_restart); proved for smaller collections, whatever the caches deliver"
  },
  {
   "property": "C50",
   "status": "proved",
   "theorems": [
    "Fave.C50.new_vector_links",
    "Fave.C50.full_neighbour_links"
   ],
   "note": "whole additions from every history (new_vector_links) and linking back to a full neighbour (full_neighbour_links); assumes the vector caches deliver no wrong vector, a symmetric distance and an order without NaN"
  },
  {
   "property": "C51",
   "status": "proved",
   "theorems": [
    "Fave.C51.lists_behave",
    "Fave.C51.no_common_cell",
    "Fave.C51.loop_goes_through_chosen",
    "Fave.C51.clean_up_disturbs_loop"
   ],
   "note": "Refinement of plain lists for all operations; the loop of an addition is undisturbed by other additions (clean_up_disturbs_loop: not by a clean-up). The float comparison 1 - n/c > 0.33 is a parameter of which only n < c is used."
  },
  {
   "property": "C52",
   "status": "partial",
   "theorems": [
    "Fave.C52.requests_in_turn_partial",
    "Fave.C52.no_gaps",
    "Fave.C52.overlap_shares_number",
    "Fave.C52.overlap_harms_later",
    "Fave.C52.failed_store_shares_number"
   ],
   "note": "False of the code: overlapping requests read the same count (overlap_shares_number) and write back old counts, harming later requests (overlap_harms_later). Proved for requests one after the other without store failures. The stored count never leaves gaps, in any execution (no_gaps)."
  },
  {
   "property": "C53",
   "status": "proved",
   "theorems": [
    "Fave.C53.links_ok_at_every_moment",
    "Fave.C53.links_ok_undisturbed",
    "Fave.C53.alone_as_before",
    "Fave.C53.start_of_history"
   ],
   "note": "Link graph, start, vectors and levels at every moment of any interleaving of additions and flushes."
  },
  {
   "property": "C54",
   "status": "partial",
   "theorems": [
    "Fave.C54.added_vector_lost",
    "Fave.C54.all_connected_partial",
    "Fave.C54.all_found_partial"
   ],
   "note": "False of the code: added_vector_lost (two vectors of level 1 added at the same time; one keeps no incoming link on the base layer and after a restart no search returns it). all_connected_partial / all_found_partial: true if at most one of the additions has level 1 or more and no base-layer list gets full (numbers below the limit); missing: more such additions (false) and full lists (false already sequentially, C10)."
  },
  {
   "property": "C55",
   "status": "partial",
   "theorems": [
    "Fave.C55.flush_stores_half_built_vertex",
    "Fave.C55.committed_is_stored_partial",
    "Fave.C55.flush_stores_all_partial"
   ],
   "note": "negation flush_stores_half_built_vertex; proved if flushes and additions do not overlap (several additions may run at the same time, and several flushes)"
  },
  {
   "property": "C56",
   "status": "partial",
   "theorems": [
    "Fave.C56.search_makes_addition_lose_link",
    "Fave.C56.changes_kept_partial",
    "Fave.C56.changes_kept_cached_partial"
   ],
   "note": "negation search_makes_addition_lose_link; proved if no two threads load the same vertex at the same time, and if all stored vertices are cached at the beginning"
  },
  {
   "property": "C57",
   "status": "partial",
   "theorems": [
    "Fave.C57.found_as_put_partial",
    "Fave.C57.text_found_as_put_partial",
    "Fave.C57.orderly_addition_succeeds_partial",
    "Fave.C57.lookup_spoils_collection",
    "Fave.C57.empty_collection_fails",
    "Fave.C57.failed_creation_spoils_collection"
   ],
   "note": "Exact answers for all orderly request sequences and up to 30 vectors; the full statement is refuted by three witnesses (look-up after restart, empty collection, failed creation); larger collections are refuted by C10."
  },
  {
   "property": "C58",
   "status": "proved",
   "theorems": [
    "Fave.C58.pooled_objects_are_private",
    "Fave.C58.pools_are_in_order",
    "Fave.C58.queue_taken_is_empty"
   ],
   "note": "All interleavings of any number of threads. Justifies that the search model starts with fresh objects."
  },
  {
   "property": "C59",
   "status": "partial",
   "theorems": [
    "Fave.C59.nothing_lost_partial",
    "Fave.C59.restart_recovers_partial",
    "Fave.C59.clock_set_back_loses",
    "Fave.C59.deleted_node_returns",
    "Fave.C59.stop_after_renaming_doubles_links"
   ],
   "note": "False in full: if the clock is set back the file in use is condensed and removed (clock_set_back_loses); condensing forgets deletions (deleted_node_returns). Proved for all runs with a clock that does not go back, operations that only add (each node always with the same level, at most 65535 links per level), and stops anywhere except between the renaming of a combined log and the removal of its sources."
  },
  {
   "property": "C60",
   "status": "partial",
   "theorems": [
    "Fave.C60.pause_all_or_nothing_partial",
    "Fave.C60.pause_then_partial",
    "Fave.C60.lost_error",
    "Fave.C60.resume_never_fails",
    "Fave.C60.failed_shutdown_splits",
    "Fave.C60.shutdown_error_iff",
    "Fave.C60.log_cycles_together"
   ],
   "note": "False in full: errors.Wrap(ctx.Err(), ...) is nil if the context has not expired, so a failed shutdown of the commit log is reported as success (lost_error); ResumeMaintenance never fails (resume_never_fails); a failed Shutdown of the index stops only a part (failed_shutdown_splits). Proved for all sequences of calls in which stopping the commit log fails only when the context has expired."
  },
  {
   "property": "C61",
   "status": "partial",
   "theorems": [
    "Fave.C61.backup_complete_partial",
    "Fave.C61.same_second_missing",
    "Fave.C61.listed_and_removed",
    "Fave.C61.condensed_meanwhile_missing"
   ],
   "note": "False in full: a switch within the second in which the current file was opened opens the same file again and the listing leaves it out (same_second_missing); a temporary file is listed and removed (listed_and_removed); files are listed although background work goes on, and may be gone when copied (condensed_meanwhile_missing). Proved for all runs as in C59 if the switch is in a later second."
  },
  {
   "property": "C62",
   "status": "partial",
   "theorems": [
    "Fave.C62.right_iff_gapless",
    "Fave.C62.shifted",
    "Fave.C62.codes_right_partial",
    "Fave.C62.small_limit_drops_all",
    "Fave.C62.dropped_for_good",
    "Fave.C62.restart_mixes_up",
    "Fave.C62.inserted_meanwhile"
   ],
   "note": "False in general (witnesses restart_mixes_up, inserted_meanwhile); proved: an exact condition, and that codes stay right from then on if it holds."
  },
  {
   "property": "C63",
   "status": "partial",
   "theorems": [
    "Fave.C63.rounds_to_nearest",
    "Fave.C63.sqrt_rounded",
    "Fave.C63.sqrt_by_way_of_64_bits",
    "Fave.C63.near_truth_partial",
    "Fave.C63.off_simple",
    "Fave.C63.implementations_agree",
    "Fave.C63.ranking_right",
    "Fave.C63.never_negative",
    "Fave.C63.symmetric",
    "Fave.C63.self_zero",
    "Fave.C63.manhattan_zero",
    "Fave.C63.hamming_counts",
    "Fave.C63.processors_differ",
    "Fave.C63.l2_zero_for_different",
    "Fave.C63.dot_not_a_number"
   ],
   "note": "The bound holds for all finite results, and results are finite unless the magnitudes come near 2^128 (near_truth_partial). Missing because false: equal results on all processors (processors_differ), zero only for equal vectors for l2 (l2_zero_for_different), finiteness of the dot product without a bound on the magnitudes (dot_not_a_number)."
  },
  {
   "property": "C64",
   "status": "partial",
   "theorems": [
    "Fave.C64.always_finite",
    "Fave.C64.cosine_always_finite",
    "Fave.C64.unit_length_partial",
    "Fave.C64.cosine_near_truth_partial",
    "Fave.C64.cosine_range_partial",
    "Fave.C64.multiple_near_partial",
    "Fave.C64.cosine_order_partial",
    "Fave.C64.too_large_is_zero",
    "Fave.C64.too_small_is_zero",
    "Fave.C64.lost_direction",
    "Fave.C64.infinite_entry_not_a_number",
    "Fave.C64.self_distance_not_zero",
    "Fave.C64.not_idempotent"
   ],
   "note": "Proved for vectors of at most 2^20 float32 numbers with 2^-100 <= sum of squares <= 2^126 (unit_length_partial, cosine_near_truth_partial and consequences); finiteness for all (always_finite, cosine_always_finite). Missing because false: vectors whose squares overflow or underflow become zero vectors (too_large_is_zero, too_small_is_zero, lost_direction); infinite entries become not-a-number."
  },
  {
   "property": "C65",
   "status": "partial",
   "theorems": [
    "Fave.C65.always_numbers",
    "Fave.C65.hits_near_truth_partial",
    "Fave.C65.documents_near_truth_partial",
    "Fave.C65.self_distances",
    "Fave.C65.exact_match_dropped",
    "Fave.C65.limit_zero_misses",
    "Fave.C65.document_not_found"
   ],
   "note": "Missing because false: vectors nearer to the query than the rounding error, exact matches included, can be dropped since the code skips negative distances (exact_match_dropped, document_not_found). Also only up to 61 vectors in an index, up to 30 through the client after restarts (beyond that see C10 and C49)."
  },
  {
   "property": "C66",
   "status": "partial",
   "theorems": [
    "Fave.C66.flush_succeeds_partial",
    "Fave.C66.numbers_are_stored_partial",
    "Fave.C66.marshals_normalized",
    "Fave.C66.accepted_anyway",
    "Fave.C66.poison_stays",
    "Fave.C66.requests_fail",
    "Fave.C66.distance_not_a_number",
    "Fave.C66.returned_whatever_asked",
    "Fave.C66.hides_others",
    "Fave.C66.wrong_document_returned",
    "Fave.C66.compared",
    "Fave.C66.never_infinite"
   ],
   "note": "flush_succeeds_partial and numbers_are_stored_partial: flushes succeed after any history of vectors whose entries are finite. Missing because false: vectors with infinite entries (accepted_anyway, poison_stays, requests_fail, returned_whatever_asked, hides_others, wrong_document_returned)."
  },
  {
   "property": "C67",
   "status": "partial",
   "theorems": [
    "Fave.C67.round_trip_partial",
    "Fave.C67.round_trip_iff",
    "Fave.C67.deletes_another",
    "Fave.C67.lands_in_piece",
    "Fave.C67.empty_refused",
    "Fave.C67.every_name_deletable",
    "Fave.C67.path_escape_deletes"
   ],
   "note": "False for names with slashes, . and .. (deletes_another, round_trip_iff gives the exact condition). Proved for all other names and all query parameters that are not empty."
  },
  {
   "property": "C68",
   "status": "partial",
   "theorems": [
    "Fave.C68.answers_ignore_timing_partial",
    "Fave.C68.addition_ignores_timing_partial",
    "Fave.C68.histories_ignore_timing_partial",
    "Fave.C68.answer_depends_on_timing",
    "Fave.C68.links_depend_on_timing"
   ],
   "note": "False if two vectors are equally far from the query: answers and links then depend on timing (concrete witnesses). Proved for all sequences of operations, all limits and all timings if no operation meets a tie; ef at least 1, symmetric distance without NaN, numbers below the vector cache size."
  },
  {
   "property": "C69",
   "status": "partial",
   "theorems": [
    "Fave.C69.layers_geometric_partial",
    "Fave.C69.average_layer_partial",
    "Fave.C69.highest_layer_partial",
    "Fave.C69.at_most_ten",
    "Fave.C69.few_layers_partial",
    "Fave.C69.zero_panics",
    "Fave.C69.ten_is_reached"
   ],
   "note": "False for the draw 0 (probability 2^-53): no layer, the addition panics. Otherwise proved: distribution up to 2^-48, average up to 2^-43, at most layer 10 with M = 30 in every reachable state. math.Log is a parameter with relative error at most 2^-52; rand.Float64 is k / 2^53 with k uniform (library code, not modelled)."
  },
  {
   "property": "C70",
   "status": "proved",
   "theorems": [
    "Fave.C70.crash_has_cause",
    "Fave.C70.addition_crashes_exactly",
    "Fave.C70.insertion_crashes_exactly",
    "Fave.C70.search_never_crashes",
    "Fave.C70.index_object_there",
    "Fave.C70.rest_crash_has_cause",
    "Fave.C70.each_reason_occurs",
    "Fave.C70.rest_reasons_occur"
   ],
   "note": "For a single document on an open collection the reasons are exact (addition_crashes_exactly). Two writers at once (C41, C53-C55), the draw 0 of a layer (C69) and panics inside fairOS-dfs are outside. The list itself contains defects: null documents, non-string properties, unanswered vectoriser, negative limits, 25000 vectors and a look-up after a restart crash a request."
  },
  {
   "property": "C71",
   "status": "proved",
   "theorems": [
    "Fave.C71.configuration",
    "Fave.C71.serves_exactly_if_works",
    "Fave.C71.answers_nothing_otherwise",
    "Fave.C71.calls_in_order",
    "Fave.C71.start_keeps_pod",
    "Fave.C71.serving_is_logged_in",
    "Fave.C71.no_text_search_without_vectoriser",
    "Fave.C71.no_text_documents_without_vectoriser",
    "Fave.C71.serving_crashes_only_with_pod"
   ],
   "note": "Command-line flags and listeners are in C72. A successful login is taken to give a session id that is not empty. The health check asks `<url>//health` (two slashes); what the vectoriser makes of it is outside. USER, PASSWORD and POD have no defaults and are passed on empty if unset."
  },
  {
   "property": "C72",
   "status": "partial",
   "theorems": [
    "Fave.C72.schemes_started",
    "Fave.C72.unknown_words_listen_nowhere",
    "Fave.C72.starts_exactly_if",
    "Fave.C72.https_settings",
    "Fave.C72.closed_at_most_once",
    "Fave.C72.hooks_in_order",
    "Fave.C72.returns_only_after",
    "Fave.C72.serves_until_asked",
    "Fave.C72.never_stuck",
    "Fave.C72.steps_bounded",
    "Fave.C72.ends_when_asked",
    "Fave.C72.nothing_cut_off",
    "Fave.C72.own_server_waited_for_partial",
    "Fave.C72.others_cut_off",
    "Fave.C72.later_signals_ignored"
   ],
   "note": "`own_server_waited_for_partial` holds for a single server; `others_cut_off` is a counterexample for two. net/http is taken as documented (header of Model/Server); parsing of flags is not modelled. Both hooks are empty functions (configure_fave.go:64-66): nothing is flushed at the end."
  },
  {
   "property": "C73",
   "status": "partial",
   "theorems": [
    "Fave.C73.served_as_described",
    "Fave.C73.description_complete",
    "Fave.C73.nothing_before",
    "Fave.C73.panics_exactly",
    "Fave.C73.late_settings_ignored",
    "Fave.C73.configured",
    "Fave.C73.validate_exactly",
    "Fave.C73.consumers_exactly",
    "Fave.C73.producers_exactly",
    "Fave.C73.declared_partial",
    "Fave.C73.refused_body_declared",
    "Fave.C73.undeclared_status",
    "Fave.C73.never_not_found"
   ],
   "note": "declared_partial leaves out look-ups with an empty parameter, for which the claim is false (undeclared_status). The router, content negotiation and the status of go-openapi errors are outside the repository."
  },
  {
   "property": "C74",
   "status": "partial",
   "theorems": [
    "Fave.C74.never_stuck_partial",
    "Fave.C74.requests_never_stuck",
    "Fave.C74.bounded_partial",
    "Fave.C74.all_end_partial",
    "Fave.C74.exclusive",
    "Fave.C74.gives_back",
    "Fave.C74.failed_removal_hangs",
    "Fave.C74.failed_entry_hangs",
    "Fave.C74.failed_removal_hangs_insertions",
    "Fave.C74.full_claim_false"
   ],
   "note": "Full claim false (full_claim_false): two error paths of the clean-up leave a lock held. Proved without that failure, unconditionally for the calls made by the server, and the effect of the failure described exactly."
  },
  {
   "property": "C75",
   "status": "partial",
   "theorems": [
    "Fave.C75.never_stuck_partial",
    "Fave.C75.bounded",
    "Fave.C75.all_end_partial",
    "Fave.C75.exclusive",
    "Fave.C75.one_drop_ends",
    "Fave.C75.watcher_stays",
    "Fave.C75.drop_and_grow_hang",
    "Fave.C75.drop_and_tick_hang",
    "Fave.C75.full_claim_false"
   ],
   "note": "Full claim false for the code's 512 locks (full_claim_false, drop_and_grow_hang, drop_and_tick_hang for every n >= 2 and any further users). Proved without drop, and with one drop while nobody else takes all locks; exclusion, the bound and one_drop_ends hold for all users."
  },
  {
   "property": "C76",
   "status": "partial",
   "theorems": [
    "Fave.C76.only_these_partial",
    "Fave.C76.each_happens",
    "Fave.C76.exactly_these",
    "Fave.C76.guarded",
    "Fave.C76.readers_partial",
    "Fave.C76.apart_partial",
    "Fave.C76.full_claim_false",
    "Fave.C76.across_collections"
   ],
   "note": "Full claim false (full_claim_false). The table is exact in the model, whose branches are free (exactly_these). Proved free of races: five fields for all calls (guarded), readers of a collection among themselves (readers_partial), calls for different collections once logged in (apart_partial)."
  },
  {
   "property": "C77",
   "status": "proved",
   "theorems": [
    "Fave.C77.text_round_trip",
    "Fave.C77.steps_suffice",
    "Fave.C77.number_round_trip",
    "Fave.C77.reading_rounds",
    "Fave.C77.vertex_round_trip",
    "Fave.C77.refused_iff",
    "Fave.C77.table_says",
    "Fave.C77.keys_apart",
    "Fave.C77.torn_node",
    "Fave.C77.torn_count",
    "Fave.C77.torn_entry",
    "Fave.C77.changes_refused_iff"
   ],
   "note": "Removes the assumption that unmarshalling undoes marshalling for the index. encoding/json and strconv are not in /repo; they are modelled from their documented behaviour (Go 1.21). Hypothesis Fits is the Go typing of the fields together with finiteness of the vector, which refused_iff shows to be exactly when anything is written."
  },
  {
   "property": "C78",
   "status": "partial",
   "theorems": [
    "Fave.C78.requests_ok",
    "Fave.C78.value_survives_partial",
    "Fave.C78.looked_up_partial",
    "Fave.C78.found_partial",
    "Fave.C78.unreadable_iff",
    "Fave.C78.one_bad_document",
    "Fave.C78.infinite_distance",
    "Fave.C78.whole_numbers",
    "Fave.C78.numbers_rounded",
    "Fave.C78.odd_answer",
    "Fave.C78.full_claim_false",
    "Fave.C78.any_text_read"
   ],
   "note": "Full claim false of the code: numbers are rounded to float64 on the way out. Everything but numbers survives exactly, numbers up to that rounding."
  },
  {
   "property": "C79",
   "status": "partial",
   "theorems": [
    "Fave.C79.component_partial",
    "Fave.C79.vector_partial",
    "Fave.C79.nearly_nearest",
    "Fave.C79.double_component",
    "Fave.C79.doubles_survive",
    "Fave.C79.refused_iff",
    "Fave.C79.infinite_component",
    "Fave.C79.halfway_differs",
    "Fave.C79.full_claim_false",
    "Fave.C79.one_refuses",
    "Fave.C79.document_vector_refused",
    "Fave.C79.search_vector_refused"
   ],
   "note": "Full claim false of the code: double rounding in AddDocuments, and no range check there."
  },
  {
   "property": "C80",
   "status": "proved",
   "theorems": [
    "Fave.C80.add_back",
    "Fave.C80.coll_back",
    "Fave.C80.near_back",
    "Fave.C80.vec_back",
    "Fave.C80.not_written",
    "Fave.C80.rewritten",
    "Fave.C80.rest_ignored",
    "Fave.C80.nothing_said",
    "Fave.C80.order_ignored",
    "Fave.C80.unknown_ignored",
    "Fave.C80.limit_iff",
    "Fave.C80.one_bad_member"
   ],
   "note": "encoding/json, swag and go-openapi/runtime are modelled from their documented behaviour; a list given twice in one object replaces the first; names are folded for ASCII letters only"
  },
  {
   "property": "C81",
   "status": "partial",
   "theorems": [
    "Fave.C81.query_read",
    "Fave.C81.answer_iff",
    "Fave.C81.answer_back",
    "Fave.C81.component_nearest",
    "Fave.C81.silent_iff",
    "Fave.C81.passed_over",
    "Fave.C81.full_claim_false",
    "Fave.C81.equal_iff",
    "Fave.C81.distance_root",
    "Fave.C81.distance_symmetric",
    "Fave.C81.distance_zero"
   ],
   "note": "full claim false of the code (full_claim_false, silent_iff); the call itself (HTTP) is a parameter: no answer, or a status and a text"
  },
  {
   "property": "C82",
   "status": "proved",
   "theorems": [
    "Fave.C82.look_up_shows",
    "Fave.C82.search_shows",
    "Fave.C82.refused_only",
    "Fave.C82.accepted_then_shown"
   ],
   "note": "the index's size is assumed to be at most 2^53 (25000 in FaVe); which documents the database finds for a condition is a parameter; answers of other requests are not texts in the model"
  },
  {
   "property": "C83",
   "status": "partial",
   "theorems": [
    "Fave.C83.search_exact_partial",
    "Fave.C83.text_search_exact_partial",
    "Fave.C83.vector_search_partial",
    "Fave.C83.text_search_partial",
    "Fave.C83.exact_match_missing"
   ],
   "note": "limits: up to 30 entries (maxConn), vectors of squared length between 2^-100 and 2^126, properties in the range of 64-bit floats; exact for the computed distances (`search_exact_partial`), up to the rounding error (L+8)/2^20 for the angles"
  },
  {
   "property": "C84",
   "status": "partial",
   "theorems": [
    "Fave.C84.one_value",
    "Fave.C84.ok_means_done",
    "Fave.C84.list_exact_partial",
    "Fave.C84.copied_partial",
    "Fave.C84.foreign_listed",
    "Fave.C84.failed_deletion_listed",
    "Fave.C84.bytes_not_listed",
    "Fave.C84.creation_again_says_created"
   ],
   "note": "one_value and ok_means_done hold without restriction; list_exact_partial and copied_partial need steady storage and a pod without foreign databases that begin with fave_; witnesses foreign_listed, failed_deletion_listed, bytes_not_listed, creation_again_says_created"
  },
  {
   "property": "C85",
   "status": "partial",
   "theorems": [
    "Fave.C85.never_stuck_partial",
    "Fave.C85.all_end_partial",
    "Fave.C85.nothing_kept_partial",
    "Fave.C85.same_without_panic",
    "Fave.C85.kept_exactly",
    "Fave.C85.missing_layer_hangs",
    "Fave.C85.missing_layer_hangs_deletions",
    "Fave.C85.others_end",
    "Fave.C85.others_never_stuck"
   ],
   "note": "Full claim false: a stored vertex with fewer layers than its level says makes a search panic with the vertex locked for ever. Partial: with undamaged vertices nothing stays locked and all calls end; with damaged ones exactly one vertex lock stays, and other collections and the calls that neither search nor insert still end."
  },
  {
   "property": "C86",
   "status": "partial",
   "theorems": [
    "Fave.C86.addition_touches_few",
    "Fave.C86.flush_writes_few",
    "Fave.C86.flush_leaves_clean",
    "Fave.C86.writes_changed_and_loaded",
    "Fave.C86.writes_exactly_the_changed_partial",
    "Fave.C86.looked_up_is_written",
    "Fave.C86.rewriting_changes_nothing",
    "Fave.C86.unchanged_is_written",
    "Fave.C86.fave_batch_cost"
   ],
   "note": "additions touch at most maxConn vertices per layer plus the new one, and only add links to it; flush after k additions: at most the sum of these plus 2 writes; writes = changed or loaded since the last flush (exact); writes = changed fails after a restart (witness and general theorem)"
  },
  {
   "property": "C87",
   "status": "partial",
   "theorems": [
    "Fave.C87.fed_right",
    "Fave.C87.own_vector_partial",
    "Fave.C87.found_partial",
    "Fave.C87.forgotten",
    "Fave.C87.nothing_after_restart",
    "Fave.C87.deleted_vector_delivered",
    "Fave.C87.replaced_vector_delivered"
   ],
   "note": "answers come from the same name and number in all interleavings; right unless the number was given again in the process; witnesses: vector of a deleted collection delivered for the re-created one, vector of a failed request delivered; LRU: exact below 1000, forgotten beyond, nothing after a restart"
  },
  {
   "property": "C88",
   "status": "partial",
   "theorems": [
    "Fave.C88.reading_unaffected_partial",
    "Fave.C88.no_trace_partial",
    "Fave.C88.search_leaves_trace",
    "Fave.C88.failed_read_leaves_trace",
    "Fave.C88.lookup_leaves_trace"
   ],
   "note": "reads do not influence reads (any state, any failures of the earlier ones); reads change nothing in a collection whose last search or addition succeeded; witnesses: search between restart and addition, failed reading of the start vertex, look-up after a restart"
  },
  {
   "property": "C89",
   "status": "proved",
   "theorems": [
    "Fave.C89.each_once",
    "Fave.C89.results_were_asked",
    "Fave.C89.few_at_once",
    "Fave.C89.search_work",
    "Fave.C89.most_at_once",
    "Fave.C89.start_again"
   ],
   "note": "per layer each distance once and each vertex expanded once, for any graph; whole search at most 1 + (maxLayer+1)·n distances, at most maxConn0/maxConn goroutines per expansion; C69 bounds the number of layers"
  },
  {
   "property": "C90",
   "status": "partial",
   "theorems": [
    "Fave.C90.one_drop",
    "Fave.C90.waits_for_ever",
    "Fave.C90.nobody_enters",
    "Fave.C90.watcher_stays",
    "Fave.C90.orderly_partial",
    "Fave.C90.closed_partial",
    "Fave.C90.second_close",
    "Fave.C90.two_runs",
    "Fave.C90.close_beside_run",
    "Fave.C90.run_beside_close",
    "Fave.C90.close_leaves_watcher"
   ],
   "note": "false with witnesses: second closing, two runs of Compress, closing beside a run, watcher left behind; proved for orderly use (runs one at a time, one closing after all runs). The waiting is for progress: \"can finish\", no fairness assumption"
  },
  {
   "property": "C91",
   "status": "partial",
   "theorems": [
    "Fave.C91.cycles_leave_indices",
    "Fave.C91.failing_searches_leave_indices",
    "Fave.C91.failing_searches_reachable",
    "Fave.C91.few_indices_partial",
    "Fave.C91.open_makes_none",
    "Fave.C91.count_is_right",
    "Fave.C91.restart_ends_all"
   ],
   "note": "false: every creation or reopening leaves an index running for good; bounded without deletions and failing requests. Requests one after the other; garbage collection of what the goroutines do not hold is not considered"
  },
  {
   "property": "C92",
   "status": "partial",
   "theorems": [
    "Fave.C92.one_index_partial",
    "Fave.C92.settles",
    "Fave.C92.refused_beside",
    "Fave.C92.two_in_use",
    "Fave.C92.added_vector_lost",
    "Fave.C92.added_vector_lost_by_create",
    "Fave.C92.panics_beside_deletion",
    "Fave.C92.reading_changes_nothing"
   ],
   "note": "false with witnesses: two requests right after a restart get different index objects and a vector added with success is lost; re-creation beside an addition likewise; deletion beside a search panics. Proved if openings do not overlap and creations/deletions are not beside other requests, and that the index stays the same once opening is over. Each addition of a vector, flush and search is one step"
  },
  {
   "property": "C93",
   "status": "partial",
   "theorems": [
    "Fave.C93.search_by_vector_exact_partial",
    "Fave.C93.fave_exact_partial",
    "Fave.C93.default_exact_partial",
    "Fave.C93.nearest_unique",
    "Fave.C93.nearest_length",
    "Fave.C93.fave_width",
    "Fave.C93.default_width",
    "Fave.C93.unflushed_finds_nothing",
    "Fave.C93.unflushed_differs",
    "Fave.C93.unlinked_never_found",
    "Fave.C93.beyond_61_nearest_missed",
    "Fave.C93.fave_31_nearest_missed",
    "Fave.C93.leftover_in_filter_fails"
   ],
   "note": "false with witnesses: FaVe leaves all search settings at 0, so the width is k and from 31 vectors on the nearest can be missed; from 62 vectors on with any settings; before the first flush the search along the links finds nothing; a filter naming the leftover of a refused vector makes the search through the filter fail. Proved: exact up to 30 vectors for every k and settings, up to 61 with sufficient width, whichever way is taken, for flushed collections"
  },
  {
   "property": "C94",
   "status": "partial",
   "theorems": [
    "Fave.C94.distance_search_exact_partial",
    "Fave.C94.up_to_61_exact_partial",
    "Fave.C94.unflushed_finds_nothing",
    "Fave.C94.beyond_61_missed"
   ],
   "note": "false with witnesses beyond 61 vectors (any settings) and before the first flush. Proved for flushed collections of up to 61 vectors, for all search settings including FaVe's, all filters without leftovers, all limits and schedules"
  },
  {
   "property": "C95",
   "status": "partial",
   "theorems": [
    "Fave.C95.not_reported",
    "Fave.C95.never_panics",
    "Fave.C95.reporting_is_invisible",
    "Fave.C95.threads_gauge",
    "Fave.C95.counters",
    "Fave.C95.surplus_stays_partial",
    "Fave.C95.never_too_few_partial",
    "Fave.C95.tombstone_gauge_partial",
    "Fave.C95.deleted_twice",
    "Fave.C95.searched_twice",
    "Fave.C95.found_at_once",
    "Fave.C95.cleaned_twice",
    "Fave.C95.opened_anew",
    "Fave.C95.nil_gauges_would_panic"
   ],
   "note": "False for the gauge of marks: witnesses deleted_twice, searched_twice, found_at_once, cleaned_twice, opened_anew. The rest is proved for all interleavings; the gauge of marks under the hypotheses that no id is marked by two calls and that there is at most one clean-up."
  },
  {
   "property": "C96",
   "status": "proved",
   "theorems": [
    "Fave.C96.add_work",
    "Fave.C96.add_total",
    "Fave.C96.fave_work",
    "Fave.C96.unread_irrelevant",
    "Fave.C96.small_needs_no_vectors"
   ],
   "note": "Counts distances and reads of the vector cache per layer, for every history and every oracle; retries below the vector cache are outside."
  },
  {
   "property": "C97",
   "status": "partial",
   "theorems": [
    "Fave.C97.each_once_partial",
    "Fave.C97.fetches_few_partial",
    "Fave.C97.again_for_free_partial",
    "Fave.C97.fetches_at_least",
    "Fave.C97.absent_every_time",
    "Fave.C97.every_read_fetches",
    "Fave.C97.search_depends_on_reads",
    "Fave.C97.search_reads_stored",
    "Fave.C97.searches_fetch_once_partial"
   ],
   "note": "True up to the capacity of the node cache (10000), for every number and interleaving of searches. False beyond: every_read_fetches for every capacity; lower bound fetches_at_least. Look-ups are atomic here (two look-ups of the same vertex at once: C56)."
  },
  {
   "property": "C98",
   "status": "partial",
   "theorems": [
    "Fave.C98.layer_wider_partial",
    "Fave.C98.wider_keeps_partial",
    "Fave.C98.wider_nearer_partial",
    "Fave.C98.true_neighbours_kept_partial",
    "Fave.C98.history_wider_partial",
    "Fave.C98.text_search_wider_partial",
    "Fave.C98.wider_can_lose"
   ],
   "note": "True for all graphs and timings when no two stored vectors are equally far from the query and distances are not negative. False with ties: wider_can_lose, a reachable state in which limit 3 finds the exact match and limit 4 does not."
  },
  {
   "property": "C99",
   "status": "partial",
   "theorems": [
    "Fave.C99.radius_cuts",
    "Fave.C99.vector_search_stricter",
    "Fave.C99.text_search_radius",
    "Fave.C99.filter_keeps_partial",
    "Fave.C99.filter_nearer_partial",
    "Fave.C99.history_filter_partial",
    "Fave.C99.filter_can_lose"
   ],
   "note": "Maximal distance and limit: proved without exception (the limit of the search by text is its width, see C98). Allow list: true without ties and negative distances, in the sense that no permitted hit is lost and place by place the restricted search is no farther; false with ties: filter_can_lose."
  },
  {
   "property": "C100",
   "status": "partial",
   "theorems": [
    "Fave.C100.copies_keep_out",
    "Fave.C100.unlinked_never_found",
    "Fave.C100.hidden_by_copies",
    "Fave.C100.copies_first_partial",
    "Fave.C100.newcomer_hidden"
   ],
   "note": "False in general: hidden_by_copies (concrete history with small link limits), with the mechanism proved for all parameters (copies_keep_out, unlinked_never_found). copies_first_partial: the claim for collections of at most 61 vectors with FaVe's parameters. Missing: larger collections."
  },
  {
   "property": "C101",
   "status": "proved",
   "theorems": [
    "Fave.C101.lost_stays_lost",
    "Fave.C101.unreachable_stays_lost",
    "Fave.C101.unreachable_after_flush_stays_lost"
   ],
   "note": "With C10 and C100 this says that losses are permanent: an index that has lost a document does not repair itself. The example with a restart shows why the stored links have to be mentioned."
  },
  {
   "property": "C102",
   "status": "proved",
   "theorems": [
    "Fave.C102.division_does_not_matter",
    "Fave.C102.same_looks_same_future",
    "Fave.C102.division_cannot_fail",
    "Fave.C102.empty_request_matters",
    "Fave.C102.restart_matters",
    "Fave.C102.restart_matters_only_by_layers"
   ],
   "note": "The additions are those that succeed; division_cannot_fail shows that success does not depend on the division if all vectors can be marshalled. The number of a batch is counted on (document.go:337-343,425), document storage is not part of this claim."
  },
  {
   "property": "C103",
   "status": "proved",
   "theorems": [
    "Fave.C103.small_addition_ignores_cache",
    "Fave.C103.small_requests_ignore_cache",
    "Fave.C103.cache_matters_at_bound"
   ],
   "note": "Complements C49 (from 30 vectors on additions after a restart are refused) and C87."
  }
 ]
}