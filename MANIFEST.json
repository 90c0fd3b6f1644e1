{
 "claims": [
  {
   "property": "C01",
   "status": "proved",
   "theorems": [
    "Vectory.C01_vector_codec",
    "Vectory.C01_vector_store"
   ],
   "note": "Byte-level codec, both directions; and put/get of the vector store whatever it held before."
  },
  {
   "property": "C02",
   "status": "proved",
   "theorems": [
    "Vectory.Conc.C02_insert_readable_concurrent",
    "Vectory.Conc.C02_batch_readable_concurrent",
    "Vectory.C02_insert_readable",
    "Vectory.C02_batch_readable"
   ],
   "note": "Later history ranges over calls, storage failures, crashes inside calls and reopens. Batches under every worker schedule: C14/C15."
  },
  {
   "property": "C03",
   "status": "proved",
   "theorems": [
    "Vectory.Conc.C03_get_filters_concurrent",
    "Vectory.C03_get_filters"
   ],
   "note": "Also for histories with concurrent batches (_concurrent)."
  },
  {
   "property": "C04",
   "status": "proved",
   "theorems": [
    "Vectory.Conc.C04_batch_any_schedule",
    "Vectory.Conc.C04_ids_distinct_concurrent",
    "Vectory.C04_ids_database",
    "Vectory.C04_ids_never_twice",
    "Vectory.C04_ids_distinct"
   ],
   "note": "Below 2^64 ids; and at every moment of a concurrent batch."
  },
  {
   "property": "C05",
   "status": "proved",
   "theorems": [
    "Vectory.Conc.C05_batch_any_schedule",
    "Vectory.Conc.C05_torn_any_concurrent",
    "Vectory.Conc.C05_next_id_concurrent",
    "Vectory.C05_torn_any",
    "Vectory.C05_ids_after_crash",
    "Vectory.C05_torn_write_reuses_ids",
    "Vectory.C05_torn_first_write_unopenable",
    "Vectory.C05_torn_exact"
   ],
   "note": "Settled in every case. The unconditional wish (no crash point reuses ids) is false: C05_torn_write_reuses_ids, C05_torn_first_write_unopenable; C05_torn_any (any reachable state) and C05_torn_exact (right after an Insert, with the number of ids reused) say exactly which cut writes do it. Also proved for histories in which several workers ran the batches (C05_torn_any; suffix _concurrent, Props/ConcExact)."
  },
  {
   "property": "C06",
   "status": "proved",
   "theorems": [
    "Vectory.Conc.C06_deleted_stays_deleted_concurrent",
    "Vectory.C06_deleted_stays_deleted",
    "Vectory.C06_future_id_not_reserved"
   ],
   "note": "For ids that had been handed out; C06_future_id_not_reserved shows why that restriction is needed."
  },
  {
   "property": "C07",
   "status": "proved",
   "theorems": [
    "Vectory.Conc.C07_delete_twice_concurrent",
    "Vectory.Conc.C07_delete_search_concurrent",
    "Vectory.Conc.C07_delete_frame_concurrent",
    "Vectory.C07_delete_frame",
    "Vectory.C07_delete_unknown",
    "Vectory.C07_delete_twice",
    "Vectory.C07_delete_search"
   ],
   "note": "Also proved for histories in which several workers ran the batches (C07_delete_search; suffix _concurrent, Props/ConcExact)."
  },
  {
   "property": "C08",
   "status": "proved",
   "theorems": [
    "Vectory.C08_size",
    "Vectory.C08_size_lower",
    "Vectory.C08_failed_insert_counts",
    "Vectory.Conc.C08_size_lower_concurrent",
    "Vectory.C08_size_exact"
   ],
   "note": "Settled in every case. The unconditional wish (GetSize always equals the readable objects) is false: C08_failed_insert_counts."
  },
  {
   "property": "C09",
   "status": "proved",
   "theorems": [
    "Vectory.Conc.C09_batch_any_schedule",
    "Vectory.C09_insert_frame",
    "Vectory.C09_batch_frame"
   ],
   "note": ""
  },
  {
   "property": "C10",
   "status": "proved",
   "theorems": [
    "Vectory.C10_insert_properties",
    "Vectory.C10_batch_properties",
    "Vectory.C10_exact_not_refused",
    "Vectory.C10_repeated_mapping",
    "Vectory.C10_accepted_exact",
    "Vectory.C10_refused_exact",
    "Vectory.C10_refusal_names_first"
   ],
   "note": "Settled in every case. 'Accepted objects carry exactly the mapped properties' is false for a mapping list with a repeated name: C10_repeated_mapping."
  },
  {
   "property": "C11",
   "status": "proved",
   "theorems": [
    "Vectory.C11_insert_refused",
    "Vectory.C11_batch_refused",
    "Vectory.C11_invalid_member"
   ],
   "note": ""
  },
  {
   "property": "C12",
   "status": "proved",
   "theorems": [
    "Vectory.C12_batch_vectors",
    "Vectory.C12_asked_only_for_missing",
    "Vectory.C12_missing_vector_refused",
    "Vectory.C12_insert_vector"
   ],
   "note": ""
  },
  {
   "property": "C13",
   "status": "proved",
   "theorems": [
    "Vectory.C13_in_bounds",
    "Vectory.C13_partition",
    "Vectory.C13_exactly_one"
   ],
   "note": ""
  },
  {
   "property": "C14",
   "status": "proved",
   "theorems": [
    "Vectory.Conc.C14_no_panic",
    "Vectory.Conc.C14_race_free",
    "Vectory.Conc.C14_tame",
    "Vectory.Conc.C14_with_lock"
   ],
   "note": "Proved as stated. That a worker can fail in the code as it is, with success reported: C57_fails (property C57)."
  },
  {
   "property": "C15",
   "status": "proved",
   "theorems": [
    "Vectory.Conc.C15_no_panic",
    "Vectory.Conc.C15_race_free",
    "Vectory.Conc.C15_tame",
    "Vectory.Conc.C15_with_lock"
   ],
   "note": "Proved as stated, as C14."
  },
  {
   "property": "C16",
   "status": "proved",
   "theorems": [
    "Vectory.Conc.C16_without_order_concurrent",
    "Vectory.Conc.C16_well_formed_concurrent",
    "Vectory.C16_well_formed",
    "Vectory.C16_without_order"
   ],
   "note": ""
  },
  {
   "property": "C17",
   "status": "proved",
   "theorems": [
    "Vectory.Conc.C17_true_distance_concurrent",
    "Vectory.C17_true_distance"
   ],
   "note": ""
  },
  {
   "property": "C18",
   "status": "proved",
   "theorems": [
    "Vectory.Conc.C18_hits_live_concurrent",
    "Vectory.C18_database",
    "Vectory.C18_hits_live"
   ],
   "note": ""
  },
  {
   "property": "C19",
   "status": "proved",
   "theorems": [
    "Vectory.Conc.C19_search_exact_concurrent",
    "Vectory.Conc.C19_no_panic_concurrent",
    "Vectory.C19_no_panic",
    "Vectory.C19_empty_collection",
    "Vectory.C19_negative_k",
    "Vectory.C19_m_is_one",
    "Vectory.C19_m_too_large",
    "Vectory.C19_dimension_mismatch",
    "Vectory.C19_dot_dimension",
    "Vectory.C19_search_exact",
    "Vectory.C19_search_exact_uncrashed"
   ],
   "note": "Settled. The unconditional wish (no accepted configuration and no call ever panics) is false in six ways, each a theorem (C19_empty_collection, C19_negative_k, C19_m_is_one, C19_m_too_large, C19_dimension_mismatch, C19_dot_dimension); C19_search_exact says exactly when a search panics. Also proved for histories in which several workers ran the batches (C19_search_exact; suffix _concurrent, Props/ConcExact)."
  },
  {
   "property": "C20",
   "status": "proved",
   "theorems": [
    "Vectory.C20_search_loop_bound",
    "Vectory.C20_search_and_insert_finish",
    "Vectory.C20_inner_loops"
   ],
   "note": ""
  },
  {
   "property": "C21",
   "status": "proved",
   "theorems": [
    "Vectory.Conc.C21_locally_optimal_concurrent",
    "Vectory.C21_locally_optimal",
    "Vectory.C21_nothing_evaluated_is_closer"
   ],
   "note": ""
  },
  {
   "property": "C22",
   "status": "proved",
   "theorems": [
    "Vectory.Conc.C22_with_peek_concurrent",
    "Vectory.C22_small_exact",
    "Vectory.C22_complete_exact",
    "Vectory.C22_not_exact",
    "Vectory.C22_with_peek",
    "Vectory.C22_with_peek_small"
   ],
   "note": "The claim one would like (any connected graph, ef >= n) is false of the code: C22_not_exact (Heap.Peek returns the last array cell). Proved: exactness for complete bottom layers and small collections; and that repairing Peek gives the full claim. Also proved for histories in which several workers ran the batches (C22_with_peek; suffix _concurrent, Props/ConcExact)."
  },
  {
   "property": "C23",
   "status": "proved",
   "theorems": [
    "Vectory.C23_reachable",
    "Vectory.C23_unreachable"
   ],
   "note": "Unbounded reachability is false of the code (C23_unreachable: pruning drops every incoming link, at 2*m_max+2 vectors). Proved up to 2*m_max+1 vectors."
  },
  {
   "property": "C24",
   "status": "proved",
   "theorems": [
    "Vectory.Conc.C24_with_peek_concurrent",
    "Vectory.C24_deletes_hide_nothing",
    "Vectory.C24_hidden",
    "Vectory.C24_with_peek"
   ],
   "note": "The unrestricted claim is false of the code (C24_hidden). Proved for small collections, and for the repaired search in general. Also proved for histories in which several workers ran the batches (C24_with_peek; suffix _concurrent, Props/ConcExact)."
  },
  {
   "property": "C25",
   "status": "proved",
   "theorems": [
    "Vectory.C25_comparable",
    "Vectory.C25_comparable_distances",
    "Vectory.C25_heap_is_queue",
    "Vectory.C25_min_heap",
    "Vectory.C25_max_heap",
    "Vectory.C25_nothing_lost",
    "Vectory.C25_peek_is_not_next"
   ],
   "note": ""
  },
  {
   "property": "C26",
   "status": "proved",
   "theorems": [
    "Vectory.Conc.C26_links_concurrent",
    "Vectory.Conc.C26_level_zero",
    "Vectory.Conc.C26_level_zero_any_moment",
    "Vectory.Conc.C26_self_link",
    "Vectory.Conc.C26_above_top",
    "Vectory.C26_well_formed"
   ],
   "note": "Sequential histories: everything. Histories with concurrent batches: links and entry point for all schedules (C26_links_concurrent); everything when the batches draw only level 0, at every moment (C26_level_zero, C26_level_zero_any_moment). With other levels self links and vertices above the top layer occur, even on race-free schedules (C26_self_link, C26_above_top)."
  },
  {
   "property": "C27",
   "status": "proved",
   "theorems": [
    "Vectory.Conc.C27_degree_concurrent",
    "Vectory.C27_degree"
   ],
   "note": ""
  },
  {
   "property": "C28",
   "status": "proved",
   "theorems": [
    "Vectory.C28_decode_encode",
    "Vectory.C28_distinct",
    "Vectory.C28_unknown"
   ],
   "note": ""
  },
  {
   "property": "C29",
   "status": "proved",
   "theorems": [
    "Vectory.Conc.C29_reopened_index_concurrent",
    "Vectory.C29_reopened_index"
   ],
   "note": ""
  },
  {
   "property": "C30",
   "status": "proved",
   "theorems": [
    "Vectory.Conc.C30_prefix_replays_concurrent",
    "Vectory.C30_prefix_replays"
   ],
   "note": ""
  },
  {
   "property": "C31",
   "status": "proved",
   "theorems": [
    "Vectory.Conc.C31_batch_concurrent",
    "Vectory.Conc.C31_batch_concurrent_reads",
    "Vectory.Conc.C31_exact_concurrent",
    "Vectory.C31_crash_in_insert",
    "Vectory.C31_unopenable_after_vector",
    "Vectory.C31_unopenable_inside_batch",
    "Vectory.C31_exact",
    "Vectory.C31_unopenable_database"
   ],
   "note": "Settled at every crash point. The unconditional wish (it can always be opened again) is false: C31_unopenable_after_vector, C31_unopenable_inside_batch, C31_unopenable_database. C31_batch_concurrent covers every moment of a batch run by several workers (cut counter writes excluded there; they are in C31_exact). Also proved for histories in which several workers ran the batches (C31_exact; suffix _concurrent, Props/ConcExact)."
  },
  {
   "property": "C32",
   "status": "proved",
   "theorems": [
    "Vectory.Conc.C32_exact_concurrent",
    "Vectory.C32_crash_in_delete",
    "Vectory.C32_search_panics",
    "Vectory.C32_exact"
   ],
   "note": "Settled at every crash point. The unconditional wish (searches keep working) is false: C32_search_panics, in every reachable state. Also proved for histories in which several workers ran the batches (C32_exact; suffix _concurrent, Props/ConcExact)."
  },
  {
   "property": "C33",
   "status": "proved",
   "theorems": [
    "Vectory.Conc.C33_sequence_contiguous_concurrent",
    "Vectory.C33_sequence_contiguous"
   ],
   "note": ""
  },
  {
   "property": "C34",
   "status": "proved",
   "theorems": [
    "Vectory.Conc.C34_reopen_indistinguishable_concurrent",
    "Vectory.Conc.C34_reopen_keeps_objects_concurrent",
    "Vectory.C34_database",
    "Vectory.C34_reopen_keeps_objects",
    "Vectory.C34_reopen_indistinguishable"
   ],
   "note": ""
  },
  {
   "property": "C35",
   "status": "proved",
   "theorems": [
    "Vectory.C35_holds",
    "Vectory.C35_mappings_lost",
    "Vectory.C35_witness"
   ],
   "note": "Settled. The wish that mappings survive is false: C35_mappings_lost, C35_witness. Hypothesis: index parameter keys that differ in more than case, or a Go map (decoding picks by case-insensitive name)."
  },
  {
   "property": "C36",
   "status": "proved",
   "theorems": [
    "Vectory.C36_map"
   ],
   "note": ""
  },
  {
   "property": "C37",
   "status": "proved",
   "theorems": [
    "Vectory.C37_holds",
    "Vectory.C37_no_leftovers",
    "Vectory.C37_disk_ann",
    "Vectory.C37_disk_ann_witness",
    "Vectory.C37_existing_directory",
    "Vectory.C37_existing_directory_witness",
    "Vectory.C37_exact"
   ],
   "note": "Settled in every case. The unconditional wish (a failed CreateCollection has no effect) is false: C37_disk_ann, C37_existing_directory."
  },
  {
   "property": "C38",
   "status": "proved",
   "theorems": [
    "Vectory.C38_holds",
    "Vectory.C38_lost",
    "Vectory.C38_exact"
   ],
   "note": "Settled. The unconditional wish is false: C38_lost."
  },
  {
   "property": "C39",
   "status": "proved",
   "theorems": [
    "Vectory.C39_database",
    "Vectory.C39_collection",
    "Vectory.C39_close_closes",
    "Vectory.C39_delete_not_refused"
   ],
   "note": "Settled. The wish that Delete too returns the closed error is false: C39_delete_not_refused."
  },
  {
   "property": "C40",
   "status": "proved",
   "theorems": [
    "Vectory.C40_validation",
    "Vectory.C40_parameters",
    "Vectory.C40_fields",
    "Vectory.C40_used",
    "Vectory.C40_object_meaning",
    "Vectory.C40_missing"
   ],
   "note": ""
  },
  {
   "property": "C41",
   "status": "proved",
   "theorems": [
    "Vectory.C41_add",
    "Vectory.C41_get",
    "Vectory.C41_delete"
   ],
   "note": ""
  },
  {
   "property": "C42",
   "status": "proved",
   "theorems": [
    "Vectory.C42_plain",
    "Vectory.C42_escapes",
    "Vectory.C42_exact"
   ],
   "note": "Settled. Names are not checked by the code, so 'names cannot reach outside the data directory' is false: C42_escapes."
  },
  {
   "property": "C43",
   "status": "proved",
   "theorems": [
    "Vectory.C43_simple_comparable",
    "Vectory.C43_heuristic_comparable",
    "Vectory.C43_simple",
    "Vectory.C43_distinct_candidates",
    "Vectory.C43_heuristic"
   ],
   "note": ""
  },
  {
   "property": "C44",
   "status": "proved",
   "theorems": [
    "Vectory.C44_euclidean",
    "Vectory.C44_dot",
    "Vectory.C44_dot_panics"
   ],
   "note": "Settled for every length, over arbitrary float operations. The wish that Dot is total is false: C44_dot_panics."
  },
  {
   "property": "C45",
   "status": "proved",
   "theorems": [
    "Vectory.Conc.C45_euclidean_concurrent",
    "Vectory.C45_euclidean",
    "Vectory.C45_dot_ranks_backwards",
    "Vectory.C45_dot_returns_least_similar"
   ],
   "note": "Settled. The wish (dot_product: most similar first) is false: C45_dot_ranks_backwards, C45_dot_returns_least_similar. Also proved for histories in which several workers ran the batches (C45_euclidean; suffix _concurrent, Props/ConcExact)."
  },
  {
   "property": "C46",
   "status": "proved",
   "theorems": [
    "Vectory.C46_build",
    "Vectory.C46_algebra",
    "Vectory.C46_compare",
    "Vectory.C46_intersection",
    "Vectory.C46_intersection_with_empty",
    "Vectory.C46_some_is_all",
    "Vectory.C46_intersection_exact",
    "Vectory.C46_some_exact"
   ],
   "note": "Settled. The wish that Intersection and Some are the mathematical ones is false: C46_intersection_with_empty, C46_some_is_all."
  },
  {
   "property": "C47",
   "status": "proved",
   "theorems": [
    "Vectory.C47_two_ended_queue",
    "Vectory.C47_single_start",
    "Vectory.C47_pop_returns_first",
    "Vectory.C47_exactly",
    "Vectory.C47_nothing_lost_building",
    "Vectory.C47_nothing_lost_popping"
   ],
   "note": "Settled. The wish for every slice is false: C47_pop_returns_first."
  },
  {
   "property": "C48",
   "status": "proved",
   "theorems": [
    "Vectory.C48_ids_read",
    "Vectory.C48_gap_lost",
    "Vectory.C48_refused_vector_shifts_ids",
    "Vectory.C48_roundtrip",
    "Vectory.C48_metadata",
    "Vectory.C48_two_links_lost",
    "Vectory.C48_large_vertices_panic",
    "Vectory.C48_read_index_unusable",
    "Vectory.C48_witness",
    "Vectory.C48_restored_iff",
    "Vectory.C48_linked_neighbours_lost"
   ],
   "note": "C48_restored_iff is exact; C48_metadata and C48_ids_read hold for every index; C48_gap_lost, C48_refused_vector_shifts_ids, C48_read_index_unusable, C48_large_vertices_panic, C48_witness: what fails. File errors are not modelled."
  },
  {
   "property": "C49",
   "status": "proved",
   "theorems": [
    "Vectory.C49_prune_sound",
    "Vectory.C49_prune_distinct",
    "Vectory.C49_degree_exceeded",
    "Vectory.C49_prune_exact",
    "Vectory.C49_prune_full",
    "Vectory.C49_degree_unbounded"
   ],
   "note": "C49_prune_exact characterises the result; C49_degree_unbounded: for every positive maxDegree and every n < 2^32-1 an index of n+1 vectors with a vertex of degree n."
  },
  {
   "property": "C50",
   "status": "proved",
   "theorems": [
    "Vectory.Conc.C50_level_zero",
    "Vectory.Conc.C50_with_lock",
    "Vectory.Conc.C50_fails",
    "Vectory.Conc.C50_race_free",
    "Vectory.Conc.C50_level_zero_no_race",
    "Vectory.Conc.C50_race_or_not"
   ],
   "note": "For all levels on race-free schedules (C50_race_free), every schedule is race-free or passes through the race (C50_race_or_not), level 0 and the program with the lock are race-free; C50_fails shows the panic on a schedule through the race."
  },
  {
   "property": "C51",
   "status": "proved",
   "theorems": [
    "Vectory.Conc.C51_level_zero",
    "Vectory.Conc.C51_with_lock",
    "Vectory.Conc.C51_fails",
    "Vectory.Conc.C51_durable_damage",
    "Vectory.Conc.C51_race_free",
    "Vectory.Conc.C51_batch_on_disk"
   ],
   "note": "As C50 (C51_race_free; C51_fails, C51_durable_damage on schedules through the race)."
  },
  {
   "property": "C52",
   "status": "proved",
   "theorems": [
    "Vectory.Conc.C52_no_size",
    "Vectory.Conc.C52_size",
    "Vectory.Conc.C52_size_apart",
    "Vectory.Conc.C52_again",
    "Vectory.Conc.C52_fails"
   ],
   "note": "C52_size is the property; C52_size_apart: exact when no GetSize overlaps a write; C52_fails: exactness is false of the code in general. Not covered: Close, batches that return before their workers have ended."
  },
  {
   "property": "C53",
   "status": "proved",
   "theorems": [
    "Vectory.Conc.C53_failed_insert_concurrent",
    "Vectory.Conc.C53_unopenable_after_failed_flush_concurrent",
    "Vectory.Conc.C53_exact_concurrent",
    "Vectory.Conc.C53_next_flush_repairs_concurrent",
    "Vectory.C53_failed_insert",
    "Vectory.C53_unopenable_after_failed_flush",
    "Vectory.C53_next_flush_repairs",
    "Vectory.C53_exact"
   ],
   "note": "Settled for every call, failure and reachable state. The unconditional wish is false: C53_unopenable_after_failed_flush. Also proved for histories in which several workers ran the batches (C53_exact; suffix _concurrent, Props/ConcExact)."
  },
  {
   "property": "C54",
   "status": "proved",
   "theorems": [
    "Vectory.C54_holds",
    "Vectory.C54_mappings_hidden",
    "Vectory.C54_exact",
    "Vectory.C54_after_restart"
   ],
   "note": "Settled. The wish that mappings are shown is false: C54_mappings_hidden."
  },
  {
   "property": "C55",
   "status": "proved",
   "theorems": [
    "Vectory.C55_service_irrelevant",
    "Vectory.C55_vectors_kept",
    "Vectory.C55_failing_service_blocks"
   ],
   "note": "Settled in both cases. The wish (a failing service does not matter) is false: C55_failing_service_blocks."
  },
  {
   "property": "C56",
   "status": "proved",
   "theorems": [
    "Vectory.Conc.C56_exact",
    "Vectory.Conc.C56_nothing_running",
    "Vectory.Conc.C56_success",
    "Vectory.Conc.C56_fails"
   ],
   "note": "Settled. The unconditional wish (nothing is written after a return with an error) is false: C56_fails; C56_exact says what still can be."
  },
  {
   "property": "C57",
   "status": "proved",
   "theorems": [
    "Vectory.Conc.C57_exact",
    "Vectory.Conc.C57_exact_channel",
    "Vectory.Conc.C57_channel_survivor",
    "Vectory.Conc.C57_race_free",
    "Vectory.Conc.C57_tame",
    "Vectory.Conc.C57_fails"
   ],
   "note": "Settled in every case. The unconditional wish (no error means everything is stored) is false: C57_fails; C57_exact and C57_exact_channel say exactly what is missing."
  },
  {
   "property": "C58",
   "status": "proved",
   "theorems": [
    "Vectory.C58_search_sound",
    "Vectory.C58_empty_panics"
   ],
   "note": ""
  },
  {
   "property": "C59",
   "status": "proved",
   "theorems": [
    "Vectory.C59_insert_succeeds",
    "Vectory.C59_insert_refused",
    "Vectory.C59_graph_sound"
   ],
   "note": ""
  },
  {
   "property": "C60",
   "status": "proved",
   "theorems": [
    "Vectory.C60_deletes_ignored"
   ],
   "note": "Settled: the theorem says exactly what deletions hide. The wish (exactly the deleted objects are hidden) is false of the code, which never stores the object id of a vertex (memory_index.go:111-171)."
  },
  {
   "property": "C61",
   "status": "proved",
   "theorems": [
    "Vectory.C61_merge",
    "Vectory.C61_first_always_kept",
    "Vectory.C61_one_ignores_readonly",
    "Vectory.C61_witness",
    "Vectory.C61_merge_exact",
    "Vectory.C61_search_exact",
    "Vectory.C61_zero"
   ],
   "note": "Settled. The wish (always the k nearest) is false: C61_first_always_kept, C61_one_ignores_readonly, C61_witness."
  },
  {
   "property": "C62",
   "status": "proved",
   "theorems": [
    "Vectory.Conc.C62_bounded",
    "Vectory.Conc.C62_no_deadlock",
    "Vectory.Conc.C62_level_zero",
    "Vectory.Conc.C62_with_lock",
    "Vectory.Conc.C62_fails",
    "Vectory.Conc.C62_race_free"
   ],
   "note": "C62_bounded, C62_no_deadlock for all schedules; C62_race_free; C62_fails on a schedule through the race."
  },
  {
   "property": "C63",
   "status": "proved",
   "theorems": [
    "Vectory.Conc.C63_lost_objects",
    "Vectory.Conc.C63_level_zero",
    "Vectory.Conc.C63_with_peek"
   ],
   "note": "C63_lost_objects: counterexample schedule when a level above 0 is drawn. C63_level_zero and C63_with_peek: the positive part, for histories whose concurrent batches draw only level 0."
  },
  {
   "property": "C64",
   "status": "proved",
   "theorems": [
    "Vectory.C64_batch_is_loop",
    "Vectory.Conc.C64_one_worker"
   ],
   "note": "Both directions, for all schedules. Several workers: C14, C15, C57."
  },
  {
   "property": "C65",
   "status": "proved",
   "theorems": [
    "Vectory.C65_calls_return",
    "Vectory.C65_reads_return"
   ],
   "note": "Legal calls: index parameters with 2 <= m <= 2*m_max, one dimension per collection (a multiple of 8 for dot_product), distinct parameter keys, a metadata store and directory that do not fail in CreateCollection (C37/C38 treat those). The read exceptions are C19's. A name whose directory an interrupted DeleteCollection left behind is not created again (C68_resurrects shows why)."
  },
  {
   "property": "C66",
   "status": "proved",
   "theorems": [
    "Vectory.C66_insert_survives",
    "Vectory.C66_read_survives",
    "Vectory.C66_gone_stays_gone"
   ],
   "note": "C66_insert_survives (from the success of Insert), C66_read_survives (from any successful read), C66_gone_stays_gone. Batches: through C66_read_survives once the object has been read."
  },
  {
   "property": "C67",
   "status": "proved",
   "theorems": [
    "Vectory.C67_create_atomic"
   ],
   "note": "Opening the stores, the counter file and the log of a new collection only creates empty files; that a later Open treats empty and missing files alike is part of the trusted file contracts (C32 treats the counter file)."
  },
  {
   "property": "C68",
   "status": "proved",
   "theorems": [
    "Vectory.C68_drop_atomic",
    "Vectory.C68_stays_gone",
    "Vectory.C68_resurrects",
    "Vectory.C68_resurrects_witness"
   ],
   "note": "Settled as stated. The wish that a collection created later with the same name starts empty is false: C68_resurrects."
  },
  {
   "property": "C69",
   "status": "proved",
   "theorems": [
    "Vectory.Conc.C69_never_refused_concurrent",
    "Vectory.Conc.C69_long_query_truncated_concurrent",
    "Vectory.Conc.C69_short_vector_destroys_concurrent",
    "Vectory.Conc.C69_short_query_panics_concurrent",
    "Vectory.C69_short_vector_destroys",
    "Vectory.C69_short_query_panics",
    "Vectory.C69_short_vector_destroys_database",
    "Vectory.C69_long_vector_poisons",
    "Vectory.C69_long_query_truncated",
    "Vectory.C69_never_refused"
   ],
   "note": "C69_short_vector_destroys, C69_short_vector_destroys_database, C69_short_query_panics: every reachable state and every shorter vector. C69_never_refused: every vector. C69_long_query_truncated: every longer query. C69_long_vector_poisons: a run in which a longer vector, once accepted, makes later correct calls panic. Also proved for histories in which several workers ran the batches (the C69 theorems; suffix _concurrent, Props/ConcExact)."
  },
  {
   "property": "C70",
   "status": "proved",
   "theorems": [
    "Vectory.C70_insert_sequential",
    "Vectory.C70_new_unusable"
   ],
   "note": "Proved for an index with parameters. C70_new_unusable: NewDiskAnn sets no parameters, so through it nothing can be inserted and every search panics."
  },
  {
   "property": "C71",
   "status": "proved",
   "theorems": [
    "Vectory.C71_files",
    "Vectory.C71_read_only_frozen",
    "Vectory.C71_saved_without_it",
    "Vectory.C71_read_only_grows",
    "Vectory.C71_saved_without_links",
    "Vectory.C71_first_part_never_saved",
    "Vectory.C71_insert_concurrent",
    "Vectory.C71_parts_sound",
    "Vectory.C71_insert_returns",
    "Vectory.C71_spurious_refusal",
    "Vectory.C71_limit_exceeded",
    "Vectory.C71_snapshot_of_wrong_part",
    "Vectory.C71_never_rotates_again",
    "Vectory.C71_all_return"
   ],
   "note": "C71_insert_concurrent, C71_parts_sound, C71_insert_returns, C71_all_return, C71_files, C71_read_only_frozen: every schedule. False of the code, with runs: C71_spurious_refusal, C71_limit_exceeded, C71_never_rotates_again (the size check is an equality), C71_snapshot_of_wrong_part, C71_first_part_never_saved, C71_read_only_grows, C71_saved_without_it, C71_saved_without_links. Steps: the locked section, the increment, the load of rwIndex, the checks of insert, addVertex, the linking; one snapshot is written in one step. Data races beyond such interleavings are not modelled."
  },
  {
   "property": "C72",
   "status": "proved",
   "theorems": [
    "Vectory.C72_close_is_closing_one_by_one",
    "Vectory.C72_insert_during_close_survives",
    "Vectory.C72_close_succeeds",
    "Vectory.C72_close_progress",
    "Vectory.C72_not_one_moment",
    "Vectory.C72_client_close_breaks_close",
    "Vectory.C72_alone",
    "Vectory.C72_any_moment",
    "Vectory.C72_insert_survives_interrupted_close"
   ],
   "note": "Proved as stated. The wish that Close acts at one moment is false (C72_not_one_moment), and so is that only failing stores make it fail (C72_client_close_breaks_close). C72_alone: without clients Close is the sequential Close."
  },
  {
   "property": "C73",
   "status": "proved",
   "theorems": [
    "Vectory.Conc.C73_best_hit_concurrent",
    "Vectory.C73_best_hit",
    "Vectory.C73_small_nearest",
    "Vectory.C73_deleted_spoil"
   ],
   "note": "Also proved for histories in which several workers ran the batches (C73_best_hit; suffix _concurrent, Props/ConcExact)."
  },
  {
   "property": "C74",
   "status": "proved",
   "theorems": [
    "Vectory.C74_search",
    "Vectory.C74_refused_vector_breaks_search"
   ],
   "note": ""
  },
  {
   "property": "C75",
   "status": "proved",
   "theorems": [
    "Vectory.C75_small_parts",
    "Vectory.C75_one_part",
    "Vectory.C75_degree_needed",
    "Vectory.C75_list_needed",
    "Vectory.C75_deletion_needed"
   ],
   "note": ""
  },
  {
   "property": "C76",
   "status": "proved",
   "theorems": [
    "Vectory.C76_search_beside",
    "Vectory.C76_no_panic",
    "Vectory.C76_search_returns",
    "Vectory.C76_alone",
    "Vectory.C76_same_vector_twice",
    "Vectory.C76_panic_beside_insert",
    "Vectory.C76_sees_half_a_link"
   ],
   "note": "C76_search_beside, C76_no_panic, C76_search_returns: every schedule; C76_alone ties the machine to the sequential search. False of the code, with runs: C76_same_vector_twice, C76_panic_beside_insert. C76_sees_half_a_link: a run that meets a link half made. One round of the search loop is one step, which loses nothing because vectors do not change; data races beyond such interleavings are not modelled."
  },
  {
   "property": "C77",
   "status": "proved",
   "theorems": [
    "Vectory.C77_euclidean_ranks",
    "Vectory.C77_dot_ranks",
    "Vectory.C77_euclidean_sorted",
    "Vectory.C77_dot_sorted",
    "Vectory.C77_euclidean_exact",
    "Vectory.C77_distance",
    "Vectory.C77_self_query",
    "Vectory.C77_nan_spoils",
    "Vectory.C77_dot_overflow",
    "Vectory.C77_underflow_overflow"
   ],
   "note": ""
  },
  {
   "property": "C78",
   "status": "proved",
   "theorems": [
    "Vectory.C78_euclidean",
    "Vectory.C78_dot",
    "Vectory.C78_euclidean_permille",
    "Vectory.C78_dot_permille",
    "Vectory.C78_ranking",
    "Vectory.C78_nearest",
    "Vectory.C78_wrong_order",
    "Vectory.C78_cancellation"
   ],
   "note": ""
  },
  {
   "property": "C79",
   "status": "proved",
   "theorems": [
    "Vectory.Conc.C79_null_destroys_concurrent",
    "Vectory.C79_text_depends_on_order",
    "Vectory.C79_one_property",
    "Vectory.C79_text_determines",
    "Vectory.C79_same_text",
    "Vectory.C79_as_if_supplied",
    "Vectory.C79_short_answer",
    "Vectory.C79_null_is_empty",
    "Vectory.C79_null_destroys",
    "Vectory.C79_stored_vector",
    "Vectory.C79_found_by_properties",
    "Vectory.C79_other_vector"
   ],
   "note": "Also proved for histories in which several workers ran the batches (C79_null_destroys; suffix _concurrent, Props/ConcExact)."
  },
  {
   "property": "C80",
   "status": "proved",
   "theorems": [
    "Vectory.C80_search",
    "Vectory.C80_sorted",
    "Vectory.C80_no_panic",
    "Vectory.C80_erasure",
    "Vectory.C80_fails"
   ],
   "note": ""
  },
  {
   "property": "C81",
   "status": "proved",
   "theorems": [
    "Vectory.C81_append_only",
    "Vectory.C81_least",
    "Vectory.C81_most",
    "Vectory.C81_records",
    "Vectory.C81_bytes",
    "Vectory.C81_delete",
    "Vectory.C81_memory",
    "Vectory.Conc.C81_append_only_concurrent",
    "Vectory.Conc.C81_batch_keeps",
    "Vectory.Conc.C81_least_concurrent",
    "Vectory.Conc.C81_most_concurrent",
    "Vectory.Conc.C81_records_concurrent",
    "Vectory.Conc.C81_bytes_concurrent",
    "Vectory.Conc.C81_memory_concurrent"
   ],
   "note": "The bounds on the log hold for batches with any number of workers and any schedule (`_concurrent`), also with the race; the bound on the vertices in memory (`C81_memory_concurrent`) for all histories with crashes and batches without the race of C14."
  },
  {
   "property": "C82",
   "status": "proved",
   "theorems": [
    "Vectory.C82_queue",
    "Vectory.C82_fix",
    "Vectory.C82_remove",
    "Vectory.C82_remove_last",
    "Vectory.C82_remove_outside",
    "Vectory.C82_remove_top",
    "Vectory.C82_max",
    "Vectory.C82_remove_fails",
    "Vectory.C82_fix_fails"
   ],
   "note": ""
  },
  {
   "property": "C83",
   "status": "proved",
   "theorems": [
    "Vectory.Conc.C83_apart",
    "Vectory.Conc.C83_one_worker",
    "Vectory.Conc.C83_fails"
   ],
   "note": ""
  },
  {
   "property": "C84",
   "status": "proved",
   "theorems": [
    "Vectory.C84_insert_survives",
    "Vectory.C84_batch_survives",
    "Vectory.C84_read_survives",
    "Vectory.C84_gone_stays_gone",
    "Vectory.C84_ids",
    "Vectory.C84_search",
    "Vectory.C84_calls_return",
    "Vectory.C84_reads_return",
    "Vectory.C84_dropped_stays_gone",
    "Vectory.C84_collection_stays",
    "Vectory.C84_opens_iff"
   ],
   "note": ""
  },
  {
   "property": "C85",
   "status": "proved",
   "theorems": [
    "Vectory.C85_exclusive",
    "Vectory.C85_undisturbed",
    "Vectory.C85_second_open",
    "Vectory.C85_failed_open_leaks",
    "Vectory.C85_failed_create_leaks",
    "Vectory.C85_blocked",
    "Vectory.C85_vectors_panic",
    "Vectory.C85_alone",
    "Vectory.C85_close_frees",
    "Vectory.C85_run",
    "Vectory.C85_run_create",
    "Vectory.C85_run_panic",
    "Vectory.C85_closed_then_deleted",
    "Vectory.C85_leak_example",
    "Vectory.C85_no_leak",
    "Vectory.C85_close_then_open",
    "Vectory.C85_exit_then_open",
    "Vectory.C85_run_fine"
   ],
   "note": ""
  },
  {
   "property": "C86",
   "status": "proved",
   "theorems": [
    "Vectory.Level.C86_level_range",
    "Vectory.Level.C86_level_distribution",
    "Vectory.Level.C86_insert",
    "Vectory.Level.C86_collection_insert",
    "Vectory.Level.C86_zero_panics",
    "Vectory.Level.C86_no_panic",
    "Vectory.Level.C86_zero_loses"
   ],
   "note": "Assumes that math.Log, * and / on float64 are accurate to a relative 2^-50 away from overflow, math.Log(1) = 0, and that the conversion of +Inf to int64 gives the smallest or the largest int64 (amd64, arm64); rand.Float64 as in Go 1.19 (0 or a number from 2^-63 to 1-2^-53)."
  }
 ]
}