{
 "C01": {
  "note": "Byte-level codec, both directions; and put/get of the vector store whatever it held before."
 },
 "C02": {
  "note": "Later history ranges over calls, storage failures, crashes inside calls and reopens. Batches under every worker schedule: C14/C15."
 },
 "C03": {
  "note": "Also for histories with concurrent batches (_concurrent)."
 },
 "C04": {
  "note": "Below 2^64 ids; and at every moment of a concurrent batch."
 },
 "C05": {
  "note": "Settled in every case. The unconditional wish (no crash point reuses ids) is false: C05_torn_write_reuses_ids, C05_torn_first_write_unopenable; C05_torn_any (any reachable state) and C05_torn_exact (right after an Insert, with the number of ids reused) say exactly which cut writes do it. Also proved for histories in which several workers ran the batches (C05_torn_any; suffix _concurrent, Props/ConcExact).",
  "status": "proved"
 },
 "C06": {
  "note": "For ids that had been handed out; C06_future_id_not_reserved shows why that restriction is needed."
 },
 "C08": {
  "note": "Settled in every case. The unconditional wish (GetSize always equals the readable objects) is false: C08_failed_insert_counts.",
  "status": "proved"
 },
 "C10": {
  "note": "Settled in every case. 'Accepted objects carry exactly the mapped properties' is false for a mapping list with a repeated name: C10_repeated_mapping.",
  "status": "proved"
 },
 "C14": {
  "note": "Proved as stated. That a worker can fail in the code as it is, with success reported: C57_fails (property C57).",
  "status": "proved"
 },
 "C15": {
  "note": "Proved as stated, as C14.",
  "status": "proved"
 },
 "C19": {
  "note": "Settled. The unconditional wish (no accepted configuration and no call ever panics) is false in six ways, each a theorem (C19_empty_collection, C19_negative_k, C19_m_is_one, C19_m_too_large, C19_dimension_mismatch, C19_dot_dimension); C19_search_exact says exactly when a search panics. Also proved for histories in which several workers ran the batches (C19_search_exact; suffix _concurrent, Props/ConcExact)."
 },
 "C22": {
  "note": "The claim one would like (any connected graph, ef >= n) is false of the code: C22_not_exact (Heap.Peek returns the last array cell). Proved: exactness for complete bottom layers and small collections; and that repairing Peek gives the full claim. Also proved for histories in which several workers ran the batches (C22_with_peek; suffix _concurrent, Props/ConcExact)."
 },
 "C23": {
  "note": "Unbounded reachability is false of the code (C23_unreachable: pruning drops every incoming link, at 2*m_max+2 vectors). Proved up to 2*m_max+1 vectors."
 },
 "C24": {
  "note": "The unrestricted claim is false of the code (C24_hidden). Proved for small collections, and for the repaired search in general. Also proved for histories in which several workers ran the batches (C24_with_peek; suffix _concurrent, Props/ConcExact)."
 },
 "C26": {
  "note": "Sequential histories: everything. Histories with concurrent batches: links and entry point for all schedules (C26_links_concurrent); everything when the batches draw only level 0, at every moment (C26_level_zero, C26_level_zero_any_moment). With other levels self links and vertices above the top layer occur, even on race-free schedules (C26_self_link, C26_above_top)."
 },
 "C31": {
  "note": "Settled at every crash point. The unconditional wish (it can always be opened again) is false: C31_unopenable_after_vector, C31_unopenable_inside_batch, C31_unopenable_database. C31_batch_concurrent covers every moment of a batch run by several workers (cut counter writes excluded there; they are in C31_exact). Also proved for histories in which several workers ran the batches (C31_exact; suffix _concurrent, Props/ConcExact).",
  "status": "proved"
 },
 "C32": {
  "note": "Settled at every crash point. The unconditional wish (searches keep working) is false: C32_search_panics, in every reachable state. Also proved for histories in which several workers ran the batches (C32_exact; suffix _concurrent, Props/ConcExact).",
  "status": "proved"
 },
 "C35": {
  "note": "Settled. The wish that mappings survive is false: C35_mappings_lost, C35_witness. Hypothesis: index parameter keys that differ in more than case, or a Go map (decoding picks by case-insensitive name).",
  "status": "proved"
 },
 "C37": {
  "note": "Settled in every case. The unconditional wish (a failed CreateCollection has no effect) is false: C37_disk_ann, C37_existing_directory.",
  "status": "proved"
 },
 "C38": {
  "note": "Settled. The unconditional wish is false: C38_lost.",
  "status": "proved"
 },
 "C39": {
  "note": "Settled. The wish that Delete too returns the closed error is false: C39_delete_not_refused.",
  "status": "proved"
 },
 "C42": {
  "note": "Settled. Names are not checked by the code, so 'names cannot reach outside the data directory' is false: C42_escapes.",
  "status": "proved"
 },
 "C44": {
  "note": "Settled for every length, over arbitrary float operations. The wish that Dot is total is false: C44_dot_panics.",
  "status": "proved"
 },
 "C45": {
  "note": "Settled. The wish (dot_product: most similar first) is false: C45_dot_ranks_backwards, C45_dot_returns_least_similar. Also proved for histories in which several workers ran the batches (C45_euclidean; suffix _concurrent, Props/ConcExact).",
  "status": "proved"
 },
 "C46": {
  "note": "Settled. The wish that Intersection and Some are the mathematical ones is false: C46_intersection_with_empty, C46_some_is_all.",
  "status": "proved"
 },
 "C47": {
  "note": "Settled. The wish for every slice is false: C47_pop_returns_first.",
  "status": "proved"
 },
 "C48": {
  "note": "C48_restored_iff is exact; C48_metadata and C48_ids_read hold for every index; C48_gap_lost, C48_refused_vector_shifts_ids, C48_read_index_unusable, C48_large_vertices_panic, C48_witness: what fails. File errors are not modelled."
 },
 "C49": {
  "note": "C49_prune_exact characterises the result; C49_degree_unbounded: for every positive maxDegree and every n < 2^32-1 an index of n+1 vectors with a vertex of degree n."
 },
 "C50": {
  "note": "For all levels on race-free schedules (C50_race_free), every schedule is race-free or passes through the race (C50_race_or_not), level 0 and the program with the lock are race-free; C50_fails shows the panic on a schedule through the race."
 },
 "C51": {
  "note": "As C50 (C51_race_free; C51_fails, C51_durable_damage on schedules through the race)."
 },
 "C52": {
  "note": "C52_size is the property; C52_size_apart: exact when no GetSize overlaps a write; C52_fails: exactness is false of the code in general. Not covered: Close, batches that return before their workers have ended."
 },
 "C53": {
  "note": "Settled for every call, failure and reachable state. The unconditional wish is false: C53_unopenable_after_failed_flush. Also proved for histories in which several workers ran the batches (C53_exact; suffix _concurrent, Props/ConcExact).",
  "status": "proved"
 },
 "C54": {
  "note": "Settled. The wish that mappings are shown is false: C54_mappings_hidden.",
  "status": "proved"
 },
 "C55": {
  "note": "Settled in both cases. The wish (a failing service does not matter) is false: C55_failing_service_blocks.",
  "status": "proved"
 },
 "C56": {
  "note": "Settled. The unconditional wish (nothing is written after a return with an error) is false: C56_fails; C56_exact says what still can be."
 },
 "C57": {
  "note": "Settled in every case. The unconditional wish (no error means everything is stored) is false: C57_fails; C57_exact and C57_exact_channel say exactly what is missing."
 },
 "C60": {
  "note": "Settled: the theorem says exactly what deletions hide. The wish (exactly the deleted objects are hidden) is false of the code, which never stores the object id of a vertex (memory_index.go:111-171).",
  "status": "proved"
 },
 "C61": {
  "note": "Settled. The wish (always the k nearest) is false: C61_first_always_kept, C61_one_ignores_readonly, C61_witness.",
  "status": "proved"
 },
 "C62": {
  "note": "C62_bounded, C62_no_deadlock for all schedules; C62_race_free; C62_fails on a schedule through the race."
 },
 "C63": {
  "note": "C63_lost_objects: counterexample schedule when a level above 0 is drawn. C63_level_zero and C63_with_peek: the positive part, for histories whose concurrent batches draw only level 0."
 },
 "C64": {
  "note": "Both directions, for all schedules. Several workers: C14, C15, C57."
 },
 "C65": {
  "note": "Legal calls: index parameters with 2 <= m <= 2*m_max, one dimension per collection (a multiple of 8 for dot_product), distinct parameter keys, a metadata store and directory that do not fail in CreateCollection (C37/C38 treat those). The read exceptions are C19's. A name whose directory an interrupted DeleteCollection left behind is not created again (C68_resurrects shows why)."
 },
 "C66": {
  "note": "C66_insert_survives (from the success of Insert), C66_read_survives (from any successful read), C66_gone_stays_gone. Batches: through C66_read_survives once the object has been read."
 },
 "C67": {
  "note": "Opening the stores, the counter file and the log of a new collection only creates empty files; that a later Open treats empty and missing files alike is part of the trusted file contracts (C32 treats the counter file)."
 },
 "C68": {
  "note": "Settled as stated. The wish that a collection created later with the same name starts empty is false: C68_resurrects.",
  "status": "proved"
 },
 "C69": {
  "note": "C69_short_vector_destroys, C69_short_vector_destroys_database, C69_short_query_panics: every reachable state and every shorter vector. C69_never_refused: every vector. C69_long_query_truncated: every longer query. C69_long_vector_poisons: a run in which a longer vector, once accepted, makes later correct calls panic. Also proved for histories in which several workers ran the batches (the C69 theorems; suffix _concurrent, Props/ConcExact)."
 },
 "C70": {
  "note": "Proved for an index with parameters. C70_new_unusable: NewDiskAnn sets no parameters, so through it nothing can be inserted and every search panics."
 },
 "C71": {
  "note": "C71_insert_concurrent, C71_parts_sound, C71_insert_returns, C71_all_return, C71_files, C71_read_only_frozen: every schedule. False of the code, with runs: C71_spurious_refusal, C71_limit_exceeded, C71_never_rotates_again (the size check is an equality), C71_snapshot_of_wrong_part, C71_first_part_never_saved, C71_read_only_grows, C71_saved_without_it, C71_saved_without_links. Steps: the locked section, the increment, the load of rwIndex, the checks of insert, addVertex, the linking; one snapshot is written in one step. Data races beyond such interleavings are not modelled."
 },
 "C72": {
  "note": "Proved as stated. The wish that Close acts at one moment is false (C72_not_one_moment), and so is that only failing stores make it fail (C72_client_close_breaks_close). C72_alone: without clients Close is the sequential Close.",
  "status": "proved"
 },
 "C73": {
  "note": "Also proved for histories in which several workers ran the batches (C73_best_hit; suffix _concurrent, Props/ConcExact)."
 },
 "C74": {
  "note": ""
 },
 "C75": {
  "note": ""
 },
 "C76": {
  "note": "C76_search_beside, C76_no_panic, C76_search_returns: every schedule; C76_alone ties the machine to the sequential search. False of the code, with runs: C76_same_vector_twice, C76_panic_beside_insert. C76_sees_half_a_link: a run that meets a link half made. One round of the search loop is one step, which loses nothing because vectors do not change; data races beyond such interleavings are not modelled."
 },
 "C77": {
  "note": ""
 },
 "C78": {
  "note": ""
 },
 "C79": {
  "note": "Also proved for histories in which several workers ran the batches (C79_null_destroys; suffix _concurrent, Props/ConcExact)."
 },
 "C80": {
  "note": ""
 },
 "C81": {
  "note": "The bounds on the log hold for batches with any number of workers and any schedule (`_concurrent`), also with the race; the bound on the vertices in memory (`C81_memory_concurrent`) for all histories with crashes and batches without the race of C14."
 },
 "C82": {
  "note": ""
 },
 "C83": {
  "note": ""
 },
 "C84": {
  "note": ""
 },
 "C07": {
  "note": "Also proved for histories in which several workers ran the batches (C07_delete_search; suffix _concurrent, Props/ConcExact)."
 },
 "C85": {
  "note": ""
 },
 "C86": {
  "note": "Assumes that math.Log, * and / on float64 are accurate to a relative 2^-50 away from overflow, math.Log(1) = 0, and that the conversion of +Inf to int64 gives the smallest or the largest int64 (amd64, arm64); rand.Float64 as in Go 1.19 (0 or a number from 2^-63 to 1-2^-53)."
 }
}