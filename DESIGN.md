# Formal model of amityahav/vectory in Lean 4

Written before the proofs and kept current; the last two sections are generated by `tools/mkdesign.py`.

## Layout

* `lean/Verif/Model/*.lean` – the model, function by function; every definition cites the Go lines it models.
* `lean/Verif/Spec/*.lean` – small specifications used in theorem statements: histories, schedules, queues, maps, linearizability,
  assumptions about parameters, and the concrete environments of the examples.
* `lean/Verif/Lemmas/*.lean` – invariants and helper lemmas; nothing there is a claim.
* `lean/Verif/Props/*.lean` – the property theorems `Cnn_…`, each with an `example` that meets its hypotheses.
* `properties.jsonl` – English properties; `MANIFEST.json` – property → theorems (generated by `tools/mkmanifest.py` from the theorem
  names and `tools/notes.json`); `seeded/LOG.jsonl` – the log of wrong programs tried (`tools/mutate.py`, rounds in `seeded/rounds`).

## Trusted base

* Lean 4.33.0's kernel. No axioms of our own; no compiled evaluation (`decide` and `rfl` only, checked by the kernel).
  Mathlib's ordered field of rationals and its arithmetic tactics are imported for C78 only (`Spec/Real32.lean`, `Lemmas/Accuracy.lean`,
  `Props/Accuracy.lean`).
* The axioms each theorem depends on are listed in the last section: only `propext`, `Quot.sound`, `Classical.choice`.
* That the definitions in `Model/` say what the Go code does. They were written by reading; nothing was executed.
* The contracts of external libraries, stated in the headers of the model files:
  * bitcask: a map from byte keys to byte values, with durable completed writes; `Get` of an absent key is `ErrKeyNotFound` even after
    `Close`, `Get` of a present one fails after `Close`; a failing `Put`/`Delete` changes nothing (`Model/Store.lean`);
  * bitcask locks: `bitcask.Open` takes an exclusive lock on a file of the store and fails if another open store (of this or another
    process) holds it; `Close` gives the lock up, also when it returns an error; the end of the process gives up all its locks; removing the
    directory removes the lock (used by C85 only)
  * tidwall/wal: records numbered 1, 2, …; `WriteBatch` is all-or-nothing and refuses a gap (`Model/Wal.lean`);
  * ent/sqlite: rows saved atomically and durably, unique names (`Model/Db.lean`); `os.Mkdir`, `os.RemoveAll` (`Model/Db.lean`, `Model/Path.lean`);
  * `encoding/json`: for property maps a parameter with the hypothesis `JsonOK` (what was marshalled can be unmarshalled);
    for configurations, the concrete fragment in `Model/Config.lean`;
  * alitto/pond 1.8.3 groups: tasks start any time after submission, are skipped once the context is done, the first error is kept and
    cancels, panics are recovered and count as success, `Wait` (`Model/CollConc.lean`);
  * Go's `container/heap`, maps, slices, `binary.LittleEndian`, `sync.Once`, `sync.Mutex`, `sync.RWMutex`: modelled, not assumed.

## Conventions of the model

* Go panics are values: `Except Panic α`. Go `error` returns are values of a separate type `Err`.
* `[]byte` is `List UInt8`; `uint64`/`uint32` are `UInt64`/`UInt32` (wrap-around is real); `float32` is its 32-bit pattern.
  Float arithmetic is a parameter (`FloatOps`), the comparison of distances an arbitrary Boolean relation. Theorems about rankings assume
  that the distances of the vectors in the collection to the query (`Ranks`), or also to each other (`RanksAll`), can be compared with each
  other (`OrdOn`, a strict weak order on these distances: true of float32 when none of them is NaN); the DiskANN theorems assume `Ord`, a
  weak order on all distances. `Model/Ieee.lean` defines binary32 bit-exactly (integer arithmetic and one rounding, ties to even) and C77
  derives the assumption from conditions on the vectors; C78 bounds the rounding errors against exact rational arithmetic (`Spec/Real32.lean`). It was compared with Lean's hardware `Float32` on 1,000,000 random pairs for
  `+`, `-`, `*`, `sqrt`, `<` and the codec, without a difference (a test, not a proof; every NaN is the canonical one; Go may fuse
  `x*y+z` on architectures other than amd64).
* Go maps are association lists with at most one entry per key (`AMap`); map iteration order is the list order, and theorems hold for
  every order where the code ranges over a map.
* Loops are structural recursions; where the Go loop is `for cond`, with fuel, and C20 proves the fuel never runs out.
* Random levels (C86 derives them from `rand.Float64`), embedding services, JSON and failures of system calls are arguments chosen by the environment.
* A process crash keeps exactly what completed write calls handed to the OS; C05 treats torn counter writes in addition.
* Layers of description: sequential histories (`Reach`, legal calls with failures; `ReachAny`, with crashes), histories whose batches run
  under every interleaving (`ReachConc`, `ReachAnyConc`), and overlapping calls on one collection (`Model/Linear.lean`).

## What is modelled

| Go code | model |
|---|---|
| `entities/objstore/object.go` (codecs) | `Model/Object.lean` |
| `db/core/objstore/store.go` | `Model/Store.lean` |
| `db/idcounter.go` | `Model/IdCounter.lean` |
| `db/core/index/utils/heap.go`, `container/heap` | `Model/Heap.lean` |
| `db/core/index/utils/mmheap.go` | `Model/MMHeap.lean`; Remove, Fix, Max in `Model/MMHeapFix.lean` |
| `db/core/index/utils/set.go` | `Model/GoSet.lean` |
| `db/core/index/distance` | `Model/Distance.lean`; Go's `float32` in `Model/Ieee.lean` |
| `db/core/index/hnsw` (all of it except test_utils) | `Model/Hnsw.lean`, `Model/Wal.lean`; the computation of the random level in `Model/Level.lean`; as atomic steps in `Model/Conc.lean`; a repaired search, to compare with, in `Model/SearchFixed.lean` |
| `db/collection*.go` | `Model/Collection.lean`, `Model/Batch.lean`; as atomic steps in `Model/CollConc.lean`; overlapping calls in `Model/Linear.lean`; slices shared with callers in `Model/Alias.lean`; batches with repeated pointers in `Model/Pointers.lean` |
| `db/embeddings`, `object.go: FlatProperties` | `Model/Embed.lean` (the texts sent); the HTTP service is an argument (`Service`, `Embed`); `Model/Collection.lean` has the loop over its answer |
| `entities/collection`, `entities/index` (validation, JSON of configurations) | `Model/Config.lean` |
| `db/db.go`, `db/metadata/meta_manager.go` | `Model/Db.lean`, paths in `Model/Path.lean`; `DB.Close` beside clients' calls in `Model/DbClose.lean`; histories in `Spec/DbLife.lean`, with concurrent batches in `Spec/DbConc.lean`; several `DB` values and processes on one directory, lock files, failures while opening and closing in `Model/Locks.lean` |
| `api/handlers/collection.go` | `Model/Db.lean` (handlers) |
| `db/core/index/disk_ann` | `Model/DiskAnn.lean`, snapshots in `Model/DiskSnap.lean`, `DiskAnn.Insert` (one or many goroutines) in `Model/DiskIns.lean`, `DiskAnn.Search` beside insertions in `Model/DiskSearchConc.lean` |

Not modelled: generated code (`gen/`, `pkg/`: ent, swagger server and client), `cmd/main.go`, `examples/`, HTTP transport, logging, the assembly
dot product (disabled in the code), fused multiply-add, performance, memory limits, torn slice headers and other effects of Go data
races beyond interleaving (Go gives no semantics to them), two processes interleaved inside one call on one data directory (whole calls interleave in `Model/Locks.lean`),
the inside of the writing of one snapshot interleaved with other goroutines.


## Property by property

What is modelled and how it is proved. "False of the code" means that a theorem of the list proves a counterexample;
the `_partial` theorem is then the largest part we proved. The full statement stays in `properties.jsonl`.

* **C01** (proved) Stored vectors come back bit for bit. Byte-level codec; round trip by induction. Byte-level codec, both directions; and put/get of the vector store whatever it held before.
  Theorems: `C01_vector_codec`, `C01_vector_store`
* **C02** (proved) An inserted object can be read back. Collection state machine; invariant WInv plus frame relation EvoS over events. Later history ranges over calls, storage failures, crashes inside calls and reopens. Batches under every worker schedule: C14/C15.
  Theorems: `Conc.C02_insert_readable_concurrent`, `Conc.C02_batch_readable_concurrent`, `C02_insert_readable`, `C02_batch_readable`
* **C03** (proved) Get is an order-preserving filter. Invariant WInv. Also for histories with concurrent batches (_concurrent).
  Theorems: `Conc.C03_get_filters_concurrent`, `C03_get_filters`
* **C04** (proved) Object ids are never handed out twice. Counter file invariant; induction over histories; batch invariant BInv. Below 2^64 ids; and at every moment of a concurrent batch.
  Theorems: `Conc.C04_batch_any_schedule`, `Conc.C04_ids_distinct_concurrent`, `C04_ids_database`, `C04_ids_never_twice`, `C04_ids_distinct`
* **C05** (proved) Which ids follow after a crash. Crash events with arbitrary cut points. Settled in every case. The unconditional wish (no crash point reuses ids) is false: C05_torn_write_reuses_ids, C05_torn_first_write_unopenable; C05_torn_any (any reachable state) and C05_torn_exact (right after an Insert, with the number of ids reused) say exactly which cut writes do it. Also proved for histories in which several workers ran the batches (C05_torn_any; suffix _concurrent, Props/ConcExact).
  Theorems: `Conc.C05_batch_any_schedule`, `Conc.C05_torn_any_concurrent`, `Conc.C05_next_id_concurrent`, `C05_torn_any`, `C05_ids_after_crash`, `C05_torn_write_reuses_ids`, `C05_torn_first_write_unopenable`, `C05_torn_exact`
* **C06** (proved) A deleted object stays deleted. Frame relation EvoS (nothing used comes back). For ids that had been handed out; C06_future_id_not_reserved shows why that restriction is needed.
  Theorems: `Conc.C06_deleted_stays_deleted_concurrent`, `C06_deleted_stays_deleted`, `C06_future_id_not_reserved`
* **C07** (proved) Delete touches only its own id. Effect of delete on stores, index and searches. Also proved for histories in which several workers ran the batches (C07_delete_search; suffix _concurrent, Props/ConcExact).
  Theorems: `Conc.C07_delete_twice_concurrent`, `Conc.C07_delete_search_concurrent`, `Conc.C07_delete_frame_concurrent`, `C07_delete_frame`, `C07_delete_unknown`, `C07_delete_twice`, `C07_delete_search`
* **C08** (proved) What GetSize counts. Relation between both stores. Settled in every case. The unconditional wish (GetSize always equals the readable objects) is false: C08_failed_insert_counts.
  Theorems: `C08_size`, `C08_size_lower`, `C08_failed_insert_counts`, `Conc.C08_size_lower_concurrent`, `C08_size_exact`
* **C09** (proved) Insert leaves other objects alone. Frame of insertOne, of the sequential batch and of every step of the concurrent batch. 
  Theorems: `Conc.C09_batch_any_schedule`, `C09_insert_frame`, `C09_batch_frame`
* **C10** (proved) Which objects are accepted for their properties. Direct. Settled in every case. 'Accepted objects carry exactly the mapped properties' is false for a mapping list with a repeated name: C10_repeated_mapping.
  Theorems: `C10_insert_properties`, `C10_batch_properties`, `C10_exact_not_refused`, `C10_repeated_mapping`, `C10_accepted_exact`, `C10_refused_exact`, `C10_refusal_names_first`
* **C11** (proved) A rejected insert changes nothing. Case analysis. 
  Theorems: `C11_insert_refused`, `C11_batch_refused`, `C11_invalid_member`
* **C12** (proved) The embedder never replaces a vector the user supplied. Induction over the batch. 
  Theorems: `C12_batch_vectors`, `C12_asked_only_for_missing`, `C12_missing_vector_refused`, `C12_insert_vector`
* **C13** (proved) InsertBatch gives every object to exactly one worker. Induction over the chunk loop. 
  Theorems: `C13_in_bounds`, `C13_partition`, `C13_exactly_one`
* **C14** (proved) InsertBatch stores every object under every schedule without an internal failure. Small-step semantics of workers; invariant BInv over all schedules. Proved as stated. That a worker can fail in the code as it is, with success reported: C57_fails (property C57).
  Theorems: `Conc.C14_no_panic`, `Conc.C14_race_free`, `Conc.C14_tame`, `Conc.C14_with_lock`
* **C15** (proved) InsertBatch2 stores every object under every schedule without an internal failure. As C14 with a shared queue. Proved as stated, as C14.
  Theorems: `Conc.C15_no_panic`, `Conc.C15_race_free`, `Conc.C15_tame`, `Conc.C15_with_lock`
* **C16** (proved) Search answers are well formed. Search loop invariants. 
  Theorems: `Conc.C16_without_order_concurrent`, `Conc.C16_well_formed_concurrent`, `C16_well_formed`, `C16_without_order`
* **C17** (proved) Reported distances are true distances. As C16. 
  Theorems: `Conc.C17_true_distance_concurrent`, `C17_true_distance`
* **C18** (proved) Search hits are live stored objects, each with its own distance. As C16 with the store invariant. 
  Theorems: `Conc.C18_hits_live_concurrent`, `C18_database`, `C18_hits_live`
* **C19** (proved) Calls do not crash the process. Safety invariant of the graph; counterexamples by kernel evaluation. Settled. The unconditional wish (no accepted configuration and no call ever panics) is false in six ways, each a theorem (C19_empty_collection, C19_negative_k, C19_m_is_one, C19_m_too_large, C19_dimension_mismatch, C19_dot_dimension); C19_search_exact says exactly when a search panics. Also proved for histories in which several workers ran the batches (C19_search_exact; suffix _concurrent, Props/ConcExact).
  Theorems: `Conc.C19_search_exact_concurrent`, `Conc.C19_no_panic_concurrent`, `C19_no_panic`, `C19_empty_collection`, `C19_negative_k`, `C19_m_is_one`, `C19_m_too_large`, `C19_dimension_mismatch`, `C19_dot_dimension`, `C19_search_exact`, `C19_search_exact_uncrashed`
* **C20** (proved) Search terminates. Termination measure. 
  Theorems: `C20_search_loop_bound`, `C20_search_and_insert_finish`, `C20_inner_loops`
* **C21** (proved) The first hit is locally optimal. Loop invariant at exit. 
  Theorems: `Conc.C21_locally_optimal_concurrent`, `C21_locally_optimal`, `C21_nothing_evaluated_is_closer`
* **C22** (proved) When a search is exact. Bottom-layer connectivity; loop invariant of searchLayer (everything visited is kept, everything kept is expanded); the same loop with Peek reading the root. The claim one would like (any connected graph, ef >= n) is false of the code: C22_not_exact (Heap.Peek returns the last array cell). Proved: exactness for complete bottom layers and small collections; and that repairing Peek gives the full claim. Also proved for histories in which several workers ran the batches (C22_with_peek; suffix _concurrent, Props/ConcExact).
  Theorems: `Conc.C22_with_peek_concurrent`, `C22_small_exact`, `C22_complete_exact`, `C22_not_exact`, `C22_with_peek`, `C22_with_peek_small`
* **C23** (proved) How far every inserted object stays reachable. As C22. Unbounded reachability is false of the code (C23_unreachable: pruning drops every incoming link, at 2*m_max+2 vectors). Proved up to 2*m_max+1 vectors.
  Theorems: `C23_reachable`, `C23_unreachable`
* **C24** (proved) When deletes hide live neighbours. As C22. The unrestricted claim is false of the code (C24_hidden). Proved for small collections, and for the repaired search in general. Also proved for histories in which several workers ran the batches (C24_with_peek; suffix _concurrent, Props/ConcExact).
  Theorems: `Conc.C24_with_peek_concurrent`, `C24_deletes_hide_nothing`, `C24_hidden`, `C24_with_peek`
* **C25** (proved) The heap behaves like a priority queue. Heap order and permutation. 
  Theorems: `C25_comparable`, `C25_comparable_distances`, `C25_heap_is_queue`, `C25_min_heap`, `C25_max_heap`, `C25_nothing_lost`, `C25_peek_is_not_next`
* **C26** (proved) The index graph stays well formed. Graph invariant, for sequential histories and for every interleaving of batch workers; concrete schedules for the parts that fail. Sequential histories: everything. Histories with concurrent batches: links and entry point for all schedules (C26_links_concurrent); everything when the batches draw only level 0, at every moment (C26_level_zero, C26_level_zero_any_moment). With other levels self links and vertices above the top layer occur, even on race-free schedules (C26_self_link, C26_above_top).
  Theorems: `Conc.C26_links_concurrent`, `Conc.C26_level_zero`, `Conc.C26_level_zero_any_moment`, `Conc.C26_self_link`, `Conc.C26_above_top`, `C26_well_formed`
* **C27** (proved) Vertex degrees are bounded. Graph invariant. 
  Theorems: `Conc.C27_degree_concurrent`, `C27_degree`
* **C28** (proved) Log records decode to what was encoded. Codec. 
  Theorems: `C28_decode_encode`, `C28_distinct`, `C28_unknown`
* **C29** (proved) A reopened index is the index that was closed. Replay refinement (Restores). 
  Theorems: `Conc.C29_reopened_index_concurrent`, `C29_reopened_index`
* **C30** (proved) Any prefix of the index log can be replayed. Replay invariant (LogInv). 
  Theorems: `Conc.C30_prefix_replays_concurrent`, `C30_prefix_replays`
* **C31** (proved) What a crash during Insert can cost. Crash points inside insert. Settled at every crash point. The unconditional wish (it can always be opened again) is false: C31_unopenable_after_vector, C31_unopenable_inside_batch, C31_unopenable_database. C31_batch_concurrent covers every moment of a batch run by several workers (cut counter writes excluded there; they are in C31_exact). Also proved for histories in which several workers ran the batches (C31_exact; suffix _concurrent, Props/ConcExact).
  Theorems: `Conc.C31_batch_concurrent`, `Conc.C31_batch_concurrent_reads`, `Conc.C31_exact_concurrent`, `C31_crash_in_insert`, `C31_unopenable_after_vector`, `C31_unopenable_inside_batch`, `C31_exact`, `C31_unopenable_database`
* **C32** (proved) What a crash during Delete can cost. Crash points inside delete. Settled at every crash point. The unconditional wish (searches keep working) is false: C32_search_panics, in every reachable state. Also proved for histories in which several workers ran the batches (C32_exact; suffix _concurrent, Props/ConcExact).
  Theorems: `Conc.C32_exact_concurrent`, `C32_crash_in_delete`, `C32_search_panics`, `C32_exact`
* **C33** (proved) Log sequence numbers stay contiguous. Log invariant. 
  Theorems: `Conc.C33_sequence_contiguous_concurrent`, `C33_sequence_contiguous`
* **C34** (proved) Reopening keeps every object. Simulation (Sim). 
  Theorems: `Conc.C34_reopen_indistinguishable_concurrent`, `Conc.C34_reopen_keeps_objects_concurrent`, `C34_database`, `C34_reopen_keeps_objects`, `C34_reopen_indistinguishable`
* **C35** (proved) What reopening keeps of the configuration. Database histories. Settled. The wish that mappings survive is false: C35_mappings_lost, C35_witness. Hypothesis: index parameter keys that differ in more than case, or a Go map (decoding picks by case-insensitive name).
  Theorems: `C35_holds`, `C35_mappings_lost`, `C35_witness`
* **C36** (proved) Collections behave like a map from names. Refinement to SpecRuns. 
  Theorems: `C36_map`
* **C37** (proved) What a failed CreateCollection leaves behind. Database. Settled in every case. The unconditional wish (a failed CreateCollection has no effect) is false: C37_disk_ann, C37_existing_directory.
  Theorems: `C37_holds`, `C37_no_leftovers`, `C37_disk_ann`, `C37_disk_ann_witness`, `C37_existing_directory`, `C37_existing_directory_witness`, `C37_exact`
* **C38** (proved) When a created collection survives a restart. Database. Settled. The unconditional wish is false: C38_lost.
  Theorems: `C38_holds`, `C38_lost`, `C38_exact`
* **C39** (proved) What closed handles answer. Case analysis. Settled. The wish that Delete too returns the closed error is false: C39_delete_not_refused.
  Theorems: `C39_database`, `C39_collection`, `C39_close_closes`, `C39_delete_not_refused`
* **C40** (proved) Configuration validation accepts exactly the documented configurations. Validator vs Documented. 
  Theorems: `C40_validation`, `C40_parameters`, `C40_fields`, `C40_used`, `C40_object_meaning`, `C40_missing`
* **C41** (proved) HTTP status codes follow the outcome. Handlers. 
  Theorems: `C41_add`, `C41_get`, `C41_delete`
* **C42** (proved) Where the files of a collection are. Path resolution. Settled. Names are not checked by the code, so 'names cannot reach outside the data directory' is false: C42_escapes.
  Theorems: `C42_plain`, `C42_escapes`, `C42_exact`
* **C43** (proved) Neighbour selection picks near and few. Induction over the candidates. 
  Theorems: `C43_simple_comparable`, `C43_heuristic_comparable`, `C43_simple`, `C43_distinct_candidates`, `C43_heuristic`
* **C44** (proved) What the distance functions compute. Induction. Settled for every length, over arbitrary float operations. The wish that Dot is total is false: C44_dot_panics.
  Theorems: `C44_euclidean`, `C44_dot`, `C44_dot_panics`
* **C45** (proved) The order of search results by distance function. From C16/C17. Settled. The wish (dot_product: most similar first) is false: C45_dot_ranks_backwards, C45_dot_returns_least_similar. Also proved for histories in which several workers ran the batches (C45_euclidean; suffix _concurrent, Props/ConcExact).
  Theorems: `Conc.C45_euclidean_concurrent`, `C45_euclidean`, `C45_dot_ranks_backwards`, `C45_dot_returns_least_similar`
* **C46** (proved) What the set operations compute. Direct. Settled. The wish that Intersection and Some are the mathematical ones is false: C46_intersection_with_empty, C46_some_is_all.
  Theorems: `C46_build`, `C46_algebra`, `C46_compare`, `C46_intersection`, `C46_intersection_with_empty`, `C46_some_is_all`, `C46_intersection_exact`, `C46_some_exact`
* **C47** (proved) When the min-max heap is a two-ended queue. Min-max heap order. Settled. The wish for every slice is false: C47_pop_returns_first.
  Theorems: `C47_two_ended_queue`, `C47_single_start`, `C47_pop_returns_first`, `C47_exactly`, `C47_nothing_lost_building`, `C47_nothing_lost_popping`
* **C48** (proved) What a DiskANN snapshot restores. Model of serialize/deserialize and the pages; per vertex: aligned or read four bytes early; induction over the vertices of a page and the pages of a file gives an equivalence. C48_restored_iff is exact; C48_metadata and C48_ids_read hold for every index; C48_gap_lost, C48_refused_vector_shifts_ids, C48_read_index_unusable, C48_large_vertices_panic, C48_witness: what fails. File errors are not modelled.
  Theorems: `C48_ids_read`, `C48_gap_lost`, `C48_refused_vector_shifts_ids`, `C48_roundtrip`, `C48_metadata`, `C48_two_links_lost`, `C48_large_vertices_panic`, `C48_read_index_unusable`, `C48_witness`, `C48_restored_iff`, `C48_linked_neighbours_lost`
* **C49** (proved) What DiskANN pruning keeps. Model of robustPrune; a loop invariant gives the greedy rule exactly (Greedy); the failure of the degree bound by induction over inserts into a star. C49_prune_exact characterises the result; C49_degree_unbounded: for every positive maxDegree and every n < 2^32-1 an index of n+1 vectors with a vertex of degree n.
  Theorems: `C49_prune_sound`, `C49_prune_distinct`, `C49_degree_exceeded`, `C49_prune_exact`, `C49_prune_full`, `C49_degree_unbounded`
* **C50** (proved) Concurrent index inserts keep the graph and the log sound, unless one locks a vertex while its inserter writes it. Interleaving semantics, invariants over all schedules. For all levels on race-free schedules (C50_race_free), every schedule is race-free or passes through the race (C50_race_or_not), level 0 and the program with the lock are race-free; C50_fails shows the panic on a schedule through the race.
  Theorems: `Conc.C50_level_zero`, `Conc.C50_with_lock`, `Conc.C50_fails`, `Conc.C50_race_free`, `Conc.C50_level_zero_no_race`, `Conc.C50_race_or_not`
* **C51** (proved) The log agrees with memory after a concurrent batch, unless the race was met. As C50. As C50 (C51_race_free; C51_fails, C51_durable_damage on schedules through the race).
  Theorems: `Conc.C51_level_zero`, `Conc.C51_with_lock`, `Conc.C51_fails`, `Conc.C51_durable_damage`, `Conc.C51_race_free`, `Conc.C51_batch_on_disk`
* **C52** (proved) Concurrent operations on one collection are linearizable, and GetSize is off by at most one overlapping write. Lock-order linearization with explicit witness order. C52_size is the property; C52_size_apart: exact when no GetSize overlaps a write; C52_fails: exactness is false of the code in general. Not covered: Close, batches that return before their workers have ended.
  Theorems: `Conc.C52_no_size`, `Conc.C52_size`, `Conc.C52_size_apart`, `Conc.C52_again`, `Conc.C52_fails`
* **C53** (proved) When a collection can be reopened after a call. As C31. Settled for every call, failure and reachable state. The unconditional wish is false: C53_unopenable_after_failed_flush. Also proved for histories in which several workers ran the batches (C53_exact; suffix _concurrent, Props/ConcExact).
  Theorems: `Conc.C53_failed_insert_concurrent`, `Conc.C53_unopenable_after_failed_flush_concurrent`, `Conc.C53_exact_concurrent`, `Conc.C53_next_flush_repairs_concurrent`, `C53_failed_insert`, `C53_unopenable_after_failed_flush`, `C53_next_flush_repairs`, `C53_exact`
* **C54** (proved) What the API shows of a configuration. Handlers. Settled. The wish that mappings are shown is false: C54_mappings_hidden.
  Theorems: `C54_holds`, `C54_mappings_hidden`, `C54_exact`, `C54_after_restart`
* **C55** (proved) When objects that bring their vectors need the embedding service. Case analysis. Settled in both cases. The wish (a failing service does not matter) is false: C55_failing_service_blocks.
  Theorems: `C55_service_irrelevant`, `C55_vectors_kept`, `C55_failing_service_blocks`
* **C56** (proved) What can still be written after a batch insert returned. As C14. Settled. The unconditional wish (nothing is written after a return with an error) is false: C56_fails; C56_exact says what still can be.
  Theorems: `Conc.C56_exact`, `Conc.C56_nothing_running`, `Conc.C56_success`, `Conc.C56_fails`
* **C57** (proved) What a batch insert that reports success stored. As C14. Settled in every case. The unconditional wish (no error means everything is stored) is false: C57_fails; C57_exact and C57_exact_channel say exactly what is missing.
  Theorems: `Conc.C57_exact`, `Conc.C57_exact_channel`, `Conc.C57_channel_survivor`, `Conc.C57_race_free`, `Conc.C57_tame`, `Conc.C57_fails`
* **C58** (proved) DiskANN memory search is sound. Loop invariants of the DiskANN search. 
  Theorems: `C58_search_sound`, `C58_empty_panics`
* **C59** (proved) DiskANN insert succeeds and keeps the graph sound. Graph invariant. 
  Theorems: `C59_insert_succeeds`, `C59_insert_refused`, `C59_graph_sound`
* **C60** (proved) What DiskANN deletions hide. Search congruence. Settled: the theorem says exactly what deletions hide. The wish (exactly the deleted objects are hidden) is false of the code, which never stores the object id of a vertex (memory_index.go:111-171).
  Theorems: `C60_deletes_ignored`
* **C61** (proved) What DiskANN Search returns from several parts. Min-max heap results. Settled. The wish (always the k nearest) is false: C61_first_always_kept, C61_one_ignores_readonly, C61_witness.
  Theorems: `C61_merge`, `C61_first_always_kept`, `C61_one_ignores_readonly`, `C61_witness`, `C61_merge_exact`, `C61_search_exact`, `C61_zero`
* **C62** (proved) Concurrent inserts always finish, unless the race was met. Termination measure and progress for the interleaving semantics. C62_bounded, C62_no_deadlock for all schedules; C62_race_free; C62_fails on a schedule through the race.
  Theorems: `Conc.C62_bounded`, `Conc.C62_no_deadlock`, `Conc.C62_level_zero`, `Conc.C62_with_lock`, `Conc.C62_fails`, `Conc.C62_race_free`
* **C63** (proved) Whether every object of a concurrent batch can be found. Counterexample schedule evaluated in the kernel; positive part by an invariant over all schedules: the bottom layer stays symmetric and connected (own list, back-links still to be written, lists being pruned), lifted to histories of calls and level-0 batches. C63_lost_objects: counterexample schedule when a level above 0 is drawn. C63_level_zero and C63_with_peek: the positive part, for histories whose concurrent batches draw only level 0.
  Theorems: `Conc.C63_lost_objects`, `Conc.C63_level_zero`, `Conc.C63_with_peek`
* **C64** (proved) InsertBatch is the loop over Insert. Relational proof that the moment of flushing does not matter; the interleaving semantics with one worker refines the sequential model and is refined by it (invariant over all schedules, determinism). Both directions, for all schedules. Several workers: C14, C15, C57.
  Theorems: `C64_batch_is_loop`, `Conc.C64_one_worker`
* **C65** (proved) No call on a database panics, and it can always be opened again. Invariant DbGood over histories DbLife: the metadata rows and the collection map agree (DbInv) and every collection in it satisfies the collection invariant for its own configuration, id and dimension (HeldBy). Each call preserves it; from it the next call is total. Legal calls: index parameters with 2 <= m <= 2*m_max, one dimension per collection (a multiple of 8 for dot_product), distinct parameter keys, a metadata store and directory that do not fail in CreateCollection (C37/C38 treat those). The read exceptions are C19's. A name whose directory an interrupted DeleteCollection left behind is not created again (C68_resurrects shows why).
  Theorems: `C65_calls_return`, `C65_reads_return`
* **C66** (proved) An object inserted through the database survives everything except its own deletion. The invariant of C65 with interruptions; per event: the collection's id and library stay, the objects outside the touched ids are kept (Survives), across reopen by coll_reopen / reopen_any. C66_insert_survives (from the success of Insert), C66_read_survives (from any successful read), C66_gone_stays_gone. Batches: through C66_read_survives once the object has been read.
  Theorems: `C66_insert_survives`, `C66_read_survives`, `C66_gone_stays_gone`
* **C67** (proved) A crash during CreateCollection leaves all or nothing. Crash points before the row is saved, after it, after mkdir; the reopened database is compared with what the completed call followed by a restart gives, using the invariant DbGood. Opening the stores, the counter file and the log of a new collection only creates empty files; that a later Open treats empty and missing files alike is part of the trusted file contracts (C32 treats the counter file).
  Theorems: `C67_create_atomic`
* **C68** (proved) A crash during DeleteCollection. As C67, with crash points before the row is deleted and after it with any remainder of the directory. The last clause fails; a general counterexample theorem replaces it. Settled as stated. The wish that a collection created later with the same name starts empty is false: C68_resurrects.
  Theorems: `C68_drop_atomic`, `C68_stays_gone`, `C68_resurrects`, `C68_resurrects_witness`
* **C69** (proved) What a vector of the wrong length does. False of the code (no length is checked anywhere). Proved for every reachable collection and every shorter vector: Insert panics after the counter, object and vector were written, and neither the collection nor the database around it can ever be opened again; a search with a shorter vector panics. Longer vectors: a concrete run, accepted, after which normal calls panic. C69_short_vector_destroys, C69_short_vector_destroys_database, C69_short_query_panics: every reachable state and every shorter vector. C69_never_refused: every vector. C69_long_query_truncated: every longer query. C69_long_vector_poisons: a run in which a longer vector, once accepted, makes later correct calls panic. Also proved for histories in which several workers ran the batches (the C69 theorems; suffix _concurrent, Props/ConcExact).
  Theorems: `Conc.C69_never_refused_concurrent`, `Conc.C69_long_query_truncated_concurrent`, `Conc.C69_short_vector_destroys_concurrent`, `Conc.C69_short_query_panics_concurrent`, `C69_short_vector_destroys`, `C69_short_query_panics`, `C69_short_vector_destroys_database`, `C69_long_vector_poisons`, `C69_long_query_truncated`, `C69_never_refused`
* **C70** (proved) The DiskANN index keeps every inserted vector, in parts of the configured size. Model of Insert with a list of parts (Model/DiskIns). An invariant over the calls, with insert_spec of C58 for one part. For the index NewDiskAnn really makes (all parameters zero): every call is refused and every search dereferences nil, for every history. Proved for an index with parameters. C70_new_unusable: NewDiskAnn sets no parameters, so through it nothing can be inserted and every search panics.
  Theorems: `C70_insert_sequential`, `C70_new_unusable`
* **C71** (proved) Concurrent inserts into the DiskANN index lose nothing they acknowledged. Small-step model: the locked section, the atomic increment, the load of rwIndex, the checks of insert under the part's lock, addVertex, the linking, and the snapshot goroutine are separate steps. Invariant over all runs: no panic, every part is one a single goroutine could have built or is halfway through one insertion, exactly the vectors of calls that returned nil or are linking are held, once each, ids distinct, one lock holder per part. Liveness: a bounded sum of progress and an enabled goroutine in every state that is not final. Files: invariant relating a file to its part. The rest of the claim is false; runs are given. C71_insert_concurrent, C71_parts_sound, C71_insert_returns, C71_all_return, C71_files, C71_read_only_frozen: every schedule. False of the code, with runs: C71_spurious_refusal, C71_limit_exceeded, C71_never_rotates_again (the size check is an equality), C71_snapshot_of_wrong_part, C71_first_part_never_saved, C71_read_only_grows, C71_saved_without_it, C71_saved_without_links. Steps: the locked section, the increment, the load of rwIndex, the checks of insert, addVertex, the linking; one snapshot is written in one step. Data races beyond such interleavings are not modelled.
  Theorems: `C71_files`, `C71_read_only_frozen`, `C71_saved_without_it`, `C71_read_only_grows`, `C71_saved_without_links`, `C71_first_part_never_saved`, `C71_insert_concurrent`, `C71_parts_sound`, `C71_insert_returns`, `C71_spurious_refusal`, `C71_limit_exceeded`, `C71_snapshot_of_wrong_part`, `C71_never_rotates_again`, `C71_all_return`
* **C72** (proved) DB.Close while clients use their collections. Small-step model of the loop (IsClosed and Close of each collection are separate steps, as db.mu does not exclude handle calls). Simulation: every successful run of Close has the same effect as a sequence of atomic calls (clients' calls in order, Collection.Close calls in between, a DB.Close that finds everything closed); C66 then gives survival. Progress measure for the loop. Counterexample runs for the rest. Proved as stated. The wish that Close acts at one moment is false (C72_not_one_moment), and so is that only failing stores make it fail (C72_client_close_breaks_close). C72_alone: without clients Close is the sequential Close.
  Theorems: `C72_close_is_closing_one_by_one`, `C72_insert_during_close_survives`, `C72_close_succeeds`, `C72_close_progress`, `C72_not_one_moment`, `C72_client_close_breaks_close`, `C72_alone`, `C72_any_moment`, `C72_insert_survives_interrupted_close`
* **C73** (proved) The best hit of a search is a local optimum. Loop invariant of searchLayer: every result is still a candidate or all its links were looked at, and nothing looked at is nearer than all results; the loop cannot stop while a nearest result is still a candidate. Also proved for histories in which several workers ran the batches (C73_best_hit; suffix _concurrent, Props/ConcExact).
  Theorems: `Conc.C73_best_hit_concurrent`, `C73_best_hit`, `C73_small_nearest`, `C73_deleted_spoil`
* **C74** (proved) When a DiskANN search panics and what it returns otherwise. Induction over the insertions: the number of accepted vectors gives the size of the newest part, all older parts are full; a part search is sound and its first visited vector is the entry point. 
  Theorems: `C74_search`, `C74_refused_vector_breaks_search`
* **C75** (proved) DiskANN search is exact in small parts. Invariant: in a part with at most maxDegree+1 vectors nothing is pruned away, so every vector is reachable from the entry point; a list of limit² entries is never trimmed, so the search visits the whole part; then the merge of the parts is computed. 
  Theorems: `C75_small_parts`, `C75_one_part`, `C75_degree_needed`, `C75_list_needed`, `C75_deletion_needed`
* **C76** (proved) A DiskANN search beside running insertions. The search is a machine of its own (load rwIndex, read a start vertex, one round, range over roIndexes, merge) interleaved with the machine of C71. Vectors are never removed or moved, so what the search has noted stays true; the hits are grouped by part, and a part occurs twice only if the newest part became read-only before the range. A search meets every stage of the linking of a new vertex (`World.Sees`): all of them have the vectors and ids of the part and closed links. A measure (candidates left plus links of unvisited vertices) gives termination. C76_search_beside, C76_no_panic, C76_search_returns: every schedule; C76_alone ties the machine to the sequential search. False of the code, with runs: C76_same_vector_twice, C76_panic_beside_insert. C76_sees_half_a_link: a run that meets a link half made. One round of the search loop is one step, which loses nothing because vectors do not change; data races beyond such interleavings are not modelled.
  Theorems: `C76_search_beside`, `C76_no_panic`, `C76_search_returns`, `C76_alone`, `C76_same_vector_twice`, `C76_panic_beside_insert`, `C76_sees_half_a_link`
* **C77** (proved) Rankings with float32 as it is. A bit-exact binary32 (integer arithmetic and one rounding) instantiates the operations of C44. Decoding is a homomorphism because rounded values are representable; squares, their sums and roots have no sign and are not NaN, bounded components bound all partial sums. So the distances that occur are comparable (`Ranks`), and the ranking theorems apply; the vectors in the store are those that callers gave (induction over the history). 
  Theorems: `C77_euclidean_ranks`, `C77_dot_ranks`, `C77_euclidean_sorted`, `C77_dot_sorted`, `C77_euclidean_exact`, `C77_distance`, `C77_self_query`, `C77_nan_spoils`, `C77_dot_overflow`, `C77_underflow_overflow`
* **C78** (proved) How far computed distances and rankings are from the truth. The values of binary32 patterns and the exact distances are rationals (`Spec/Real32.lean`, independent of the arithmetic model). Each rounding has relative error 2^-24 (or half the smallest unit); the bounds for sums of squares, roots (integer square root with sticky bit, 53 then 24 bits) and inner products follow by induction over the components, with a second case in which a partial result overflows. Rankings follow from C16/C17/C22 by comparing squares. 
  Theorems: `C78_euclidean`, `C78_dot`, `C78_euclidean_permille`, `C78_dot_permille`, `C78_ranking`, `C78_nearest`, `C78_wrong_order`, `C78_cancellation`
* **C79** (proved) What the embedding service is asked and what its answers do. The text is `flatProperties` over an arbitrary permutation of the properties (`Model/Embed.lean`); the service is any function from texts to answers. Two orders with different texts: put either property first. Unique decoding by splitting at the first colon and comma. The effect of answers: `assignVectors` computed in closed form by induction over the batch, then both calls unfold to the same program; the null case reduces to inserting an empty vector and C31's unopenable state. Also proved for histories in which several workers ran the batches (C79_null_destroys; suffix _concurrent, Props/ConcExact).
  Theorems: `Conc.C79_null_destroys_concurrent`, `C79_text_depends_on_order`, `C79_one_property`, `C79_text_determines`, `C79_same_text`, `C79_as_if_supplied`, `C79_short_answer`, `C79_null_is_empty`, `C79_null_destroys`, `C79_stored_vector`, `C79_found_by_properties`, `C79_other_vector`
* **C80** (proved) What callers that go on using their vectors change. A write replaces the vector of a vertex in memory (`Model/Alias.lean`). The state after calls and writes is, up to the vectors store, a state of the ordinary collection (its twin, whose store holds what is in memory), so all search theorems apply to it; every call is shown to act on both in the same way. A history with writes and the one without are related by equality of everything but the index. 
  Theorems: `C80_search`, `C80_sorted`, `C80_no_panic`, `C80_erasure`, `C80_fails`
* **C81** (proved) What a collection keeps for ever: the log and the vertices in memory. Counting the records each function writes, by induction over layers, neighbours, batches and histories, with no assumption on the state; the vertices through the invariant that ids are fresh and that reopening rebuilds the same vertices. For several workers: a potential per goroutine (the records it may still write and those it still owes) that every step of every goroutine respects, summed over the workers and the objects still queued. The bounds on the log hold for batches with any number of workers and any schedule (`_concurrent`), also with the race; the bound on the vertices in memory (`C81_memory_concurrent`) for all histories with crashes and batches without the race of C14.
  Theorems: `C81_append_only`, `C81_least`, `C81_most`, `C81_records`, `C81_bytes`, `C81_delete`, `C81_memory`, `Conc.C81_append_only_concurrent`, `Conc.C81_batch_keeps`, `Conc.C81_least_concurrent`, `Conc.C81_most_concurrent`, `Conc.C81_records_concurrent`, `Conc.C81_bytes_concurrent`, `Conc.C81_memory_concurrent`
* **C82** (proved) Removing and fixing elements in the middle of the min-max heap. The result of `down` is added to the model (`Model/MMHeapFix.lean`). Order after `Fix` from the invariants of sifting down and up; when the value belongs above the parent, the cell where it ends and the parent violate the order. `Remove` is `Fix` on the shortened array. 
  Theorems: `C82_queue`, `C82_fix`, `C82_remove`, `C82_remove_last`, `C82_remove_outside`, `C82_remove_top`, `C82_max`, `C82_remove_fails`, `C82_fix_fails`
* **C83** (proved) The same object several times in one batch. The batch machine runs on numbers of objects (`Model/Pointers.lean`). A simulation shows that, when workers share no object, each run is a run of the batch on copies with the same collection, so C14/C15 apply; the invariant follows which position wrote the id last. The failing schedule is evaluated by the kernel. 
  Theorems: `Conc.C83_apart`, `Conc.C83_one_worker`, `Conc.C83_fails`
* **C84** (proved) A database whose batches are run by several workers. The events of C65/C66 and two more: a batch of the machine of C14/C15 on one collection and a stop with any files each collection may leave, also in the middle of CreateCollection or DeleteCollection (`Spec/DbConc.lean`). The database invariant of C65 is weakened to what concurrent batches keep and shown to be kept by each event; the theorems follow by induction over the history. 
  Theorems: `C84_insert_survives`, `C84_batch_survives`, `C84_read_survives`, `C84_gone_stays_gone`, `C84_ids`, `C84_search`, `C84_calls_return`, `C84_reads_return`, `C84_dropped_stays_gone`, `C84_collection_stays`, `C84_opens_iff`
* **C85** (proved) One data directory opened by several DB values or processes. A world of shared rows, directories and lock files and of DB values with their caches (`Model/Locks.lean`); an invariant (who uses a collection holds both its locks, and its files are what it wrote) is kept by every step; leaked locks are kept by every step of other DB values; the run of Open is compared with the single-user `Db.reopen`. 
  Theorems: `C85_exclusive`, `C85_undisturbed`, `C85_second_open`, `C85_failed_open_leaks`, `C85_failed_create_leaks`, `C85_blocked`, `C85_vectors_panic`, `C85_alone`, `C85_close_frees`, `C85_run`, `C85_run_create`, `C85_run_panic`, `C85_closed_then_deleted`, `C85_leak_example`, `C85_no_leak`, `C85_close_then_open`, `C85_exit_then_open`, `C85_run_fine`
* **C86** (proved) The random level of a vector. float64 numbers as reals with infinities and NaN (`Model/Level.lean`), accuracy of logarithm, product and quotient as a hypothesis met by exact arithmetic (`Spec/Level.lean`); error propagation in Mathlib's reals; the insertion with a computed level equals the insertion with a level argument; C31 for the files. Assumes that math.Log, * and / on float64 are accurate to a relative 2^-50 away from overflow, math.Log(1) = 0, and that the conversion of +Inf to int64 gives the smallest or the largest int64 (amd64, arm64); rand.Float64 as in Go 1.19 (0 or a number from 2^-63 to 1-2^-53).
  Theorems: `Level.C86_level_range`, `Level.C86_level_distribution`, `Level.C86_insert`, `Level.C86_collection_insert`, `Level.C86_zero_panics`, `Level.C86_no_panic`, `Level.C86_zero_loses`

## Axioms of each theorem

Only Lean's three standard axioms occur (`propext`, `Quot.sound`, `Classical.choice`). P = propext, Q = Quot.sound, C = Classical.choice.

* **CPQ** (367): Conc.C02_insert_readable_concurrent, Conc.C02_batch_readable_concurrent, C02_insert_readable, C02_batch_readable, Conc.C03_get_filters_concurrent, C03_get_filters, Conc.C04_batch_any_schedule, Conc.C04_ids_distinct_concurrent, C04_ids_database, C04_ids_never_twice, C04_ids_distinct, Conc.C05_batch_any_schedule, Conc.C05_torn_any_concurrent, Conc.C05_next_id_concurrent, C05_torn_any, C05_ids_after_crash, C05_torn_exact, Conc.C06_deleted_stays_deleted_concurrent, C06_deleted_stays_deleted, Conc.C07_delete_twice_concurrent, Conc.C07_delete_search_concurrent, Conc.C07_delete_frame_concurrent, C07_delete_frame, C07_delete_twice, C07_delete_search, C08_size, C08_size_lower, Conc.C08_size_lower_concurrent, C08_size_exact, Conc.C09_batch_any_schedule, C09_insert_frame, C09_batch_frame, C10_insert_properties, C10_batch_properties, C10_exact_not_refused, C10_accepted_exact, C13_in_bounds, C13_partition, C13_exactly_one, Conc.C14_no_panic, Conc.C14_race_free, Conc.C14_tame, Conc.C14_with_lock, Conc.C15_no_panic, Conc.C15_race_free, Conc.C15_tame, Conc.C15_with_lock, Conc.C16_without_order_concurrent, Conc.C16_well_formed_concurrent, C16_well_formed, C16_without_order, Conc.C17_true_distance_concurrent, C17_true_distance, Conc.C18_hits_live_concurrent, C18_database, C18_hits_live, Conc.C19_search_exact_concurrent, Conc.C19_no_panic_concurrent, C19_no_panic, C19_dot_dimension, C19_search_exact, C19_search_exact_uncrashed, C20_search_loop_bound, C20_search_and_insert_finish, C20_inner_loops, Conc.C21_locally_optimal_concurrent, C21_locally_optimal, C21_nothing_evaluated_is_closer, Conc.C22_with_peek_concurrent, C22_small_exact, C22_complete_exact, C22_not_exact, C22_with_peek, C22_with_peek_small, C23_reachable, C23_unreachable, Conc.C24_with_peek_concurrent, C24_deletes_hide_nothing, C24_hidden, C24_with_peek, C25_comparable, C25_comparable_distances, C25_heap_is_queue, C25_min_heap, C25_max_heap, C25_nothing_lost, Conc.C26_links_concurrent, Conc.C26_level_zero, Conc.C26_level_zero_any_moment, Conc.C26_self_link, Conc.C26_above_top, C26_well_formed, Conc.C27_degree_concurrent, C27_degree, C28_distinct, Conc.C29_reopened_index_concurrent, C29_reopened_index, Conc.C30_prefix_replays_concurrent, C30_prefix_replays, Conc.C31_batch_concurrent, Conc.C31_batch_concurrent_reads, Conc.C31_exact_concurrent, C31_crash_in_insert, C31_unopenable_after_vector, C31_unopenable_inside_batch, C31_exact, C31_unopenable_database, Conc.C32_exact_concurrent, C32_crash_in_delete, C32_search_panics, C32_exact, Conc.C33_sequence_contiguous_concurrent, C33_sequence_contiguous, Conc.C34_reopen_indistinguishable_concurrent, Conc.C34_reopen_keeps_objects_concurrent, C34_database, C34_reopen_keeps_objects, C34_reopen_indistinguishable, C35_holds, C35_mappings_lost, C35_witness, C36_map, C37_holds, C37_no_leftovers, C37_disk_ann, C37_disk_ann_witness, C37_existing_directory, C37_existing_directory_witness, C37_exact, C38_holds, C38_lost, C38_exact, C39_database, C40_validation, C40_parameters, C40_fields, C40_used, C40_object_meaning, C40_missing, C41_add, C42_plain, C42_escapes, C42_exact, C43_simple_comparable, C43_heuristic_comparable, C43_simple, C43_distinct_candidates, C43_heuristic, C44_dot, Conc.C45_euclidean_concurrent, C45_euclidean, C45_dot_ranks_backwards, C45_dot_returns_least_similar, C46_compare, C46_some_is_all, C47_two_ended_queue, C47_single_start, C47_pop_returns_first, C47_exactly, C47_nothing_lost_popping, C48_refused_vector_shifts_ids, C48_roundtrip, C48_witness, C48_restored_iff, C48_linked_neighbours_lost, C49_prune_sound, C49_prune_distinct, C49_degree_exceeded, C49_prune_exact, C49_prune_full, C49_degree_unbounded, Conc.C50_level_zero, Conc.C50_with_lock, Conc.C50_fails, Conc.C50_race_free, Conc.C50_level_zero_no_race, Conc.C50_race_or_not, Conc.C51_level_zero, Conc.C51_with_lock, Conc.C51_fails, Conc.C51_durable_damage, Conc.C51_race_free, Conc.C51_batch_on_disk, Conc.C52_no_size, Conc.C52_size, Conc.C52_size_apart, Conc.C52_again, Conc.C52_fails, Conc.C53_failed_insert_concurrent, Conc.C53_unopenable_after_failed_flush_concurrent, Conc.C53_exact_concurrent, Conc.C53_next_flush_repairs_concurrent, C53_failed_insert, C53_unopenable_after_failed_flush, C53_next_flush_repairs, C53_exact, C54_holds, C54_exact, C54_after_restart, C55_service_irrelevant, C55_vectors_kept, C55_failing_service_blocks, Conc.C56_exact, Conc.C56_nothing_running, Conc.C56_success, Conc.C56_fails, Conc.C57_exact, Conc.C57_exact_channel, Conc.C57_channel_survivor, Conc.C57_race_free, Conc.C57_tame, Conc.C57_fails, C58_search_sound, C59_insert_succeeds, C59_graph_sound, C60_deletes_ignored, C61_merge, C61_first_always_kept, C61_one_ignores_readonly, C61_witness, C61_merge_exact, C61_search_exact, C61_zero, Conc.C62_bounded, Conc.C62_no_deadlock, Conc.C62_level_zero, Conc.C62_with_lock, Conc.C62_fails, Conc.C62_race_free, Conc.C63_lost_objects, Conc.C63_level_zero, Conc.C63_with_peek, C64_batch_is_loop, Conc.C64_one_worker, C65_calls_return, C65_reads_return, C66_insert_survives, C66_read_survives, C66_gone_stays_gone, C67_create_atomic, C68_drop_atomic, C68_stays_gone, C68_resurrects, C68_resurrects_witness, Conc.C69_never_refused_concurrent, Conc.C69_long_query_truncated_concurrent, Conc.C69_short_vector_destroys_concurrent, Conc.C69_short_query_panics_concurrent, C69_short_vector_destroys, C69_short_query_panics, C69_short_vector_destroys_database, C69_long_query_truncated, C69_never_refused, C70_insert_sequential, C70_new_unusable, C71_files, C71_read_only_frozen, C71_first_part_never_saved, C71_insert_concurrent, C71_parts_sound, C71_insert_returns, C71_never_rotates_again, C71_all_return, C72_close_is_closing_one_by_one, C72_insert_during_close_survives, C72_close_succeeds, C72_close_progress, C72_not_one_moment, C72_client_close_breaks_close, C72_alone, C72_any_moment, C72_insert_survives_interrupted_close, Conc.C73_best_hit_concurrent, C73_best_hit, C73_small_nearest, C73_deleted_spoil, C74_search, C74_refused_vector_breaks_search, C75_small_parts, C75_one_part, C76_search_beside, C76_no_panic, C76_search_returns, C76_sees_half_a_link, C77_euclidean_ranks, C77_dot_ranks, C77_euclidean_sorted, C77_dot_sorted, C77_euclidean_exact, C77_distance, C77_self_query, C77_dot_overflow, C78_euclidean, C78_dot, C78_euclidean_permille, C78_dot_permille, C78_ranking, C78_nearest, C78_wrong_order, C78_cancellation, Conc.C79_null_destroys_concurrent, C79_text_depends_on_order, C79_one_property, C79_text_determines, C79_as_if_supplied, C79_null_is_empty, C79_null_destroys, C79_found_by_properties, C80_search, C80_sorted, C80_no_panic, C80_erasure, C80_fails, C81_memory, Conc.C81_append_only_concurrent, Conc.C81_batch_keeps, Conc.C81_least_concurrent, Conc.C81_most_concurrent, Conc.C81_records_concurrent, Conc.C81_bytes_concurrent, Conc.C81_memory_concurrent, C82_queue, C82_fix, C82_remove, C82_remove_top, C82_max, C82_remove_fails, C82_fix_fails, Conc.C83_apart, Conc.C83_one_worker, Conc.C83_fails, C84_insert_survives, C84_batch_survives, C84_read_survives, C84_gone_stays_gone, C84_ids, C84_search, C84_calls_return, C84_reads_return, C84_dropped_stays_gone, C84_collection_stays, C84_opens_iff, C85_exclusive, C85_undisturbed, C85_second_open, C85_failed_open_leaks, C85_failed_create_leaks, C85_blocked, C85_vectors_panic, C85_alone, C85_close_frees, C85_run, C85_run_create, C85_run_panic, C85_closed_then_deleted, C85_leak_example, C85_no_leak, C85_close_then_open, C85_exit_then_open, C85_run_fine, Level.C86_level_range, Level.C86_level_distribution, Level.C86_insert, Level.C86_collection_insert, Level.C86_zero_panics, Level.C86_no_panic, Level.C86_zero_loses
* **P** (33): C06_future_id_not_reserved, C07_delete_unknown, C08_failed_insert_counts, C10_repeated_mapping, C12_asked_only_for_missing, C19_negative_k, C19_m_is_one, C19_m_too_large, C25_peek_is_not_next, C28_unknown, C39_collection, C39_close_closes, C39_delete_not_refused, C41_delete, C46_intersection_with_empty, C54_mappings_hidden, C58_empty_panics, C59_insert_refused, C69_long_vector_poisons, C71_saved_without_it, C71_read_only_grows, C71_saved_without_links, C71_spurious_refusal, C71_limit_exceeded, C71_snapshot_of_wrong_part, C75_degree_needed, C75_list_needed, C75_deletion_needed, C76_same_vector_twice, C76_panic_beside_insert, C79_short_answer, C79_other_vector, C82_remove_outside
* **PQ** (42): C01_vector_codec, C01_vector_store, C05_torn_write_reuses_ids, C05_torn_first_write_unopenable, C10_refused_exact, C10_refusal_names_first, C11_insert_refused, C11_batch_refused, C11_invalid_member, C12_batch_vectors, C12_missing_vector_refused, C12_insert_vector, C19_empty_collection, C19_dimension_mismatch, C28_decode_encode, C41_get, C44_euclidean, C44_dot_panics, C46_build, C46_algebra, C46_intersection, C46_intersection_exact, C46_some_exact, C47_nothing_lost_building, C48_ids_read, C48_gap_lost, C48_metadata, C48_two_links_lost, C48_large_vertices_panic, C48_read_index_unusable, C76_alone, C77_nan_spoils, C77_underflow_overflow, C79_same_text, C79_stored_vector, C81_append_only, C81_least, C81_most, C81_records, C81_bytes, C81_delete, C82_remove_last
