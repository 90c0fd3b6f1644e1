{"id": "C01", "title": "Stored vectors come back bit for bit", "statement": "A vector written to the object store and read back is the same list of 32-bit float patterns, including NaNs, negative zero and infinities, for every dimension below 2^32.", "quantifier": "all vectors of fewer than 2^32 components, all 2^32 bit patterns per component", "why_tests_cant": "the existing test round-trips one 4-component vector; dimension and bit patterns are unbounded", "anchors": ["entities/objstore/object.go: SerializeVector, DeserializeVector", "db/core/objstore/store.go: PutObject, GetVector"]}
{"id": "C02", "title": "An inserted object can be read back", "statement": "After Insert(obj) succeeds, Get([obj.Id]) returns exactly one object with that id, the same vector, and the properties as JSON re-reads them; it stays that way under every later operation other than Delete of that id, including clean close and reopen.", "quantifier": "all collections, all objects, all later operation sequences", "why_tests_cant": "needs every later history, not one insert followed by one get", "anchors": ["db/collection_insert.go: Insert, insert", "db/collection_get.go: Get", "db/core/objstore/store.go: PutObject, GetObject"]}
{"id": "C03", "title": "Get is an order-preserving filter", "statement": "Get(ids) returns, in the order of ids and with the same repetitions, exactly the objects of those ids that are stored; unknown ids are skipped without an error.", "quantifier": "all id lists (any length, duplicates, unknown ids), all store contents", "why_tests_cant": "unbounded lists and store contents", "anchors": ["db/collection_get.go: Get", "db/core/objstore/store.go: GetObject, GetObjects"]}
{"id": "C04", "title": "Object ids are never handed out twice", "statement": "Over the whole life of a collection - any mix of single inserts, batches, failed inserts, deletes, closes and reopens - no two objects receive the same id, and ids are handed out in increasing order, until 2^64 ids have been used.", "quantifier": "all histories of a collection", "why_tests_cant": "a test sees one history; reuse would show only after a particular failure or restart", "anchors": ["db/idcounter.go: newIdCounter, fetchAndInc", "db/collection_insert.go: insert"]}
{"id": "C05", "title": "Which ids follow after a crash", "statement": "If the process stops at any point except inside the write of the 8-byte counter file, the next open continues with an id larger than every id ever returned to a caller, for every schedule of a concurrent batch too. If it stops inside that write, after j of its bytes: if the file had never been written the collection cannot be opened again; otherwise it can be iff it could have been without the call, and the next id is not below the old value of the file - which is above every id of an object - iff the low j bytes of the new value are not below those of the old one (no carry left them).", "quantifier": "all histories and all crash points, including a torn 8-byte counter write", "why_tests_cant": "crash points and partial writes cannot be enumerated by unit tests", "anchors": ["db/idcounter.go: newIdCounter, fetchAndInc"]}
{"id": "C06", "title": "A deleted object stays deleted", "statement": "After Delete(id) returns without error, Get never returns that id again and SemanticSearch never lists it, under every later operation sequence including clean close and reopen.", "quantifier": "all histories after a delete", "why_tests_cant": "resurrection can happen through any later operation, in particular through recovery", "anchors": ["db/collection_delete.go: Delete", "db/core/index/hnsw/delete.go: Delete", "db/core/index/hnsw/deserialize.go: deleteVertex"]}
{"id": "C07", "title": "Delete touches only its own id", "statement": "Delete(id) leaves every other object, its vector and its presence in the index unchanged; deleting an unknown or already deleted id changes nothing and reports no error.", "quantifier": "all collection states, all ids", "why_tests_cant": "quantifies over all other objects", "anchors": ["db/collection_delete.go: Delete", "db/core/objstore/store.go: DeleteObject"]}
{"id": "C08", "title": "What GetSize counts", "statement": "In every history of calls, GetSize is the number of distinct ids for which Get returns an object plus the number of objects lost by inserts that could write the object but not its vector; so it equals the number of readable objects when no insert failed half-way, and is never smaller.", "quantifier": "all histories, with and without storage errors", "why_tests_cant": "needs all histories and all failure points", "anchors": ["db/collection.go: GetSize", "db/core/objstore/store.go: Size, PutObject, GetObject"]}
{"id": "C09", "title": "Insert leaves other objects alone", "statement": "Insert and InsertBatch never change or remove an object that was already stored, whether they succeed or fail.", "quantifier": "all collection states, all inserts, all failure points", "why_tests_cant": "quantifies over all previously stored objects", "anchors": ["db/collection_insert.go: Insert, InsertBatch, insert", "db/core/objstore/store.go: PutObject"]}
{"id": "C10", "title": "Which objects are accepted for their properties", "statement": "An object is refused for its properties by Insert/InsertBatch exactly when it has more properties than the collection has mappings or lacks a mapped one, and the error names the first such object of a batch; so with mappings without repetition an accepted object's property names are exactly the mappings, and with repetitions it has at most that many others.", "quantifier": "all mapping lists (including repeated names) and all property maps", "why_tests_cant": "the check compares lengths and membership, which only coincide with set equality for some inputs", "anchors": ["db/collection.go: validateObjectsMappings"]}
{"id": "C11", "title": "A rejected insert changes nothing", "statement": "When Insert or InsertBatch returns a validation error, a missing-vector error, an embedding error or the closed error, no object, id, index entry or file has changed.", "quantifier": "all states, all batches with an invalid member anywhere", "why_tests_cant": "position of the bad object and state are unbounded", "anchors": ["db/collection_insert.go: Insert, InsertBatch, InsertBatch2", "db/collection.go: validateObjectsMappings, embedObjectsIfNeeded"]}
{"id": "C12", "title": "The embedder never replaces a vector the user supplied", "statement": "Objects inserted with their own vector keep it; exactly the objects without a vector are passed to the embedder, in order; without an embedder an object with no vector is refused.", "quantifier": "all batches mixing objects with and without vectors, all embedders", "why_tests_cant": "all mixtures and all embedder answers", "anchors": ["db/collection.go: embedObjectsIfNeeded", "db/embeddings/text2vec-huggingface.go: Embed", "db/embeddings/fake_embedder.go: Embed"]}
{"id": "C13", "title": "InsertBatch gives every object to exactly one worker", "statement": "The slices handed to the workers are in bounds, disjoint, in order and together are the whole batch, for every batch length and every worker count.", "quantifier": "all batch lengths, all positive worker counts", "why_tests_cant": "arithmetic identity over two unbounded numbers", "anchors": ["db/collection_insert.go: InsertBatch"]}
{"id": "C14", "title": "InsertBatch stores every object under every schedule without an internal failure", "statement": "When InsertBatch returns without error, its context was not cancelled and no worker hit an internal failure (a panic, which the worker pool swallows), then however its workers were interleaved each object of the batch is stored under its own fresh id, the ids used are exactly the next len(objs) ids, and the size grew by len(objs). No worker fails unless the batch passes through the race of C50 (in particular none fails if all drawn levels are 0, if there is one worker, or if insert.go:73-75 takes the vertex lock).", "quantifier": "all batches, worker counts and interleavings of the workers' atomic steps", "why_tests_cant": "schedules cannot be enumerated by tests", "anchors": ["db/collection_insert.go: InsertBatch, insert", "db/idcounter.go: fetchAndInc"]}
{"id": "C15", "title": "InsertBatch2 stores every object under every schedule without an internal failure", "statement": "When InsertBatch2 returns without error, its context was not cancelled and no worker hit an internal failure (a panic, which the worker pool swallows), then however its workers drain the shared channel each object of the batch is stored exactly once under its own fresh id. No worker fails unless the batch passes through the race of C50 (in particular none fails if all drawn levels are 0, if there is one worker, or if insert.go:73-75 takes the vertex lock).", "quantifier": "all batches, worker counts and interleavings", "why_tests_cant": "schedules cannot be enumerated by tests", "anchors": ["db/collection_insert.go: InsertBatch2, insert"]}
{"id": "C16", "title": "Search answers are well formed", "statement": "A search for k neighbours returns at most k (and at most ef) hits, no id twice, in order of non-decreasing distance.", "quantifier": "all indexes reachable by inserts and deletes, all queries, all k, all distance functions; the order is claimed where the distances of the stored vectors to the query can be compared with each other (for float32: none is NaN, see C77), the rest always", "why_tests_cant": "depends on every reachable graph and on heap tie-breaking", "anchors": ["db/core/index/hnsw/search.go: Search, searchLayer", "db/core/index/utils/heap.go"]}
{"id": "C17", "title": "Reported distances are true distances", "statement": "Every hit of a search carries the distance computed by the collection's distance function between that object's stored vector and the query.", "quantifier": "all reachable indexes, queries and k", "why_tests_cant": "all graphs and queries", "anchors": ["db/core/index/hnsw/search.go: Search, searchLayer"]}
{"id": "C18", "title": "Search hits are live stored objects, each with its own distance", "statement": "SemanticSearch returns Hits = len(Objects); each returned object is stored, not deleted, and is paired with its own distance.", "quantifier": "all reachable collection states, queries and k, including states after storage errors and after a crash inside Delete", "why_tests_cant": "the pairing is by position in two lists whose lengths agree only under an invariant over all histories", "anchors": ["db/collection_get.go: SemanticSearch", "db/core/objstore/store.go: GetObjects"]}
{"id": "C19", "title": "Calls do not crash the process", "statement": "On a collection with 2 <= m <= 2*m_max whose objects and queries have vectors of one dimension (a multiple of 8 for dot_product), in every state reached by calls, Insert, InsertBatch, Delete and Get never panic (unless the random generator returns exactly 0 when a level is drawn, see C86); SemanticSearch panics iff the collection is open, the query vector was found, and k is negative or no vector was ever indexed or - possible only after a crash inside Delete - the result would list a vector whose object is gone. Outside that range of parameters and vectors accepted calls do panic: m = 1, m > 2*m_max, a vector of another dimension, dot_product with another dimension.", "quantifier": "all configurations, all histories of calls, failing writes, crashes and reopens, all queries and k", "why_tests_cant": "out-of-range slices and nil dereferences depend on parameter combinations and graph shapes", "anchors": ["db/core/index/hnsw/search.go", "db/core/index/hnsw/insert.go", "entities/index/validator.go: ValidateHnswParams", "db/core/index/distance/rest.go", "db/core/index/distance/dot.go"]}
{"id": "C20", "title": "Search terminates", "statement": "Every search and every insert finishes after finitely many steps, bounded by the number of indexed vectors.", "quantifier": "all graphs, queries and parameters", "why_tests_cant": "non-termination cannot be observed by a test", "anchors": ["db/core/index/hnsw/search.go: searchLayer"]}
{"id": "C21", "title": "The first hit is locally optimal", "statement": "No neighbour (at the bottom layer) of the closest vertex found by the search is strictly closer to the query, and no vertex the search evaluated is strictly closer.", "quantifier": "all reachable graphs, queries, ef, all distance functions under which the distances of the stored vectors to the query can be compared (no NaN)", "why_tests_cant": "all graphs; depends on heap order and early exit", "anchors": ["db/core/index/hnsw/search.go: searchLayer, Search"]}
{"id": "C22", "title": "When a search is exact", "statement": "If the bottom layer of the index links every two vectors (as it does in every collection built with the simple neighbour selection that has indexed at most min(m, efConstruction)+1 vectors) and ef is at least the number of indexed vectors, the k hits are the k nearest live objects, with their true distances. In larger collections this is not so even if ef is twice the number of vectors, nothing was deleted and every vector is reachable: the search compares with the last cell of the heap array instead of the farthest result. With that one comparison repaired, every search with ef at least the number of indexed vectors would be exact in every collection whose objects are reachable along links, in particular in every collection of at most 2*m_max+1 vectors.", "quantifier": "all reachable collections, queries, k, with distances that can be compared (no NaN; C77 shows that one NaN is enough to break it); the negative part is one collection of five objects", "why_tests_cant": "recall tests measure an average on one data set", "anchors": ["db/core/index/hnsw/search.go: searchLayer", "db/core/index/utils/heap.go: Peek"]}
{"id": "C23", "title": "How far every inserted object stays reachable", "statement": "As long as at most 2*m_max+1 vectors were ever indexed, every object that Get returns is reachable in the index graph from the entry point and from every other vector, with either neighbour selection and any levels. With one vector more this can fail: an object inserted successfully and never deleted loses all its incoming links to pruning, and no search, not even one for its own vector with k and ef larger than the collection, returns it.", "quantifier": "all insert histories; the negative part is one history of four inserts with m_max = 1", "why_tests_cant": "pruning can disconnect a vertex only in particular histories", "anchors": ["db/core/index/hnsw/insert.go: Insert", "db/core/index/hnsw/neighbors_select.go"]}
{"id": "C24", "title": "When deletes hide live neighbours", "statement": "In collections built with the simple neighbour selection that have indexed at most min(m, efConstruction)+1 vectors, with ef at least that number, a search for k returns k hits whenever k objects are stored, whatever was deleted. Deleted objects keep their places among the ef results: with ef = 2, two deleted objects near the query hide the only live one, though it is reachable. With the comparison of C22 repaired, a search for k would return k hits whenever k objects are stored and reachable and ef is at least the number of vectors ever indexed.", "quantifier": "all delete histories, all k, with distances that can be compared (no NaN); the negative part is one collection of three objects", "why_tests_cant": "depends on which vectors were deleted relative to every possible query", "anchors": ["db/core/index/hnsw/search.go: Search", "db/core/index/hnsw/delete.go"]}
{"id": "C25", "title": "The heap behaves like a priority queue", "statement": "For every sequence of pushes and pops starting from any slice, each pop removes and returns a minimum (maximum) of what was pushed and not yet popped, and nothing is lost or duplicated.", "quantifier": "all operation sequences and initial slices", "why_tests_cant": "unbounded sequences", "anchors": ["db/core/index/utils/heap.go", "container/heap as used by db/core/index/hnsw"]}
{"id": "C26", "title": "The index graph stays well formed", "statement": "In every index reached by sequential calls each link points to an indexed vector that lives on that layer, no vector links to itself or twice to another, and the entry point lives on the top layer, above which there is nothing. After concurrent batches the links still lead to indexed vectors on the layer and the entry point lives on the top layer; the rest holds too when the batches draw only level 0, and can fail otherwise.", "quantifier": "all insert/delete histories, all level draws, both neighbour selection strategies, all schedules of concurrent batches", "why_tests_cant": "invariant over all histories and random levels", "anchors": ["db/core/index/hnsw/insert.go: Insert, insertFirstVertex", "db/core/index/hnsw/neighbors_select.go"]}
{"id": "C27", "title": "Vertex degrees are bounded", "statement": "No vector ever has more than 2*m_max links on the bottom layer or more than max(m, m_max) on a higher one (so the fixed scratch buffer of a search is never overrun) when m <= 2*m_max.", "quantifier": "all histories, all parameters with m <= 2*m_max", "why_tests_cant": "invariant over all histories", "anchors": ["db/core/index/hnsw/insert.go: Insert", "db/core/index/hnsw/search.go: searchLayer (connections[:len])"]}
{"id": "C28", "title": "Log records decode to what was encoded", "statement": "Every index log record decodes to the operation that produced it, distinct operations have distinct encodings, and any other leading byte is reported as an error.", "quantifier": "all five record kinds, all ids, levels, neighbour lists", "why_tests_cant": "unbounded neighbour lists and 64-bit ids", "anchors": ["db/core/index/hnsw/wal.go", "db/core/index/hnsw/deserialize.go"]}
{"id": "C29", "title": "A reopened index is the index that was closed", "statement": "After any sequence of successful inserts and deletes, closing and reopening yields an index with the same vertices, links, entry point, top layer and deletions, hence the same answer to every search.", "quantifier": "all histories, all level draws, all queries", "why_tests_cant": "the existing test compares one random history of 100 inserts", "anchors": ["db/core/index/hnsw/wal.go", "db/core/index/hnsw/startup.go: loadFromWAL, populateVerticesVectors", "db/core/index/hnsw/hnsw.go: NewHnsw"]}
{"id": "C30", "title": "Any prefix of the index log can be replayed", "statement": "Replaying any prefix of the records an index ever logged (as after a crash that lost the tail) never dereferences a missing vertex or a missing layer.", "quantifier": "all histories, all prefix lengths", "why_tests_cant": "all crash points of the log", "anchors": ["db/core/index/hnsw/wal.go: writeBatch, flush", "db/core/index/hnsw/deserialize.go: restore"]}
{"id": "C31", "title": "What a crash during Insert can cost", "statement": "If the process stops at any point during Insert (or inside an InsertBatch, after some of its objects), the collection can be opened again iff the call had been flushed, or no vector of the call had been written yet, the collection could have been opened before, and the cut write, if any, was not the very first of the counter file. Whenever it can be opened, every object readable before the call is readable and unchanged, and unless the call had finished there is no other. The same holds at every moment of a batch run by several workers: before it returned nil, the collection can be opened again iff no object of the batch is readable and it could have been opened before.", "quantifier": "all histories, all crash points inside Insert", "why_tests_cant": "crash points between file writes", "anchors": ["db/collection_insert.go: insert, Insert", "db/core/index/hnsw/startup.go: populateVerticesVectors"]}
{"id": "C32", "title": "What a crash during Delete can cost", "statement": "If the process stops at any point during Delete, a collection that could be opened before the call can be opened again, and every other object is readable and unchanged. If moreover nothing was waiting for a flush before the call: when it stopped before the object was removed or after the flush, every search answers as before or as after the call; when it stopped in between, the searches that used to list the object panic and all others answer as before.", "quantifier": "all histories, all crash points inside Delete", "why_tests_cant": "crash points between file writes", "anchors": ["db/collection_delete.go: Delete", "db/collection_get.go: SemanticSearch"]}
{"id": "C33", "title": "Log sequence numbers stay contiguous", "statement": "Every flush hands the log a batch that continues exactly after its last record, so a flush is never refused as out of order, in any history including reopen and failed flushes.", "quantifier": "all histories", "why_tests_cant": "invariant over all histories", "anchors": ["db/core/index/hnsw/wal.go: newWal, writeBatch, flush"]}
{"id": "C34", "title": "Reopening keeps every object", "statement": "After Close and Open, Get returns the same answer for every id list, GetSize is unchanged and the next insert gets the next id.", "quantifier": "all clean histories, all id lists", "why_tests_cant": "all histories", "anchors": ["db/db.go: init", "db/collection.go: newCollection", "db/core/objstore/store.go: NewStores"]}
{"id": "C35", "title": "What reopening keeps of the configuration", "statement": "After Close and Open, every collection created and not deleted has the configuration it was created with - name, types, index parameters, distance function, kind of embedder, embedder configuration - except that its mappings are gone: it then accepts no object with a property.", "quantifier": "all accepted configurations", "why_tests_cant": "each field must survive for all values", "anchors": ["db/db.go: init", "db/metadata/meta_manager.go: CreateCollection, GetCollections"]}
{"id": "C36", "title": "Collections behave like a map from names", "statement": "CreateCollection, GetCollection, DeleteCollection, Close and Open behave like operations on a finite map: get finds exactly the created and not yet deleted names; create of an existing name is refused and leaves the existing collection untouched; delete of a missing name is refused; a re-created collection starts empty.", "quantifier": "all operation sequences with names that are plain directory names", "why_tests_cant": "all sequences", "anchors": ["db/db.go: CreateCollection, GetCollection, DeleteCollection, init", "db/metadata/meta_manager.go"]}
{"id": "C37", "title": "What a failed CreateCollection leaves behind", "statement": "If CreateCollection returns an error, the running database is as before. On disk nothing changed, or the row was saved and the collection exists after the next Open - only if creating the directory or opening the files failed, a directory of that name existed, or the configuration is a DiskANN one - or (no row saved) at most an empty directory was added.", "quantifier": "all configurations, all database states", "why_tests_cant": "the damage appears only after a restart", "anchors": ["db/db.go: CreateCollection, init", "entities/collection/validator.go: Validate", "db/metadata/meta_manager.go: CreateCollection"]}
{"id": "C38", "title": "When a created collection survives a restart", "statement": "A collection that CreateCollection returned exists after Close and Open, through any later clean history, iff its configuration has an embedder configuration (provided no row of that name was left over).", "quantifier": "all accepted configurations", "why_tests_cant": "an error is swallowed only for particular configuration values", "anchors": ["db/metadata/meta_manager.go: CreateCollection", "db/db.go: init"]}
{"id": "C39", "title": "What closed handles answer", "statement": "After a successful Close every operation on the database returns the closed error and changes nothing; so does every operation on a closed collection except Delete, which reports success for an id that is not stored and an I/O error for a stored one, and changes nothing either.", "quantifier": "all operations, all states", "why_tests_cant": "all operations in all states", "anchors": ["db/db.go: Close", "db/collection.go: Close, GetConfig, GetSize", "db/collection_delete.go: Delete"]}
{"id": "C40", "title": "Configuration validation accepts exactly the documented configurations", "statement": "CreateCollection reports a validation error exactly when the name is empty, the index type, embedder type, data type or distance type is unknown, or one of m, m_max, ef, ef_construction is not positive. The parameters are those of the JSON object: the last non-null entry under each name, upper and lower case being the same; a missing number or distance type is refused, a missing heuristic means the simple selection, an entry of a wrong type is refused.", "quantifier": "all configurations", "why_tests_cant": "all combinations of field values", "anchors": ["entities/collection/validator.go: Validate", "entities/index/validator.go: ValidateHnswParams"]}
{"id": "C41", "title": "HTTP status codes follow the outcome", "statement": "The REST handlers answer 400 exactly for validation failures (bad configuration, unknown collection), 500 for every other error and 200/201 exactly on success, and the handler's effect on the database is that of the corresponding database call.", "quantifier": "all requests and database states", "why_tests_cant": "all states", "anchors": ["api/handlers/collection.go"]}
{"id": "C42", "title": "Where the files of a collection are", "statement": "The files of a collection live in the directory of its name directly inside the data directory, apart from the metadata file, iff the name is plain (not empty, '.', '..' or the metadata file's name, and without '/'); two collections with different plain names never share or nest directories.", "quantifier": "all names CreateCollection accepts", "why_tests_cant": "adversarial names", "anchors": ["db/collection.go: newCollection (filesPath)", "db/metadata/meta_manager.go: CreateCollection, DeleteCollection", "entities/collection/validator.go: Validate"]}
{"id": "C43", "title": "Neighbour selection picks near and few", "statement": "Both strategies return distinct candidates, at most m; the simple one returns m nearest candidates in order; the heuristic one starts with a nearest candidate and never selects a candidate that is closer to an already selected one than to the vertex.", "quantifier": "all candidate lists, m, distance functions", "why_tests_cant": "all candidate lists", "anchors": ["db/core/index/hnsw/neighbors_select.go"]}
{"id": "C44", "title": "What the distance functions compute", "statement": "EuclideanDistance of two vectors of the same length is the root of the sum of all squared differences. Dot of two vectors of the same length is the sum of all products if that length is a multiple of 8, and panics otherwise.", "quantifier": "all pairs of vectors of equal length", "why_tests_cant": "all lengths; the unrolled loop hides a length condition", "anchors": ["db/core/index/distance/rest.go: EuclideanDistance", "db/core/index/distance/dot.go: Dot"]}
{"id": "C45", "title": "The order of search results by distance function", "statement": "Hits are ranked by ascending value of the configured distance function: with euclidean_distance the nearest come first; with dot_product the smallest inner products, so the least similar vectors, come first.", "quantifier": "all queries and vectors whose distances are not NaN", "why_tests_cant": "direction of an ordering over all inputs", "anchors": ["db/core/index/distance/dot.go: Dot", "db/core/index/hnsw/search.go: Search"]}
{"id": "C46", "title": "What the set operations compute", "statement": "utils.Set: membership, add, remove, union, difference, symmetric difference, subset, equality, filter, all agree with mathematical sets. Intersection ignores the sets from the first empty later one on, so it is right iff no later set is empty or the sets before it have nothing in common; Some answers what All answers, so it is right iff the set is not empty and all or none of its elements satisfy the predicate.", "quantifier": "all finite sets and predicates", "why_tests_cant": "all sets", "anchors": ["db/core/index/utils/set.go"]}
{"id": "C47", "title": "When the min-max heap is a two-ended queue", "statement": "A heap built by NewMinMaxHeapFromSlice and modified by Push, Pop and PopMax is a two-ended priority queue (Pop returns a minimum, PopMax a maximum) iff the first element of the slice is a minimum of it, as it is for the one-element heaps of the DiskANN search; nothing is ever lost or duplicated.", "quantifier": "all slices and operation sequences", "why_tests_cant": "unbounded sequences", "anchors": ["db/core/index/utils/mmheap.go"]}
{"id": "C48", "title": "What a DiskANN snapshot restores", "statement": "A memory index written to pages and read back has the same metadata always, and its ids are always firstId, firstId+1, … as many as there were vectors; if the ids were consecutive, it has the same vertices, vectors and neighbours if and only if every vertex with a link has just one, its page has four bytes to spare and all later vertices of the page are link-free zero vectors; in particular link-free indexes come back completely. (What one would expect, that every index comes back, is false: neighbours are written with eight bytes and read with four; two linked vertices on a page, or one with two links, are lost; a vector of a part in which an id was skipped, as a refused vector does, comes back under another id or not at all; an index whose vertices exceed a page cannot be written; an index read back can be neither searched nor extended.)", "quantifier": "all memory indexes; the equivalence: all graphs with consecutive ids below 2^32, dimensions, degrees of at least 2", "why_tests_cant": "the existing round-trip test is commented out", "anchors": ["db/core/index/disk_ann/graph.go: serialize, deserialize", "db/core/index/disk_ann/dal.go: writeIndex, readIndex", "db/core/index/disk_ann/memory_index.go: serializeMetadata"]}
{"id": "C49", "title": "What DiskANN pruning keeps", "statement": "robustPrune returns stored candidates (or present neighbours) other than the vertex itself, nearest first, distinct whenever a vertex counts as close to itself, and exactly those the greedy rule keeps: none lies in the shadow of an earlier one (distanceThreshold times their distance is at most its distance to the vertex), and every candidate left out lies in the shadow of a kept one that is no farther. The only exception is a vertex that already has exactly maxDegree neighbours: it is left with at most one (insert never asks for this when maxDegree is positive). (The degree bound one would also expect is false: it is compared with the old list, never with the new one, so whatever positive maxDegree is set, inserts can give a vertex any number of neighbours.)", "quantifier": "all indexes inserts can build, all vertices and candidates; all maximal degrees and all numbers of neighbours", "why_tests_cant": "all graphs", "anchors": ["db/core/index/disk_ann/memory_index.go: robustPrune, insert"]}
{"id": "C50", "title": "Concurrent index inserts keep the graph and the log sound, unless one locks a vertex while its inserter writes it", "statement": "When several workers insert into the index at the same time, on every schedule that never passes through the race (one worker holds the lock of a vertex while the vertex's own inserter stands between insert.go:73 and :75, where it holds no lock): no worker panics, the graph stays well formed (up to self links) and every prefix of the log replays to a well-formed graph. Batches whose levels are all 0 never pass through the race; with the missing lock no schedule does. A schedule through the race can make a worker panic.", "quantifier": "all reachable indexes, all interleavings of any number of concurrent Hnsw.Insert calls, all levels", "why_tests_cant": "schedules", "anchors": ["db/core/index/hnsw/insert.go: Insert", "db/core/index/hnsw/wal.go: writeBatch"]}
{"id": "C51", "title": "The log agrees with memory after a concurrent batch, unless the race was met", "statement": "When all the workers of a batch have returned after a schedule that never passed through the race of C50, replaying the log gives the graph that is in memory, exactly the vertices of the batch were added, with their vectors, and searches do not panic. After a schedule through the race the log can describe other links than those in memory, and the index loaded from it can panic in a search.", "quantifier": "all reachable indexes, all interleavings, all levels", "why_tests_cant": "schedules", "anchors": ["db/core/index/hnsw/insert.go: Insert (SetConnections without lock)", "db/core/index/hnsw/wal.go"]}
{"id": "C52", "title": "Concurrent operations on one collection are linearizable, and GetSize is off by at most one overlapping write", "statement": "Insert, InsertBatch, InsertBatch2, Delete, Get, SemanticSearch and GetSize running concurrently on one open collection return what they would return if executed one at a time in some order that keeps the order of calls that did not overlap, with one exception: a GetSize that overlaps with a call that writes or removes k objects may return up to k more than the size at its place in that order, never less. The batches are ones that do not pass through the race of C50. (GetSize takes no lock, so exact linearizability is false.)", "quantifier": "all interleavings of the operations' atomic steps by any number of clients, all failing disk writes; no Close meanwhile, batches whose workers do not insert above layer 0 concurrently (or any batch once the missing lock is added)", "why_tests_cant": "schedules; Delete looks up the object before taking the lock", "anchors": ["db/collection_delete.go: Delete", "db/collection_insert.go: Insert", "db/collection_get.go: Get", "db/collection.go: GetSize"]}
{"id": "C53", "title": "When a collection can be reopened after a call", "statement": "Whatever Insert, InsertBatch or Delete returned, and whichever disk write failed: if the call made everything durable the collection can be opened again; if it returned an error after making an object readable the collection cannot be opened again, until the next successful flush; in all other cases it can be opened iff it could before the call.", "quantifier": "all reachable states, all calls, all failing steps", "why_tests_cant": "needs a disk failure at one particular step followed by a restart, in every state", "anchors": ["db/collection_insert.go: Insert, InsertBatch", "db/core/index/hnsw/wal.go: flush", "db/core/index/hnsw/startup.go: populateVerticesVectors"]}
{"id": "C54", "title": "What the API shows of a configuration", "statement": "GET of a collection answers with the configuration it was created with, right after its creation and after every restart, except that mappings are never shown; so the answer equals the configuration iff that has no mappings.", "quantifier": "all accepted configurations and database states", "why_tests_cant": "every field for all values", "anchors": ["api/handlers/collection.go: getCollection", "db/collection.go: GetConfig"]}
{"id": "C55", "title": "When objects that bring their vectors need the embedding service", "statement": "Insert, InsertBatch and SemanticSearch with objects that all carry a vector give the same results and states with any embedding service that does not refuse an empty request, and with any service at all if the collection has no embedder; if the collection has an embedder whose service refuses the empty request, each such call on valid objects is refused with the service's error and changes nothing.", "quantifier": "all collections, all objects with vectors, all behaviours of the service", "why_tests_cant": "all behaviours of an external service", "anchors": ["db/collection.go: embedObjectsIfNeeded", "db/embeddings/text2vec-huggingface.go: Embed"]}
{"id": "C56", "title": "What can still be written after a batch insert returned", "statement": "When InsertBatch or InsertBatch2 has returned, no further worker of that call starts; if it returned no error, or only the final flush failed, none is running, and nothing changes any more except through later calls. If it returned another error, workers that were running may go on, each only with the objects it still had before it; nothing else changes, and objects readable before the call stay.", "quantifier": "all schedules of the workers, all failure points", "why_tests_cant": "schedules", "anchors": ["db/collection_insert.go: InsertBatch"]}
{"id": "C57", "title": "What a batch insert that reports success stored", "statement": "If InsertBatch returns no error, each worker took its chunk of the batch up to some position - to the end unless an internal failure (a panic, which the pool swallows) stopped it or the context was cancelled before it started - and exactly the objects from there to the end of the chunk are missing: nothing was stored for them and their ids are untouched; all the others are stored under the next ids and readable, and the size grew by their number. For InsertBatch2, whose workers share one channel, objects are missing only if no worker survived. Nothing is missing if the batch never passed through the race of C50, in particular with one worker or all levels 0.", "quantifier": "all schedules, all failures including panics of workers and cancelled contexts", "why_tests_cant": "schedules and internal failures", "anchors": ["db/collection_insert.go: InsertBatch"]}
{"id": "C58", "title": "DiskANN memory search is sound", "statement": "A search of a non-empty in-memory DiskANN index returns at most k hits, each a stored vertex with its true distance to the query, no vertex twice, ordered by distance, none with a deleted object id, and it never panics.", "quantifier": "every index reachable by inserts, every set of deleted ids, query of the right dimension, k and list size", "why_tests_cant": "the walk depends on the whole graph and on the order in which candidates tie", "anchors": ["db/core/index/disk_ann/memory_index.go:MemoryIndex.search"]}
{"id": "C59", "title": "DiskANN insert succeeds and keeps the graph sound", "statement": "Inserting a vector of the right dimension under a fresh id into an in-memory DiskANN index that is not read-only succeeds, adds exactly that vertex, changes no stored vector, and leaves every link pointing to a stored vertex; a read-only index and a wrong dimension are refused.", "quantifier": "every reachable index, every vector, list size, threshold and degree bound", "why_tests_cant": "the pruning that follows an insert rewrites lists of arbitrary other vertices", "anchors": ["db/core/index/disk_ann/memory_index.go:MemoryIndex.insert", "db/core/index/disk_ann/memory_index.go:MemoryIndex.robustPrune"]}
{"id": "C60", "title": "What DiskANN deletions hide", "statement": "Delete(objId) on a DiskANN index: whatever was inserted, if object id 0 is not among the deleted ids every search returns exactly what it returns with nothing deleted; if it is, every search returns nothing.", "quantifier": "every reachable index and every set of deleted object ids", "why_tests_cant": "a test with one id cannot show that deletions have no effect for every id", "anchors": ["db/core/index/disk_ann/disk_ann.go:DiskAnn.Delete", "db/core/index/disk_ann/memory_index.go:MemoryIndex.search"]}
{"id": "C61", "title": "What DiskANN Search returns from several parts", "statement": "DiskAnn.Search searches the read-write part and every read-only part and returns, for k >= 1, the first hit of the first part that found one and the k-1 nearest of all other hits; nothing for k = 0. So it returns k nearest hits whenever that first hit is one of them, in particular without read-only parts.", "quantifier": "all partial results, k, and numbers of read-only indexes", "why_tests_cant": "whether the merge keeps the right elements depends on the heap layout of arbitrary result lists", "anchors": ["db/core/index/disk_ann/disk_ann.go:DiskAnn.Search", "db/core/index/utils/mmheap.go"]}
{"id": "C62", "title": "Concurrent inserts always finish, unless the race was met", "statement": "When several workers insert into the index at the same time: they take boundedly many steps in all, under every schedule; if nobody has panicked and a call has not returned, some worker can move; and on a schedule that never passes through the race of C50 nobody panics, so every call returns. After a schedule through the race a call can wait forever for a lock that a panicked worker left locked.", "quantifier": "every reachable index, every number of workers, every schedule and every sequence of levels drawn", "why_tests_cant": "a test runs a few schedules; a deadlock or a lock left locked needs a particular interleaving", "anchors": ["db/core/index/hnsw/insert.go:Hnsw.Insert", "db/core/index/hnsw/search.go:Hnsw.searchLayer"]}
{"id": "C63", "title": "Whether every object of a concurrent batch can be found", "statement": "After a batch inserted by several workers has returned successfully: if only level 0 was drawn in it (and in the earlier such batches) and the collection has indexed at most 2·mMax+1 vectors, every stored object can be reached along links from the entry point and from every indexed vector, whatever the schedule; with MaxHeap.Peek repaired every search with ef at least the number of vectors is then exact. If a level above 0 is drawn this fails: there is a schedule after which every insert has returned without error and yet objects of the batch are returned by no search whatever.", "quantifier": "every reachable index, every number of workers, batch, schedule, query, k; the levels drawn as stated", "why_tests_cant": "the loss needs one worker to overwrite the list to which another has just linked itself", "anchors": ["db/core/index/hnsw/insert.go:Hnsw.Insert", "db/collection_insert.go:InsertBatch"]}
{"id": "C64", "title": "InsertBatch is the loop over Insert", "statement": "Inserting a non-empty list of objects with InsertBatch (one worker) succeeds exactly when inserting them one at a time with Insert succeeds throughout, and then leaves the same collection: the same ids, stored objects, graph, log and counter. A pool with one worker has exactly the outcomes of inserting the objects in order.", "quantifier": "every reachable collection, every list of objects, every sequence of random levels and disk failures, every schedule of the worker, every embedding service that answers for each object on its own", "why_tests_cant": "equality of the whole state for every batch size and history; a test compares a few examples", "anchors": ["db/collection_insert.go:Insert", "db/collection_insert.go:InsertBatch", "db/collection_insert.go:InsertBatch2", "db/core/index/hnsw/insert.go:Hnsw.Insert", "db/core/index/hnsw/wal.go:flush"]}
{"id": "C65", "title": "No call on a database panics, and it can always be opened again", "statement": "In a database used through its calls - collections created, deleted and created again, calls on their handles, Close, restarts, processes that stop inside CreateCollection or DeleteCollection - with accepted configurations whose parameters the index can work with and vectors of one dimension per collection, the next such call returns (a value or an error, never a panic) and Open succeeds.", "quantifier": "every sequence of CreateCollection, GetCollection, DeleteCollection, collection calls, Close and restarts, any number of collections, every configuration and object in the stated domain, all storage-failure outcomes the calls tolerate", "why_tests_cant": "the state of one collection depends on an unbounded history over all of them; one sequence of calls that makes Open fail loses the whole database", "anchors": ["db/db.go:Open,CreateCollection,DeleteCollection,Close,init", "db/collection.go:newCollection", "db/collection_insert.go", "db/core/index/hnsw/startup.go"]}
{"id": "C66", "title": "An object inserted through the database survives everything except its own deletion", "statement": "After Insert on a collection of a database reported success, GetCollection(name).Get([id]) answers with that object after any further sequence of events - calls on this and other collections, collections created and deleted, Close, restarts, processes that stop in the middle of an insert, a delete, CreateCollection or DeleteCollection - as long as no event deletes that object or its collection. An id that stopped being readable stays unreadable as long as the collection is not deleted.", "quantifier": "every history of the database before and after, any number of collections, every crash point of Insert, Delete, CreateCollection and DeleteCollection, every object and vector", "why_tests_cant": "the later history is unbounded and mixes collections, restarts and crash points", "anchors": ["db/db.go", "db/collection_insert.go:Insert", "db/collection_get.go:Get", "db/collection_delete.go:Delete", "db/core/objstore/store.go"]}
{"id": "C67", "title": "A crash during CreateCollection leaves all or nothing", "statement": "If the process stops at any moment of CreateCollection while no collection has changes waiting for a flush, Open succeeds; every other collection is exactly as before (same objects, size, searches); and the collection is either as before the call (absent, or the existing one) or present and empty with the index parameters and distance function of the given configuration.", "quantifier": "every history of the database, any number of collections, every configuration and every point at which the call can be interrupted", "why_tests_cant": "the crash point falls between durable writes of three components (metadata, directory, files) in an arbitrary database state", "anchors": ["db/db.go:CreateCollection,init", "db/metadata/meta_manager.go:CreateCollection", "db/collection.go:newCollection"]}
{"id": "C68", "title": "A crash during DeleteCollection", "statement": "If the process stops at any moment of DeleteCollection while no collection has changes waiting for a flush, Open succeeds; every other collection is exactly as before; the collection is exactly as before or gone. Once gone it stays gone through every later call, restart and crash until CreateCollection is called with its name. If it stopped after the row was deleted and before the files were, that CreateCollection returns an error and after the next restart the deleted collection is back with its objects.", "quantifier": "every history of the database before and after, every point of the call including a half removed directory", "why_tests_cant": "the row and the directory are removed by separate durable steps, and the damage shows only after another create and another restart", "anchors": ["db/db.go:DeleteCollection,CreateCollection,init", "db/metadata/meta_manager.go:DeleteCollection,CreateCollection"]}
{"id": "C69", "title": "What a vector of the wrong length does", "statement": "The length of a vector is never checked. In a collection that holds an object: Insert of an accepted object whose vector is shorter than the stored ones always panics after its writes, and the database can never be opened again; a search with a shorter vector always panics; Insert of any vector, of whatever length, never returns an error because of the vector: it returns nil and the object can be read back, or it panics; a search with a longer vector returns exactly the answer for its first components. (One would expect a refusal that changes nothing.)", "quantifier": "every reachable collection that holds an object, every accepted object with a vector of another length, every distance function, every database around it", "why_tests_cant": "The lengths of vectors, the contents of the collection and the rest of the database are unbounded; what is left on disk matters only at the next start.", "anchors": ["db/collection_insert.go: Collection.Insert", "db/collection_get.go: Collection.SemanticSearch", "db/core/index/hnsw/insert.go: Hnsw.Insert", "db/core/index/hnsw/startup.go: populateVerticesVectors"]}
{"id": "C70", "title": "The DiskANN index keeps every inserted vector, in parts of the configured size", "statement": "When one goroutine calls DiskAnn.Insert any number of times, every call with a vector of the index's dimension returns nil, every other call returns the dimension error; afterwards the index holds exactly the accepted vectors, each in exactly one part under an id of its own, every read-only part holds exactly the configured number of vectors and the newest at most that many.", "quantifier": "every sequence of vectors (fewer than 2^64), every limit of at least one, every set of deletions between the calls, every metric defined on vectors of the dimension", "why_tests_cant": "The number of calls, of parts and the limit are unbounded.", "anchors": ["db/core/index/disk_ann/disk_ann.go: NewDiskAnn", "db/core/index/disk_ann/disk_ann.go: DiskAnn.Insert", "db/core/index/disk_ann/memory_index.go: MemoryIndex.insert"]}
{"id": "C71", "title": "Concurrent inserts into the DiskANN index lose nothing they acknowledged", "statement": "When any number of goroutines call DiskAnn.Insert at the same time, none panics, every call returns if each goroutine is scheduled again and again, and a call waits only while another is at work in the same part; at every moment the index holds exactly the vectors whose Insert returned nil or has just stored them, each in one part and under an id no other call got; a call is refused only for a vector of the wrong length or because the part it had picked became read-only meanwhile. Every link leads to a vector of the same part. If the goroutines writing snapshot files read their operands in time, each file holds a read-only part, except perhaps one vector whose insertion was under way; a read-only part in which no insertion is under way never changes. (What one would also expect is false: right-length vectors can be refused, a part can outgrow the limit and then takes all later vectors, a read-only part can grow, a file can hold the wrong part, miss an acknowledged vector or have it without its links.)", "quantifier": "every number of goroutines, every interleaving of their steps and of the snapshot goroutines, every set of deletions", "why_tests_cant": "Schedules cannot be enumerated; the failures need particular interleavings.", "anchors": ["db/core/index/disk_ann/disk_ann.go: NewDiskAnn", "db/core/index/disk_ann/disk_ann.go: DiskAnn.Insert", "db/core/index/disk_ann/memory_index.go: MemoryIndex.insert", "db/core/index/disk_ann/memory_index.go: MemoryIndex.snapshot"]}
{"id": "C72", "title": "DB.Close while clients use their collections", "statement": "DB.Close called while other goroutines go on using their collection handles has, when it returns nil, the effect of closing the collections one by one in between the clients' calls and then the database; nothing a client was told about is lost; Close returns after finitely many steps of its own, and returns an error only if a store or the metadata store cannot be closed or a client closes its own collection meanwhile. At every moment of a DB.Close, and when it has returned an error, the collections are as the clients' calls and a few Collection.Close calls leave them, so what clients were told about is there when the process ends then and the database is opened again.", "quantifier": "every database reached by any life, every order in which the Go map yields the collections, every interleaving of clients' calls (legal, of any kind, also Close) with the steps of Close", "why_tests_cant": "Clients' calls can fall between any two steps of Close, and the map order is random.", "anchors": ["db/db.go: DB.Close", "db/collection.go: Collection.Close", "db/collection.go: Collection.IsClosed"]}
{"id": "C73", "title": "The best hit of a search is a local optimum", "statement": "If no deleted vector is nearer to the query than the first hit, then no vector to which the index links the first hit is nearer to the query, whatever ef, k and the other parameters are. So in a collection built with the simple neighbour selection that has indexed at most min(m, efConstruction)+1 vectors and deleted none, every search for at least one neighbour finds one and its first hit is a nearest object of the collection, even with ef = 1. A deleted vector near the query spoils this: of two live objects linked with each other the search returns the farther one.", "quantifier": "every collection reached by calls, failing writes, crashes and reopens; every query, k and ef, with distances that can be compared (no NaN); the negative part is one collection of three objects", "why_tests_cant": "Holds for every graph and query, and rests on the order in which the heaps give their elements.", "anchors": ["db/core/index/hnsw/search.go: searchLayer", "db/core/index/hnsw/search.go: Search", "db/core/index/utils/heap.go: Peek"]}
{"id": "C74", "title": "When a DiskANN search panics and what it returns otherwise", "statement": "Take a fresh DiskANN index with a part limit of at least one and any sequence of Insert calls, accepted or refused, before a Search. The search panics, for every query, exactly when the number of accepted vectors is a multiple of the part limit and the last call (if any) was not accepted: in particular on an empty index, and after a vector of a wrong length was refused while the newest part was full. In every other case a query of the right length gets an answer without a panic: at most k hits with different ids, each the id of an accepted vector with the distance of that vector to the query; none if object id 0 is listed as deleted, and at least one if it is not and k is at least one.", "quantifier": "every sequence of insertions, accepted and refused, every query of the right length, every k, every deletion list, all parameters with part limit ≥ 1", "why_tests_cant": "Depends on the whole history of accepted and refused insertions and on how they divide over the parts.", "anchors": ["db/core/index/disk_ann/disk_ann.go: DiskAnn.Search", "db/core/index/disk_ann/disk_ann.go: DiskAnn.Insert", "db/core/index/disk_ann/memory_index.go: search"]}
{"id": "C75", "title": "DiskANN search is exact in small parts", "statement": "Take a DiskANN index whose part limit is at most maxDegree+1, whose list size is at least the square of the part limit, with fewer than 2^32 insertions, all of them made with object id 0 not deleted, and a search that does not panic (C74). If fewer vectors were accepted than the part limit, the search returns exactly the k nearest vectors. In general it returns min(k, n) hits of n accepted vectors: the nearest vector of the newest part first, and then the k-1 nearest of all the others; that the first hit need not be the nearest vector is how the parts are merged. Without each of the bounds a search loses vectors: examples with a smaller degree, a smaller list and a deletion.", "quantifier": "every sequence of insertions, every query of the right length and every k; the negative parts are concrete indexes", "why_tests_cant": "Rests on the reachability of all vectors of a part from its entry point for every order of insertion and every pruning decision.", "anchors": ["db/core/index/disk_ann/disk_ann.go: DiskAnn.Search", "db/core/index/disk_ann/memory_index.go: search", "db/core/index/disk_ann/memory_index.go: insert"]}
{"id": "C76", "title": "A DiskANN search beside running insertions", "statement": "A DiskANN Search takes no lock. Started at any moment beside any number of calls of Insert and Delete, interleaved with them in any way (between any two rounds of its loop, and in the middle of the links an insertion makes), it returns after finitely many steps of its own once the others pause. If it returns, it returns at most k hits, each a vector stored by one of those calls, under its id and with its true distance to the query; no vector more than twice, and none more than once if no part was started during the search; at least one if nothing is deleted and k is positive, none while object id 0 is deleted. It does not panic if the newest part held a vector when the search began and no part was started meanwhile. Undisturbed it is the search of C74. Without these conditions it goes wrong: one run returns the same vector twice because the part it had just searched became read-only, and in another the search panics although a vector had been acknowledged, because an insertion had just started an empty part.", "quantifier": "every set of vectors inserted concurrently, every schedule of insertions, snapshots, deletions and the steps of the search, every moment the search begins, every stage of linking that it meets, every query of the right length and every k, all parameters with part limit ≥ 1; the negative parts are concrete runs", "why_tests_cant": "A test runs a few schedules; duplicates and panics need an insertion that starts a part between two particular reads of the search.", "anchors": ["db/core/index/disk_ann/disk_ann.go: DiskAnn.Search", "db/core/index/disk_ann/disk_ann.go: DiskAnn.Insert", "db/core/index/disk_ann/memory_index.go: search"]}
{"id": "C77", "title": "Rankings with float32 as it is", "statement": "With Go's float32 arithmetic (IEEE 754 binary32), if every vector inserted into a Euclidean collection and the query consist of finite numbers, the hits of every search are in order of non-decreasing distance and no distance is negative or NaN; the collections of C22 answer exactly; and a search for the vector of a stored object in a collection of C73 (small, nothing deleted) returns first an object at distance exactly 0. Distances of finite vectors are symmetric to the last bit, and the distance of a vector to itself is 0. For dot_product the order holds if no component exceeds 2^51 in absolute value (then no inner product overflows). Otherwise it fails: one vector with a NaN is accepted and makes a search for a stored vector return another one and lists of hits unsorted, also for hits that contain no NaN; inner products of finite vectors can be NaN with the same effect; finite vectors that differ can have distance 0, and distances of finite vectors can be +Inf.", "quantifier": "all finite vectors and queries of every dimension (below 2^24 for dot_product), all histories of calls and reopens, all parameters and k; the negative parts are concrete runs", "why_tests_cant": "There are 2^32 values per component; rounding, underflow, overflow and NaN interact with the order in which the heaps compare distances.", "anchors": ["db/core/index/distance/rest.go: EuclideanDistance", "db/core/index/distance/dot.go: Dot", "db/collection_get.go: SemanticSearch", "db/core/index/hnsw/search.go: Search"]}
{"id": "C78", "title": "How far computed distances and rankings are from the truth", "statement": "With Go's float32 arithmetic, the computed Euclidean distance of two finite vectors of n dimensions is a number d >= 0 whose square lies between (1-2^-24)^(n+6) S - n 2^-150 and (1+2^-24)^(n+6) (S + n 2^-150), where S is the exact squared distance of the vectors, or it is +Inf, and then S is about 2^128 or more. In at most 10000 dimensions and for S below 2^127 the square is within a thousandth of S (and 2^-136 for underflow). A computed inner product is off by at most ((1+2^-24)^(n+1) - 1) times the sum of the absolute values of the products (plus underflow), unless that sum is about 2^128 or more. So in a Euclidean collection of finite vectors a hit that comes before another has an exact squared distance at most 0.3% (and 2^-134) greater, and where C22 promises exact answers an object left out is nearer than a returned one by no more than that. The tolerances are needed: a search for one neighbour can return a vector that is farther than another one, and the computed inner product can be 0 when the exact one is 1.", "quantifier": "all finite vectors and queries, every dimension n (at most 10000 for the round figures), all histories of calls and reopens, all parameters and k; the negative parts are concrete runs", "why_tests_cant": "Rounding errors accumulate over the dimensions and depend on every bit of both vectors; tests compare distances on a few vectors with a tolerance chosen by hand.", "anchors": ["db/core/index/distance/rest.go: EuclideanDistance", "db/core/index/distance/dot.go: Dot", "db/collection_get.go: SemanticSearch", "db/core/index/hnsw/search.go: Search"]}
{"id": "C79", "title": "What the embedding service is asked and what its answers do", "statement": "For an object without a vector the service is sent the text made of \"key: value,\" for every property that has a value, in the order in which Go's map yields them. An object with two or more such properties (keys without a colon) therefore has several texts, and a service that computes a function of the text can give the object one vector when it is inserted and another when the same object is searched for; with at most one such property the text is always the same and the search is a search for the stored vector. If keys contain no colon and printed values no comma, the text determines the properties; otherwise different properties can have the same text. An answer with at least as many vectors as were asked for makes the call exactly what it would be had the caller supplied these vectors, in order; further vectors are ignored. An answer with fewer makes the call panic. A null in the answer is an empty vector: in a collection that holds a readable object, Insert then panics after its writes and what is on disk can never be opened again.", "quantifier": "all objects, property maps and iteration orders, all formats of values, all services and answers, all collections (for the last sentence: reached by any history of calls and reopens, with a distance that reads the second vector), all environments; the sentence about two vectors for one object is a concrete run as well", "why_tests_cant": "Go randomises the order of map iteration and the service is remote: a test sees one order and the answers of its fake.", "anchors": ["db/embeddings/text2vec-huggingface.go: Embed", "entities/objstore/object.go: FlatProperties", "db/collection.go: embedObjectsIfNeeded", "db/collection_insert.go: Insert, InsertBatch", "db/collection_get.go: SemanticSearch"]}
{"id": "C80", "title": "What callers that go on using their vectors change", "statement": "Insert keeps the caller's slice, so a caller that writes into obj.Vector after the call (a reused buffer) changes what the index computes with. However calls and such writes alternate: until the collection is opened again, the distance of a hit is that of what the caller last wrote into the slice of that object, and if nothing was written that of the vector Get returns; searches remain well formed (at most k and ef hits, no id twice, sorted by these distances, each hit readable with its properties); no call panics that would not have. Everything else is as if the caller had not written: every Insert, InsertBatch, Delete, Get, GetSize, Close and reopen of the history has the same result (ids and errors included) in the same history without the writes, and the stores and the counter on disk are the same. After the next open all distances are those of the stored vectors again. So \"the distance of a hit is that of the vector Get returns\" (C17) is false for such callers, shown by a run.", "quantifier": "all histories of legal calls, failing writes, reopens (when nothing waits to be flushed) and writes of any values, keeping the length, into the slices of any indexed objects between calls; all queries", "why_tests_cant": "It is about every interleaving of calls and writes to memory that two parties share; a test that reuses one buffer once sees one of them.", "anchors": ["db/core/index/hnsw/insert.go: Insert, insertFirstVertex", "db/collection_insert.go: insert", "db/core/index/hnsw/startup.go: populateVerticesVectors", "db/objstore/store.go: PutObject", "db/collection_get.go: SemanticSearch, Get"]}
{"id": "C81", "title": "What a collection keeps for ever: the log and the vertices in memory", "statement": "The index log on disk is append-only: no call, failure, crash or reopen removes or changes a record of it. Its growth is bounded on both sides. Above: per object handed to an insert two records and, for each layer from 0 to the object's level, m+1; one per delete; none for refused calls, reads, Close, Update and opening; no record is larger than 17 + 8*max(m, 2*mMax) bytes, so the file (without framing) is at most that many bytes per record. Below: every object that was ever accepted leaves at least two records, and a successful delete of a stored object makes the log longer, by one record of nine bytes. In memory the index never holds fewer vertices than objects accepted so far, and never more than objects handed to inserts: deletes give nothing back, not even across a reopen or a crash. So a collection whose size stays small under inserts and deletes needs unbounded disk, memory and opening time.", "quantifier": "all sequences of calls with any arguments and failures, batches run by any number of workers under any schedule (also with data races and panics), crashes inside inserts, deletes and batches at every point, and reopens; all parameters (the memory bound: vectors of the collection's dimension, batches without the race of C14)", "why_tests_cant": "It is a bound over all histories; a test measures the files after one of them.", "anchors": ["db/core/index/hnsw/wal.go: addVertex, setEntryPointWithMaxLayer, setConnectionsAtLevel, addConnectionAtLevel, deleteVertex, flush", "db/core/index/hnsw/insert.go: Insert, insertFirstVertex", "db/core/index/hnsw/delete.go: Delete", "db/core/index/hnsw/startup.go: loadFromWAL", "db/collection_insert.go: Insert, InsertBatch", "db/collection_delete.go: Delete", "db/collection_insert.go: InsertBatch, InsertBatch2, insert"]}
{"id": "C82", "title": "Removing and fixing elements in the middle of the min-max heap", "statement": "On a min-max heap (every element at an even depth is a minimum of what is below it, at an odd depth a maximum; then Push, Pop and PopMax act as a two-ended priority queue): Max returns the index of a maximum, -1 for the empty heap. Remove(h, i) returns the element at i and keeps exactly the others, and panics outside the heap. Fix(h, i) after a change of the value at i keeps exactly the elements. But \"Fix re-establishes the heap ordering\" (its documentation) and the same for Remove hold exactly if i is the root, or has no children, or the value now at i (for Remove: the former last element) does not belong above the parent of i. Otherwise the order is broken: after Remove(h, 3) on a heap of fourteen elements PopMax returns 10 while 27 is still in the heap, and after Fix(h, 1) Pop does not return the minimum. Removing the root, its children, the last cell or a leaf is always right.", "quantifier": "all element types and strict weak orders, all min-max heaps, all cells and all new values", "why_tests_cant": "The failing cases depend on the value of the last element relative to a cell two levels up; the claim is an equivalence over all arrays.", "anchors": ["db/core/index/utils/mmheap.go: Remove, Fix, Max, indexOfMax, down, downX, up, upX"]}
{"id": "C83", "title": "The same object several times in one batch", "statement": "A batch is a slice of pointers and may contain one object several times. If InsertBatch or InsertBatch2 returns nil (context not cancelled, no worker panicked), every position of the slice is stored and indexed under a fresh id of its own, the ids are the next ones, the size grows by the length of the slice, nothing else changes, and the object carries the id of its last position. This holds for every schedule whenever no object is given to two workers: with one worker, and for InsertBatch when no two slices share an object. It is false otherwise: with two workers and the same object twice the call can return nil without any failure although one position was never stored, because both workers write their id into the shared object before either stores it; GetSize grows by one instead of two.", "quantifier": "all collections reached by any history, all objects, all slices of pointers with any repetitions, all pool sizes, all schedules, embedder or not", "why_tests_cant": "The loss needs a particular interleaving of two workers; the guarantee quantifies over all schedules and all patterns of repetition.", "anchors": ["db/collection_insert.go: InsertBatch, InsertBatch2, insert", "db/collection.go: embedObjectsIfNeeded", "db/embeddings/text2vec-huggingface.go: Embed"]}
{"id": "C84", "title": "A database whose batches are run by several workers", "statement": "For every history of a database made of all calls of the API, batches run by several workers under any schedule (without the race of C14) on any of its collections, restarts, and stops of the process at any moment, also while several collections are each in the middle of an insert, a delete or a batch and another collection is being created or deleted: an object whose Insert, or whose InsertBatch/InsertBatch2 (context not cancelled), returned no error is read back with its properties and vector until it or its collection is deleted; an object that is gone stays gone; no id is received twice by the callers of one collection; searches return at most k different live objects, sorted, at their true distance; a collection that exists stays, one that is gone stays gone until it is created again; as long as no process is stopped inside a call, no call panics and Open does not fail. After a stop, Open succeeds exactly if the files of every collection can be opened: one collection that cannot (C31, C53) blocks the whole database; one that was being created never does.", "quantifier": "all databases, all histories, all schedules of every batch, all combinations of moments at which the collections are interrupted", "why_tests_cant": "Tests sample one schedule and one crash point on one collection; the property ranges over their products for all collections and over whole histories.", "anchors": ["db/db.go: Open, init, CreateCollection, DeleteCollection, GetCollection", "db/collection_insert.go: Insert, InsertBatch, InsertBatch2", "db/collection_delete.go: Delete", "db/collection_get.go: Get, SemanticSearch"]}
{"id": "C85", "title": "One data directory opened by several DB values or processes", "statement": "For any number of DB values, in one or several processes, on the same data directory, whose calls interleave in any order and may fail or end the process at any point between calls (no DB deletes a collection its own client has closed before): a collection is usable through at most one of them at a time; whatever the others do, its state, files and metadata row stay as its own calls left them; while one with a row is in use, Open by anyone does not succeed and changes no row and no existing file. What goes wrong: an Open that stops at a collection in use, and a CreateCollection that fails after opening its stores, leave collections locked that nobody can use, and until that process ends (or the collection is deleted) nobody can open the directory, even after every DB was closed; if the objects of a collection can be opened but its vectors cannot, Open panics instead of returning the error. If nothing of this kind happens no lock is leaked, and after Close (or the end of the process) Open does exactly what it does for a single user.", "quantifier": "all numbers of processes and DB values, all interleavings of their calls, all failures of opening and closing files, all moments at which a process ends", "why_tests_cant": "Tests open a directory once or twice in one order; the property ranges over all interleavings and all failures of all users, and the blocking lasts over unbounded continuations.", "anchors": ["db/db.go: Open, init, CreateCollection, DeleteCollection, Close", "db/collection.go: newCollection, Close", "db/core/objstore/store.go: NewStores, Close", "db/idcounter.go: newIdCounter"]}
{"id": "C86", "title": "The random level of a vector", "statement": "For every m with 2 <= m <= 2^53 and every number u > 0 that the random generator can return, the level computed for a new vector is between 0 and 63, so it fits its 32-bit log field; it is at least l when u <= m^-l and less than l when u > m^-l, except possibly for u within a relative 2^-32 of m^-l (so layer l is reached with probability m^-l); and in every state reached by calls, crashes and reopens an insertion with a valid vector does not panic. When the generator returns exactly 0 - or with m = 1 whatever it returns - an insertion into an index that was used before panics; by then the object and its vector are stored, and a collection whose process ends there cannot be opened any more.", "quantifier": "all m, all random draws, all levels l, all float64 arithmetics within a relative error of 2^-50, all reachable states", "why_tests_cant": "A test sees a few draws; the bound on the level and its distribution are about all draws and all rounding errors, and the draw of 0 has probability 2^-63.", "anchors": ["db/core/index/hnsw/utils.go: calculateLevelForVertex", "db/core/index/hnsw/hnsw.go: NewHnsw (mL)", "db/core/index/hnsw/vertex.go: Init", "db/core/index/hnsw/insert.go: Insert", "db/collection_insert.go: insert"]}
