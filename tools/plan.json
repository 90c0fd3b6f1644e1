{
 "C01": "Byte-level codec; round trip by induction.",
 "C02": "Collection state machine; invariant WInv plus frame relation EvoS over events.",
 "C03": "Invariant WInv.",
 "C04": "Counter file invariant; induction over histories; batch invariant BInv.",
 "C05": "Crash events with arbitrary cut points.",
 "C06": "Frame relation EvoS (nothing used comes back).",
 "C07": "Effect of delete on stores, index and searches.",
 "C08": "Relation between both stores.",
 "C09": "Frame of insertOne, of the sequential batch and of every step of the concurrent batch.",
 "C10": "Direct.",
 "C11": "Case analysis.",
 "C12": "Induction over the batch.",
 "C13": "Induction over the chunk loop.",
 "C14": "Small-step semantics of workers; invariant BInv over all schedules.",
 "C15": "As C14 with a shared queue.",
 "C16": "Search loop invariants.",
 "C17": "As C16.",
 "C18": "As C16 with the store invariant.",
 "C19": "Safety invariant of the graph; counterexamples by kernel evaluation.",
 "C20": "Termination measure.",
 "C21": "Loop invariant at exit.",
 "C22": "Bottom-layer connectivity; loop invariant of searchLayer (everything visited is kept, everything kept is expanded); the same loop with Peek reading the root.",
 "C23": "As C22.",
 "C24": "As C22.",
 "C25": "Heap order and permutation.",
 "C26": "Graph invariant, for sequential histories and for every interleaving of batch workers; concrete schedules for the parts that fail.",
 "C27": "Graph invariant.",
 "C28": "Codec.",
 "C29": "Replay refinement (Restores).",
 "C30": "Replay invariant (LogInv).",
 "C31": "Crash points inside insert.",
 "C32": "Crash points inside delete.",
 "C33": "Log invariant.",
 "C34": "Simulation (Sim).",
 "C35": "Database histories.",
 "C36": "Refinement to SpecRuns.",
 "C37": "Database.",
 "C38": "Database.",
 "C39": "Case analysis.",
 "C40": "Validator vs Documented.",
 "C41": "Handlers.",
 "C42": "Path resolution.",
 "C43": "Induction over the candidates.",
 "C44": "Induction.",
 "C45": "From C16/C17.",
 "C46": "Direct.",
 "C47": "Min-max heap order.",
 "C48": "Model of serialize/deserialize and the pages; per vertex: aligned or read four bytes early; induction over the vertices of a page and the pages of a file gives an equivalence.",
 "C49": "Model of robustPrune; a loop invariant gives the greedy rule exactly (Greedy); the failure of the degree bound by induction over inserts into a star.",
 "C50": "Interleaving semantics, invariants over all schedules.",
 "C51": "As C50.",
 "C52": "Lock-order linearization with explicit witness order.",
 "C53": "As C31.",
 "C54": "Handlers.",
 "C55": "Case analysis.",
 "C56": "As C14.",
 "C57": "As C14.",
 "C58": "Loop invariants of the DiskANN search.",
 "C59": "Graph invariant.",
 "C60": "Search congruence.",
 "C61": "Min-max heap results.",
 "C62": "Termination measure and progress for the interleaving semantics.",
 "C63": "Counterexample schedule evaluated in the kernel; positive part by an invariant over all schedules: the bottom layer stays symmetric and connected (own list, back-links still to be written, lists being pruned), lifted to histories of calls and level-0 batches.",
 "C64": "Relational proof that the moment of flushing does not matter; the interleaving semantics with one worker refines the sequential model and is refined by it (invariant over all schedules, determinism).",
 "C65": "Invariant DbGood over histories DbLife: the metadata rows and the collection map agree (DbInv) and every collection in it satisfies the collection invariant for its own configuration, id and dimension (HeldBy). Each call preserves it; from it the next call is total.",
 "C66": "The invariant of C65 with interruptions; per event: the collection's id and library stay, the objects outside the touched ids are kept (Survives), across reopen by coll_reopen / reopen_any.",
 "C67": "Crash points before the row is saved, after it, after mkdir; the reopened database is compared with what the completed call followed by a restart gives, using the invariant DbGood.",
 "C68": "As C67, with crash points before the row is deleted and after it with any remainder of the directory. The last clause fails; a general counterexample theorem replaces it.",
 "C69": "False of the code (no length is checked anywhere). Proved for every reachable collection and every shorter vector: Insert panics after the counter, object and vector were written, and neither the collection nor the database around it can ever be opened again; a search with a shorter vector panics. Longer vectors: a concrete run, accepted, after which normal calls panic.",
 "C70": "Model of Insert with a list of parts (Model/DiskIns). An invariant over the calls, with insert_spec of C58 for one part. For the index NewDiskAnn really makes (all parameters zero): every call is refused and every search dereferences nil, for every history.",
 "C71": "Small-step model: the locked section, the atomic increment, the load of rwIndex, the checks of insert under the part's lock, addVertex, the linking, and the snapshot goroutine are separate steps. Invariant over all runs: no panic, every part is one a single goroutine could have built or is halfway through one insertion, exactly the vectors of calls that returned nil or are linking are held, once each, ids distinct, one lock holder per part. Liveness: a bounded sum of progress and an enabled goroutine in every state that is not final. Files: invariant relating a file to its part. The rest of the claim is false; runs are given.",
 "C72": "Small-step model of the loop (IsClosed and Close of each collection are separate steps, as db.mu does not exclude handle calls). Simulation: every successful run of Close has the same effect as a sequence of atomic calls (clients' calls in order, Collection.Close calls in between, a DB.Close that finds everything closed); C66 then gives survival. Progress measure for the loop. Counterexample runs for the rest.",
 "C73": "Loop invariant of searchLayer: every result is still a candidate or all its links were looked at, and nothing looked at is nearer than all results; the loop cannot stop while a nearest result is still a candidate.",
 "C74": "Induction over the insertions: the number of accepted vectors gives the size of the newest part, all older parts are full; a part search is sound and its first visited vector is the entry point.",
 "C75": "Invariant: in a part with at most maxDegree+1 vectors nothing is pruned away, so every vector is reachable from the entry point; a list of limit² entries is never trimmed, so the search visits the whole part; then the merge of the parts is computed.",
 "C76": "The search is a machine of its own (load rwIndex, read a start vertex, one round, range over roIndexes, merge) interleaved with the machine of C71. Vectors are never removed or moved, so what the search has noted stays true; the hits are grouped by part, and a part occurs twice only if the newest part became read-only before the range. A search meets every stage of the linking of a new vertex (`World.Sees`): all of them have the vectors and ids of the part and closed links. A measure (candidates left plus links of unvisited vertices) gives termination.",
 "C77": "A bit-exact binary32 (integer arithmetic and one rounding) instantiates the operations of C44. Decoding is a homomorphism because rounded values are representable; squares, their sums and roots have no sign and are not NaN, bounded components bound all partial sums. So the distances that occur are comparable (`Ranks`), and the ranking theorems apply; the vectors in the store are those that callers gave (induction over the history).",
 "C78": "The values of binary32 patterns and the exact distances are rationals (`Spec/Real32.lean`, independent of the arithmetic model). Each rounding has relative error 2^-24 (or half the smallest unit); the bounds for sums of squares, roots (integer square root with sticky bit, 53 then 24 bits) and inner products follow by induction over the components, with a second case in which a partial result overflows. Rankings follow from C16/C17/C22 by comparing squares.",
 "C79": "The text is `flatProperties` over an arbitrary permutation of the properties (`Model/Embed.lean`); the service is any function from texts to answers. Two orders with different texts: put either property first. Unique decoding by splitting at the first colon and comma. The effect of answers: `assignVectors` computed in closed form by induction over the batch, then both calls unfold to the same program; the null case reduces to inserting an empty vector and C31's unopenable state.",
 "C80": "A write replaces the vector of a vertex in memory (`Model/Alias.lean`). The state after calls and writes is, up to the vectors store, a state of the ordinary collection (its twin, whose store holds what is in memory), so all search theorems apply to it; every call is shown to act on both in the same way. A history with writes and the one without are related by equality of everything but the index.",
 "C81": "Counting the records each function writes, by induction over layers, neighbours, batches and histories, with no assumption on the state; the vertices through the invariant that ids are fresh and that reopening rebuilds the same vertices. For several workers: a potential per goroutine (the records it may still write and those it still owes) that every step of every goroutine respects, summed over the workers and the objects still queued.",
 "C82": "The result of `down` is added to the model (`Model/MMHeapFix.lean`). Order after `Fix` from the invariants of sifting down and up; when the value belongs above the parent, the cell where it ends and the parent violate the order. `Remove` is `Fix` on the shortened array.",
 "C83": "The batch machine runs on numbers of objects (`Model/Pointers.lean`). A simulation shows that, when workers share no object, each run is a run of the batch on copies with the same collection, so C14/C15 apply; the invariant follows which position wrote the id last. The failing schedule is evaluated by the kernel.",
 "C84": "The events of C65/C66 and two more: a batch of the machine of C14/C15 on one collection and a stop with any files each collection may leave, also in the middle of CreateCollection or DeleteCollection (`Spec/DbConc.lean`). The database invariant of C65 is weakened to what concurrent batches keep and shown to be kept by each event; the theorems follow by induction over the history.",
 "C85": "A world of shared rows, directories and lock files and of DB values with their caches (`Model/Locks.lean`); an invariant (who uses a collection holds both its locks, and its files are what it wrote) is kept by every step; leaked locks are kept by every step of other DB values; the run of Open is compared with the single-user `Db.reopen`.",
 "C86": "float64 numbers as reals with infinities and NaN (`Model/Level.lean`), accuracy of logarithm, product and quotient as a hypothesis met by exact arithmetic (`Spec/Level.lean`); error propagation in Mathlib's reals; the insertion with a computed level equals the insertion with a level argument; C31 for the files."
}