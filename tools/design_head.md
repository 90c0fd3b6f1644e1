# Formal model of amityahav/vectory in Lean 4

Written before the proofs and kept current; the last two sections are generated by `tools/mkdesign.py`.

## Layout

* `lean/Verif/Model/*.lean` – the model, function by function; every definition cites the Go lines it models.
* `lean/Verif/Spec/*.lean` – small specifications used in theorem statements: histories, schedules, queues, maps, linearizability,
  assumptions about parameters, and the concrete environments of the examples.
* `lean/Verif/Lemmas/*.lean` – invariants and helper lemmas; nothing there is a claim.
* `lean/Verif/Props/*.lean` – the property theorems `Cnn_…`, each with an `example` that meets its hypotheses.
* `properties.jsonl` – English properties; `MANIFEST.json` – property → theorems (generated by `tools/mkmanifest.py` from the theorem
  names and `tools/notes.json`); `seeded/LOG.jsonl` – the log of wrong programs tried (`tools/mutate.py`, rounds in `seeded/rounds`).

## Trusted base

* Lean 4.33.0's kernel. No axioms of our own; no compiled evaluation (`decide` and `rfl` only, checked by the kernel).
  Mathlib's ordered field of rationals and its arithmetic tactics are imported for C78 only (`Spec/Real32.lean`, `Lemmas/Accuracy.lean`,
  `Props/Accuracy.lean`).
* The axioms each theorem depends on are listed in the last section: only `propext`, `Quot.sound`, `Classical.choice`.
* That the definitions in `Model/` say what the Go code does. They were written by reading; nothing was executed.
* The contracts of external libraries, stated in the headers of the model files:
  * bitcask: a map from byte keys to byte values, with durable completed writes; `Get` of an absent key is `ErrKeyNotFound` even after
    `Close`, `Get` of a present one fails after `Close`; a failing `Put`/`Delete` changes nothing (`Model/Store.lean`);
  * bitcask locks: `bitcask.Open` takes an exclusive lock on a file of the store and fails if another open store (of this or another
    process) holds it; `Close` gives the lock up, also when it returns an error; the end of the process gives up all its locks; removing the
    directory removes the lock (used by C85 only)
  * tidwall/wal: records numbered 1, 2, …; `WriteBatch` is all-or-nothing and refuses a gap (`Model/Wal.lean`);
  * ent/sqlite: rows saved atomically and durably, unique names (`Model/Db.lean`); `os.Mkdir`, `os.RemoveAll` (`Model/Db.lean`, `Model/Path.lean`);
  * `encoding/json`: for property maps a parameter with the hypothesis `JsonOK` (what was marshalled can be unmarshalled);
    for configurations, the concrete fragment in `Model/Config.lean`;
  * alitto/pond 1.8.3 groups: tasks start any time after submission, are skipped once the context is done, the first error is kept and
    cancels, panics are recovered and count as success, `Wait` (`Model/CollConc.lean`);
  * Go's `container/heap`, maps, slices, `binary.LittleEndian`, `sync.Once`, `sync.Mutex`, `sync.RWMutex`: modelled, not assumed.

## Conventions of the model

* Go panics are values: `Except Panic α`. Go `error` returns are values of a separate type `Err`.
* `[]byte` is `List UInt8`; `uint64`/`uint32` are `UInt64`/`UInt32` (wrap-around is real); `float32` is its 32-bit pattern.
  Float arithmetic is a parameter (`FloatOps`), the comparison of distances an arbitrary Boolean relation. Theorems about rankings assume
  that the distances of the vectors in the collection to the query (`Ranks`), or also to each other (`RanksAll`), can be compared with each
  other (`OrdOn`, a strict weak order on these distances: true of float32 when none of them is NaN); the DiskANN theorems assume `Ord`, a
  weak order on all distances. `Model/Ieee.lean` defines binary32 bit-exactly (integer arithmetic and one rounding, ties to even) and C77
  derives the assumption from conditions on the vectors; C78 bounds the rounding errors against exact rational arithmetic (`Spec/Real32.lean`). It was compared with Lean's hardware `Float32` on 1,000,000 random pairs for
  `+`, `-`, `*`, `sqrt`, `<` and the codec, without a difference (a test, not a proof; every NaN is the canonical one; Go may fuse
  `x*y+z` on architectures other than amd64).
* Go maps are association lists with at most one entry per key (`AMap`); map iteration order is the list order, and theorems hold for
  every order where the code ranges over a map.
* Loops are structural recursions; where the Go loop is `for cond`, with fuel, and C20 proves the fuel never runs out.
* Random levels (C86 derives them from `rand.Float64`), embedding services, JSON and failures of system calls are arguments chosen by the environment.
* A process crash keeps exactly what completed write calls handed to the OS; C05 treats torn counter writes in addition.
* Layers of description: sequential histories (`Reach`, legal calls with failures; `ReachAny`, with crashes), histories whose batches run
  under every interleaving (`ReachConc`, `ReachAnyConc`), and overlapping calls on one collection (`Model/Linear.lean`).

## What is modelled

| Go code | model |
|---|---|
| `entities/objstore/object.go` (codecs) | `Model/Object.lean` |
| `db/core/objstore/store.go` | `Model/Store.lean` |
| `db/idcounter.go` | `Model/IdCounter.lean` |
| `db/core/index/utils/heap.go`, `container/heap` | `Model/Heap.lean` |
| `db/core/index/utils/mmheap.go` | `Model/MMHeap.lean`; Remove, Fix, Max in `Model/MMHeapFix.lean` |
| `db/core/index/utils/set.go` | `Model/GoSet.lean` |
| `db/core/index/distance` | `Model/Distance.lean`; Go's `float32` in `Model/Ieee.lean` |
| `db/core/index/hnsw` (all of it except test_utils) | `Model/Hnsw.lean`, `Model/Wal.lean`; the computation of the random level in `Model/Level.lean`; as atomic steps in `Model/Conc.lean`; a repaired search, to compare with, in `Model/SearchFixed.lean` |
| `db/collection*.go` | `Model/Collection.lean`, `Model/Batch.lean`; as atomic steps in `Model/CollConc.lean`; overlapping calls in `Model/Linear.lean`; slices shared with callers in `Model/Alias.lean`; batches with repeated pointers in `Model/Pointers.lean` |
| `db/embeddings`, `object.go: FlatProperties` | `Model/Embed.lean` (the texts sent); the HTTP service is an argument (`Service`, `Embed`); `Model/Collection.lean` has the loop over its answer |
| `entities/collection`, `entities/index` (validation, JSON of configurations) | `Model/Config.lean` |
| `db/db.go`, `db/metadata/meta_manager.go` | `Model/Db.lean`, paths in `Model/Path.lean`; `DB.Close` beside clients' calls in `Model/DbClose.lean`; histories in `Spec/DbLife.lean`, with concurrent batches in `Spec/DbConc.lean`; several `DB` values and processes on one directory, lock files, failures while opening and closing in `Model/Locks.lean` |
| `api/handlers/collection.go` | `Model/Db.lean` (handlers) |
| `db/core/index/disk_ann` | `Model/DiskAnn.lean`, snapshots in `Model/DiskSnap.lean`, `DiskAnn.Insert` (one or many goroutines) in `Model/DiskIns.lean`, `DiskAnn.Search` beside insertions in `Model/DiskSearchConc.lean` |

Not modelled: generated code (`gen/`, `pkg/`: ent, swagger server and client), `cmd/main.go`, `examples/`, HTTP transport, logging, the assembly
dot product (disabled in the code), fused multiply-add, performance, memory limits, torn slice headers and other effects of Go data
races beyond interleaving (Go gives no semantics to them), two processes interleaved inside one call on one data directory (whole calls interleave in `Model/Locks.lean`),
the inside of the writing of one snapshot interleaved with other goroutines.

