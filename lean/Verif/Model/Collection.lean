import Verif.Model.Store
import Verif.Model.IdCounter
import Verif.Model.Hnsw
/-!
# Collections (`db/collection.go`, `collection_insert.go`, `collection_delete.go`, `collection_get.go`)

Simplifications, used everywhere below: `c.mu` makes the methods atomic (the one unlocked read, in `Delete`, is treated
in `Model/CollConc.lean`); reads of the stores do not fail; after a Go panic there is no in-memory state, only the disk.
-/
namespace Vectory

/-- `Collection` (`collection.go:22-36`): the parts that operations read or write. `hasEmbedder` is `c.embedder != nil`. -/
structure Coll where
  mappings : List String
  hasEmbedder : Bool
  stores : Stores := {}
  counter : IdCounter
  index : Hnsw
  closed : Bool := false
  deriving DecidableEq, Repr

variable {V D : Type}

/-- what is fixed while a collection is used: `encoding/json` and the distance function (`hnsw.go:51-56`). -/
structure Lib (V D : Type) where
  json : Json V
  metric : Metric D

/-- the part of a collection that survives the process: the two stores, the counter file and the index log. -/
structure Disk where
  stores : Stores := {}
  counterFile : Bytes := []
  log : List Bytes := []
  deriving DecidableEq, Repr

/-- what is on disk right now. -/
def Coll.disk (c : Coll) : Disk := { stores := c.stores, counterFile := c.counter.file, log := c.index.wal.disk }

/-- choices of the environment during one internal insert: does the counter write fail, does a store `Put` fail, and the
random level drawn at `insert.go:43`. -/
structure InsEnv where
  counterFails : Bool := false
  put : PutFault := .none
  level : Nat := 0
  deriving DecidableEq, Repr

/-! ## Validation and embedding -/

/-- one round of `validateObjectsMappings` (`collection.go:138-148`). -/
def validateObject (mappings : List String) (i : Nat) (o : Object V) : Option Err :=
  if mappings.length < o.props.length then some (.tooManyProperties i)
  else
    match mappings.find? (fun m => !(o.props.has m)) with
    | some m => some (.missingProperty i m)
    | none => none

/-- `validateObjectsMappings` (`collection.go:137-151`), from object number `i` on. -/
def validateObjects (mappings : List String) : Nat → List (Object V) → Option Err
  | _, [] => none
  | i, o :: os =>
    match validateObject mappings i o with
    | some e => some e
    | none => validateObjects mappings (i + 1) os

/-- the loop `objects[i].Vector = er[i]` of `Embed` (`text2vec-huggingface.go:114-116`; also `fake_embedder.go:20-22`):
`resp` are the vectors of the response (`none` for a JSON null); a response that is too short is an index panic. The
objects that have a vector were filtered out before the call (`collection.go:162-169`) and stay as they are. -/
def assignVectors : List (Object V) → List (Option Vec) → Except Panic (List (Object V))
  | [], _ => .ok []
  | o :: os, resp =>
    match o.vec with
    | some _ => do
      let os' ← assignVectors os resp
      .ok (o :: os')
    | none =>
      match resp with
      | [] => .error .indexOutOfRange
      | v :: resp => do
        let os' ← assignVectors os resp
        .ok ({ o with vec := v } :: os')

/-- the embedding service: the objects it is asked about, and its answer (`text2vec-huggingface.go:78-119`). -/
abbrev Embed (V : Type) := List (Object V) → Except Err (List (Option Vec))

/-- `embedObjectsIfNeeded` (`collection.go:153-177`): the caller's objects afterwards, or an error. The service is called
even when no object needs it. -/
def embedObjectsIfNeeded (c : Coll) (embed : Embed V) (objs : List (Object V)) :
    Except Panic (Except Err (List (Object V))) :=
  if c.hasEmbedder = false then
    if objs.any (fun o => o.vec.isNone) then .ok (.error .missingVectorAndEmbedder) else .ok (.ok objs)
  else
    match embed (objs.filter (fun o => o.vec.isNone)) with
    | .error e => .ok (.error e)
    | .ok resp => do
      let objs' ← assignVectors objs resp
      .ok (.ok objs')

/-! ## Insert -/

/-- `Collection.insert` (`collection_insert.go:147-160`). -/
def Coll.insertOne (L : Lib V D) (c : Coll) (o : Object V) (env : InsEnv) :
    Except Panic (Coll × Object V × Option Err) :=
  let (ctr, r) := fetchAndInc c.counter env.counterFails
  match r with
  | .error e => .ok ({ c with counter := ctr }, o, some e)
  | .ok id =>
    let o := { o with id := id }
    let (st, e) := putObject L.json c.stores o env.put
    match e with
    | some e => .ok ({ c with counter := ctr, stores := st }, o, some e)
    | none => do
      let idx ← c.index.insert L.metric (o.vec.getD []) id env.level
      .ok ({ c with counter := ctr, stores := st, index := idx }, o, none)

/-- `c.vectorIndex.Flush()`. -/
def Coll.flush (c : Coll) (fails : Bool) : Coll × Option Err :=
  let (idx, e) := c.index.flush fails
  ({ c with index := idx }, e)

/-- `Collection.Insert` (`collection_insert.go:9-34`): the collection, the caller's object and the returned error. -/
def Coll.insert (L : Lib V D) (c : Coll) (o : Object V) (embed : Embed V) (env : InsEnv) (flushFails : Bool) :
    Except Panic (Coll × Object V × Option Err) :=
  if c.closed then .ok (c, o, some .collectionClosed)
  else
    match validateObjects c.mappings 0 [o] with
    | some e => .ok (c, o, some e)
    | none => do
      let r ← embedObjectsIfNeeded c embed [o]
      match r with
      | .error e => .ok (c, o, some e)
      | .ok objs =>
        match objs with
        | [] => .ok (c, o, none)
        | o :: _ => do
          let (c, o, e) ← c.insertOne L o env
          match e with
          | some e => .ok (c, o, some e)
          | none =>
            let (c, e) := c.flush flushFails
            .ok (c, o, e)

/-- the body of a worker (`collection_insert.go:68-76`): insert a slice of objects until one fails. Returns the objects as
the caller sees them afterwards. -/
def Coll.insertAll (L : Lib V D) (c : Coll) : List (Object V × InsEnv) → Except Panic (Coll × List (Object V) × Option Err)
  | [] => .ok (c, [], none)
  | (o, env) :: rest => do
    let (c, o, e) ← c.insertOne L o env
    match e with
    | some e => .ok (c, o :: rest.map Prod.fst, some e)
    | none => do
      let (c, os, e) ← c.insertAll L rest
      .ok (c, o :: os, e)

/-- `Collection.InsertBatch` (`collection_insert.go:38-91`) and `InsertBatch2` (`:94-143`) when the worker pool has one
worker. Any number of workers and their interleavings: `Model/CollConc.lean`. `envs` gives one environment per object. -/
def Coll.insertBatch (L : Lib V D) (c : Coll) (os : List (Object V)) (embed : Embed V) (envs : Nat → InsEnv)
    (flushFails : Bool) : Except Panic (Coll × List (Object V) × Option Err) :=
  if c.closed then .ok (c, os, some .collectionClosed)
  else
    match validateObjects c.mappings 0 os with
    | some e => .ok (c, os, some e)
    | none => do
      let r ← embedObjectsIfNeeded c embed os
      match r with
      | .error e => .ok (c, os, some e)
      | .ok os => do
        let (c, os, e) ← c.insertAll L (os.zipIdx.map (fun p => (p.1, envs p.2)))
        match e with
        | some e => .ok (c, os, some e)
        | none =>
          let (c, e) := c.flush flushFails
          .ok (c, os, e)

/-! ## Delete, Get, SemanticSearch, GetSize, Close -/

/-- `Collection.Delete` (`collection_delete.go:6-31`). There is no closed check: on a closed collection the bitcask key
index still answers "not found" for absent keys, and reading a present one fails (trusted contract). -/
def Coll.delete (L : Lib V D) (c : Coll) (id : UInt64) (deleteFails flushFails : Bool) :
    Except Panic (Coll × Option Err) :=
  if c.closed && c.stores.objects.has (keyOf id) then .ok (c, some .io)
  else
    match getObject L.json c.stores id with
    | .error (.panic p) => .error p
    | .error (.error e) => .ok (c, some e)
    | .ok none => .ok (c, none)
    | .ok (some _) =>
      if deleteFails then .ok (c, some .io)
      else
        let c := { c with stores := deleteObject c.stores id }
        let c := { c with index := c.index.delete id }
        let (c, e) := c.flush flushFails
        .ok (c, e)

/-- `Collection.Get` (`collection_get.go:11-34`). -/
def Coll.get (L : Lib V D) (c : Coll) (ids : List UInt64) : Except Abort (List (Object V)) :=
  if c.closed then .error (.error .collectionClosed) else getObjects L.json c.stores ids

/-- `ObjectWithDistance` (`entities/objstore/object.go:17-21`). -/
structure Hit (V D : Type) where
  id : UInt64
  props : AMap String V
  dist : D

/-- the loop pairing objects with results (`collection_get.go:66-71`): `objs[i]` panics when an object is missing. -/
def pairHits : List (Elem D) → List (Object V) → Except Panic (List (Hit V D))
  | [], _ => .ok []
  | _ :: _, [] => .error .indexOutOfRange
  | e :: es, o :: os => do
    let hs ← pairHits es os
    .ok ({ id := o.id, props := o.props, dist := e.dist } :: hs)

/-- `SemanticSearchResult` (`entities/collection/models.go:33-36`). -/
structure SearchResult (V D : Type) where
  hits : Nat
  objects : List (Hit V D)

/-- `Collection.SemanticSearch` (`collection_get.go:37-77`). -/
def Coll.semanticSearch (L : Lib V D) (c : Coll) (o : Object V) (embed : Embed V) (k : Int) :
    Except Abort (SearchResult V D) :=
  if c.closed then .error (.error .collectionClosed)
  else do
    let r ← liftPanic (embedObjectsIfNeeded c embed [o])
    match r with
    | .error e => .error (.error e)
    | .ok [] => .error (.error .io)
    | .ok (o :: _) => do
      let results ← liftPanic (c.index.search L.metric (o.vec.getD []) k)
      let objs ← getObjects L.json c.stores (results.map Elem.id)
      let hits ← liftPanic (pairHits results objs)
      .ok { hits := results.length, objects := hits }

/-- `Collection.GetSize` (`collection.go:105-111`). -/
def Coll.getSize (c : Coll) : Except Err Nat :=
  if c.closed then .error .collectionClosed else .ok c.stores.size

/-- `Collection.Update` (`collection_update.go:6-16`): does nothing. -/
def Coll.update (c : Coll) (_o : Object V) : Option Err := if c.closed then some .collectionClosed else none

/-- `Collection.Close` (`collection.go:114-129`). `storesFail`: closing the objects store fails, with
its files still open: the collection stays usable as it was. Not modelled: the objects store is closed and closing the vectors store fails (then
reads of a collection that is not marked as closed fail in the store library). The index log is not closed. -/
def Coll.close (c : Coll) (storesFail : Bool) : Coll × Option Err :=
  let (ctr, e) := c.counter.close
  let c := { c with counter := ctr }
  match e with
  | some e => (c, some e)
  | none => if storesFail then (c, some .io) else ({ c with closed := true }, none)

/-! ## Opening (`newCollection`, `collection.go:38-93`; `NewHnsw`, `hnsw.go:36-80`) -/

/-- `populateVerticesVectors` (`startup.go:35-53`): for every key of the vectors store. -/
def populateVectors (s : Stores) (h : Hnsw) : List Bytes → Except Panic Hnsw
  | [] => .ok h
  | k :: ks => do
    let id ← uint64 k
    let vec ← getVector s id
    let h ← populateOne h id (vec.getD [])
    populateVectors s h ks

/-- `newCollection` for an HNSW collection over what is on disk. -/
def openColl (cfg : Cfg) (mappings : List String) (hasEmbedder : Bool) (d : Disk) : Except Abort Coll := do
  let ctr ← liftErr (newIdCounter d.counterFile)
  let h ← loadFromWAL (Hnsw.empty cfg d.log) d.log
  let h ← liftPanic (populateVectors d.stores h d.stores.vectors.keys)
  .ok { mappings := mappings, hasEmbedder := hasEmbedder, stores := d.stores, counter := ctr, index := h }

/-- opening again what `c` left on disk, with the same configuration. -/
def Coll.reopen (c : Coll) : Except Abort Coll := openColl c.index.cfg c.mappings c.hasEmbedder c.disk

/-- a new collection: an empty directory. -/
def Coll.new (cfg : Cfg) (mappings : List String) (hasEmbedder : Bool) : Coll :=
  { mappings := mappings, hasEmbedder := hasEmbedder, counter := { count := 0, file := [] }, index := Hnsw.empty cfg [] }

/-! ## Crash points

The sequence of durable states during one call; a crash leaves the disk in one of them. -/

/-- a counter write that was cut after `j` of its eight bytes. -/
def tornCounter (file : Bytes) (n : UInt64) (j : Nat) : Bytes := overwrite file ((putUint64 n).take j)

/-- where an `Insert` can be interrupted (`collection_insert.go:147-160`, `store.go:36-56`, `idcounter.go:53`). -/
inductive InsertCrash where
  /-- before anything was written -/
  | start
  /-- inside the counter write, after `j` bytes (`j ≤ 8`; `j = 8` is a complete write) -/
  | counter (j : Nat)
  /-- after `objects.Put` -/
  | object
  /-- after `vectors.Put`; the index changes only memory until the flush -/
  | vector
  /-- after the flush -/
  | flushed
  deriving DecidableEq, Repr

/-- the disk when `Insert` of an accepted, already embedded object is interrupted at `p`. -/
def Coll.crashInsert (L : Lib V D) (c : Coll) (o : Object V) (level : Nat) (p : InsertCrash) : Except Panic Disk :=
  let id := c.counter.count
  let o := { o with id := id }
  let st1 : Stores × Option Err := putObject L.json c.stores o .vectors
  let st2 : Stores × Option Err := putObject L.json c.stores o .none
  let file := overwrite c.counter.file (putUint64 (c.counter.count + 1))
  match p with
  | .start => .ok c.disk
  | .counter j => .ok { c.disk with counterFile := tornCounter c.counter.file (c.counter.count + 1) j }
  | .object => .ok { c.disk with counterFile := file, stores := st1.1 }
  | .vector => .ok { c.disk with counterFile := file, stores := st2.1 }
  | .flushed => do
    let idx ← c.index.insert L.metric (o.vec.getD []) id level
    .ok { counterFile := file, stores := st2.1, log := (idx.flush false).1.wal.disk }

/-- where a `Delete` can be interrupted (`collection_delete.go:20-30`). -/
inductive DeleteCrash where
  | start
  /-- after `objects.Delete`, before the flush -/
  | erased
  | flushed
  deriving DecidableEq, Repr

/-- the disk when `Delete` of a stored object is interrupted at `p`. -/
def Coll.crashDelete (c : Coll) (id : UInt64) (p : DeleteCrash) : Disk :=
  match p with
  | .start => c.disk
  | .erased => { c.disk with stores := deleteObject c.stores id }
  | .flushed => { c.disk with stores := deleteObject c.stores id, log := ((c.index.delete id).flush false).1.wal.disk }

end Vectory
