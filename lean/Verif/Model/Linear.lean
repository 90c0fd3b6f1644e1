import Verif.Model.CollConc
import Verif.Spec.History
/-!
# Calls on one collection that overlap in time

Any number of clients call `Insert`, `InsertBatch`, `InsertBatch2`, `Delete`, `Get`, `SemanticSearch` and `GetSize` of one open
collection at the same time. What the locks allow (`c.mu` is a `sync.RWMutex`):

* `Insert` and the batches hold `c.mu` from their first to their last step (`collection_insert.go:10-11`, `:39-40`, `:95-96`).
* `Get` and `SemanticSearch` hold it for reading (`collection_get.go:12-13`, `:38-39`). While they hold it nothing is written, so each
  is one step here, possible when no writer holds the lock.
* `Delete` first reads the object and its vector with no lock (`collection_delete.go:7`, two reads: `store.go:62`, `:71`); if both are
  there it takes the lock for writing and deletes (`collection_delete.go:17-30`).
* `GetSize` takes no lock (`collection.go:105-111`): it reads the object store in the middle of whatever is going on.

The steps of a writer are those in which the stores change, since only they can be seen without the lock. `Close` is not among the
calls, and a batch is taken to release the lock when its workers have ended (what happens otherwise: `C56_fails`).
-/
namespace Vectory.Conc
open Vectory
variable {V D : Type}

/-- the calls, with the choices of the environment during them. The environment of a batch is chosen step by step. -/
inductive LOp (V : Type) where
  | insert (o : Object V) (embed : Embed V) (env : InsEnv) (flushFails : Bool)
  | batch (two : Bool) (workers : Nat) (os : List (Object V)) (embed : Embed V)
  | delete (id : UInt64) (deleteFails flushFails : Bool)
  | get (ids : List UInt64)
  | search (o : Object V) (embed : Embed V) (k : Int)
  | size

/-- what a call returns. -/
inductive LOut (V D : Type) where
  | inserted (o : Object V) (e : Option Err)
  | refused (e : Err)
  | batched (os : List (Object V)) (r : Option GroupErr)
  | deleted (e : Option Err)
  | objects (r : Except Abort (List (Object V)))
  | found (r : Except Abort (SearchResult V D))
  | size (r : Except Err Nat)

/-- what the writer that holds the lock does next. -/
inductive Body (V D : Type) where
  /-- `Insert`: before `fetchAndInc` (`collection_insert.go:148`) -/
  | fetch (o : Object V) (env : InsEnv) (ff : Bool)
  /-- before `objects.Put` (`store.go:50`) -/
  | putObj (o : Object V) (env : InsEnv) (ff : Bool)
  /-- before `vectors.Put` (`store.go:55`) -/
  | putVec (o : Object V) (env : InsEnv) (ff : Bool)
  /-- before `Hnsw.Insert` and the flush (`collection_insert.go:159`, `:33`) -/
  | index (o : Object V) (env : InsEnv) (ff : Bool)
  /-- a batch in progress (`Model/CollConc.lean`) -/
  | batch (workers : Nat) (b : Batch V D)
  /-- `Delete`: before `DeleteObject` (`collection_delete.go:20`) -/
  | erase (id : UInt64) (ff : Bool)
  /-- before `vectorIndex.Delete` and the flush (`collection_delete.go:25-30`) -/
  | mark (id : UInt64) (ff : Bool)

/-- where a call is. -/
inductive Call (V D : Type) where
  | invoked (op : LOp V)
  /-- `Delete` has read the object's bytes (`store.go:62`) and not yet its vector -/
  | sawObj (id : UInt64) (df ff : Bool) (bytes : Bytes)
  /-- `Delete` has found the object and waits for the lock (`collection_delete.go:17`) -/
  | waiting (id : UInt64) (df ff : Bool)
  /-- holds the lock for writing -/
  | running (op : LOp V)
  /-- has its result, has released the lock -/
  | finished (op : LOp V) (out : LOut V D)
  | returned (op : LOp V) (out : LOut V D)

/-- the collection, the writer that holds `c.mu`, and all calls made so far, in the order in which they began. -/
structure LState (V D : Type) where
  c : Coll
  writer : Option (Nat × Body V D) := none
  calls : List (Call V D) := []

/-- what the clients see: the call number `n` begins, the call number `n` returns. -/
inductive LEv (V D : Type) where
  | call (n : Nat) (op : LOp V)
  | ret (n : Nat) (out : LOut V D)

/-- what happens: a client makes a call; a call makes its next step (`a` is used by batches only); a call returns. -/
inductive LAct (V : Type) where
  | call (op : LOp V)
  | go (n : Nat) (a : BAct)
  | ret (n : Nat)

/-- the call number `n` is now at `x`. -/
def LState.put (s : LState V D) (n : Nat) (x : Call V D) : LState V D := { s with calls := s.calls.set n x }

/-- the writer (call number `n`) ends, leaving the collection `c`. -/
def LState.finish (s : LState V D) (n : Nat) (op : LOp V) (c : Coll) (out : LOut V D) : LState V D :=
  { s with c := c, writer := none, calls := s.calls.set n (.finished op out) }

/-- the writer goes on. -/
def LState.next (s : LState V D) (n : Nat) (c : Coll) (b : Body V D) : LState V D := { s with c := c, writer := some (n, b) }

/-- one step of the call number `n`, which does not hold the lock. -/
def LState.begin (L : Lib V D) (s : LState V D) (n : Nat) : Call V D → Option (LState V D)
  | .invoked (.insert o embed env ff) =>
    if s.writer.isSome then none
    else
      match prepare s.c [o] embed with
      | .ok (.error e) => some (s.put n (.finished (.insert o embed env ff) (.inserted o (some e))))
      | .ok (.ok [o1]) => some ((s.put n (.running (.insert o embed env ff))).next n s.c (.fetch o1 env ff))
      | _ => none
  | .invoked (.batch two workers os embed) =>
    if s.writer.isSome then none
    else
      match prepare s.c os embed with
      | .ok (.error e) => some (s.put n (.finished (.batch two workers os embed) (.refused e)))
      | .ok (.ok objs) =>
        match (if two then some (startBatch2 s.c objs workers) else startBatch s.c objs workers) with
        | some b => some ((s.put n (.running (.batch two workers os embed))).next n s.c (.batch workers b))
        | none => none
      | .error _ => none
  | .invoked (.delete id df ff) =>
    match s.c.stores.objects.get? (keyOf id) with
    | none => some (s.put n (.finished (.delete id df ff) (.deleted none)))
    | some bytes =>
      if s.c.closed then some (s.put n (.finished (.delete id df ff) (.deleted (some .io))))
      else some (s.put n (.sawObj id df ff bytes))
  | .invoked (.get ids) =>
    if s.writer.isSome then none else some (s.put n (.finished (.get ids) (.objects (s.c.get L ids))))
  | .invoked (.search o embed k) =>
    if s.writer.isSome then none else some (s.put n (.finished (.search o embed k) (.found (s.c.semanticSearch L o embed k))))
  | .invoked .size => some (s.put n (.finished .size (.size s.c.getSize)))
  | .sawObj id df ff bytes =>
    match s.c.stores.vectors.get? (keyOf id) with
    | none => some (s.put n (.finished (.delete id df ff) (.deleted none)))
    | some vector =>
      match deserializeProperties L.json bytes with
      | .error (.error e) => some (s.put n (.finished (.delete id df ff) (.deleted (some e))))
      | .error (.panic _) => none
      | .ok _ =>
        match deserializeVector vector with
        | .error _ => none
        | .ok _ => some (s.put n (.waiting id df ff))
  | .waiting id df ff =>
    if s.writer.isSome then none
    else if df then some (s.put n (.finished (.delete id df ff) (.deleted (some .io))))
    else some ((s.put n (.running (.delete id df ff))).next n s.c (.erase id ff))
  | .running _ => none
  | .finished _ _ => none
  | .returned _ _ => none

/-- one step of the writer, the call number `n`, whose call is `op`. -/
def LState.write (fixed : Bool) (L : Lib V D) (s : LState V D) (n : Nat) (op : LOp V) (a : BAct) : Body V D → Option (LState V D)
  | .fetch o env ff =>
    match fetchAndInc s.c.counter env.counterFails with
    | (ctr, .error e) => some (s.finish n op { s.c with counter := ctr } (.inserted o (some e)))
    | (ctr, .ok id) => some (s.next n { s.c with counter := ctr } (.putObj { o with id := id } env ff))
  | .putObj o env ff =>
    match serializeProperties L.json o with
    | .error e => some (s.finish n op s.c (.inserted o (some e)))
    | .ok bytes =>
      if env.put = .objects then some (s.finish n op s.c (.inserted o (some .io)))
      else some (s.next n { s.c with stores := { s.c.stores with objects := s.c.stores.objects.set (keyOf o.id) bytes } }
        (.putVec o env ff))
  | .putVec o env ff =>
    if env.put = .vectors then some (s.finish n op s.c (.inserted o (some .io)))
    else some (s.next n { s.c with stores :=
      { s.c.stores with vectors := s.c.stores.vectors.set (keyOf o.id) (serializeVector (o.vec.getD [])) } } (.index o env ff))
  | .index o env ff =>
    match s.c.index.insert L.metric (o.vec.getD []) o.id env.level with
    | .error _ => none
    | .ok idx =>
      let (c, e) := ({ s.c with index := idx } : Coll).flush ff
      some (s.finish n op c (.inserted o e))
  | .batch workers b =>
    match b.ret with
    | some r => if b.tasks.all (fun t => t.pc.over) then some (s.finish n op b.c (.batched b.objs r)) else
      (b.step fixed L a).map (fun b' => s.next n b'.c (.batch workers b'))
    | none => (b.step fixed L a).map (fun b' => s.next n b'.c (.batch workers b'))
  | .erase id ff => some (s.next n { s.c with stores := deleteObject s.c.stores id } (.mark id ff))
  | .mark id ff =>
    let (c, e) := ({ s.c with index := s.c.index.delete id } : Coll).flush ff
    some (s.finish n op c (.deleted e))

/-- what can happen next, and what the clients see of it. -/
def LState.step (fixed : Bool) (L : Lib V D) (s : LState V D) : LAct V → Option (LState V D × List (LEv V D))
  | .call op => some ({ s with calls := s.calls ++ [.invoked op] }, [.call s.calls.length op])
  | .ret n =>
    match s.calls[n]? with
    | some (.finished op out) => some (s.put n (.returned op out), [.ret n out])
    | _ => none
  | .go n a =>
    match s.calls[n]? with
    | none => none
    | some (.running op) =>
      match s.writer with
      | some (m, body) => if m = n then (s.write fixed L n op a body).map (fun s => (s, [])) else none
      | none => none
    | some x => (s.begin L n x).map (fun s => (s, []))

end Vectory.Conc
