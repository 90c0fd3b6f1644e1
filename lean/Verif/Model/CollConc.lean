import Verif.Model.Conc
import Verif.Model.Collection
import Verif.Model.Batch
/-!
# `InsertBatch` and `InsertBatch2` run by several workers (`db/collection_insert.go:38-143`)

The caller holds `c.mu` throughout, so between the start and the return of the call the collection is touched only by the tasks of
this batch (and by `Delete`'s unlocked read, see `Model/Linear.lean`). A task's step is one of: take the next object; `fetchAndInc`
(atomic: its own mutex) together with `obj.Id = id`; `objects.Put`; `vectors.Put` together with the call of `Hnsw.Insert`; one step
of `Hnsw.Insert` (`Model/Conc.lean`).

The worker pool is `github.com/alitto/pond`; its group has this contract (trusted, from its documentation and source): a task that
starts after the group's context is done is skipped; the first error of a task is kept and cancels the group's context; a panic of a
task is recovered and counts as a task that ended without an error; `Wait` returns the kept error (or nil) once all tasks have ended,
or, once the context is done, the kept error (or the context's own) without waiting for the tasks that still run. A task may start
at any moment after it was submitted.
-/
namespace Vectory.Conc
open Vectory
variable {V D : Type}

/-- what `group.Wait` can report: the error of a task, or that the caller's context was cancelled. -/
inductive GroupErr where
  | task (e : Err)
  | cancelled
  deriving DecidableEq, Repr

/-- where a task is; `k` is the position in the batch of the object it works on. -/
inductive TPC where
  /-- submitted, not started -/
  | wait
  /-- at the head of the loop over its objects (`collection_insert.go:69`; `:116-120`) -/
  | loop
  /-- before `fetchAndInc` (`collection_insert.go:148-153`) -/
  | fetch (k : Nat)
  /-- before `objects.Put` (`collection_insert.go:155`, `store.go:36-50`) -/
  | putObj (k : Nat)
  /-- before `vectors.Put` (`store.go:51-55`) -/
  | putVec (k : Nat)
  /-- inside `Hnsw.Insert` (`collection_insert.go:159`) -/
  | index (k : Nat)
  | done
  | failed (e : Err)
  /-- never ran: the context was done when it was started -/
  | skipped
  /-- ended by a panic -/
  | panicked
  deriving DecidableEq, Repr

/-- has the task ended? -/
def TPC.over : TPC → Bool
  | .done | .failed _ | .skipped | .panicked => true
  | _ => false

/-- a task: the positions it has been given and not yet taken, and where it is. -/
structure Task where
  todo : List Nat
  pc : TPC
  deriving DecidableEq, Repr

/-- a batch in progress. `ts` are the index goroutines, one per task; `queue` is the shared channel of `InsertBatch2`; `objs` are the
caller's objects; `ret` is what the call returned, once it has. -/
structure Batch (V D : Type) where
  c : Coll
  ts : List (Thread D)
  tasks : List Task
  queue : List Nat
  objs : List (Object V)
  err : Option GroupErr := none
  cancelled : Bool := false
  ret : Option (Option GroupErr) := none

/-- is the group's context done? -/
def Batch.ctxDone (b : Batch V D) : Bool := b.err.isSome || b.cancelled

/-- the task number `i` moves to `pc`. -/
def Batch.goto (b : Batch V D) (i : Nat) (t : Task) (pc : TPC) : Batch V D := { b with tasks := b.tasks.set i { t with pc := pc } }

/-- the task number `i` ends with an error. -/
def Batch.fail (b : Batch V D) (i : Nat) (t : Task) (e : Err) : Batch V D :=
  { b with tasks := b.tasks.set i { t with pc := .failed e }, err := b.err <|> some (.task e) }

/-- where a task is after a step of its index goroutine. -/
def afterIndex (k : Nat) : PC D → TPC
  | .idle => .loop
  | .dead _ _ => .panicked
  | _ => .index k

/-- one step of task `i`; `env` are the choices of the environment in this step (a failing write, the level drawn). -/
def Batch.work (fixed : Bool) (L : Lib V D) (b : Batch V D) (i : Nat) (env : InsEnv) : Option (Batch V D) :=
  match b.tasks[i]? with
  | none => none
  | some t =>
    match t.pc with
    | .wait => if b.ctxDone then some (b.goto i t .skipped) else some (b.goto i t .loop)
    | .loop =>
      match t.todo with
      | k :: ks => some { b with tasks := b.tasks.set i { todo := ks, pc := .fetch k } }
      | [] =>
        match b.queue with
        | k :: q => some { b with tasks := b.tasks.set i { todo := [], pc := .fetch k }, queue := q }
        | [] => some (b.goto i t .done)
    | .fetch k =>
      match fetchAndInc b.c.counter env.counterFails with
      | (ctr, .error e) => some (({ b with c := { b.c with counter := ctr } } : Batch V D).fail i t e)
      | (ctr, .ok id) =>
        some (({ b with c := { b.c with counter := ctr }, objs := b.objs.modify k (fun o => { o with id := id }) } :
          Batch V D).goto i t (.putObj k))
    | .putObj k =>
      match b.objs[k]? with
      | none => none
      | some o =>
        match serializeProperties L.json o with
        | .error e => some (b.fail i t e)
        | .ok bytes =>
          if env.put = .objects then some (b.fail i t .io)
          else some (({ b with c := { b.c with stores :=
            { b.c.stores with objects := b.c.stores.objects.set (keyOf o.id) bytes } } } : Batch V D).goto i t (.putVec k))
    | .putVec k =>
      match b.objs[k]? with
      | none => none
      | some o =>
        if env.put = .vectors then some (b.fail i t .io)
        else some (({ b with
          c := { b.c with stores :=
            { b.c.stores with vectors := b.c.stores.vectors.set (keyOf o.id) (serializeVector (o.vec.getD [])) } },
          ts := b.ts.set i { job := ⟨o.id, o.vec.getD [], env.level⟩, pc := .start } } : Batch V D).goto i t (.index k))
    | .index k =>
      match ({ h := b.c.index, ts := b.ts } : Mach D).step fixed L.metric (.run i) with
      | none => none
      | some m =>
        match m.ts[i]? with
        | none => none
        | some th => some (({ b with c := { b.c with index := m.h }, ts := m.ts } : Batch V D).goto i t (afterIndex k th.pc))
    | .done => none
    | .failed _ => none
    | .skipped => none
    | .panicked => none

/-- what can happen during a batch. -/
inductive BAct where
  | work (i : Nat) (env : InsEnv)
  /-- the caller's context is cancelled -/
  | cancel
  /-- `Wait` sees that all tasks have ended (`collection_insert.go:84-90`); `flushFails`: the flush fails -/
  | finish (flushFails : Bool)
  /-- `Wait` sees that the context is done -/
  | giveUp
  deriving DecidableEq, Repr

def Batch.step (fixed : Bool) (L : Lib V D) (b : Batch V D) : BAct → Option (Batch V D)
  | .work i env => b.work fixed L i env
  | .cancel => some { b with cancelled := true }
  | .finish ff =>
    if b.ret = none ∧ b.tasks.all (fun t => t.pc.over) = true then
      match b.err with
      | some e => some { b with ret := some (some e) }
      | none =>
        let (c, e) := b.c.flush ff
        some { b with c := c, ret := some (e.map .task) }
    else none
  | .giveUp =>
    if b.ret = none ∧ b.ctxDone = true then
      let e := b.err.getD .cancelled
      some { b with err := some e, ret := some (some e) }
    else none

def Batch.run (fixed : Bool) (L : Lib V D) : Batch V D → List BAct → Option (Batch V D)
  | b, [] => some b
  | b, a :: as =>
    match b.step fixed L a with
    | none => none
    | some b => b.run fixed L as

/-- `InsertBatch` up to the submission of its tasks (`collection_insert.go:54-82`), on accepted and embedded objects; `workers` is
`c.wp.MaxWorkers()`. `none`: a slice expression would be out of bounds. -/
def startBatch (c : Coll) (objs : List (Object V)) (workers : Nat) : Option (Batch V D) :=
  match (chunks objs.length workers).mapM (goSlice (List.range objs.length)) with
  | none => none
  | some todos => some {
      c := c, ts := (Mach.init c.index workers).ts, tasks := todos.map (fun todo => { todo := todo, pc := .wait }), queue := [],
      objs := objs }

/-- `InsertBatch2` up to the submission of its tasks (`collection_insert.go:108-134`). -/
def startBatch2 (c : Coll) (objs : List (Object V)) (workers : Nat) : Batch V D :=
  { c := c, ts := (Mach.init c.index workers).ts, tasks := List.replicate workers { todo := [], pc := .wait },
    queue := List.range objs.length, objs := objs }

/-- the checks before (`collection_insert.go:42-52`, `:98-106`): the embedded objects, or the error returned. -/
def prepare (c : Coll) (os : List (Object V)) (embed : Embed V) : Except Panic (Except Err (List (Object V))) :=
  if c.closed then .ok (.error .collectionClosed)
  else
    match validateObjects c.mappings 0 os with
    | some e => .ok (.error e)
    | none => embedObjectsIfNeeded c embed os

end Vectory.Conc
