import Verif.Model.Db
/-!
# One data directory opened several times

Several `DB` values, in one process or in several, on the same `filesPath`. They share the metadata rows, the directories and the lock
files; each has its own cache of collections.

Contracts trusted here, in addition to those of `Model/Db.lean`:
* `bitcask.Open` takes an exclusive lock on a file in the directory of the store, and returns an error when another open store of the
  same or another process holds it; `Bitcask.Close` gives the lock up, also when it returns an error; the end of a process gives up all
  its locks; removing the directory removes the lock file, so a store created later at the same path has a new lock.
* sqlite serves several connections; the log library `tidwall/wal` takes no lock.

Simplifications: each method is atomic (two processes do not interleave inside `Open`, `CreateCollection`, `DeleteCollection`, `Close`);
a handle kept from before `DeleteCollection` is not used afterwards; nothing is called on a collection whose own `Close` was tried, except
`Close` (its counter file is closed, so `Insert` fails before it writes, and its stores refuse what they are asked).
-/
namespace Vectory
variable {V D : Type}

/-- which steps of `newCollection` (`collection.go:49-71`) fail for a reason of their own (I/O, permissions). -/
structure OpenFaults where
  /-- `bitcask.Open` of the objects (`store.go:24-27`) -/
  objects : Bool := false
  /-- `bitcask.Open` of the vectors (`store.go:29`) -/
  vectors : Bool := false
  /-- opening the counter file (`idcounter.go:18`) -/
  counter : Bool := false
  /-- opening the log (`wal.go:27-30`) -/
  log : Bool := false
  deriving DecidableEq, Repr

/-- which `Close` of `Stores.Close` (`store.go:153-163`) fails. -/
inductive CloseFault where
  | none | objects | vectors
  deriving DecidableEq, Repr

/-- who opened something: the process, and which of its `DB` values (numbered through the history). -/
structure Owner where
  proc : Nat
  inst : Nat
  deriving DecidableEq, Repr

/-- a `DB` (`db.go:13-20`): what it keeps in memory. -/
structure Inst where
  proc : Nat
  colls : AMap String OpenColl := []
  closed : Bool := false
  /-- the sqlite handle was closed -/
  metaClosed : Bool := false

/-- a map with `k` set to `v`. -/
def upd {K A : Type} [DecidableEq K] (m : K → Option A) (k : K) (v : Option A) : K → Option A := fun x => if x = k then v else m x

/-- what is in the data directory, who has locked the stores in it, and the `DB` values in use. -/
structure World where
  rows : List Row := []
  nextId : Nat := 1
  /-- the files of each collection directory as they are now -/
  dirs : AMap String Disk := []
  /-- lock files of the object stores -/
  objLocks : String → Option Owner := fun _ => none
  /-- lock files of the vector stores -/
  vecLocks : String → Option Owner := fun _ => none
  insts : Nat → Option Inst := fun _ => none
  nextInst : Nat := 0

/-- what a `DB` sees. -/
def World.view (w : World) (x : Inst) : Db :=
  { rows := w.rows, nextId := w.nextId, dirs := w.dirs, colls := x.colls, closed := x.closed, metaClosed := x.metaClosed }

/-- `newCollection` (`collection.go:38-93`) with the locks. `NewStores` (`store.go:23-34`) drops the error of the second `bitcask.Open`; the
nil store is used for the first time by `populateVerticesVectors` (`startup.go:42-44`), after the counter and the log were read. -/
def World.openOne (w : World) (own : Owner) (cfg : Config) (f : OpenFaults) : World × Except Abort Coll :=
  let d := (w.dirs.get? cfg.name).getD {}
  let w := { w with dirs := w.dirs.set cfg.name d }
  if f.objects || (w.objLocks cfg.name).isSome then (w, .error (.error .io))
  else
    let w := { w with objLocks := upd w.objLocks cfg.name (some own) }
    let noVectors := f.vectors || (w.vecLocks cfg.name).isSome
    let w := if noVectors then w else { w with vecLocks := upd w.vecLocks cfg.name (some own) }
    if f.counter then (w, .error (.error .io))
    else
      match newIdCounter d.counterFile with
      | .error e => (w, .error (.error e))
      | .ok _ =>
        if cfg.indexType = "hnsw" then
          if f.log then (w, .error (.error .io))
          else if noVectors then
            match loadFromWAL (Hnsw.empty (((cfg.indexParams.bind decodeHnsw).getD {}).toCfg) d.log) d.log with
            | .error a => (w, .error a)
            | .ok _ => (w, .error (.panic .nilDeref))
          else (w, newCollection cfg d false)
        else (w, .error (.error .unknownIndexType))

/-- the loop of `init` (`db.go:154-169`): the first error ends it, what was opened before stays open. -/
def World.openRows (own : Owner) (f : String → OpenFaults) : List Row → World → AMap String OpenColl → World × Except Abort (AMap String OpenColl)
  | [], w, colls => (w, .ok colls)
  | r :: rest, w, colls =>
    match w.openOne own r.config (f r.name) with
    | (w, .error a) => (w, .error a)
    | (w, .ok c) => World.openRows own f rest w (colls.set r.name { id := r.id, config := r.config, coll := c })

/-- the process ends, by itself or by a panic: its locks and its memory are gone. -/
def World.exit (w : World) (proc : Nat) : World :=
  { w with
    objLocks := fun n => (w.objLocks n).filter (fun o => decide (o.proc ≠ proc))
    vecLocks := fun n => (w.vecLocks n).filter (fun o => decide (o.proc ≠ proc))
    insts := fun i => (w.insts i).filter (fun x => decide (x.proc ≠ proc)) }

/-- what a call returned. -/
inductive Outcome where
  | ok
  | err (e : Err)
  | panicked (p : Panic)
  deriving DecidableEq, Repr

/-- `Open` (`db.go:23-35`, `135-172`) in process `proc`. A `DB` that could not be opened is thrown away, nothing of it is closed. -/
def World.open (w : World) (proc : Nat) (f : String → OpenFaults) : World × Outcome :=
  let own : Owner := { proc := proc, inst := w.nextInst }
  match World.openRows own f w.rows { w with nextInst := w.nextInst + 1 } [] with
  | (w', .ok colls) => ({ w' with insts := upd w'.insts own.inst (some { proc := proc, colls := colls }) }, .ok)
  | (w', .error (.error e)) => (w', .err e)
  | (w', .error (.panic p)) => (w'.exit proc, .panicked p)

/-- `DB.CreateCollection` (`db.go:38-68`) on the `DB` numbered `i`. -/
def World.create (w : World) (i : Nat) (x : Inst) (cfg : Config) (env : CreateEnv) (f : OpenFaults) : World × Outcome :=
  if x.closed then (w, .err .databaseClosed)
  else
    match validateConfig cfg with
    | some why => (w, .err (.validationFailed why))
    | none =>
      if x.colls.has cfg.name then (w, .err .collectionAlreadyExists)
      else
        let (db, r) := (w.view x).metaCreate cfg env
        let w := { w with rows := db.rows, nextId := db.nextId, dirs := db.dirs }
        match r with
        | .error e => (w, .err e)
        | .ok id =>
          match w.openOne { proc := x.proc, inst := i } cfg f with
          | (w, .error (.error e)) => (w, .err e)
          | (w, .error (.panic p)) => (w.exit x.proc, .panicked p)
          | (w, .ok c) =>
            ({ w with insts := upd w.insts i (some { x with colls := x.colls.set cfg.name { id := id, config := cfg, coll := c } }) }, .ok)

/-- `DB.DeleteCollection` (`db.go:71-91`) on the `DB` numbered `i`: `os.RemoveAll` also removes the lock files. -/
def World.drop (w : World) (i : Nat) (x : Inst) (name : String) (execFails removeFails : Bool) : World × Outcome :=
  let (db, e) := (w.view x).delete name execFails removeFails
  match e with
  | some e => ({ w with rows := db.rows }, .err e)
  | none =>
    ({ w with rows := db.rows, dirs := db.dirs, objLocks := upd w.objLocks name none, vecLocks := upd w.vecLocks name none,
              insts := upd w.insts i (some { x with colls := db.colls }) }, .ok)

/-- giving a lock up. -/
def unlock (locks : String → Option Owner) (name : String) (own : Owner) : String → Option Owner :=
  if locks name = some own then upd locks name none else locks

/-- `Collection.Close` (`collection.go:114-129`, `store.go:153-163`). -/
def World.closeOne (w : World) (own : Owner) (name : String) (c : Coll) (f : CloseFault) : World × Coll × Option Err :=
  let (c', e) := c.close (decide (f ≠ .none))
  if c.counter.closed then (w, c', e)
  else
    let w := { w with objLocks := unlock w.objLocks name own }
    if f = .objects then (w, c', e)
    else ({ w with vecLocks := unlock w.vecLocks name own }, c', e)

/-- the loop of `DB.Close` (`db.go:119-127`). -/
def World.closeAll (own : Owner) (f : String → CloseFault) : AMap String OpenColl → World → World × AMap String OpenColl × Option Err
  | [], w => (w, [], none)
  | (n, oc) :: rest, w =>
    if oc.coll.closed then
      let (w, rest, e) := World.closeAll own f rest w
      (w, (n, oc) :: rest, e)
    else
      match w.closeOne own n oc.coll (f n) with
      | (w, c, some e) => (w, (n, { oc with coll := c }) :: rest, some e)
      | (w, c, none) =>
        let (w, rest, e) := World.closeAll own f rest w
        (w, (n, { oc with coll := c }) :: rest, e)

/-- `DB.Close` (`db.go:111-132`) on the `DB` numbered `i`. -/
def World.close (w : World) (i : Nat) (x : Inst) (metaFails : Bool) (f : String → CloseFault) : World × Outcome :=
  if metaFails then (w, .err .io)
  else
    match World.closeAll { proc := x.proc, inst := i } f x.colls w with
    | (w, colls, some e) => ({ w with insts := upd w.insts i (some { x with colls := colls, metaClosed := true }) }, .err e)
    | (w, colls, none) => ({ w with insts := upd w.insts i (some { x with colls := colls, metaClosed := true, closed := true }) }, .ok)

/-- what one of the processes does next. -/
inductive WAct where
  | open (proc : Nat) (f : String → OpenFaults)
  | create (i : Nat) (cfg : Config) (env : CreateEnv) (f : OpenFaults)
  | drop (i : Nat) (name : String) (execFails removeFails : Bool)
  /-- a call on a collection (`Insert`, `Delete`, …) that leaves it as `c` -/
  | call (i : Nat) (name : String) (c : Coll)
  /-- `Collection.Close` called by the client -/
  | closeColl (i : Nat) (name : String) (f : CloseFault)
  | close (i : Nat) (metaFails : Bool) (f : String → CloseFault)
  | exit (proc : Nat)

/-- one step; `none`: there is no such `DB` or collection. -/
def World.step (w : World) : WAct → Option (World × Outcome)
  | .open proc f => some (w.open proc f)
  | .create i cfg env f => (w.insts i).map (fun x => w.create i x cfg env f)
  | .drop i name ef rf => (w.insts i).map (fun x => w.drop i x name ef rf)
  | .call i name c =>
    match w.insts i with
    | none => none
    | some x =>
      match x.colls.get? name with
      | none => none
      | some oc =>
        if oc.coll.closed || oc.coll.counter.closed || c.closed || c.counter.closed then none
        else some ({ w with dirs := w.dirs.set name c.disk
                            insts := upd w.insts i (some { x with colls := x.colls.set name { oc with coll := c } }) }, .ok)
  | .closeColl i name f =>
    match w.insts i with
    | none => none
    | some x =>
      match x.colls.get? name with
      | none => none
      | some oc =>
        match w.closeOne { proc := x.proc, inst := i } name oc.coll f with
        | (w, c, e) =>
          some ({ w with insts := upd w.insts i (some { x with colls := x.colls.set name { oc with coll := c } }) },
            match e with | some e => .err e | none => .ok)
  | .close i mf f => (w.insts i).map (fun x => w.close i x mf f)
  | .exit proc => some (w.exit proc, .ok)

end Vectory
