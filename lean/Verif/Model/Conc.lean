import Verif.Model.Hnsw
/-!
# `Hnsw.Insert` run by several goroutines (`db/core/index/hnsw/insert.go`, `search.go`)

The same code as `Model/Hnsw.lean`, cut into atomic steps. A goroutine is a program counter with its local variables; a
schedule says which goroutine moves next. A step touches shared memory (the vertex map, one neighbour list, the log, the entry
point, a vertex lock) at most once, except that

* taking a vertex lock is one step with the first read made under it, and releasing it one step with the last write;
* a slice header is read and written in one piece (no torn slice headers);
* `insertFirstVertex` and the final update of the entry point, which run inside `initialInsertion.Do` and `h.Lock()`, are one step;
* the distances and the neighbour selection (`insert.go:71`, `93-108`) are one step: they read the vertex map and the vectors of
  vertices that are in it, and those never change.

The log has its own mutex (`wal.go:135-141`), so writing one record is one step.
-/
namespace Vectory.Conc
open Vectory
variable {D : Type}

/-- one call `Insert(vec, id)`; `level` is the level it will draw (`insert.go:39`). -/
structure Job where
  id : UInt64
  vec : Vec
  level : Nat
  deriving DecidableEq, Repr

/-- which call of `searchLayer` is running: the lookup phase with `n` layers to go after this one (`insert.go:62-65`), or the
construction phase at layer `l` (`insert.go:69-70`). -/
inductive Phase where
  | lookup (n : Nat)
  | construct (l : Nat)
  deriving DecidableEq, Repr

/-- the layer searched. -/
def Phase.layer (level : Nat) : Phase → Nat
  | .lookup n => level + n + 1
  | .construct l => l

/-- the `ef` argument of that call. -/
def Phase.ef (cfg : Cfg) : Phase → Nat
  | .lookup _ => 1
  | .construct _ => cfg.efC

/-- where a goroutine is inside `Insert`, with its local variables. `cur` is its copy of `currentMaxLayer`. -/
inductive PC (D : Type) where
  /-- not inside `Insert` -/
  | idle
  /-- before `initialInsertion.Do` (`insert.go:19`) -/
  | start
  /-- before `wal.addVertex` (`insert.go:39-42`) -/
  | create
  /-- before `h.nodes[v.id] = &v` (`insert.go:44-46`) -/
  | publish
  /-- before the entry point is read (`insert.go:48-52`) -/
  | enter
  /-- calling `searchLayer` (`search.go:56-63`) -/
  | layer (cur : Nat) (ph : Phase) (eps : List (Elem D))
  /-- at the head of its loop (`search.go:65-75`); `buf` is the array behind `connections` -/
  | pop (cur : Nat) (ph : Phase) (s : SL D) (buf : List UInt64)
  /-- holds the lock of `c`, has resliced `connections` to length `n` and is about to copy (`search.go:77-79`) -/
  | copy (cur : Nat) (ph : Phase) (s : SL D) (buf : List UInt64) (c : UInt64) (n : Nat)
  /-- in the inner loop (`search.go:82-106`); `todo` is what is left of `connections` -/
  | visit (cur : Nat) (ph : Phase) (s : SL D) (buf : List UInt64) (todo : List UInt64)
  /-- before `wal.setConnectionsAtLevel` for the new vertex (`insert.go:73`) -/
  | logOwn (cur l : Nat) (nns : List (Elem D)) (ns : List UInt64)
  /-- before `v.SetConnections` (`insert.go:75`), which takes no lock -/
  | setOwn (cur l : Nat) (nns : List (Elem D)) (ns : List UInt64)
  /-- at the head of the loop over the neighbours (`insert.go:81-87`) -/
  | link (cur l : Nat) (nns : List (Elem D)) (todo : List UInt64)
  /-- holds the lock of `n`, before `wal.addConnectionAtLevel` (`insert.go:90`) -/
  | addLog (cur l : Nat) (nns : List (Elem D)) (n : UInt64) (rest : List UInt64)
  /-- holds the lock of `n`, before the read in `AddConnection` (`vertex.go:29`) -/
  | addRead (cur l : Nat) (nns : List (Elem D)) (n : UInt64) (rest : List UInt64)
  /-- holds the lock of `n`, before the write in `AddConnection` (`vertex.go:29`) -/
  | addWrite (cur l : Nat) (nns : List (Elem D)) (n : UInt64) (rest : List UInt64) (c : List UInt64)
  /-- holds the lock of `n`, before `wal.setConnectionsAtLevel` (`insert.go:109`) -/
  | pruneLog (cur l : Nat) (nns : List (Elem D)) (n : UInt64) (rest : List UInt64) (new : List UInt64)
  /-- holds the lock of `n`, before `SetConnections` (`insert.go:110`) -/
  | pruneSet (cur l : Nat) (nns : List (Elem D)) (n : UInt64) (rest : List UInt64) (new : List UInt64)
  /-- before the entry point is updated (`insert.go:118-124`) -/
  | finish (cur : Nat)
  /-- panicked; a lock that was held stays locked (the unlocks at `search.go:80`, `insert.go:112` are not deferred) -/
  | dead (p : Panic) (held : Option UInt64)

/-- a goroutine. -/
structure Thread (D : Type) where
  job : Job
  pc : PC D

/-- the vertex whose lock a goroutine holds. `fixed` is the program in which `insert.go:73-75` runs under the lock of the new
vertex; the code as it is has `fixed = false`. -/
def PC.held (fixed : Bool) (id : UInt64) : PC D → Option UInt64
  | .copy _ _ _ _ c _ => some c
  | .setOwn .. => if fixed then some id else none
  | .addLog _ _ _ n _ => some n
  | .addRead _ _ _ n _ => some n
  | .addWrite _ _ _ n _ _ => some n
  | .pruneLog _ _ _ n _ _ => some n
  | .pruneSet _ _ _ n _ _ => some n
  | .dead _ x => x
  | _ => none

def Thread.held (fixed : Bool) (t : Thread D) : Option UInt64 := t.pc.held fixed t.job.id

/-- the shared index and the goroutines. -/
structure Mach (D : Type) where
  h : Hnsw
  ts : List (Thread D)

/-- is the lock of `x` taken? -/
def lockedBy (fixed : Bool) (ts : List (Thread D)) (x : UInt64) : Bool := ts.any (fun t => t.held fixed == some x)

/-- `Except` to program counter: a panic while holding `held`. -/
def orDie {A : Type} (held : Option UInt64) (r : Except Panic A) (k : A → PC D) : PC D :=
  match r with
  | .ok a => k a
  | .error p => .dead p held

/-- `maxConn` at layer `l` (`insert.go:68`, `77-79`). -/
def maxConn (cfg : Cfg) (l : Nat) : Nat := if l = 0 then cfg.mMax0 else cfg.mMax

/-- the end of `searchLayer` (`search.go:109`) and what its caller does with the result (`insert.go:63-64`, `70-71`). -/
def afterSearch (M : Metric D) (h : Hnsw) (j : Job) (cur : Nat) (ph : Phase) (nns : List (Elem D)) : PC D :=
  match ph with
  | .lookup n =>
    match nns with
    | [] => .dead .indexOutOfRange none
    | e :: _ =>
      match n with
      | 0 => .layer cur (.construct (min cur j.level)) [e]
      | n + 1 => .layer cur (.lookup n) [e]
  | .construct l => orDie none (selectNeighbors M h.cfg h.nodes nns h.cfg.m) (.logOwn cur l nns)

/-- pruning (`insert.go:93-108`): the new neighbours of `n`. -/
def prune (M : Metric D) (h : Hnsw) (j : Job) (l : Nat) (nv : Vertex) (conns : List UInt64) : Except Panic (List UInt64) := do
  let d ← M.dist nv.vec j.vec
  let es ← elemsOf M h.nodes nv conns
  selectNeighbors M h.cfg h.nodes ({ id := j.id, dist := d } :: es) (maxConn h.cfg l)

/-- one step of the goroutine running `j`: the new index and the new program counter, or `none` if it cannot move (it is
outside `Insert`, dead, or waiting for a lock). `locked` tells which vertex locks are taken. -/
def stepPC (fixed : Bool) (M : Metric D) (h : Hnsw) (locked : UInt64 → Bool) (j : Job) : PC D → Option (Hnsw × PC D)
  | .idle => none
  | .start =>
    if h.once = false ∧ h.nodes = [] then some (({ h with once := true } : Hnsw).insertFirst j.vec j.id, .idle)
    else some ({ h with once := true }, .create)
  | .create =>
    if h.cfg.m = 1 then some (h, .dead .makeLen none)
    else some (h.log (recAddVertex j.id (UInt32.ofNat j.level)), .publish)
  | .publish =>
    some ({ h with nodes := h.nodes.set j.id ⟨j.id, List.replicate (j.level + 1) [], j.vec⟩ }, .enter)
  | .enter =>
    some (h, orDie none (do let epv ← nodeAt h.nodes h.entry; M.dist epv.vec j.vec) (fun d =>
      .layer h.maxLayer
        (if j.level < h.maxLayer then .lookup (h.maxLayer - j.level - 1) else .construct (min h.maxLayer j.level))
        [{ id := h.entry, dist := d }]))
  | .layer cur ph eps =>
    if ph.ef h.cfg + 1 < eps.length then some (h, .dead .makeLen none)
    else some (h, .pop cur ph
      { visited := eps.map Elem.id, cands := newMinHeap M.lt eps, nn := newMaxHeap M.lt eps }
      (List.replicate h.cfg.mMax0 0))
  | .pop cur ph s buf =>
    match Heap.pop (minLess M.lt) s.cands with
    | none => some (h, afterSearch M h j cur ph s.nn)
    | some (c, rest) =>
      match Heap.peek s.nn with
      | none => some (h, .dead .indexOutOfRange none)
      | some f =>
        if M.lt f.dist c.dist = true then some (h, afterSearch M h j cur ph s.nn)
        else
          match h.nodes.get? c.id with
          | none => some (h, .dead .nilDeref none)
          | some cv =>
            if locked c.id then none
            else some (h, orDie (some c.id) (cv.connsAt (ph.layer j.level)) (fun conns =>
              if h.cfg.mMax0 < conns.length then .dead .sliceBounds (some c.id)
              else .copy cur ph { s with cands := rest } buf c.id conns.length))
  | .copy cur ph s buf c n =>
    some (h, orDie (some c) (do let cv ← nodeAt h.nodes c; cv.connsAt (ph.layer j.level)) (fun conns =>
      let buf := conns.take n ++ buf.drop (conns.take n).length
      .visit cur ph s buf (buf.take n)))
  | .visit cur ph s buf todo =>
    match todo with
    | [] => some (h, .pop cur ph s buf)
    | nid :: todo => some (h, orDie none (visitOne M h.nodes j.vec (ph.ef h.cfg) s nid) (fun s => .visit cur ph s buf todo))
  | .logOwn cur l nns ns =>
    if fixed && locked j.id then none
    else some (h.log (recSetConnections j.id (UInt32.ofNat l) ns), .setOwn cur l nns ns)
  | .setOwn cur l nns ns =>
    match setConns h.nodes j.id l ns with
    | .error p => some (h, .dead p none)
    | .ok nodes => some ({ h with nodes := nodes }, .link cur l nns ns)
  | .link cur l nns todo =>
    match todo with
    | [] =>
      match l with
      | 0 => some (h, .finish cur)
      | l + 1 => some (h, .layer cur (.construct l) nns)
    | n :: rest =>
      match h.nodes.get? n with
      | none => some (h, .dead .nilDeref none)
      | some nv =>
        if locked n then none
        else some (h, orDie (some n) (nv.connsAt l) (fun conns =>
          if conns.length < maxConn h.cfg l then .addLog cur l nns n rest
          else orDie (some n) (prune M h j l nv conns) (.pruneLog cur l nns n rest)))
  | .addLog cur l nns n rest =>
    some (h.log (recAddConnection n (UInt32.ofNat l) j.id), .addRead cur l nns n rest)
  | .addRead cur l nns n rest =>
    some (h, orDie (some n) (do let nv ← nodeAt h.nodes n; nv.connsAt l) (.addWrite cur l nns n rest))
  | .addWrite cur l nns n rest c =>
    match setConns h.nodes n l (c ++ [j.id]) with
    | .error p => some (h, .dead p (some n))
    | .ok nodes => some ({ h with nodes := nodes }, .link cur l nns rest)
  | .pruneLog cur l nns n rest new =>
    some (h.log (recSetConnections n (UInt32.ofNat l) new), .pruneSet cur l nns n rest new)
  | .pruneSet cur l nns n rest new =>
    match setConns h.nodes n l new with
    | .error p => some (h, .dead p (some n))
    | .ok nodes => some ({ h with nodes := nodes }, .link cur l nns rest)
  | .finish cur =>
    if cur < j.level then
      some ({ (h.log (recSetEntryPoint j.id (UInt32.ofNat j.level))) with entry := j.id, maxLayer := j.level }, .idle)
    else some (h, .idle)
  | .dead _ _ => none

/-- what a schedule can do: let goroutine `i` make its next step, or let the idle goroutine `i` call `Insert`. -/
inductive Act where
  | run (i : Nat)
  | call (i : Nat) (j : Job)
  deriving DecidableEq, Repr

/-- one action of a schedule; `none` if it is not possible now. -/
def Mach.step (fixed : Bool) (M : Metric D) (m : Mach D) : Act → Option (Mach D)
  | .run i =>
    match m.ts[i]? with
    | none => none
    | some t =>
      match stepPC fixed M m.h (lockedBy fixed m.ts) t.job t.pc with
      | none => none
      | some (h, pc) => some { h := h, ts := m.ts.set i { t with pc := pc } }
  | .call i j =>
    match m.ts[i]? with
    | none => none
    | some t =>
      match t.pc with
      | .idle => some { m with ts := m.ts.set i { job := j, pc := .start } }
      | _ => none

/-- a whole schedule. -/
def Mach.run (fixed : Bool) (M : Metric D) : Mach D → List Act → Option (Mach D)
  | m, [] => some m
  | m, a :: as =>
    match m.step fixed M a with
    | none => none
    | some m => m.run fixed M as

/-- `n` goroutines that have nothing to do. -/
def Mach.init (h : Hnsw) (n : Nat) : Mach D := { h := h, ts := List.replicate n { job := ⟨0, [], 0⟩, pc := .idle } }

end Vectory.Conc
