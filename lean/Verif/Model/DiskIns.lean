import Verif.Model.DiskAnn
/-!
# `DiskAnn.Insert` (`db/core/index/disk_ann/disk_ann.go:49-75`), by one and by many goroutines

`DiskAnn.rwIndex` always points to the newest memory index and `roIndexes` holds the earlier ones in order, so both are one list:
`parts`, of which the last is `rwIndex`. A pointer to a memory index is a position in that list. The fields are read without the lock
after `da.Unlock()`; the steps below are the moments at which another goroutine can intervene: the locked section, the atomic increment,
the load of `da.rwIndex`, and three moments inside `MemoryIndex.insert` (which holds the index's own lock, but a lock that only `insert`
takes): after its checks, after the vertex is added to the graph, at the end. The linking of the new vertex is one step (nobody else changes the part meanwhile; a
search beside it meets the stages in between, `Model/DiskSearchConc.lean`), and so is the writing of a snapshot. Data races beyond such interleavings (a Go map read while it is written) are not modelled.
-/
namespace Vectory.DiskAnn
variable {D : Type}

/-- the fixed fields of `DiskAnn` (`disk_ann.go:21-27`); `close` stands for the threshold as in `Model/DiskAnn.lean`. -/
structure Params (D : Type) where
  metric : Metric D
  close : D → D → Bool
  listSize : Nat
  maxDegree : UInt32
  dim : UInt32
  limit : UInt32

/-- the changing fields of `DiskAnn` (`disk_ann.go:14-29`). -/
structure DA where
  parts : List MemIndex
  currId : UInt64
  deriving DecidableEq, Repr

/-- `NewDiskAnn` (`disk_ann.go:32-43`) for given parameters; the code itself leaves all parameters at zero (`noParams`). -/
def newDA (P : Params D) : DA := { parts := [newMemIndex 1 P.maxDegree P.dim], currId := 1 }

/-- the parameters `NewDiskAnn` leaves behind. -/
def noParams (M : Metric D) (close : D → D → Bool) : Params D :=
  { metric := M, close := close, listSize := 0, maxDegree := 0, dim := 0, limit := 0 }

/-- `da.rwIndex`. -/
def DA.rw (da : DA) : Nat := da.parts.length - 1

/-- `MemoryIndex.Size` (`memory_index.go:223-225`). -/
def MemIndex.sizeNow (mi : MemIndex) : UInt32 := UInt32.ofNat mi.graph.length

/-- the locked section (`disk_ann.go:50-64`): is the newest index full? -/
def DA.full (P : Params D) (da : DA) : Bool :=
  match da.parts[da.rw]? with
  | some mi => mi.sizeNow == P.limit
  | none => false

/-- the locked section (`disk_ann.go:50-64`): a full index is made read-only and a new one appended. -/
def DA.rotate (P : Params D) (da : DA) : DA :=
  if da.full P then
    { da with parts := da.parts.modify da.rw (fun mi => { mi with readOnly := true }) ++ [newMemIndex da.currId P.maxDegree P.dim] }
  else da

/-- `rwIndex.insert` on the index at position `p` (`disk_ann.go:69-72`); the panics of `insert` end the process. -/
def DA.put (P : Params D) (da : DA) (del : List UInt32) (p : Nat) (vec : Vec) (id : UInt64) : Except Panic (DA × Option Fail) :=
  match da.parts[p]? with
  | none => .error .nilDeref
  | some mi =>
    match mi.insert P.metric P.close del vec P.listSize id with
    | .ok mi' => .ok ({ da with parts := da.parts.set p mi' }, none)
    | .error (.panic e) => .error e
    | .error f => .ok (da, some f)

/-- `DiskAnn.Insert` (`disk_ann.go:49-75`), alone. -/
def DA.insert (P : Params D) (da : DA) (del : List UInt32) (vec : Vec) : Except Panic (DA × Option Fail) :=
  let da := da.rotate P
  let id := da.currId
  let da := { da with currId := da.currId + 1 }
  da.put P del da.rw vec id

/-- `DiskAnn.Search` (`disk_ann.go:83-102`). -/
def DA.search (P : Params D) (da : DA) (del : List UInt32) (q : Vec) (k : Nat) : Except Panic (List (Elem D)) :=
  match da.parts[da.rw]? with
  | none => .error .nilDeref
  | some rw => daSearch P.metric rw (da.parts.take da.rw) del q k P.listSize

/-! ## Many goroutines -/

/-- `insert` up to the checks, under the lock of the index (`memory_index.go:111-121`): why it refuses the vector. -/
def MemIndex.refuses (mi : MemIndex) (vec : Vec) : Option Fail :=
  if mi.readOnly then some .readOnly
  else if vec.length ≠ mi.dim.toNat then some .dimension
  else none

/-- `insert` from the checks to `addVertex` (`memory_index.go:123-145`), under the lock; the flag: this was the first vector, `insert` ends
here. -/
def MemIndex.addVertex (mi : MemIndex) (vec : Vec) (id : UInt64) : Except Panic (MemIndex × Bool) :=
  if mi.wired = false then .error .nilDeref
  else
    let first := mi.once = false ∧ mi.graph = []
    let mi := if mi.once then mi else { mi with once := true, s := if mi.s = 0 then id else mi.s }
    .ok ({ mi with graph := mi.graph.set id { id := id, vector := vec } }, first)

/-- the rest of `insert` (`memory_index.go:147-170`), under the lock, the new vertex being in the graph. -/
def MemIndex.link (M : Metric D) (close : D → D → Bool) (mi : MemIndex) (deleted : List UInt32) (vec : Vec) (listSize : Nat)
    (id : UInt64) : Except Panic MemIndex := do
  let vertex : Vertex := { id := id, vector := vec }
  let visited ← mi.visit M deleted vec listSize
  let ns ← robustPrune M close mi.graph mi.maxDegree vertex visited
  let g := mi.graph.set id { vertex with neighbors := ns }
  let g ← ns.foldlM (linkBack M close mi.maxDegree id) g
  .ok { mi with graph := g }

/-- where a goroutine inside `DiskAnn.Insert` is. -/
inductive PC where
  /-- before `da.Lock()` -/
  | check
  /-- before the atomic increment (`disk_ann.go:66`) -/
  | fetch
  /-- before `da.rwIndex` is loaded (`disk_ann.go:69`) -/
  | load (id : UInt64)
  /-- before `mi.Lock()` in the `insert` of the index loaded (`memory_index.go:112`) -/
  | call (id : UInt64) (p : Nat)
  /-- the vector was not refused; holds the lock of the index; before `addVertex` -/
  | inside (id : UInt64) (p : Nat)
  /-- the new vertex is in the graph, its links are not made; holds the lock -/
  | added (id : UInt64) (p : Nat)
  /-- returned -/
  | done (id : UInt64) (r : Option Fail)
  deriving DecidableEq, Repr

/-- the index whose lock a goroutine holds. -/
def PC.lock : PC → Option Nat
  | .inside _ p | .added _ p => some p
  | _ => none

/-- the goroutine started at `disk_ann.go:54-59`. -/
inductive Snap where
  /-- started for the index at position `old`, operands not yet evaluated -/
  | spawned (old : Nat)
  /-- `da.rwIndex` and `len(da.roIndexes)` evaluated: the index at `p` goes to the file number `n` -/
  | bound (p n : Nat)
  | finished
  deriving DecidableEq, Repr

/-- the shared state, the goroutines and the files written. -/
structure World where
  da : DA
  tasks : List (Vec × PC)
  snaps : List Snap := []
  /-- the index whose contents file `ro_n.vctry` holds -/
  files : AMap Nat MemIndex := []
  panicked : Bool := false
  deriving DecidableEq, Repr

/-- goroutines about to insert `vs`. -/
def World.start (P : Params D) (vs : List Vec) : World := { da := newDA P, tasks := vs.map (fun v => (v, PC.check)) }

/-- does some goroutine hold the lock of the index at position `p`? -/
def World.locked (w : World) (p : Nat) : Bool := w.tasks.any (fun t => decide (t.2.lock = some p))

/-- one step of goroutine `i`, with the deletions made so far (`disk_ann.go:49-75`, `memory_index.go:111-171`). `da.Lock` guards only the
first step; `mi.Lock` is held from the checks of `insert` to its return, but `ReadOnly`, `Size`, `snapshot` and `search` do not take it. -/
def World.stepTask (P : Params D) (del : List UInt32) (w : World) (i : Nat) : World :=
  match w.tasks[i]? with
  | none => w
  | some (vec, pc) =>
    match pc with
    | .check =>
      { w with
        da := w.da.rotate P
        tasks := w.tasks.set i (vec, .fetch)
        snaps := if w.da.full P then w.snaps ++ [.spawned w.da.rw] else w.snaps }
    | .fetch => { w with da := { w.da with currId := w.da.currId + 1 }, tasks := w.tasks.set i (vec, .load w.da.currId) }
    | .load id => { w with tasks := w.tasks.set i (vec, .call id w.da.rw) }
    | .call id p =>
      if w.locked p then w
      else
        match w.da.parts[p]? with
        | none => { w with panicked := true }
        | some mi =>
          match mi.refuses vec with
          | some f => { w with tasks := w.tasks.set i (vec, .done id (some f)) }
          | none => { w with tasks := w.tasks.set i (vec, .inside id p) }
    | .inside id p =>
      match w.da.parts[p]? with
      | none => { w with panicked := true }
      | some mi =>
        match mi.addVertex vec id with
        | .error _ => { w with panicked := true }
        | .ok (mi', first) =>
          { w with da := { w.da with parts := w.da.parts.set p mi' }, tasks := w.tasks.set i (vec, if first then .done id none else .added id p) }
    | .added id p =>
      match w.da.parts[p]? with
      | none => { w with panicked := true }
      | some mi =>
        match mi.link P.metric P.close del vec P.listSize id with
        | .error _ => { w with panicked := true }
        | .ok mi' => { w with da := { w.da with parts := w.da.parts.set p mi' }, tasks := w.tasks.set i (vec, .done id none) }
    | .done _ _ => w

/-- when a snapshot goroutine evaluates `da.rwIndex` and `len(da.roIndexes)`: before the `append` of the section that started it, between
the `append` and the assignment of `rwIndex` (`disk_ann.go:61-62`), or later. -/
inductive When where
  | early
  | between
  | late
  deriving DecidableEq, Repr

/-- one step of snapshot goroutine `j` (`disk_ann.go:54-59`): evaluate the operands, then write. The write is one step. The first two
choices of `When` exist in the code only while the section still runs; here they are always allowed. -/
def World.stepSnap (w : World) (j : Nat) (t : When) : World :=
  match w.snaps[j]? with
  | some (.spawned old) =>
    let operands : Nat × Nat :=
      match t with
      | .early => (old, old)
      | .between => (old, old + 1)
      | .late => (w.da.rw, w.da.rw)
    { w with snaps := w.snaps.set j (.bound operands.1 operands.2) }
  | some (.bound p n) =>
    match w.da.parts[p]? with
    | some mi => { w with snaps := w.snaps.set j .finished, files := w.files.set n mi }
    | none => w
  | _ => w

/-- one step of the whole: a goroutine inserts, or a snapshot goroutine runs. Ids do not wrap around. -/
inductive World.Step (P : Params D) : World → World → Prop where
  | task {w : World} (del : List UInt32) (i : Nat) : w.panicked = false → w.da.currId.toNat + 1 < 18446744073709551616 →
      World.Step P w (w.stepTask P del i)
  | snap {w : World} (j : Nat) (t : When) : w.panicked = false → World.Step P w (w.stepSnap j t)

/-- any number of steps. -/
inductive World.Runs (P : Params D) : World → World → Prop where
  | refl (w : World) : World.Runs P w w
  | step {a b c : World} : World.Runs P a b → World.Step P b c → World.Runs P a c

end Vectory.DiskAnn
