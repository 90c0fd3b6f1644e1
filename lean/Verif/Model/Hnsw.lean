import Verif.Model.Heap
import Verif.Model.Wal
import Verif.Model.Distance
/-!
# The HNSW index (`db/core/index/hnsw`), run by one goroutine at a time

Sequential semantics. `Model/Conc.lean` gives the same code as a program of atomic steps.

Simplifications: `int`/`int64` parameters that the validator forces to be positive are `Nat`; the random level
(`utils.go:16-18`) is an argument (computed in `Model/Level.lean`, which also has the panic after a draw of 0); layer numbers are `Nat` (the level stored in a log record is truncated to 32 bits
as in the code).
-/
namespace Vectory

/-- the parameters held in `Hnsw` (`hnsw.go:19-24,30`). -/
structure Cfg where
  m : Nat
  mMax : Nat
  efC : Nat
  ef : Nat
  heuristic : Bool
  deriving DecidableEq, Repr

/-- `h.mMax0 = 2 * h.mMax` (`hnsw.go:48`). -/
def Cfg.mMax0 (c : Cfg) : Nat := 2 * c.mMax

/-- `Vertex` (`vertex.go:6-12`). -/
structure Vertex where
  id : UInt64
  conns : List (List UInt64)
  vec : Vec
  deriving DecidableEq, Repr

/-- `Hnsw` (`hnsw.go:17-34`). `once` is whether `initialInsertion` has run. -/
structure Hnsw where
  cfg : Cfg
  entry : UInt64 := 0
  maxLayer : Nat := 0
  nodes : AMap UInt64 Vertex := []
  deleted : List UInt64 := []
  once : Bool := false
  wal : Wal := {}
  deriving DecidableEq, Repr

/-- `h.nodes[id]` followed by a field access or method call: nil pointer dereference when absent. -/
def nodeAt (nodes : AMap UInt64 Vertex) (id : UInt64) : Except Panic Vertex :=
  match nodes.get? id with
  | some v => .ok v
  | none => .error .nilDeref

/-- `GetConnections(level)` (`vertex.go:24-26`). -/
def Vertex.connsAt (v : Vertex) (level : Nat) : Except Panic (List UInt64) :=
  match v.conns[level]? with
  | some c => .ok c
  | none => .error .indexOutOfRange

/-- `SetConnections(level, ids)` (`vertex.go:36-38`) on the vertex stored under `id`. -/
def setConns (nodes : AMap UInt64 Vertex) (id : UInt64) (level : Nat) (ids : List UInt64) :
    Except Panic (AMap UInt64 Vertex) := do
  let v ← nodeAt nodes id
  if level < v.conns.length then
    .ok (nodes.set id { v with conns := v.conns.set level ids })
  else .error .indexOutOfRange

/-- `AddConnection(level, nid)` (`vertex.go:28-30`) on the vertex stored under `id`. -/
def addConn (nodes : AMap UInt64 Vertex) (id : UInt64) (level : Nat) (nid : UInt64) :
    Except Panic (AMap UInt64 Vertex) := do
  let v ← nodeAt nodes id
  let c ← v.connsAt level
  .ok (nodes.set id { v with conns := v.conns.set level (c ++ [nid]) })

variable {D : Type}

/-! ## `searchLayer` (`search.go:55-110`) -/

/-- loop state: the visited set, the `candidates` min-heap and the `nearestNeighbors` max-heap arrays. -/
structure SL (D : Type) where
  visited : List UInt64
  cands : List (Elem D)
  nn : List (Elem D)

/-- one round of the inner loop (`search.go:82-106`). -/
def visitOne (M : Metric D) (nodes : AMap UInt64 Vertex) (q : Vec) (ef : Nat) (s : SL D) (nid : UInt64) :
    Except Panic (SL D) :=
  if nid ∈ s.visited then .ok s
  else
    match Heap.peek s.nn with
    | none => .error .indexOutOfRange
    | some f => do
      let nb ← nodeAt nodes nid
      let d ← M.dist nb.vec q
      if M.lt d f.dist = true ∨ s.nn.length < ef then
        let e : Elem D := { id := nid, dist := d }
        let cands := Heap.push (minLess M.lt) s.cands e
        let nn := Heap.push (maxLess M.lt) s.nn e
        if ef < nn.length then
          match Heap.pop (maxLess M.lt) nn with
          | none => .error .indexOutOfRange
          | some (_, nn') => .ok { visited := nid :: s.visited, cands := cands, nn := nn' }
        else .ok { visited := nid :: s.visited, cands := cands, nn := nn }
      else .ok { s with visited := nid :: s.visited }

/-- the outer loop (`search.go:65-107`). `connections[:n]` needs `n ≤ mMax0`, the capacity allocated at
`search.go:63`. -/
def searchLoop (M : Metric D) (nodes : AMap UInt64 Vertex) (mMax0 : Nat) (q : Vec) (ef level : Nat) :
    Nat → SL D → Except Panic (SL D)
  | 0, _ => .error .outOfFuel
  | fuel + 1, s =>
    match Heap.pop (minLess M.lt) s.cands with
    | none => .ok s
    | some (c, rest) =>
      match Heap.peek s.nn with
      | none => .error .indexOutOfRange
      | some f =>
        if M.lt f.dist c.dist = true then .ok { s with cands := rest }
        else do
          let cv ← nodeAt nodes c.id
          let conns ← cv.connsAt level
          if mMax0 < conns.length then .error .sliceBounds
          else do
            let s' ← conns.foldlM (visitOne M nodes q ef) { s with cands := rest }
            searchLoop M nodes mMax0 q ef level fuel s'

/-- `searchLayer` (`search.go:55-110`): returns the raw array of the max-heap. The fuel is one more than the
number of candidates that can ever be pushed. -/
def searchLayer (M : Metric D) (nodes : AMap UInt64 Vertex) (mMax0 : Nat) (q : Vec) (eps : List (Elem D))
    (ef level : Nat) : Except Panic (List (Elem D)) :=
  if ef + 1 < eps.length then .error .makeLen
  else do
    let s ← searchLoop M nodes mMax0 q ef level (nodes.length + eps.length + 1)
      { visited := eps.map Elem.id, cands := newMinHeap M.lt eps, nn := newMaxHeap M.lt eps }
    .ok s.nn

/-! ## neighbour selection (`neighbors_select.go`) -/

/-- `n` pops (`neighbors_select.go:94-96`). -/
def popN (lt : Elem D → Elem D → Bool) : Nat → List (Elem D) → Except Panic (List UInt64)
  | 0, _ => .ok []
  | n + 1, h =>
    match Heap.pop lt h with
    | none => .error .indexOutOfRange
    | some (e, rest) => do
      let es ← popN lt n rest
      .ok (e.id :: es)

/-- `selectNeighborsSimple` (`neighbors_select.go:85-99`). -/
def selectNeighborsSimple (M : Metric D) (cands : List (Elem D)) (m : Nat) : Except Panic (List UInt64) :=
  popN (minLess M.lt) (min m cands.length) (newMinHeap M.lt cands)

/-- the inner loop of the heuristic (`neighbors_select.go:55-66`): is some already chosen neighbour closer to `e`
than the base vertex is? -/
def dominated (M : Metric D) (nodes : AMap UInt64 Vertex) (e : Elem D) : List UInt64 → Except Panic Bool
  | [] => .ok false
  | r :: rs => do
    let ev ← nodeAt nodes e.id
    let rv ← nodeAt nodes r
    let d ← M.dist ev.vec rv.vec
    if M.lt d e.dist = true then .ok true else dominated M nodes e rs

/-- the main loop of the heuristic (`neighbors_select.go:52-73`). Each round pops one candidate, so the
number of candidates is enough fuel. -/
def heuristicLoop (M : Metric D) (nodes : AMap UInt64 Vertex) (m : Nat) :
    Nat → List (Elem D) → List UInt64 → Except Panic (List UInt64)
  | 0, _, result => .ok result
  | fuel + 1, q, result =>
    if m ≤ result.length then .ok result
    else
      match Heap.pop (minLess M.lt) q with
      | none => .ok result
      | some (e, rest) => do
        let dom ← dominated M nodes e result
        heuristicLoop M nodes m fuel rest (if dom then result else result ++ [e.id])

/-- `selectNeighborsHeuristic` (`neighbors_select.go:8-83`; the commented-out parts do nothing, `visited` and
`discards` are never read). -/
def selectNeighborsHeuristic (M : Metric D) (nodes : AMap UInt64 Vertex) (cands : List (Elem D)) (m : Nat) :
    Except Panic (List UInt64) :=
  heuristicLoop M nodes m cands.length (newMinHeap M.lt cands) []

/-- `h.selectNeighbors` (`hnsw.go:58-62`). -/
def selectNeighbors (M : Metric D) (cfg : Cfg) (nodes : AMap UInt64 Vertex) (cands : List (Elem D)) (m : Nat) :
    Except Panic (List UInt64) :=
  if cfg.heuristic then selectNeighborsHeuristic M nodes cands m else selectNeighborsSimple M cands m

/-! ## `Insert` (`insert.go`) -/

/-- `h.wal.<record>(…)`. -/
def Hnsw.log (h : Hnsw) (r : Bytes) : Hnsw := { h with wal := h.wal.writeBatch r }

/-- `wal.setConnectionsAtLevel` and then `SetConnections` (`insert.go:73-75`, `109-110`). -/
def Hnsw.setConnections (h : Hnsw) (id : UInt64) (l : Nat) (ids : List UInt64) : Except Panic Hnsw := do
  let h := h.log (recSetConnections id (UInt32.ofNat l) ids)
  let nodes ← setConns h.nodes id l ids
  .ok { h with nodes := nodes }

/-- `wal.addConnectionAtLevel` and then `AddConnection` (`insert.go:90-91`). -/
def Hnsw.addConnection (h : Hnsw) (id : UInt64) (l : Nat) (nid : UInt64) : Except Panic Hnsw := do
  let h := h.log (recAddConnection id (UInt32.ofNat l) nid)
  let nodes ← addConn h.nodes id l nid
  .ok { h with nodes := nodes }

/-- distances from `nv` to each of `ids` (`insert.go:100-106`). -/
def elemsOf (M : Metric D) (nodes : AMap UInt64 Vertex) (nv : Vertex) : List UInt64 → Except Panic (List (Elem D))
  | [] => .ok []
  | nn :: rest => do
    let nnv ← nodeAt nodes nn
    let d ← M.dist nv.vec nnv.vec
    let es ← elemsOf M nodes nv rest
    .ok ({ id := nn, dist := d } :: es)

/-- linking a neighbour `n` back to the new vertex (`insert.go:81-113`). -/
def Hnsw.linkBack (M : Metric D) (v : UInt64) (vvec : Vec) (l maxConn : Nat) (h : Hnsw) (n : UInt64) :
    Except Panic Hnsw := do
  let nv ← nodeAt h.nodes n
  let conns ← nv.connsAt l
  if conns.length < maxConn then h.addConnection n l v
  else do
    let d ← M.dist nv.vec vvec
    let es ← elemsOf M h.nodes nv conns
    let newNeighbors ← selectNeighbors M h.cfg h.nodes ({ id := v, dist := d } :: es) maxConn
    h.setConnections n l newNeighbors

/-- the lookup phase (`insert.go:62-65`; also `search.go:28-31`): greedy descent with `ef = 1` through the
layers `from, from-1, …, to+1`. `n` is the number of layers left. -/
def descend (M : Metric D) (nodes : AMap UInt64 Vertex) (mMax0 : Nat) (q : Vec) (to : Nat) :
    Nat → List (Elem D) → Except Panic (List (Elem D))
  | 0, eps => .ok eps
  | n + 1, eps => do
    let nns ← searchLayer M nodes mMax0 q eps 1 (to + n + 1)
    match nns with
    | [] => .error .indexOutOfRange
    | e :: _ => descend M nodes mMax0 q to n [e]

/-- one layer of the construction phase (`insert.go:69-116`): the new state and the entry points of the layer below. -/
def Hnsw.connectLayer (M : Metric D) (v : UInt64) (vvec : Vec) (h : Hnsw) (eps : List (Elem D)) (l : Nat) :
    Except Panic (Hnsw × List (Elem D)) := do
  let nns ← searchLayer M h.nodes h.cfg.mMax0 vvec eps h.cfg.efC l
  let neighbors ← selectNeighbors M h.cfg h.nodes nns h.cfg.m
  let h ← h.setConnections v l neighbors
  let maxConn := if l = 0 then h.cfg.mMax0 else h.cfg.mMax
  let h ← neighbors.foldlM (Hnsw.linkBack M v vvec l maxConn) h
  .ok (h, nns)

/-- the construction phase (`insert.go:68-116`) for the layers `n-1, …, 0`. -/
def Hnsw.construct (M : Metric D) (v : UInt64) (vvec : Vec) : Nat → Hnsw → List (Elem D) → Except Panic Hnsw
  | 0, h, _ => .ok h
  | n + 1, h, eps => do
    let (h, eps) ← h.connectLayer M v vvec eps n
    Hnsw.construct M v vvec n h eps

/-- `insertFirstVertex` (`insert.go:129-144`). -/
def Hnsw.insertFirst (h : Hnsw) (vec : Vec) (id : UInt64) : Hnsw :=
  let h := h.log (recSetEntryPoint id 0)
  let h := { h with entry := id, maxLayer := 0 }
  let h := h.log (recAddVertex id 0)
  { h with nodes := h.nodes.set id { id := id, conns := [[]], vec := vec } }

/-- the rest of `Insert` (`insert.go:39-126`), for a vertex that is not the first. With `m = 1` the level is
`int64(+Inf)` and `make` in `Vertex.Init` panics (`hnsw.go:49`, `utils.go:17`, `vertex.go:15`). -/
def Hnsw.insertNext (M : Metric D) (h : Hnsw) (vec : Vec) (id : UInt64) (level : Nat) : Except Panic Hnsw := do
  if h.cfg.m = 1 then .error .makeLen
  else do
    let h := h.log (recAddVertex id (UInt32.ofNat level))
    let h := { h with nodes := h.nodes.set id { id := id, conns := List.replicate (level + 1) [], vec := vec } }
    let epv ← nodeAt h.nodes h.entry
    let curMax := h.maxLayer
    let d ← M.dist epv.vec vec
    let eps ← descend M h.nodes h.cfg.mMax0 vec level (curMax - level) [{ id := h.entry, dist := d }]
    let h ← h.construct M id vec (min curMax level + 1) eps
    if curMax < level then
      let h := h.log (recSetEntryPoint id (UInt32.ofNat level))
      .ok { h with entry := id, maxLayer := level }
    else .ok h

/-- `Hnsw.Insert` (`insert.go:8-127`). It never returns an error. -/
def Hnsw.insert (M : Metric D) (h : Hnsw) (vec : Vec) (id : UInt64) (level : Nat) : Except Panic Hnsw :=
  if h.once = false ∧ h.nodes = [] then .ok ({ h with once := true }.insertFirst vec id)
  else { h with once := true }.insertNext M vec id level

/-! ## `Delete` (`delete.go`), `Search` (`search.go:8-53`), `Flush` -/

/-- `Hnsw.Delete` (`delete.go:4-12`); `deletedNodes` is a set. -/
def Hnsw.delete (h : Hnsw) (id : UInt64) : Hnsw :=
  let h := h.log (recDeleteVertex id)
  { h with deleted := if id ∈ h.deleted then h.deleted else id :: h.deleted }

/-- the final loop of `Search` (`search.go:37-50`): pop up to `k` live elements. -/
def takeLive (M : Metric D) (deleted : List UInt64) : Nat → Nat → List (Elem D) → List (Elem D)
  | 0, _, _ => []
  | _ + 1, 0, _ => []
  | fuel + 1, k + 1, heap =>
    match Heap.pop (minLess M.lt) heap with
    | none => []
    | some (e, rest) =>
      if e.id ∈ deleted then takeLive M deleted fuel (k + 1) rest
      else e :: takeLive M deleted fuel k rest

/-- `Hnsw.Search` (`search.go:8-53`). `make([]utils.Element, 0, k)` panics for negative `k`. -/
def Hnsw.search (M : Metric D) (h : Hnsw) (q : Vec) (k : Int) : Except Panic (List (Elem D)) :=
  if k < 0 then .error .makeLen
  else do
    let epv ← nodeAt h.nodes h.entry
    let d ← M.dist epv.vec q
    let eps ← descend M h.nodes h.cfg.mMax0 q 0 h.maxLayer [{ id := h.entry, dist := d }]
    let nns ← searchLayer M h.nodes h.cfg.mMax0 q eps h.cfg.ef 0
    let heap := newMinHeap M.lt nns
    .ok (takeLive M h.deleted heap.length k.toNat heap)

/-- `Hnsw.Flush` (`hnsw.go:82-84`). -/
def Hnsw.flush (h : Hnsw) (fails : Bool) : Hnsw × Option Err :=
  let (w, e) := h.wal.flush fails
  ({ h with wal := w }, e)

/-! ## Startup (`deserialize.go`, `startup.go`, `hnsw.go:36-80`) -/

/-- `Vertex.Init(level+1, …)` as called by the deserializer (`deserialize.go:37-49`); no vector yet. -/
def restoreAddVertex (h : Hnsw) (b : Bytes) : Except Panic Hnsw := do
  let id ← uint64 b
  let level ← uint32 (b.drop 8)
  .ok { h with nodes := h.nodes.set id { id := id, conns := List.replicate (level.toNat + 1) [], vec := [] } }

/-- `deserialize.go:51-60`. -/
def restoreSetEntryPoint (h : Hnsw) (b : Bytes) : Except Panic Hnsw := do
  let id ← uint64 b
  let level ← uint32 (b.drop 8)
  .ok { h with entry := id, maxLayer := level.toNat }

/-- `deserialize.go:61-76`. -/
def restoreAddConnection (h : Hnsw) (b : Bytes) : Except Panic Hnsw := do
  let id ← uint64 b
  let level ← uint32 (b.drop 8)
  let nid ← uint64 (b.drop 12)
  let nodes ← addConn h.nodes id level.toNat nid
  .ok { h with nodes := nodes }

/-- the loop at `deserialize.go:92-95`. -/
def readIds : Nat → Bytes → Except Panic (List UInt64)
  | 0, _ => .ok []
  | n + 1, b => do
    let x ← uint64 b
    let xs ← readIds n (b.drop 8)
    .ok (x :: xs)

/-- `deserialize.go:77-98`. -/
def restoreSetConnections (h : Hnsw) (b : Bytes) : Except Panic Hnsw := do
  let id ← uint64 b
  let level ← uint32 (b.drop 8)
  let size ← uint32 (b.drop 12)
  let ids ← readIds size.toNat (b.drop 16)
  let nodes ← setConns h.nodes id level.toNat ids
  .ok { h with nodes := nodes }

/-- `deserialize.go:100-107`. -/
def restoreDeleteVertex (h : Hnsw) (b : Bytes) : Except Panic Hnsw := do
  let id ← uint64 b
  .ok { h with deleted := if id ∈ h.deleted then h.deleted else id :: h.deleted }

/-- `restore` (`deserialize.go:12-31`). -/
def restore (h : Hnsw) (record : Bytes) : Except Abort Hnsw :=
  match record with
  | [] => .error (.panic .indexOutOfRange)
  | op :: b =>
    if op = opAddVertex then liftPanic (restoreAddVertex h b)
    else if op = opSetEntryPoint then liftPanic (restoreSetEntryPoint h b)
    else if op = opSetConnections then liftPanic (restoreSetConnections h b)
    else if op = opAddConnection then liftPanic (restoreAddConnection h b)
    else if op = opDeleteVertex then liftPanic (restoreDeleteVertex h b)
    else .error (.error (.unknownOpcode op))

/-- `loadFromWAL` (`startup.go:11-31`) over the records on disk. -/
def loadFromWAL (h : Hnsw) (records : List Bytes) : Except Abort Hnsw := records.foldlM restore h

/-- one round of `populateVerticesVectors` (`startup.go:42-50`): a stored vector whose vertex is missing is a nil
dereference. `vec` is what `GetVector` decoded. -/
def populateOne (h : Hnsw) (id : UInt64) (vec : Vec) : Except Panic Hnsw := do
  let v ← nodeAt h.nodes id
  .ok { h with nodes := h.nodes.set id { v with vec := vec } }

/-- the empty index built at `hnsw.go:37-46`. -/
def Hnsw.empty (cfg : Cfg) (disk : List Bytes) : Hnsw := { cfg := cfg, wal := newWal disk }

end Vectory
