import Verif.Model.MMHeap
import Verif.Model.Distance
/-!
# The in-memory part of the DiskANN index (`db/core/index/disk_ann/memory_index.go`, `graph.go`, `disk_ann.go`)

Nothing in vectory's own API uses this package yet. One goroutine at a time. `listSize` and `k` are `Nat` (the callers pass
non-negative ints). The multiplication by `distanceThreshold` and the `<=` after it (`memory_index.go:211`) are one parameter
`close d c`, which stands for `distanceThreshold*d <= c`.
-/
namespace Vectory.DiskAnn
variable {D : Type}

/-- `Vertex` (`graph.go:51-56`). -/
structure Vertex where
  id : UInt64
  objId : UInt32 := 0
  neighbors : List UInt64 := []
  vector : Vec
  deriving DecidableEq, Repr

/-- `Graph.vertices` (`graph.go:8-10`). -/
abbrev Graph := AMap UInt64 Vertex

/-- `MemoryIndex` (`memory_index.go:10-32`). `wired` says whether the pointers `calculateDistance`, `deletedObjIds` and
`initialInsertion` are set, as `newMemoryIndex` does and `readIndex` does not; `once` is whether `initialInsertion` has run. The
snapshot path is left out. -/
structure MemIndex where
  graph : Graph := []
  wired : Bool := true
  once : Bool := false
  s : UInt64 := 0
  dim : UInt32
  maxDegree : UInt32
  firstId : UInt64
  readOnly : Bool := false
  size : UInt32 := 0
  deriving DecidableEq, Repr

/-- `newMemoryIndex` (`memory_index.go:34-48`). -/
def newMemIndex (firstId : UInt64) (maxDegree dim : UInt32) : MemIndex := { dim := dim, maxDegree := maxDegree, firstId := firstId }

/-- how an operation ends early. -/
inductive Fail where
  | panic (p : Panic)
  /-- `ErrReadOnlyIndex` -/
  | readOnly
  /-- `ErrVectorDimensions` -/
  | dimension
  /-- `io.EOF` from `ReadAt` -/
  | eof
  deriving DecidableEq, Repr

/-- `g.vertices[id]` followed by a field access. -/
def vertexAt (g : Graph) (id : UInt64) : Except Panic Vertex :=
  match g.get? id with
  | some v => .ok v
  | none => .error .nilDeref

/-- state of the search loop: the result set (a min-max heap), the ids seen so far cut to 32 bits, the live vertices visited. -/
structure SearchState (D : Type) where
  results : List (Elem D)
  visited : List UInt32
  found : List (Elem D)

/-- `for resultSet.Len() > listSize { PopMax }` (`memory_index.go:90-92`); at most `n` rounds. -/
def trim (M : Metric D) (listSize : Nat) : Nat → List (Elem D) → Except Panic (List (Elem D))
  | 0, l => .ok l
  | n + 1, l =>
    if listSize < l.length then
      match MMHeap.popMax (minLess M.lt) l with
      | some (_, l') => trim M listSize n l'
      | none => .error .indexOutOfRange
    else .ok l

/-- one neighbour of the visited vertex (`memory_index.go:80-93`). -/
def pushNeighbor (M : Metric D) (g : Graph) (q : Vec) (listSize : Nat) (l : List (Elem D)) (n : UInt64) :
    Except Panic (List (Elem D)) := do
  let nv ← vertexAt g n
  let d ← M.dist nv.vector q
  let l := MMHeap.push (minLess M.lt) l { id := n, dist := d }
  trim M listSize l.length l

/-- the loop of `search` (`memory_index.go:64-94`). -/
def searchLoop (M : Metric D) (g : Graph) (deleted : List UInt32) (q : Vec) (listSize : Nat) :
    Nat → SearchState D → Except Panic (SearchState D)
  | 0, _ => .error .outOfFuel
  | fuel + 1, st =>
    match MMHeap.pop (minLess M.lt) st.results with
    | none => .ok st
    | some (e, rest) =>
      if e.id.toUInt32 ∈ st.visited then searchLoop M g deleted q listSize fuel { st with results := rest }
      else do
        let v ← vertexAt g e.id
        let found := if v.objId ∈ deleted then st.found else st.found ++ [e]
        let results ← v.neighbors.foldlM (pushNeighbor M g q listSize) rest
        searchLoop M g deleted q listSize fuel { results := results, visited := e.id.toUInt32 :: st.visited, found := found }

/-- number of links in the graph: every vertex is expanded once, so this many elements can be pushed. -/
def links (g : Graph) : Nat := (g.map (fun p => p.2.neighbors.length)).sum

/-- `search(q, k, listSize, false)` (`memory_index.go:51-108`): the live vertices visited, in the order of the visits. -/
def MemIndex.visit (M : Metric D) (mi : MemIndex) (deleted : List UInt32) (q : Vec) (listSize : Nat) :
    Except Panic (List (Elem D)) := do
  let sv ← vertexAt mi.graph mi.s
  if mi.wired = false then .error .nilDeref
  else do
    let d ← M.dist sv.vector q
    let st ← searchLoop M mi.graph deleted q listSize (links mi.graph + 2)
      { results := MMHeap.init (minLess M.lt) [{ id := mi.s, dist := d }], visited := [], found := [] }
    .ok st.found

/-- up to `k` pops (`memory_index.go:100-103`). -/
def popK (lt : Elem D → Elem D → Bool) : Nat → List (Elem D) → List (Elem D)
  | 0, _ => []
  | k + 1, l =>
    match Heap.pop lt l with
    | none => []
    | some (e, rest) => e :: popK lt k rest

/-- `search(q, k, listSize, true)` (`memory_index.go:51-109`). -/
def MemIndex.search (M : Metric D) (mi : MemIndex) (deleted : List UInt32) (q : Vec) (k listSize : Nat) :
    Except Panic (List (Elem D)) := do
  let found ← mi.visit M deleted q listSize
  .ok (popK (minLess M.lt) k (newMinHeap M.lt found))

/-- the distances of the current neighbours, appended to the candidates (`memory_index.go:182-190`). -/
def ownNeighbors (M : Metric D) (g : Graph) (v : Vertex) : List UInt64 → Except Panic (List (Elem D))
  | [] => .ok []
  | n :: ns => do
    let nv ← vertexAt g n
    let d ← M.dist v.vector nv.vector
    let es ← ownNeighbors M g v ns
    .ok ({ id := n, dist := d } :: es)

/-- the inner loop of `robustPrune` (`memory_index.go:207-214`): the ids of the remaining candidates that are close to `min`. -/
def closeTo (M : Metric D) (close : D → D → Bool) (g : Graph) (min : UInt64) : List (Elem D) → Except Panic (List UInt64)
  | [] => .ok []
  | c :: cs => do
    let mv ← vertexAt g min
    let cv ← vertexAt g c.id
    let d ← M.dist mv.vector cv.vector
    let rest ← closeTo M close g min cs
    .ok (if close d c.dist then cv.id :: rest else rest)

/-- the loop of `robustPrune` (`memory_index.go:195-215`). `full` is the test `len(v.neighbors) == maxDegree`, which the loop does
not change. -/
def pruneLoop (M : Metric D) (close : D → D → Bool) (g : Graph) (full : Bool) :
    Nat → List (Elem D) → List UInt64 → Except Panic (List UInt64)
  | 0, _, _ => .ok []
  | fuel + 1, l, dropped =>
    match Heap.pop (minLess M.lt) l with
    | none => .ok []
    | some (e, rest) =>
      if e.id ∈ dropped then pruneLoop M close g full fuel rest dropped
      else if full then .ok [e.id]
      else do
        let more ← closeTo M close g e.id rest
        let ns ← pruneLoop M close g full fuel rest (more ++ dropped)
        .ok (e.id :: ns)

/-- `robustPrune` (`memory_index.go:178-218`). -/
def robustPrune (M : Metric D) (close : D → D → Bool) (g : Graph) (maxDegree : UInt32) (v : Vertex) (candidates : List (Elem D)) :
    Except Panic (List UInt64) := do
  let own ← ownNeighbors M g v v.neighbors
  let l := newMinHeap M.lt (candidates ++ own)
  pruneLoop M close g (v.neighbors.length == maxDegree.toNat) l.length l [v.id]

/-- the distances to the neighbours of `neighbor` (`memory_index.go:157-165`). -/
def distancesTo (M : Metric D) (g : Graph) (v : Vertex) : List UInt64 → Except Panic (List (Elem D))
  | [] => .ok []
  | n :: ns => do
    let nv ← vertexAt g n
    let d ← M.dist nv.vector v.vector
    let es ← distancesTo M g v ns
    .ok ({ id := n, dist := d } :: es)

/-- one round of the loop of `insert` over the new vertex's neighbours (`memory_index.go:150-168`). -/
def linkBack (M : Metric D) (close : D → D → Bool) (maxDegree : UInt32) (id : UInt64) (g : Graph) (n : UInt64) :
    Except Panic Graph := do
  let nb ← vertexAt g n
  let nb := { nb with neighbors := nb.neighbors ++ [id] }
  let g := g.set n nb
  if maxDegree.toNat < nb.neighbors.length then do
    let ds ← distancesTo M g nb nb.neighbors
    let ns ← robustPrune M close g maxDegree nb ds
    .ok (g.set n { nb with neighbors := ns })
  else .ok g

/-- `liftE`: a panic inside an operation that can also fail. -/
def liftE {A : Type} : Except Panic A → Except Fail A
  | .ok a => .ok a
  | .error p => .error (.panic p)

/-- the part of `insert` after the first insertion (`memory_index.go:143-170`). -/
def MemIndex.connect (M : Metric D) (close : D → D → Bool) (mi : MemIndex) (deleted : List UInt32) (vec : Vec) (listSize : Nat)
    (id : UInt64) : Except Panic MemIndex := do
  let vertex : Vertex := { id := id, vector := vec }
  let mi := { mi with graph := mi.graph.set id vertex }
  let visited ← mi.visit M deleted vec listSize
  let ns ← robustPrune M close mi.graph mi.maxDegree vertex visited
  let g := mi.graph.set id { vertex with neighbors := ns }
  let g ← ns.foldlM (linkBack M close mi.maxDegree id) g
  .ok { mi with graph := g }

/-- `insert` (`memory_index.go:111-171`). The object id `dataId` is not stored (the line is commented out,
`memory_index.go:123-127`), so it is no argument here. -/
def MemIndex.insert (M : Metric D) (close : D → D → Bool) (mi : MemIndex) (deleted : List UInt32) (vec : Vec) (listSize : Nat)
    (id : UInt64) : Except Fail MemIndex :=
  if mi.readOnly then .error .readOnly
  else if vec.length ≠ mi.dim.toNat then .error .dimension
  else if mi.wired = false then .error (.panic .nilDeref)
  else if mi.once = false then
    let mi := { mi with once := true, s := if mi.s = 0 then id else mi.s }
    if mi.graph = [] then .ok { mi with graph := mi.graph.set id { id := id, vector := vec } }
    else liftE (mi.connect M close deleted vec listSize id)
  else liftE (mi.connect M close deleted vec listSize id)

/-- the end of `DiskAnn.Search` (`disk_ann.go:95-101`): `for results.Len() > k { PopMax }`, and the raw array is returned. `trim` is
the same loop. -/
def merge (M : Metric D) (k : Nat) (results : List (Elem D)) : Except Panic (List (Elem D)) :=
  let l := MMHeap.init (minLess M.lt) results
  trim M k l.length l

/-- `DiskAnn.Search` (`disk_ann.go:83-102`): the read-write index, then the read-only ones; the on-disk index returns nothing
(`disk_index.go:9-11`). -/
def daSearch (M : Metric D) (rw : MemIndex) (ro : List MemIndex) (deleted : List UInt32) (q : Vec) (k listSize : Nat) :
    Except Panic (List (Elem D)) := do
  let a ← rw.search M deleted q k listSize
  let bs ← ro.mapM (fun mi => mi.search M deleted q k listSize)
  merge M k (a ++ bs.flatten)

end Vectory.DiskAnn
