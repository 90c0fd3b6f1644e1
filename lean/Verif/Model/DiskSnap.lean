import Verif.Model.DiskAnn
import Verif.Model.Object
/-!
# DiskANN snapshots (`db/core/index/disk_ann/dal.go`, `graph.go`, `memory_index.go:243-283`)

A file is the list of its pages; file errors other than the end of the file are left out. `PutUint32`/`PutUint64` into a buffer that
is too short panics, so writing a page panics iff the bytes written are more than a page (`page`).
-/
namespace Vectory.DiskAnn

/-- `pageSize` (`dal.go:10`). -/
def pageSize : Nat := 4096

/-- a fresh page with `b` written from its start (`dal.go:38-44`). -/
def page (b : Bytes) : Except Panic Bytes :=
  if b.length ≤ pageSize then .ok (b ++ List.replicate (pageSize - b.length) 0) else .error .indexOutOfRange

/-- `Vertex.serialize` (`graph.go:58-82`): eight bytes per neighbour, four per missing neighbour. -/
def serialize (v : Vertex) (maxDegree : UInt32) : Bytes :=
  putUint32 v.objId ++ v.vector.flatMap putUint32 ++ v.neighbors.flatMap putUint64 ++
    (List.replicate (maxDegree.toNat - v.neighbors.length) 0).flatMap putUint32

/-- the loop over the neighbours in `Vertex.deserialize` (`graph.go:103-113`): `todo` rounds are left; the neighbours and the number
of bytes the offset advanced, with the remainder added on. -/
def readNeighbors : Nat → Bytes → Except Panic (List UInt64 × Nat)
  | 0, _ => .ok ([], 0)
  | todo + 1, b => do
    let n ← uint64 b
    if n = 0 then .ok ([], 4 + todo * 4)
    else do
      let (ns, k) ← readNeighbors todo (b.drop 4)
      .ok (n :: ns, k + 4)

/-- `Vertex.deserialize` (`graph.go:84-116`): the vertex (with the id the caller has set) and the bytes consumed. -/
def deserialize (id : UInt64) (b : Bytes) (dim maxDegree : UInt32) : Except Panic (Vertex × Nat) := do
  let objId ← uint32 b
  let vec ← readFloats dim.toNat (b.drop 4)
  let (ns, k) ← readNeighbors maxDegree.toNat (b.drop (4 + 4 * dim.toNat))
  .ok ({ id := id, objId := objId, neighbors := ns, vector := vec }, 4 + 4 * dim.toNat + k)

/-- `serializeVertices` (`graph.go:24-34`) into a fresh page, for the vertices with the given ids. -/
def serializeVertices (g : Graph) (ids : List UInt64) (maxDegree : UInt32) : Except Panic Bytes := do
  let vs ← ids.mapM (vertexAt g)
  page (vs.flatMap (fun v => serialize v maxDegree))

/-- `deserializeVertices` (`graph.go:36-49`): `n` vertices, ids counted up from `id`. -/
def deserializeVertices (dim maxDegree : UInt32) : Nat → UInt64 → Bytes → Graph → Except Panic Graph
  | 0, _, _, g => .ok g
  | n + 1, id, b, g => do
    let (v, k) ← deserialize id b dim maxDegree
    deserializeVertices dim maxDegree n (id + 1) (b.drop k) (g.set id v)

/-- `serializeMetadata` (`memory_index.go:243-262`). -/
def serializeMetadata (mi : MemIndex) : Bytes :=
  putUint32 mi.dim ++ putUint32 mi.maxDegree ++ putUint64 mi.firstId ++ putUint32 (UInt32.ofNat mi.graph.length) ++ putUint64 mi.s

/-- `numOfVerticesInPage` (`dal.go:115`, `162`): `uint32` arithmetic; dividing by zero panics. -/
def perPage (dim maxDegree : UInt32) : Except Panic Nat :=
  let bytes : UInt32 := 4 * (1 + dim + maxDegree)
  if bytes = 0 then .error .divByZero else .ok (pageSize / bytes.toNat)

/-- insert into a sorted list. -/
def insertId (a : UInt64) : List UInt64 → List UInt64
  | [] => [a]
  | b :: l => if a ≤ b then a :: b :: l else b :: insertId a l

/-- `sortedIds` (`dal.go:104-113`): the ids in increasing order (they are distinct, so every sorting algorithm gives this list). -/
def sortedIds (g : Graph) : List UInt64 := (AMap.keys g).foldr insertId []

/-- the loop over the full pages (`dal.go:121-134`), `n` of them. -/
def fullPages (g : Graph) (maxDegree : UInt32) (per : Nat) : Nat → List UInt64 → Except Panic (List Bytes × List UInt64)
  | 0, ids => .ok ([], ids)
  | n + 1, ids => do
    let p ← serializeVertices g (ids.take per) maxDegree
    let (ps, rest) ← fullPages g maxDegree per n (ids.drop per)
    .ok (p :: ps, rest)

/-- `writeIndex` (`dal.go:92-147`): the pages of the file. `len / 0` panics. -/
def writeIndex (mi : MemIndex) : Except Panic (List Bytes) := do
  let metadata ← page (serializeMetadata mi)
  let ids := sortedIds mi.graph
  let per ← perPage mi.dim mi.maxDegree
  if per = 0 then .error .divByZero
  else do
    let (full, rest) ← fullPages mi.graph mi.maxDegree per (ids.length / per) ids
    if ids.length % per = 0 then .ok (metadata :: full)
    else do
      let last ← serializeVertices mi.graph (rest.take (ids.length % per)) mi.maxDegree
      .ok (metadata :: full ++ [last])

/-- `readPage` (`dal.go:46-59`). -/
def readPage (file : List Bytes) (n : Nat) : Except Fail Bytes :=
  match file[n]? with
  | some p => .ok p
  | none => .error .eof

/-- the loop over the full pages in `readIndex` (`dal.go:167-175`), from page `i` on, `n` of them. -/
def readPages (file : List Bytes) (dim maxDegree : UInt32) (per : Nat) :
    Nat → Nat → UInt64 → Graph → Except Fail (Graph × UInt64)
  | 0, _, id, g => .ok (g, id)
  | n + 1, i, id, g => do
    let p ← readPage file i
    let g ← liftE (deserializeVertices dim maxDegree per id p g)
    readPages file dim maxDegree per n (i + 1) (id + UInt64.ofNat per) g

/-- `readIndex` (`dal.go:149-190`). The pointers of the new index are not set. -/
def readIndex (file : List Bytes) : Except Fail MemIndex := do
  let p ← readPage file 0
  let dim ← liftE (uint32 p)
  let maxDegree ← liftE (uint32 (p.drop 4))
  let firstId ← liftE (uint64 (p.drop 8))
  let size ← liftE (uint32 (p.drop 16))
  let s ← liftE (uint64 (p.drop 20))
  let per ← liftE (perPage dim maxDegree)
  if per = 0 then .error (.panic .divByZero)
  else do
    let (g, id) ← readPages file dim maxDegree per (size.toNat / per) 1 firstId []
    let mi : MemIndex :=
      { graph := g, wired := false, s := s, dim := dim, maxDegree := maxDegree, firstId := firstId, size := size }
    if size.toNat % per = 0 then .ok mi
    else do
      let p ← readPage file (size.toNat / per + 1)
      let g ← liftE (deserializeVertices dim maxDegree (size.toNat % per) id p g)
      .ok { mi with graph := g }

end Vectory.DiskAnn
