import Verif.Model.CollConc
/-!
# Batches that contain the same object several times

`InsertBatch` and `InsertBatch2` take a slice of pointers (`objs []*objstoreentities.Object`, `db/collection_insert.go:38`, `:94`), and
nothing keeps a caller from putting one pointer into it twice. Here `cells` are the caller's objects and `ptrs` is the slice: the
number of an object for each position. The tasks are those of `Model/CollConc.lean`; the numbers they carry are numbers of objects, and
`obj.Id = id` (`collection_insert.go:153`) writes into the object that all its positions share.
-/
namespace Vectory.Conc
open Vectory
variable {V D : Type}

/-- the objects in the order of the slice. A pointer to no object (Go's nil pointer) is not modelled. -/
def deref (cells : List (Object V)) (ptrs : List Nat) : List (Object V) := ptrs.filterMap (fun k => cells[k]?)

/-- the loop `objects[i].Vector = er[i]` (`text2vec-huggingface.go:114-116`) over pointers: an object that is in the list twice is
written twice. A response that is too short is an index panic. -/
def assignPtrs (cells : List (Object V)) : List Nat → List (Option Vec) → Except Panic (List (Object V))
  | [], _ => .ok cells
  | _ :: _, [] => .error .indexOutOfRange
  | k :: ks, v :: resp => assignPtrs (cells.modify k (fun o => { o with vec := v })) ks resp

/-- `embedObjectsIfNeeded` (`collection.go:153-177`) on pointers: the list of objects without a vector is made before any of them gets
one. -/
def embedPtrs (c : Coll) (embed : Embed V) (cells : List (Object V)) (ptrs : List Nat) : Except Panic (Except Err (List (Object V))) :=
  if c.hasEmbedder = false then
    if (deref cells ptrs).any (fun o => o.vec.isNone) then .ok (.error .missingVectorAndEmbedder) else .ok (.ok cells)
  else
    match embed ((deref cells ptrs).filter (fun o => o.vec.isNone)) with
    | .error e => .ok (.error e)
    | .ok resp =>
      match assignPtrs cells (ptrs.filter (fun k => (cells[k]?.bind Object.vec).isNone)) resp with
      | .error p => .error p
      | .ok cells' => .ok (.ok cells')

/-- the checks before the tasks (`collection_insert.go:42-52`, `:98-106`): the caller's objects afterwards, or the error returned. -/
def preparePtrs (c : Coll) (cells : List (Object V)) (ptrs : List Nat) (embed : Embed V) : Except Panic (Except Err (List (Object V))) :=
  if c.closed then .ok (.error .collectionClosed)
  else
    match validateObjects c.mappings 0 (deref cells ptrs) with
    | some e => .ok (.error e)
    | none => embedPtrs c embed cells ptrs

/-- `InsertBatch` up to the submission of its tasks (`collection_insert.go:54-82`); `none`: a slice expression would be out of
bounds. -/
def startPtrs (c : Coll) (cells : List (Object V)) (ptrs : List Nat) (workers : Nat) : Option (Batch V D) :=
  match (chunks ptrs.length workers).mapM (goSlice ptrs) with
  | none => none
  | some todos => some {
      c := c, ts := (Mach.init c.index workers).ts, tasks := todos.map (fun todo => { todo := todo, pc := .wait }), queue := [],
      objs := cells }

/-- `InsertBatch2` up to the submission of its tasks (`collection_insert.go:108-134`). -/
def startPtrs2 (c : Coll) (cells : List (Object V)) (ptrs : List Nat) (workers : Nat) : Batch V D :=
  { c := c, ts := (Mach.init c.index workers).ts, tasks := List.replicate workers { todo := [], pc := .wait }, queue := ptrs,
    objs := cells }

end Vectory.Conc
