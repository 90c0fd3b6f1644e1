import Verif.Model.Pointers
import Verif.Spec.CollSched
/-!
# Batches that contain the same object several times

The vocabulary for `InsertBatch` (`two = false`) and `InsertBatch2` (`two = true`) on a slice of pointers.
-/
namespace Vectory.Conc
open Vectory
variable {V D : Type}

/-- `b` is what has become of the call on the open collection `c` after the actions `acts`: `cells` are the caller's objects, the
batch is `ptrs` (numbers of objects, any of them several times), the pool has `workers` workers. Vectors have the dimension `dim`, the
levels drawn fit the log format, and there are enough ids. -/
def PtrBatchAt (fixed two : Bool) (L : Lib V D) (dim workers : Nat) (c : Coll) (cells : List (Object V)) (ptrs : List Nat)
    (embed : Embed V) (acts : List BAct) (b : Batch V D) : Prop :=
  0 < workers ∧ (∀ k ∈ ptrs, k < cells.length) ∧ c.counter.count.toNat + ptrs.length < 18446744073709551616 ∧
  (∀ i env, BAct.work i env ∈ acts → env.level < 4294967296) ∧
  ∃ cells' b0, preparePtrs c cells ptrs embed = .ok (.ok cells') ∧
    (∀ k ∈ ptrs, ∀ o, cells'[k]? = some o → (o.vec.getD []).length = dim) ∧
    (if two then some (startPtrs2 c cells' ptrs workers) else startPtrs c cells' ptrs workers) = some b0 ∧ b0.run fixed L acts = some b

/-- no object of the batch is given to two workers: there is one worker, or the batch is cut into slices (`InsertBatch`) and no two
slices have an object in common. -/
def Apart (two : Bool) (workers : Nat) (ptrs : List Nat) : Prop :=
  workers = 1 ∨ (two = false ∧ ∀ slices, (chunks ptrs.length workers).mapM (goSlice ptrs) = some slices →
    ∀ (i j : Nat) (xs ys : List Nat) (k : Nat), slices[i]? = some xs → slices[j]? = some ys → k ∈ xs → k ∈ ys → i = j)

/-- every position of the batch is stored under an id of its own: `ids` are the ids, position by position. -/
structure EachStored (L : Lib V D) (c : Coll) (cells : List (Object V)) (ptrs : List Nat) (c' : Coll) (cells' : List (Object V))
    (ids : List UInt64) : Prop where
  len : ids.length = ptrs.length
  /-- the ids are the next ids of the collection, in some order -/
  next : (ids.map UInt64.toNat).Perm (List.range' c.counter.count.toNat ptrs.length)
  /-- the caller's objects keep their properties and the vectors they brought -/
  same : ∀ (k : Nat) (o : Object V), k ∈ ptrs → cells[k]? = some o → ∃ o', cells'[k]? = some o' ∧ o'.props = o.props ∧
    ∀ v, o.vec = some v → o'.vec = some v
  /-- every position can be read back under its id -/
  read : ∀ (p k : Nat) (id : UInt64), ptrs[p]? = some k → ids[p]? = some id → ∃ o text props, cells'[k]? = some o ∧
    L.json.marshal o.props = some text ∧ L.json.unmarshal text = some props ∧
    c'.get L [id] = .ok [{ id := id, props := props, vec := some (o.vec.getD []) }]
  /-- and is in the index -/
  index : ∀ (p k : Nat) (id : UInt64), ptrs[p]? = some k → ids[p]? = some id → ∃ (o : Object V) (v : Vertex), cells'[k]? = some o ∧
    c'.index.nodes.get? id = some v ∧ v.vec = o.vec.getD []
  /-- the size grows by the number of positions -/
  size : c'.getSize = c.getSize.map (· + ptrs.length)
  /-- nothing else changes -/
  others : ∀ id : UInt64, id ∉ ids → c'.get L [id] = c.get L [id]
  /-- the object carries the id of its last position -/
  last : ∀ (p k : Nat) (o : Object V), ptrs[p]? = some k → (∀ q, p < q → ptrs[q]? ≠ some k) → cells'[k]? = some o → ids[p]? = some o.id

end Vectory.Conc
