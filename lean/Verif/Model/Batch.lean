import Verif.Model.Basic
/-!
# How `InsertBatch` splits a batch among its workers (`db/collection_insert.go:54-82`)

Go ints are unbounded here; a batch has fewer than 2^63 objects, so nothing overflows.
-/
namespace Vectory

/-- the loop `for i := 0; i < workers; i++` (`collection_insert.go:61-82`) from round `i` on; `k` rounds are left
(`k = workers - i`). Each entry is the pair `(start, end)` captured by one `workerFunc`. -/
def chunkLoop (len workers objsInChunk : Nat) : Nat → Nat → Nat → List (Nat × Nat)
  | 0, _, _ => []
  | k + 1, i, offset =>
    let end' := if i = workers - 1 then offset + objsInChunk + len % workers else offset + objsInChunk
    (offset, end') :: chunkLoop len workers objsInChunk k (i + 1) end'

/-- the `(start, end)` pairs handed to the workers (`collection_insert.go:54-82`). -/
def chunks (len workers : Nat) : List (Nat × Nat) := chunkLoop len workers (len / workers) workers 0 0

/-- Go's `objs[start:end]`; `none` is the slice-bounds panic. -/
def goSlice {A : Type} (objs : List A) (r : Nat × Nat) : Option (List A) :=
  if r.1 ≤ r.2 ∧ r.2 ≤ objs.length then some ((objs.take r.2).drop r.1) else none

end Vectory
