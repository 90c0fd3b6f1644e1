import Verif.Model.Collection
/-!
# The caller's slices

`hnsw.Insert` keeps the slice it is given (`db/core/index/hnsw/insert.go:13-16`, `vector: vector`), `Collection.insert` gives it the
slice of the caller's object (`db/collection_insert.go:159`), and the embedder puts its answer into the caller's object
(`text2vec-huggingface.go:114-116`). So as long as the process lives, the caller and the index share the memory of the vector: what
the caller writes into the elements of `obj.Vector` after the call is what the index computes with. The vectors store holds the bytes
written during the call (`store.go:36-56`). After a restart the vectors are read from the store (`startup.go:35-53`).

A slice cannot be made longer or shorter in place, so a write keeps the length. Writes while a call is running are data races and not
modelled. Several objects that share one slice (a buffer used again and again) are written one after the other.
-/
namespace Vectory

/-- the caller writes `vec` into the slice it passed for the vertex `id` (`insert.go:13-16`, `:129-142`). -/
def Hnsw.write (h : Hnsw) (id : UInt64) (vec : Vec) : Hnsw :=
  match h.nodes.get? id with
  | none => h
  | some v => { h with nodes := h.nodes.set id { v with vec := vec } }

/-- the same for a collection (`collection_insert.go:159`): only the memory of the index changes. -/
def Coll.write (c : Coll) (id : UInt64) (vec : Vec) : Coll := { c with index := c.index.write id vec }

end Vectory
