import Verif.Model.Hnsw
/-!
# What the index log is supposed to record

The five operations of the log, the bytes the code writes for each (`wal.go:54-129`), and what each does to an index. The
effects are written with plain map updates, not with the decoder.
-/
namespace Vectory.Spec

/-- an operation of the index log. -/
inductive LogOp where
  | addVertex (id : UInt64) (level : UInt32)
  | setEntryPoint (id : UInt64) (level : UInt32)
  | setConnections (id : UInt64) (level : UInt32) (ids : List UInt64)
  | addConnection (id : UInt64) (level : UInt32) (n : UInt64)
  | deleteVertex (id : UInt64)
  deriving DecidableEq, Repr

/-- the record written for it. -/
def LogOp.encode : LogOp → Bytes
  | .addVertex id l => recAddVertex id l
  | .setEntryPoint id l => recSetEntryPoint id l
  | .setConnections id l ids => recSetConnections id l ids
  | .addConnection id l n => recAddConnection id l n
  | .deleteVertex id => recDeleteVertex id

/-- the format stores the number of neighbours in 32 bits. -/
def LogOp.fits : LogOp → Prop
  | .setConnections _ _ ids => ids.length < 4294967296
  | _ => True

/-- `Does op h h'`: performing `op` on the index `h` gives `h'`. Link operations need the vertex and its layer to exist. -/
inductive Does : LogOp → Hnsw → Hnsw → Prop where
  | addVertex (h : Hnsw) (id : UInt64) (l : UInt32) :
      Does (.addVertex id l) h
        { h with nodes := h.nodes.set id { id := id, conns := List.replicate (l.toNat + 1) [], vec := [] } }
  | setEntryPoint (h : Hnsw) (id : UInt64) (l : UInt32) :
      Does (.setEntryPoint id l) h { h with entry := id, maxLayer := l.toNat }
  | setConnections (h : Hnsw) (id : UInt64) (l : UInt32) (ids : List UInt64) (v : Vertex) :
      AMap.get? h.nodes id = some v → l.toNat < v.conns.length →
      Does (.setConnections id l ids) h { h with nodes := h.nodes.set id { v with conns := v.conns.set l.toNat ids } }
  | addConnection (h : Hnsw) (id : UInt64) (l : UInt32) (n : UInt64) (v : Vertex) (links : List UInt64) :
      AMap.get? h.nodes id = some v → v.conns[l.toNat]? = some links →
      Does (.addConnection id l n) h
        { h with nodes := h.nodes.set id { v with conns := v.conns.set l.toNat (links ++ [n]) } }
  | deleteVertex (h : Hnsw) (id : UInt64) (dels : List UInt64) :
      (∀ x, x ∈ dels ↔ x = id ∨ x ∈ h.deleted) → (h.deleted.Nodup → dels.Nodup) →
      Does (.deleteVertex id) h { h with deleted := dels }

end Vectory.Spec
