import Verif.Spec.CollSched
/-! What a batch leaves when some of its objects were never taken by a worker. -/
namespace Vectory.Conc
open Vectory
variable {V D : Type}

/-- of the batch `os` exactly the objects at the positions `lost` are missing in `c'`: their ids are as the caller gave them and
nothing was stored for them; all the others received the next ids of `c` in some order, can be read back, and the size has grown by
their number; every other id reads as before. -/
structure StoredExcept (L : Lib V D) (c : Coll) (os : List (Object V)) (c' : Coll) (os' : List (Object V)) (lost : List Nat) : Prop where
  nodup : lost.Nodup
  bound : ∀ k ∈ lost, k < os.length
  len : os'.length = os.length
  same : ∀ (k : Nat) (o o' : Object V), os[k]? = some o → os'[k]? = some o' →
    o'.props = o.props ∧ ∀ v, o.vec = some v → o'.vec = some v
  untouched : ∀ (k : Nat) (o o' : Object V), k ∈ lost → os[k]? = some o → os'[k]? = some o' → o'.id = o.id
  ids : ((os'.zipIdx.filter (fun p => decide (p.2 ∉ lost))).map (fun p => p.1.id.toNat)).Perm
    (List.range' c.counter.count.toNat (os.length - lost.length))
  read : ∀ (k : Nat) (o : Object V), k ∉ lost → os'[k]? = some o → ∃ text props, L.json.marshal o.props = some text ∧
    L.json.unmarshal text = some props ∧ c'.get L [o.id] = .ok [{ id := o.id, props := props, vec := some (o.vec.getD []) }]
  size : c'.getSize = c.getSize.map (· + (os.length - lost.length))
  others : ∀ id : UInt64, (∀ (k : Nat) (o : Object V), k ∉ lost → os'[k]? = some o → o.id ≠ id) → c'.get L [id] = c.get L [id]

/-- the positions no worker has taken. -/
def Batch.untaken (b : Batch V D) : List Nat := b.queue ++ b.tasks.flatMap Task.todo

end Vectory.Conc
