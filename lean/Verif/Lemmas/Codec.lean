import Verif.Model.Store
import Verif.Model.IdCounter
import Verif.Lemmas.Basic
/-! Byte formats of objects, vectors and the counter; the map view of the stores. -/
namespace Vectory
variable {V : Type}

theorem readFloats_flatMap (v : Vec) (r : Bytes) : readFloats v.length (v.flatMap putUint32 ++ r) = .ok v := by
  induction v with
  | nil => rfl
  | cons x xs ih =>
    rw [List.flatMap_cons, List.length_cons, List.append_assoc]
    unfold readFloats
    rw [uint32_put, drop_put32]
    dsimp only
    rw [ih]

theorem deserialize_serializeVector (v : Vec) (h : v.length < 4294967296) :
    deserializeVector (serializeVector v) = .ok v := by
  unfold deserializeVector serializeVector
  rw [uint32_put, drop_put32]
  dsimp only
  have : (UInt32.ofNat v.length).toNat = v.length := by simp; omega
  rw [this]
  simpa using readFloats_flatMap v []

theorem deserialize_serializeProperties (js : Json V) (o : Object V) (b t : Bytes) (p : AMap String V)
    (hm : js.marshal o.props = some b) (hl : b.length < 4294967296) (hu : js.unmarshal b = some p)
    (hs : serializeProperties js o = .ok t) : deserializeProperties js t = .ok p := by
  unfold serializeProperties at hs
  rw [hm] at hs
  cases hs
  unfold deserializeProperties
  rw [uint32_put, drop_put32]
  have : (UInt32.ofNat b.length).toNat = b.length := by simp; omega
  dsimp only
  rw [this, if_neg (by omega), List.take_length, hu]

theorem keyOf_inj {a b : UInt64} (h : keyOf a = keyOf b) : a = b := putUint64_inj h

theorem uint64_keyOf (a : UInt64) : uint64 (keyOf a) = .ok a := by simpa [keyOf] using uint64_put a []

theorem newIdCounter_put (n : UInt64) (r : Bytes) :
    newIdCounter (putUint64 n ++ r) = .ok { count := n, file := putUint64 n ++ r } := by
  unfold newIdCounter
  rw [if_neg (by simp [putUint64]), uint64_put]

end Vectory
