import Verif.Model.Errors
/-!
# Objects and their byte format (`entities/objstore/object.go`)
-/
namespace Vectory

/-- `objstore.Object` (`object.go:10-15`). `Properties` is `map[string]interface{}`; a nil and an empty map
are identified. `Vector == nil` is observable (`db/collection.go:156,164`), so the vector is optional. -/
structure Object (V : Type) where
  id : UInt64
  props : AMap String V
  vec : Option Vec
  deriving DecidableEq, Repr

/-- `encoding/json` on property maps; a parameter of the model. -/
structure Json (V : Type) where
  marshal : AMap String V → Option Bytes
  unmarshal : Bytes → Option (AMap String V)

variable {V : Type}

/-- `SerializeProperties` (`object.go:23-43`): 4-byte length, then the JSON text. -/
def serializeProperties (js : Json V) (o : Object V) : Except Err Bytes :=
  match js.marshal o.props with
  | none => .error .json
  | some b => .ok (putUint32 (UInt32.ofNat b.length) ++ b)

/-- `DeserializeProperties` (`object.go:45-61`). The slice expression `object[4:4+n]` is bounded by the
length of the value read from the store. -/
def deserializeProperties (js : Json V) (b : Bytes) : Except Abort (AMap String V) :=
  match uint32 b with
  | .error p => .error (.panic p)
  | .ok n =>
    if (b.drop 4).length < n.toNat then .error (.panic .sliceBounds)
    else
      match js.unmarshal ((b.drop 4).take n.toNat) with
      | none => .error (.error .json)
      | some p => .ok p

/-- `SerializeVector` (`object.go:63-76`): 4-byte dimension, then the components. A nil vector has
dimension 0. -/
def serializeVector (v : Vec) : Bytes :=
  putUint32 (UInt32.ofNat v.length) ++ v.flatMap putUint32

/-- the loop of `DeserializeVector` (`object.go:85-88`). -/
def readFloats : Nat → Bytes → Except Panic Vec
  | 0, _ => .ok []
  | n + 1, b =>
    match uint32 b with
    | .error p => .error p
    | .ok x =>
      match readFloats n (b.drop 4) with
      | .error p => .error p
      | .ok xs => .ok (x :: xs)

/-- `DeserializeVector` (`object.go:78-93`). -/
def deserializeVector (b : Bytes) : Except Panic Vec :=
  match uint32 b with
  | .error p => .error p
  | .ok n => readFloats n.toNat (b.drop 4)

end Vectory
