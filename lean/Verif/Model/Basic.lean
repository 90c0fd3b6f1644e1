/-!
# Shared vocabulary of the model: Go panics, Go maps, little-endian integers

Nothing here is vectory's own code; these are the Go language and standard-library facts the
rest of the model is written in.
-/
namespace Vectory

/-- The run-time panics that the modelled Go code can raise. -/
inductive Panic where
  /-- method call or field access through a nil pointer (e.g. a missing map entry of type `*Vertex`). -/
  | nilDeref
  /-- `s[i]` with `i ≥ len(s)` (or `i < 0`). -/
  | indexOutOfRange
  /-- `s[:n]` with `n > cap(s)`. -/
  | sliceBounds
  /-- `make([]T, n, c)` with a negative or inconsistent size. -/
  | makeLen
  /-- integer division by zero. -/
  | divByZero
  /-- not a Go panic: the fuel given to a model loop ran out (proved impossible). -/
  | outOfFuel
  deriving DecidableEq, Repr

/-- Raw bytes, `[]byte`. -/
abbrev Bytes := List UInt8

/-- A `float32` component, kept as its IEEE bit pattern (`math.Float32bits`). -/
abbrev F32 := UInt32

/-- `[]float32`; a nil slice and an empty slice behave alike everywhere vectors are read. -/
abbrev Vec := List F32

/-! ## `encoding/binary`, little endian -/

/-- `binary.LittleEndian.PutUint32`: byte `i` is `byte(v >> (8*i))` (written with `/` and `%`). -/
def putUint32 (x : UInt32) : Bytes :=
  [UInt8.ofNat (x.toNat % 256), UInt8.ofNat (x.toNat / 256 % 256),
   UInt8.ofNat (x.toNat / 65536 % 256), UInt8.ofNat (x.toNat / 16777216 % 256)]

/-- `binary.LittleEndian.PutUint64`. -/
def putUint64 (x : UInt64) : Bytes :=
  [UInt8.ofNat (x.toNat % 256), UInt8.ofNat (x.toNat / 256 % 256),
   UInt8.ofNat (x.toNat / 65536 % 256), UInt8.ofNat (x.toNat / 16777216 % 256),
   UInt8.ofNat (x.toNat / 4294967296 % 256), UInt8.ofNat (x.toNat / 1099511627776 % 256),
   UInt8.ofNat (x.toNat / 281474976710656 % 256), UInt8.ofNat (x.toNat / 72057594037927936 % 256)]

/-- `binary.LittleEndian.Uint32(b)`: panics when fewer than four bytes are left. -/
def uint32 : Bytes → Except Panic UInt32
  | b0 :: b1 :: b2 :: b3 :: _ =>
    .ok (UInt32.ofNat (b0.toNat + 256 * b1.toNat + 65536 * b2.toNat + 16777216 * b3.toNat))
  | _ => .error .indexOutOfRange

/-- `binary.LittleEndian.Uint64(b)`: panics when fewer than eight bytes are left. -/
def uint64 : Bytes → Except Panic UInt64
  | b0 :: b1 :: b2 :: b3 :: b4 :: b5 :: b6 :: b7 :: _ =>
    .ok (UInt64.ofNat (b0.toNat + 256 * b1.toNat + 65536 * b2.toNat + 16777216 * b3.toNat
      + 4294967296 * b4.toNat + 1099511627776 * b5.toNat + 281474976710656 * b6.toNat
      + 72057594037927936 * b7.toNat))
  | _ => .error .indexOutOfRange

/-! ## Go maps

A Go map is an association list. `set` overwrites in place or appends, so a key occurs once. -/

/-- `map[K]V`. -/
abbrev AMap (K V : Type) := List (K × V)

namespace AMap
variable {K V : Type} [DecidableEq K]

/-- `v, ok := m[k]`. -/
def get? : AMap K V → K → Option V
  | [], _ => none
  | (k', v) :: m, k => if k' = k then some v else get? m k

/-- `m[k] = v`. -/
def set : AMap K V → K → V → AMap K V
  | [], k, v => [(k, v)]
  | (k', v') :: m, k, v => if k' = k then (k', v) :: m else (k', v') :: set m k v

/-- `delete(m, k)`. -/
def erase : AMap K V → K → AMap K V
  | [], _ => []
  | (k', v') :: m, k => if k' = k then erase m k else (k', v') :: erase m k

/-- the keys, in an arbitrary but fixed order. -/
def keys (m : AMap K V) : List K := m.map Prod.fst

/-- `_, ok := m[k]`. -/
def has (m : AMap K V) (k : K) : Bool := (m.get? k).isSome

end AMap

end Vectory
