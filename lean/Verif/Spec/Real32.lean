import Verif.Model.Basic
import Mathlib.Algebra.Order.Field.Rat
/-!
# The numbers that `float32` values stand for

IEEE 754 binary32: bit 31 is the sign, bits 30..23 the exponent `e`, bits 22..0 the fraction `f`. A finite value is `± f · 2^-149` if `e = 0`,
and `± (2^23 + f) · 2^(e-150)` otherwise. Independent of `Model/Ieee.lean`.
-/
namespace Vectory

/-- the largest relative error of one rounding to 24 significant bits. -/
def eps : ℚ := 1 / 2 ^ 24

/-- the number of a finite `float32`. -/
def val32 (x : F32) : ℚ :=
  (if x.toNat < 2 ^ 31 then 1 else -1) *
    (if x.toNat / 2 ^ 23 % 256 = 0 then ((x.toNat % 2 ^ 23 : ℕ) : ℚ) / 2 ^ 149
     else ((2 ^ 23 + x.toNat % 2 ^ 23 : ℕ) : ℚ) * 2 ^ (x.toNat / 2 ^ 23 % 256) / 2 ^ 150)

/-- the squared Euclidean distance of two vectors of numbers, exactly. -/
def sqDist (v w : Vec) : ℚ := (List.zipWith (fun a b => (val32 a - val32 b) ^ 2) v w).sum

/-- the inner product, exactly. -/
def innerProd (v w : Vec) : ℚ := (List.zipWith (fun a b => val32 a * val32 b) v w).sum

/-- the sum of the absolute values of the products. -/
def innerAbs (v w : Vec) : ℚ := (List.zipWith (fun a b => |val32 a * val32 b|) v w).sum

end Vectory
