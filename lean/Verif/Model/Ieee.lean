import Verif.Model.Distance
/-!
# IEEE 754 binary32 arithmetic

`Model/Distance.lean` takes the `float32` operations as a parameter (`FloatOps`). This file gives the operations that the
Go specification prescribes for `float32` (IEEE 754 binary32, round to nearest, ties to even), defined on bit patterns by
exact integer arithmetic followed by one rounding. It is not vectory's code, and it is not trusted by the theorems that
hold for any `FloatOps`; the theorems that speak of NaN, infinities or overflow use it.

Simplifications: every NaN result is the quiet NaN `0x7FC00000` (hardware may set the sign bit or keep a payload; no
comparison can see the difference, a stored distance could). Each operation is rounded separately; the Go compiler may fuse
`x*y + z` on architectures other than amd64.
-/
namespace Vectory.Ieee

/-- the value of a bit pattern: NaN, an infinity, or `± n · 2^-149` (with a sign also when `n = 0`). -/
inductive Val where
  | nan
  | inf (neg : Bool)
  | fin (neg : Bool) (n : Nat)
  deriving DecidableEq, Repr

/-- bit 31 is the sign, bits 30..23 the biased exponent, bits 22..0 the fraction. -/
def decode (x : F32) : Val :=
  let neg := decide (2147483648 ≤ x.toNat)
  let e := x.toNat / 8388608 % 256
  let f := x.toNat % 8388608
  if e = 255 then (if f = 0 then .inf neg else .nan)
  else if e = 0 then .fin neg f
  else .fin neg ((8388608 + f) * 2 ^ (e - 1))

/-- the sign bit. -/
def signBit (neg : Bool) : Nat := if neg then 2147483648 else 0

/-- the bit pattern of a value. For finite values it is only used on representable ones (`Rep`). -/
def encode : Val → F32
  | .nan => 0x7FC00000
  | .inf neg => UInt32.ofNat (signBit neg + 2139095040)
  | .fin neg n =>
    let s := Nat.log2 n - 23
    UInt32.ofNat (signBit neg + s * 8388608 + n / 2 ^ s)

/-- the integer nearest to `n / 2^s`, the even one of two that are equally near. -/
def roundNE (n s : Nat) : Nat :=
  if 2 * (n % 2 ^ s) < 2 ^ s then n / 2 ^ s
  else if 2 ^ s < 2 * (n % 2 ^ s) then n / 2 ^ s + 1
  else n / 2 ^ s + n / 2 ^ s % 2

/-- `n / 2^t` rounded to an integer with at most `p` significant bits (an integer that is a multiple of a power of two). -/
def roundTo (p n t : Nat) : Nat :=
  let s := max t (Nat.log2 n + 1 - p)
  roundNE n s * 2 ^ (s - t)

/-- the finite value `± (n / 2^t) · 2^-149` rounded to binary32: 24 significant bits; `2^277` units and more is an infinity. -/
def round (neg : Bool) (n t : Nat) : Val :=
  let r := roundTo 24 n t
  if r < 2 ^ 277 then .fin neg r else .inf neg

/-- the signed number of units of a finite value. -/
def sgn (neg : Bool) (n : Nat) : Int := if neg then -n else n

def Val.neg : Val → Val
  | .nan => .nan
  | .inf s => .inf (!s)
  | .fin s n => .fin (!s) n

/-- addition. The sum of opposite numbers is `+0`; `-0 + -0` is `-0`. -/
def Val.add : Val → Val → Val
  | .nan, _ => .nan
  | _, .nan => .nan
  | .inf s, .inf t => if s = t then .inf s else .nan
  | .inf s, .fin _ _ => .inf s
  | .fin _ _, .inf t => .inf t
  | .fin s n, .fin t m =>
    let x := sgn s n + sgn t m
    if x = 0 then .fin (s && t) 0 else round (decide (x < 0)) x.natAbs 0

def Val.sub (a b : Val) : Val := a.add b.neg

/-- multiplication. -/
def Val.mul : Val → Val → Val
  | .nan, _ => .nan
  | _, .nan => .nan
  | .inf s, .inf t => .inf (s != t)
  | .inf s, .fin t n => if n = 0 then .nan else .inf (s != t)
  | .fin s n, .inf t => if n = 0 then .nan else .inf (s != t)
  | .fin s n, .fin t m => round (s != t) (n * m) 149

/-- the integer square root (`Nat.sqrt` is in Mathlib; this one is by bisection on bits). -/
def isqrt (n : Nat) : Nat :=
  (List.range (Nat.log2 n / 2 + 1)).foldr (fun i r => if (r + 2 ^ i) * (r + 2 ^ i) ≤ n then r + 2 ^ i else r) 0

/-- `float32(math.Sqrt(float64(x)))`: the root rounded to 53 bits and then to 24. `√(n · 2^-149) = √(2n) · 2^-75`; `y` is
`√(2n) · 2^61` cut to an integer, with its last bit set if anything was cut off. -/
def Val.sqrt : Val → Val
  | .nan => .nan
  | .inf s => if s then .nan else .inf false
  | .fin s n =>
    if n = 0 then .fin s 0
    else if s then .nan
    else
      let x := 2 * n * 2 ^ 120
      let r := isqrt x
      let y := 2 * r + (if r * r = x then 0 else 1)
      round false (roundTo 53 y 0 * 2 ^ 13) 0

/-- the order of the values that are not NaN: infinities beyond every finite value. -/
def Val.key : Val → Int
  | .nan => 0
  | .inf s => if s then -(2 ^ 300) else 2 ^ 300
  | .fin s n => sgn s n

/-- `a < b`: false if either is NaN. -/
def Val.lt (a b : Val) : Bool := a ≠ .nan && b ≠ .nan && decide (a.key < b.key)

end Vectory.Ieee

namespace Vectory

/-- the `float32` operations of Go. -/
def ieee : FloatOps where
  zero := 0
  add a b := Ieee.encode ((Ieee.decode a).add (Ieee.decode b))
  sub a b := Ieee.encode ((Ieee.decode a).sub (Ieee.decode b))
  mul a b := Ieee.encode ((Ieee.decode a).mul (Ieee.decode b))
  sqrt a := Ieee.encode (Ieee.decode a).sqrt
  lt a b := (Ieee.decode a).lt (Ieee.decode b)

end Vectory
