import Verif.Model.Level
/-! How accurate the floating-point operations are assumed to be, and which numbers `rand.Float64` returns. -/
namespace Vectory.Level

/-- `y` is `x` up to a relative error of `2^-50`. -/
def Close (y x : ℝ) : Prop := |y - x| ≤ |x| / 2 ^ 50

/-- numbers far from overflow and underflow. -/
def Normal (x : ℝ) : Prop := 1 / 2 ^ 1000 ≤ |x| ∧ |x| ≤ 2 ^ 1000

/-- what is assumed of `float64` arithmetic: `math.Log(1)` is `0`, and logarithms, products and quotients are off by a
relative error of at most `2^-50` (four times that of IEEE rounding) where the result is far from overflow and underflow. -/
structure Accurate (F : Float64Ops) : Prop where
  log_one : F.log 1 = 0
  log : ∀ x, 1 / 2 ^ 63 ≤ x → x ≤ 2 ^ 63 → Close (F.log x) (Real.log x)
  mul : ∀ x y, Normal (x * y) → Close (F.mul x y) (x * y)
  div : ∀ x y, Normal (x / y) → Close (F.div x y) (x / y)
  wild : F.wild = -9223372036854775808 ∨ F.wild = 9223372036854775807

/-- a number other than 0 that `rand.Float64` can return (`float64(Int63()) / (1 << 63)`, drawn again when that is 1). -/
def Draw (u : ℝ) : Prop := 1 / 2 ^ 63 ≤ u ∧ u ≤ 1 - 1 / 2 ^ 53

/-- exact arithmetic. -/
noncomputable def exactOps : Float64Ops where
  log := Real.log
  mul x y := x * y
  div x y := x / y
  wild := -9223372036854775808

end Vectory.Level
