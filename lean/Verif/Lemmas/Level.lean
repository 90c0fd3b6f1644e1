import Verif.Spec.Level
import Mathlib.Tactic.Linarith
import Mathlib.Tactic.Positivity
import Mathlib.Tactic.Ring
import Mathlib.Tactic.NormNum
import Mathlib.Tactic.FieldSimp
/-! Error analysis of the level drawn for a vector. -/
set_option exponentiation.threshold 1100
namespace Vectory.Level

/-- the relative error of one operation. -/
noncomputable def dlt : ℝ := 1 / 2 ^ 50

theorem dlt_pos : 0 < dlt := by unfold dlt; positivity
theorem dlt_small : dlt ≤ 1 / 1000000 := by unfold dlt; norm_num

/-- `y` is `x` up to `k` relative errors. -/
def Near (k : ℝ) (y x : ℝ) : Prop := 0 < x ∧ x * (1 - k * dlt) ≤ y ∧ y ≤ x * (1 + k * dlt)

theorem near_of_close {y x : ℝ} (hx : 0 < x) (h : Close y x) : Near 1 y x := by
  unfold Close at h
  rw [abs_of_pos hx, abs_le] at h
  have : x / 2 ^ 50 = x * dlt := by unfold dlt; ring
  rw [this] at h
  refine ⟨hx, by nlinarith, by nlinarith⟩

theorem Near.pos {k y x : ℝ} (h : Near k y x) (hk : k ≤ 100) : 0 < y := by
  have := dlt_small
  have hd := dlt_pos
  have : 0 < 1 - k * dlt := by nlinarith
  exact lt_of_lt_of_le (mul_pos h.1 this) h.2.1

theorem Near.half {k y x : ℝ} (h : Near k y x) (hk : k ≤ 100) : x / 2 ≤ y ∧ y ≤ 2 * x := by
  have := dlt_small
  have hd := dlt_pos
  have h1 : k * dlt ≤ 1 / 2 := by nlinarith
  refine ⟨le_trans ?_ h.2.1, le_trans h.2.2 ?_⟩
  · nlinarith [h.1]
  · nlinarith [h.1]

theorem Near.mul {i j y x y' x' : ℝ} (h : Near i y x) (h' : Near j y' x') (hi : 0 ≤ i) (hj : 0 ≤ j) (hi' : i ≤ 100) (hj' : j ≤ 100) :
    Near (i + j + 1) (y * y') (x * x') := by
  have hs := dlt_small
  have hd := dlt_pos
  have hxx := mul_pos h.1 h'.1
  refine ⟨hxx, ?_, ?_⟩
  · have h1 : 0 ≤ x * (1 - i * dlt) := by
      have : 0 ≤ 1 - i * dlt := by nlinarith
      exact mul_nonneg h.1.le this
    have h2 : 0 ≤ x' * (1 - j * dlt) := by
      have : 0 ≤ 1 - j * dlt := by nlinarith
      exact mul_nonneg h'.1.le this
    have h3 := mul_le_mul h.2.1 h'.2.1 h2 (h.pos hi').le
    refine le_trans ?_ h3
    have h4 : (1 - (i + j + 1) * dlt) ≤ (1 - i * dlt) * (1 - j * dlt) := by
      have : 0 ≤ i * dlt * (j * dlt) := by positivity
      nlinarith
    calc x * x' * (1 - (i + j + 1) * dlt) ≤ x * x' * ((1 - i * dlt) * (1 - j * dlt)) := mul_le_mul_of_nonneg_left h4 hxx.le
      _ = x * (1 - i * dlt) * (x' * (1 - j * dlt)) := by ring
  · have h1 : 0 ≤ x * (1 + i * dlt) := by have := h.1.le; positivity
    have h3 := mul_le_mul h.2.2 h'.2.2 (h'.pos hj').le h1
    refine le_trans h3 ?_
    have h4 : (1 + i * dlt) * (1 + j * dlt) ≤ (1 + (i + j + 1) * dlt) := by
      have : i * j ≤ 10000 := by nlinarith
      have : i * j * dlt ≤ 1 := by nlinarith
      nlinarith
    calc x * (1 + i * dlt) * (x' * (1 + j * dlt)) = x * x' * ((1 + i * dlt) * (1 + j * dlt)) := by ring
      _ ≤ x * x' * (1 + (i + j + 1) * dlt) := mul_le_mul_of_nonneg_left h4 hxx.le

theorem Near.trans {i j z y x : ℝ} (h : Near i y x) (h' : Near j z y) (hi : 0 ≤ i) (hj : 0 ≤ j) (hi' : i ≤ 100) (hj' : j ≤ 100) :
    Near (i + j + 1) z x := by
  have hy := h.pos hi'
  have h2 : Near j (z / y) 1 := by
    refine ⟨one_pos, ?_, ?_⟩
    · rw [le_div_iff₀ hy]; linarith [h'.2.1]
    · rw [div_le_iff₀ hy]; linarith [h'.2.2]
  have := h.mul h2 hi hj hi' hj'
  rwa [mul_div_cancel₀ _ hy.ne', mul_one] at this

theorem Near.inv {y x : ℝ} (h : Near 1 y x) : Near 2 (1 / y) (1 / x) := by
  have hs := dlt_small
  have hd := dlt_pos
  have hy := h.pos (by norm_num)
  have hx := h.1
  refine ⟨by positivity, ?_, ?_⟩
  · rw [div_mul_eq_mul_div, div_le_div_iff₀ hx hy]
    have : y * (1 - 2 * dlt) ≤ x * (1 + 1 * dlt) * (1 - 2 * dlt) := mul_le_mul_of_nonneg_right h.2.2 (by linarith)
    have : 0 ≤ x * (dlt + 2 * dlt * dlt) := by positivity
    nlinarith
  · rw [div_mul_eq_mul_div, div_le_div_iff₀ hy hx]
    have : x * (1 - 1 * dlt) * (1 + 2 * dlt) ≤ y * (1 + 2 * dlt) := mul_le_mul_of_nonneg_right h.2.1 (by linarith)
    have : 0 ≤ x * (dlt * (1 - 2 * dlt)) := mul_nonneg hx.le (mul_nonneg hd.le (by linarith))
    nlinarith

theorem log_two_ge : 1 / 2 ≤ Real.log 2 := by
  have := Real.one_sub_inv_le_log_of_pos (x := 2) (by norm_num)
  norm_num at this ⊢
  linarith

theorem log_two_le : Real.log 2 ≤ 1 := by
  have := Real.log_le_sub_one_of_pos (x := 2) (by norm_num)
  linarith

theorem log_m {m : Nat} (h2 : 2 ≤ m) (hm : m ≤ 2 ^ 53) : Real.log 2 ≤ Real.log m ∧ Real.log m ≤ 53 := by
  have h2' : (2 : ℝ) ≤ m := by exact_mod_cast h2
  refine ⟨Real.log_le_log (by norm_num) h2', ?_⟩
  have : (m : ℝ) ≤ 2 ^ 53 := by exact_mod_cast hm
  have := Real.log_le_log (by linarith) this
  rw [Real.log_pow] at this
  have := log_two_le
  push_cast at *
  linarith

theorem log_u {u : ℝ} (h : Draw u) : 1 / 2 ^ 53 ≤ - Real.log u ∧ - Real.log u ≤ 63 * Real.log 2 := by
  have hu : 0 < u := lt_of_lt_of_le (by positivity) h.1
  constructor
  · have := Real.log_le_sub_one_of_pos hu
    have := h.2
    linarith
  · have := Real.log_le_log (by positivity) h.1
    rw [one_div, Real.log_inv, Real.log_pow] at this
    push_cast at this
    linarith

/-- the exact value the level is the integer part of. -/
noncomputable def ideal (m : Nat) (u : ℝ) : ℝ := - Real.log u * (1 / Real.log m)

theorem ideal_bounds {m : Nat} (h2 : 2 ≤ m) (hm : m ≤ 2 ^ 53) {u : ℝ} (h : Draw u) :
    1 / 2 ^ 60 ≤ ideal m u ∧ ideal m u ≤ 63 := by
  obtain ⟨a1, a2⟩ := log_m h2 hm
  obtain ⟨b1, b2⟩ := log_u h
  have := log_two_ge
  have hA : 0 < Real.log m := by linarith
  unfold ideal
  rw [mul_one_div]
  constructor
  · rw [le_div_iff₀ hA]
    have : (1 : ℝ) / 2 ^ 60 * Real.log m ≤ 1 / 2 ^ 60 * 53 := mul_le_mul_of_nonneg_left a2 (by positivity)
    refine this.trans (le_trans ?_ b1)
    norm_num
  · rw [div_le_iff₀ hA]
    linarith

/-- the level is the integer part of a number close to the ideal one. -/
theorem draw_near {F : Float64Ops} (hF : Accurate F) {m : Nat} (h2 : 2 ≤ m) (hm : m ≤ 2 ^ 53) {u : ℝ} (h : Draw u) :
    ∃ p, drawLevel F m u = ⌊p⌋ ∧ Near 8 p (ideal m u) := by
  obtain ⟨a1, a2⟩ := log_m h2 hm
  obtain ⟨b1, b2⟩ := log_u h
  obtain ⟨t1, t2⟩ := ideal_bounds h2 hm h
  have l1 := log_two_ge
  have l2 := log_two_le
  have hA : 0 < Real.log m := by linarith
  have hu : 0 < u := lt_of_lt_of_le (by positivity) h.1
  have h2' : (2 : ℝ) ≤ m := by exact_mod_cast h2
  have hm' : (m : ℝ) ≤ 2 ^ 53 := by exact_mod_cast hm
  have hC : 0 < - Real.log u := lt_of_lt_of_le (by positivity) b1
  -- log m
  have na : Near 1 (F.log m) (Real.log m) := near_of_close hA (hF.log m (le_trans (by norm_num) h2') (hm'.trans (by norm_num)))
  have ha := na.pos (by norm_num)
  have hah := na.half (by norm_num)
  -- 1 / log m
  have ni := na.inv
  have nr : Normal (1 / F.log m) := by
    unfold Normal
    rw [abs_of_pos (by positivity)]
    constructor
    · rw [div_le_div_iff₀ (by positivity) ha]
      refine le_trans (b := 106) (by linarith) (by norm_num)
    · rw [div_le_iff₀ ha]
      refine le_trans (b := 2 ^ 1000 * (1 / 4)) (by norm_num) (mul_le_mul_of_nonneg_left (by linarith) (by positivity))
  have nb : Near 4 (F.div 1 (F.log m)) (1 / Real.log m) := by
    have := ni.trans (near_of_close (by positivity) (hF.div 1 _ nr)) (by norm_num) (by norm_num) (by norm_num) (by norm_num)
    norm_num at this ⊢; exact this
  -- log u
  have nc : Near 1 (- F.log u) (- Real.log u) := by
    refine near_of_close hC ?_
    have := hF.log u h.1 (by have := h.2; refine le_trans this ?_; norm_num)
    unfold Close at this ⊢
    rw [abs_neg]
    rwa [show -F.log u - -Real.log u = -(F.log u - Real.log u) by ring, abs_neg]
  -- the product
  have np := nc.mul nb (by norm_num) (by norm_num) (by norm_num) (by norm_num)
  have np6 : Near 6 (- F.log u * F.div 1 (F.log m)) (ideal m u) := by
    norm_num at np; unfold ideal; norm_num; exact np
  have hp := np6.pos (by norm_num)
  have hph := np6.half (by norm_num)
  have nn : Normal (- F.log u * F.div 1 (F.log m)) := by
    unfold Normal
    rw [abs_of_pos hp]
    exact ⟨le_trans (b := 1 / 2 ^ 60 / 2) (by norm_num) (by linarith), le_trans (b := 126) (by linarith) (by norm_num)⟩
  have n8 : Near 8 (F.mul (- F.log u) (F.div 1 (F.log m))) (ideal m u) := by
    have := np6.trans (near_of_close hp (hF.mul _ _ nn)) (by norm_num) (by norm_num) (by norm_num) (by norm_num)
    norm_num at this ⊢; exact this
  refine ⟨_, ?_, n8⟩
  have hq := n8.pos (by norm_num)
  have hqh := n8.half (by norm_num)
  unfold drawLevel mL goLog
  rw [if_neg hu.ne', if_neg (by linarith)]
  simp only [goRecip, goNeg]
  rw [if_neg ha.ne']
  simp only [goMul, goFloorInt]
  rw [if_pos]
  constructor
  · exact le_trans (by norm_num) (Int.floor_nonneg.mpr hq.le)
  · rw [Int.floor_lt]; push_cast; linarith

theorem exact_accurate : Accurate exactOps where
  log_one := Real.log_one
  log x _ _ := by simp only [exactOps, Close, sub_self, abs_zero]; positivity
  mul x y _ := by simp only [exactOps, Close, sub_self, abs_zero]; positivity
  div x y _ := by simp only [exactOps, Close, sub_self, abs_zero]; positivity
  wild := Or.inl rfl

end Vectory.Level
