import Verif.Lemmas.Ieee
import Verif.Spec.Real32
import Mathlib.Tactic.Linarith
import Mathlib.Tactic.Positivity
import Mathlib.Tactic.GCongr
import Mathlib.Tactic.Ring
import Mathlib.Tactic.NormNum
import Mathlib.Tactic.FieldSimp
import Mathlib.Algebra.Order.Ring.Pow
/-! Rounding errors of binary32 arithmetic. All quantities are in units of `2^-149`. -/
set_option exponentiation.threshold 420
namespace Vectory.Ieee

theorem eps_pos : 0 < eps := by unfold eps; positivity
theorem eps_le : eps ≤ 1 / 16 := by unfold eps; norm_num

/-- rounding to an integer is off by at most one half. -/
theorem roundNE_err (n s : Nat) : |((roundNE n s * 2 ^ s : ℕ) : ℚ) - n| ≤ 2 ^ s / 2 := by
  have hd := Nat.div_add_mod n (2 ^ s)
  have hm := Nat.mod_lt n (Nat.two_pow_pos s)
  generalize hq : n / 2 ^ s = q at *
  generalize hr : n % 2 ^ s = r at *
  have hn : (n : ℚ) = 2 ^ s * q + r := by rw [← hd]; push_cast; ring
  have hp : (0 : ℚ) < 2 ^ s := by positivity
  have hr0 : (0 : ℚ) ≤ r := by positivity
  unfold roundNE
  rw [hq, hr, hn]
  rw [abs_le]
  split
  · rename_i h
    have h' : 2 * (r : ℚ) < 2 ^ s := by exact_mod_cast h
    push_cast
    constructor <;> linarith
  · rename_i h
    have h' : (2 : ℚ) ^ s ≤ 2 * r := by exact_mod_cast Nat.le_of_not_lt h
    have hm' : (r : ℚ) < 2 ^ s := by exact_mod_cast hm
    split
    · push_cast
      constructor <;> linarith
    · rename_i h2
      have h2' : 2 * (r : ℚ) ≤ 2 ^ s := by exact_mod_cast Nat.le_of_not_lt h2
      have h3 : q % 2 = 0 ∨ q % 2 = 1 := by omega
      rcases h3 with h3 | h3 <;> rw [h3] <;> push_cast <;> constructor <;> linarith

/-- rounding to `p` significant bits: relative error `2^-p`, plus half a unit if the last place is bounded below. -/
theorem roundTo_err (p n t : Nat) (hp : 0 < p) :
    |(roundTo p n t : ℚ) - n / 2 ^ t| ≤ (1 / 2 ^ p) * (n / 2 ^ t) + (if t = 0 then 0 else 1 / 2) := by
  unfold roundTo
  dsimp only
  have hst : t ≤ max t (Nat.log2 n + 1 - p) := Nat.le_max_left _ _
  have hs : max t (Nat.log2 n + 1 - p) = t ∨ (max t (Nat.log2 n + 1 - p) = Nat.log2 n + 1 - p ∧ t < Nat.log2 n + 1 - p) := by omega
  generalize max t (Nat.log2 n + 1 - p) = s at *
  have herr := roundNE_err n s
  have h2t : (0 : ℚ) < 2 ^ t := by positivity
  have e1 : ((roundNE n s * 2 ^ (s - t) : ℕ) : ℚ) = ((roundNE n s * 2 ^ s : ℕ) : ℚ) / 2 ^ t := by
    rw [eq_div_iff (ne_of_gt h2t)]
    have : (2 : ℚ) ^ s = 2 ^ (s - t) * 2 ^ t := by rw [← pow_add]; congr 1; omega
    push_cast
    rw [this]; ring
  rw [e1, ← sub_div, abs_div, abs_of_pos h2t]
  have hbound : (2 : ℚ) ^ s / 2 / 2 ^ t ≤ (1 / 2 ^ p) * (n / 2 ^ t) + (if t = 0 then 0 else 1 / 2) ∨ (s = t ∧ t = 0) := by
    rcases hs with hs | ⟨hs, hlt⟩
    · by_cases ht : t = 0
      · exact Or.inr ⟨hs, ht⟩
      · left
        rw [if_neg ht, hs]
        have : (2 : ℚ) ^ t / 2 / 2 ^ t = 1 / 2 := by field_simp
        rw [this]
        have : (0 : ℚ) ≤ 1 / 2 ^ p * (n / 2 ^ t) := by positivity
        linarith
    · left
      have hn0 : n ≠ 0 := by
        intro h0; subst h0; rw [Nat.log2_zero] at hlt; omega
      have hl : 2 ^ Nat.log2 n ≤ n := pow_log2_le hn0
      have hl' : (2 : ℚ) ^ Nat.log2 n ≤ n := by exact_mod_cast hl
      have hs' : (2 : ℚ) ^ s * 2 ^ p = 2 * 2 ^ Nat.log2 n := by
        rw [← pow_add, ← pow_succ']; congr 1; omega
      have hpp : (0 : ℚ) < 2 ^ p := by positivity
      have h1 : (2 : ℚ) ^ s / 2 ≤ 1 / 2 ^ p * n := by
        rw [one_div, inv_mul_eq_div, le_div_iff₀ hpp]
        linarith
      have h2 : (2 : ℚ) ^ s / 2 / 2 ^ t ≤ 1 / 2 ^ p * (n / 2 ^ t) := by
        rw [← mul_div_assoc]
        gcongr
      have h3 : (0 : ℚ) ≤ (if t = 0 then 0 else 1 / 2) := by split <;> norm_num
      linarith
  rcases hbound with hb | ⟨h1, h2⟩
  · refine le_trans ?_ hb
    gcongr
  · -- nothing is rounded off
    subst h1
    have e0 : roundNE n s = n := by
      unfold roundNE
      rw [h2]
      simp [Nat.mod_one]
    rw [e0, h2]
    simp

/-- the signed number of units. -/
def num : Val → ℚ
  | .fin s n => (sgn s n : ℤ)
  | _ => 0

theorem num_fin (s : Bool) (n : Nat) : num (.fin s n) = if s then -(n : ℚ) else n := by
  cases s <;> simp [num, sgn]

theorem num_abs (s : Bool) (n : Nat) : |num (.fin s n)| = n := by
  cases s <;> simp [num, sgn]

/-- the value of a finite `float32`. -/
theorem val32_num {x : F32} (h : Finite32 x) : val32 x = num (decode x) / 2 ^ 149 := by
  unfold val32 decode
  dsimp only
  unfold Finite32 at h
  rw [if_neg h]
  have e1 : (2 : Nat) ^ 23 = 8388608 := rfl
  have e2 : (2 : Nat) ^ 31 = 2147483648 := rfl
  rw [e1, e2]
  have hs : (if x.toNat < 2147483648 then (1 : ℚ) else -1) = if decide (2147483648 ≤ x.toNat) = true then -1 else 1 := by
    by_cases h : x.toNat < 2147483648
    · rw [if_pos h, if_neg (by simp; omega)]
    · rw [if_neg h, if_pos (by simp; omega)]
  rw [hs]
  generalize decide (2147483648 ≤ x.toNat) = b
  generalize x.toNat % 8388608 = f
  generalize x.toNat / 8388608 % 256 = e
  by_cases he : e = 0
  · rw [if_pos he, if_pos he, num_fin]
    cases b
    · simp
    · simp; ring
  · rw [if_neg he, if_neg he, num_fin]
    obtain ⟨k, rfl⟩ := Nat.exists_eq_succ_of_ne_zero he
    have : (2 : ℚ) ^ k.succ / 2 ^ 150 = 2 ^ k / 2 ^ 149 := by
      rw [pow_succ, show (2 : ℚ) ^ 150 = 2 ^ 149 * 2 by rw [← pow_succ]]
      rw [mul_div_mul_right _ _ (by norm_num)]
    rw [mul_div_assoc, this]
    cases b <;> simp <;> ring

/-- rounding: the relative error is at most `eps`; below the normal range half a unit may be added. Infinity only at `2^277` units. -/
theorem round_err (neg : Bool) (n t : Nat) :
    (∃ r : Nat, round neg n t = .fin neg r ∧ |(r : ℚ) - n / 2 ^ t| ≤ eps * (n / 2 ^ t) + (if t = 0 then 0 else 1 / 2)) ∨
    (round neg n t = .inf neg ∧ (2 : ℚ) ^ 277 ≤ (1 + eps) * (n / 2 ^ t) + (if t = 0 then 0 else 1 / 2)) := by
  have h := roundTo_err 24 n t (by decide)
  unfold round
  dsimp only
  generalize roundTo 24 n t = r at *
  split
  · exact Or.inl ⟨r, rfl, h⟩
  · rename_i hr
    right
    refine ⟨rfl, ?_⟩
    have hr' : (2 : ℚ) ^ 277 ≤ r := by exact_mod_cast Nat.le_of_not_lt hr
    have := (abs_le.mp h).2
    unfold eps
    linarith

/-- the error of an addition. -/
theorem add_err {a b : Val} (ha : IsFin a) (hb : IsFin b) :
    (IsFin (a.add b) ∧ |num (a.add b) - (num a + num b)| ≤ eps * |num a + num b|) ∨
    (∃ s, a.add b = .inf s ∧ (2 : ℚ) ^ 277 ≤ (1 + eps) * |num a + num b|) := by
  cases a with
  | nan => exact ha.elim
  | inf s => exact ha.elim
  | fin s n =>
  cases b with
  | nan => exact hb.elim
  | inf s => exact hb.elim
  | fin t m =>
  have e : num (.fin s n) + num (.fin t m) = ((sgn s n + sgn t m : ℤ) : ℚ) := by simp [num]
  rw [e]
  simp only [Val.add]
  generalize sgn s n + sgn t m = x
  by_cases h0 : x = 0
  · left
    rw [if_pos h0, h0]
    refine ⟨trivial, ?_⟩
    rw [num_fin]
    simp
  · rw [if_neg h0]
    have hx : (x : ℚ) = if decide (x < 0) = true then -(x.natAbs : ℚ) else x.natAbs := by
      have : ((x.natAbs : ℤ) : ℚ) = (x.natAbs : ℚ) := Int.cast_natCast _
      by_cases h : x < 0
      · rw [if_pos (by simpa using h), ← this, show (x.natAbs : ℤ) = -x by omega]; push_cast; ring
      · rw [if_neg (by simpa using h), ← this, show (x.natAbs : ℤ) = x by omega]
    have habs : |(x : ℚ)| = x.natAbs := by rw [hx]; split <;> simp
    rw [habs]
    rcases round_err (decide (x < 0)) x.natAbs 0 with ⟨r, h1, h2⟩ | ⟨h1, h2⟩
    · left
      rw [h1]
      refine ⟨trivial, ?_⟩
      simp only [pow_zero, div_one, if_true, add_zero] at h2
      rw [num_fin, hx]
      refine le_trans (le_of_eq ?_) h2
      by_cases hd : decide (x < 0) = true
      · rw [if_pos hd, if_pos hd, show -(r : ℚ) - -(x.natAbs : ℚ) = -(r - x.natAbs) by ring, abs_neg]
      · rw [if_neg hd, if_neg hd]
    · right
      refine ⟨_, h1, ?_⟩
      simpa using h2

theorem num_neg (b : Val) : num b.neg = - num b := by
  cases b with
  | nan => simp [Val.neg, num]
  | inf s => simp [Val.neg, num]
  | fin s n => cases s <;> simp [Val.neg, num, sgn]

theorem isFin_neg {b : Val} (h : IsFin b) : IsFin b.neg := by cases b <;> trivial

/-- the error of a subtraction. -/
theorem sub_err {a b : Val} (ha : IsFin a) (hb : IsFin b) :
    (IsFin (a.sub b) ∧ |num (a.sub b) - (num a - num b)| ≤ eps * |num a - num b|) ∨
    (∃ s, a.sub b = .inf s ∧ (2 : ℚ) ^ 277 ≤ (1 + eps) * |num a - num b|) := by
  have := add_err ha (isFin_neg hb)
  rw [num_neg, ← sub_eq_add_neg] at this
  exact this

/-- the error of a multiplication. -/
theorem mul_err {a b : Val} (ha : IsFin a) (hb : IsFin b) :
    (IsFin (a.mul b) ∧ |num (a.mul b) - num a * num b / 2 ^ 149| ≤ eps * |num a * num b / 2 ^ 149| + 1 / 2) ∨
    (∃ s, a.mul b = .inf s ∧ (2 : ℚ) ^ 277 ≤ (1 + eps) * |num a * num b / 2 ^ 149| + 1 / 2) := by
  cases a with
  | nan => exact ha.elim
  | inf s => exact ha.elim
  | fin s n =>
  cases b with
  | nan => exact hb.elim
  | inf s => exact hb.elim
  | fin t m =>
  rw [mul_fin]
  have e : num (.fin s n) * num (.fin t m) / 2 ^ 149 = if (s != t) = true then -((n * m : ℕ) / 2 ^ 149 : ℚ) else (n * m : ℕ) / 2 ^ 149 := by
    rw [num_fin, num_fin]
    generalize (2 : ℚ) ^ 149 = k
    cases s <;> cases t <;> simp <;> ring
  have habs : |num (.fin s n) * num (.fin t m) / 2 ^ 149| = ((n * m : ℕ) / 2 ^ 149 : ℚ) := by
    rw [e]
    have : (0 : ℚ) ≤ (n * m : ℕ) / 2 ^ 149 := by positivity
    split
    · rw [abs_neg, abs_of_nonneg this]
    · exact abs_of_nonneg this
  rw [habs, e]
  rcases round_err (s != t) (n * m) 149 with ⟨r, h1, h2⟩ | ⟨h1, h2⟩
  · left
    rw [h1]
    refine ⟨trivial, ?_⟩
    rw [if_neg (by decide)] at h2
    rw [num_fin]
    refine le_trans (le_of_eq ?_) h2
    by_cases hd : (s != t) = true
    · rw [if_pos hd, if_pos hd]
      generalize ((n * m : ℕ) / 2 ^ 149 : ℚ) = y
      rw [show -(r : ℚ) - -y = -(r - y) by ring, abs_neg]
    · rw [if_neg hd, if_neg hd]
  · right
    rw [if_neg (by decide)] at h2
    exact ⟨_, h1, h2⟩

/-! ## Square roots -/

theorem isqrt_step (n : Nat) (f : Nat → Nat → Nat) (hf : ∀ i r, f i r = if (r + 2 ^ i) * (r + 2 ^ i) ≤ n then r + 2 ^ i else r) :
    ∀ (k r0 : Nat), r0 * r0 ≤ n → n < (r0 + 2 ^ k) * (r0 + 2 ^ k) →
    (List.range k).foldr f r0 * (List.range k).foldr f r0 ≤ n ∧ n < ((List.range k).foldr f r0 + 1) * ((List.range k).foldr f r0 + 1) := by
  intro k
  induction k with
  | zero => intro r0 h1 h2; simpa using ⟨h1, h2⟩
  | succ k ih =>
    intro r0 h1 h2
    rw [List.range_succ, List.foldr_append]
    simp only [List.foldr_cons, List.foldr_nil]
    have e : r0 + 2 ^ (k + 1) = r0 + 2 ^ k + 2 ^ k := by rw [Nat.pow_succ]; omega
    rw [e] at h2
    rw [hf]
    by_cases h : (r0 + 2 ^ k) * (r0 + 2 ^ k) ≤ n
    · rw [if_pos h]; exact ih _ h h2
    · rw [if_neg h]; exact ih _ h1 (Nat.lt_of_not_le h)

/-- the integer square root. -/
theorem isqrt_spec (n : Nat) : isqrt n * isqrt n ≤ n ∧ n < (isqrt n + 1) * (isqrt n + 1) := by
  unfold isqrt
  refine isqrt_step n _ (fun i r => rfl) _ 0 (Nat.zero_le _) ?_
  rw [Nat.zero_add, ← Nat.pow_add]
  exact Nat.lt_of_lt_of_le (lt_pow_log2 n) (Nat.pow_le_pow_right (by decide) (by omega))

theorem cast_lt {n k : Nat} (h : n < 2 ^ k) : (n : ℚ) < 2 ^ k := by exact_mod_cast h

theorem sq_bounds {x y u : ℚ} (hu : u ≤ 1) (hy : 0 ≤ y) (h : |x - y| ≤ u * y) :
    (1 - u) ^ 2 * y ^ 2 ≤ x ^ 2 ∧ x ^ 2 ≤ (1 + u) ^ 2 * y ^ 2 := by
  obtain ⟨h1, h2⟩ := abs_le.mp h
  have hx : 0 ≤ x := by nlinarith
  have l : (1 - u) * y ≤ x := by linarith
  have r : x ≤ (1 + u) * y := by linarith
  have l0 : 0 ≤ (1 - u) * y := mul_nonneg (by linarith) hy
  rw [← mul_pow, ← mul_pow]
  exact ⟨pow_le_pow_left₀ l0 l 2, pow_le_pow_left₀ hx r 2⟩

theorem sqrt_form {n : Nat} (h0 : n ≠ 0) : ∃ x k, x = 2 * n * 2 ^ 120 ∧ k * k ≤ x ∧ x < (k + 1) * (k + 1) ∧
    (Val.fin false n).sqrt = round false (roundTo 53 (2 * k + if k * k = x then 0 else 1) 0 * 2 ^ 13) 0 := by
  refine ⟨_, isqrt (2 * n * 2 ^ 120), rfl, (isqrt_spec _).1, (isqrt_spec _).2, ?_⟩
  simp only [Val.sqrt, if_neg h0, Bool.false_eq_true, if_false]

/-- the error of the square root, on the squares. -/
theorem sqrt_err {n : Nat} (h0 : n ≠ 0) (hn : n < 2 ^ 277) :
    ∃ r : Nat, (Val.fin false n).sqrt = .fin false r ∧ (1 - eps) ^ 3 * (n * 2 ^ 149) ≤ (r : ℚ) ^ 2 ∧ (r : ℚ) ^ 2 ≤ (1 + eps) ^ 3 * (n * 2 ^ 149) := by
  obtain ⟨x, k, hx, i1, i2, hform⟩ := sqrt_form h0
  rw [hform]
  have hxn : (n : ℚ) * 2 ^ 149 = (4 * x) * 2 ^ 26 := by rw [hx]; push_cast; ring
  have hx1 : 2 ^ 121 ≤ x := by rw [hx]; omega
  have hk : 2 ^ 60 ≤ k := by
    by_contra hc
    have : (k + 1) * (k + 1) ≤ 2 ^ 60 * 2 ^ 60 := Nat.mul_le_mul (by omega) (by omega)
    omega
  -- the truncated root
  have hy : ∀ y : Nat, y = 2 * k + (if k * k = x then 0 else 1) →
      (1 - 1 / 2 ^ 58) * (4 * (x : ℚ)) ≤ (y : ℚ) ^ 2 ∧ (y : ℚ) ^ 2 ≤ (1 + 1 / 2 ^ 58) * (4 * x) := by
    intro y e
    have hkq : (2 : ℚ) ^ 60 ≤ k := by exact_mod_cast hk
    have i1q : (k : ℚ) * k ≤ x := by exact_mod_cast i1
    have hbig : (4 * (k : ℚ) + 4) ≤ 1 / 2 ^ 58 * (4 * x) := by
      have : (4 * (k : ℚ) + 4) ≤ 1 / 2 ^ 58 * (4 * (k * k)) := by
        rw [one_div, inv_mul_eq_div, le_div_iff₀ (by positivity)]
        nlinarith
      refine le_trans this ?_
      gcongr
    by_cases he : k * k = x
    · rw [if_pos he] at e
      have : (y : ℚ) ^ 2 = 4 * x := by rw [e, ← he]; push_cast; ring
      rw [this]
      have : (0 : ℚ) ≤ x := by positivity
      constructor <;> nlinarith
    · rw [if_neg he] at e
      have i2q : (x : ℚ) < (k + 1) * (k + 1) := by exact_mod_cast i2
      have : (y : ℚ) ^ 2 = 4 * (k * k) + 4 * k + 1 := by rw [e]; push_cast; ring
      rw [this]
      constructor <;> linarith
  generalize hye : 2 * k + (if k * k = x then 0 else 1) = y at *
  obtain ⟨y1, y2⟩ := hy y rfl
  -- rounded to 53 bits
  have e53 := roundTo_err 53 y 0 (by decide)
  simp only [pow_zero, div_one, if_true, add_zero] at e53
  generalize roundTo 53 y 0 = z at *
  obtain ⟨z1, z2⟩ := sq_bounds (by norm_num) (by positivity) e53
  -- and to 24
  have hx0 : (0 : ℚ) < 4 * x := by
    have : 0 < x := Nat.lt_of_lt_of_le (Nat.two_pow_pos _) hx1
    positivity
  have fin : ∀ w : ℚ, (1 - eps) ^ 2 * ((z * 2 ^ 13 : ℕ) : ℚ) ^ 2 ≤ w → (1 - eps) ^ 3 * (n * 2 ^ 149) ≤ w := by
    intro w hw
    refine le_trans ?_ hw
    rw [hxn, show (1 - eps) ^ 3 * (4 * (x : ℚ) * 2 ^ 26) = (1 - eps) ^ 2 * (((1 - eps) * (4 * x)) * 2 ^ 26) by ring]
    have e : ((z * 2 ^ 13 : ℕ) : ℚ) ^ 2 = (z : ℚ) ^ 2 * 2 ^ 26 := by push_cast; ring
    rw [e]
    have : (1 - eps) * (4 * (x : ℚ)) ≤ (z : ℚ) ^ 2 := by
      refine le_trans ?_ z1
      refine le_trans ?_ (mul_le_mul_of_nonneg_left y1 (by positivity))
      rw [← mul_assoc ((1 - 1 / 2 ^ 53 : ℚ) ^ 2)]
      refine mul_le_mul_of_nonneg_right ?_ hx0.le
      unfold eps
      norm_num
    gcongr
    
  have fin2 : ∀ w : ℚ, w ≤ (1 + eps) ^ 2 * ((z * 2 ^ 13 : ℕ) : ℚ) ^ 2 → w ≤ (1 + eps) ^ 3 * (n * 2 ^ 149) := by
    intro w hw
    refine le_trans hw ?_
    rw [hxn, show (1 + eps) ^ 3 * (4 * (x : ℚ) * 2 ^ 26) = (1 + eps) ^ 2 * (((1 + eps) * (4 * x)) * 2 ^ 26) by ring]
    have e : ((z * 2 ^ 13 : ℕ) : ℚ) ^ 2 = (z : ℚ) ^ 2 * 2 ^ 26 := by push_cast; ring
    rw [e]
    have : (z : ℚ) ^ 2 ≤ (1 + eps) * (4 * (x : ℚ)) := by
      refine le_trans z2 ?_
      refine le_trans (mul_le_mul_of_nonneg_left y2 (by positivity)) ?_
      rw [← mul_assoc]
      refine mul_le_mul_of_nonneg_right ?_ hx0.le
      unfold eps
      norm_num
    gcongr
  have herr : ∀ r : Nat, |(r : ℚ) - ((z * 2 ^ 13 : ℕ) : ℚ)| ≤ eps * ((z * 2 ^ 13 : ℕ) : ℚ) →
      (1 - eps) ^ 3 * (n * 2 ^ 149) ≤ (r : ℚ) ^ 2 ∧ (r : ℚ) ^ 2 ≤ (1 + eps) ^ 3 * (n * 2 ^ 149) := by
    intro r hr
    obtain ⟨r1, r2⟩ := sq_bounds (u := eps) (le_trans eps_le (by norm_num)) (Nat.cast_nonneg _) hr
    exact ⟨fin _ r1, fin2 _ r2⟩
  rcases round_err false (z * 2 ^ 13) 0 with ⟨r, h1, h2⟩ | ⟨h1, h2⟩
  · simp only [pow_zero, div_one, if_true, add_zero] at h2
    exact ⟨r, h1, herr r h2⟩
  · exfalso
    simp only [pow_zero, div_one, if_true, add_zero] at h2
    have h3 : ((1 + eps) * ((z * 2 ^ 13 : ℕ) : ℚ)) ^ 2 ≤ (1 + eps) ^ 3 * (n * 2 ^ 149) := by
      apply fin2; rw [mul_pow]
    have h4 : ((2 : ℚ) ^ 277) ^ 2 ≤ (1 + eps) ^ 3 * (n * 2 ^ 149) :=
      le_trans (pow_le_pow_left₀ (by positivity) h2 2) h3
    have h5 : (n : ℚ) < 2 ^ 277 := cast_lt hn
    have h6 : (1 + eps) ^ 3 ≤ 2 := by unfold eps; norm_num
    have h7 : (1 + eps) ^ 3 * ((n : ℚ) * 2 ^ 149) ≤ 2 * (2 ^ 277 * 2 ^ 149) := by gcongr
    have h8 := le_trans h4 h7
    norm_num at h8

/-! ## Sums of squares -/

theorem eps_nonneg : 0 ≤ eps := eps_pos.le
theorem one_sub_eps : 0 ≤ 1 - eps := by have := eps_le; linarith
theorem one_add_eps : 1 ≤ 1 + eps := by have := eps_pos; linarith

theorem num_nonneg {a : Val} (ha : IsFin a) (hp : Pos a) : 0 ≤ num a := by
  cases a with
  | nan => exact ha.elim
  | inf s => exact ha.elim
  | fin s n => cases hp; rw [num_fin]; simp

/-- one squared difference. -/
theorem sq_term {a b : F32} (ha : Finite32 a) (hb : Finite32 b) {x : ℚ} (hx : x = (num (decode a) - num (decode b)) ^ 2 / 2 ^ 149) :
    let p := decode (sqDiff ieee a b)
    (IsFin p ∧ Pos p ∧ (1 - eps) ^ 3 * x - 1 / 2 ≤ num p ∧ num p ≤ (1 + eps) ^ 3 * x + 1 / 2) ∨
    (p = .inf false ∧ (2 : ℚ) ^ 277 ≤ (1 + eps) ^ 3 * x + 1 / 2) := by
  intro p
  have hp : Pos p := sqDiff_pos ha hb
  have ep : p = ((decode a).sub (decode b)).mul ((decode a).sub (decode b)) := by
    show decode (sqDiff ieee a b) = _
    unfold sqDiff
    rw [ieee_mul, ieee_sub]
  have hnn := sub_fin (finite_decode ha) (finite_decode hb)
  have hE := sub_err (finite_decode ha) (finite_decode hb)
  generalize hd : (decode a).sub (decode b) = d at *
  generalize num (decode a) - num (decode b) = y at *
  have hk : (0 : ℚ) < 2 ^ 149 := by positivity
  have h1 := one_add_eps
  have h1' := one_sub_eps
  have hx0 : 0 ≤ x := by rw [hx]; positivity
  rcases hE with ⟨hf, herr⟩ | ⟨s, hs, hbig⟩
  · -- the difference is finite
    have hsq : (1 - eps) ^ 2 * y ^ 2 ≤ num d ^ 2 ∧ num d ^ 2 ≤ (1 + eps) ^ 2 * y ^ 2 := by
      have h : abs (abs (num d) - abs y) ≤ eps * |y| := le_trans (abs_abs_sub_abs_le_abs_sub _ _) herr
      have := sq_bounds (le_trans eps_le (by norm_num)) (abs_nonneg y) h
      rwa [sq_abs, sq_abs] at this
    have hq1 : (1 - eps) ^ 2 * x ≤ num d * num d / 2 ^ 149 := by
      rw [hx, ← mul_div_assoc, ← sq]
      gcongr
      exact hsq.1
    have hq2 : num d * num d / 2 ^ 149 ≤ (1 + eps) ^ 2 * x := by
      rw [hx, ← mul_div_assoc, ← sq]
      gcongr
      exact hsq.2
    have hq0 : 0 ≤ num d * num d / 2 ^ 149 := div_nonneg (mul_self_nonneg _) hk.le
    have hm := mul_err hf hf
    rw [abs_of_nonneg hq0, ← ep] at hm
    generalize num d * num d / 2 ^ 149 = z at *
    have g1 : (1 - eps) ^ 3 * x ≤ (1 - eps) * z := by
      have := mul_le_mul_of_nonneg_left hq1 h1'
      calc (1 - eps) ^ 3 * x = (1 - eps) * ((1 - eps) ^ 2 * x) := by ring
        _ ≤ _ := this
    have g2 : (1 + eps) * z ≤ (1 + eps) ^ 3 * x := by
      have := mul_le_mul_of_nonneg_left hq2 (by linarith : 0 ≤ 1 + eps)
      calc (1 + eps) * z ≤ (1 + eps) * ((1 + eps) ^ 2 * x) := this
        _ = _ := by ring
    rcases hm with ⟨m1, m2⟩ | ⟨s, m1, m2⟩
    · left
      obtain ⟨m3, m4⟩ := abs_le.mp m2
      exact ⟨m1, hp, by linarith, by linarith⟩
    · right
      rw [m1] at hp
      cases hp
      exact ⟨m1, by linarith⟩
  · -- the difference overflows
    right
    have e2 : p = .inf false := by rw [ep, hs]; cases s <;> rfl
    refine ⟨e2, ?_⟩
    have h2 : ((2 : ℚ) ^ 277) ^ 2 ≤ (1 + eps) ^ 2 * y ^ 2 := by
      have := pow_le_pow_left₀ (by positivity) hbig 2
      rwa [mul_pow, sq_abs] at this
    have h3 : (2 : ℚ) ^ 277 ≤ (1 + eps) ^ 2 * x := by
      rw [hx, ← mul_div_assoc, le_div_iff₀ hk]
      refine le_trans ?_ h2
      norm_num
    have h4 : (1 + eps) ^ 2 * x ≤ (1 + eps) ^ 3 * x := by
      have := pow_le_pow_right₀ h1 (show 2 ≤ 3 by decide)
      exact mul_le_mul_of_nonneg_right this hx0
    linarith

/-- the running sum after `k` terms, against the exact sum `T`. -/
def SumOK (k : Nat) (T : ℚ) (A : Val) : Prop :=
  (IsFin A ∧ Pos A ∧ (1 - eps) ^ (k + 3) * T - k / 2 ≤ num A ∧ num A ≤ (1 + eps) ^ (k + 3) * (T + k / 2)) ∨
  (A = .inf false ∧ (2 : ℚ) ^ 277 ≤ (1 + eps) ^ (k + 3) * (T + k / 2))

theorem sum_step {k : Nat} {T x : ℚ} {A p : Val} (hT : 0 ≤ T) (hx : 0 ≤ x) (hA : SumOK k T A)
    (hp : (IsFin p ∧ Pos p ∧ (1 - eps) ^ 3 * x - 1 / 2 ≤ num p ∧ num p ≤ (1 + eps) ^ 3 * x + 1 / 2) ∨
      (p = .inf false ∧ (2 : ℚ) ^ 277 ≤ (1 + eps) ^ 3 * x + 1 / 2)) : SumOK (k + 1) (T + x) (A.add p) := by
  have h1 := one_add_eps
  have h1' := one_sub_eps
  have hk : (0 : ℚ) ≤ k / 2 := by positivity
  have hk1 : (((k + 1 : ℕ) : ℚ)) / 2 = k / 2 + 1 / 2 := by push_cast; ring
  have e4 : k + 1 + 3 = (k + 3) + 1 := by omega
  have pk3 : (1 + eps) ^ 3 ≤ (1 + eps) ^ (k + 3) := pow_le_pow_right₀ h1 (by omega)
  have pk4 : (1 + eps) ^ (k + 3) ≤ (1 + eps) ^ (k + 3 + 1) := pow_le_pow_right₀ h1 (by omega)
  have pk1 : 1 ≤ (1 + eps) ^ (k + 3) := one_le_pow₀ h1
  have upA : (1 + eps) ^ (k + 3) * (T + k / 2) ≤ (1 + eps) ^ (k + 1 + 3) * (T + x + ((k + 1 : ℕ) : ℚ) / 2) := by
    rw [e4, hk1]
    have : T + k / 2 ≤ T + x + (k / 2 + 1 / 2) := by linarith
    exact mul_le_mul pk4 this (by linarith) (by positivity)
  have hterm : (1 + eps) ^ 3 * x + 1 / 2 ≤ (1 + eps) ^ (k + 3) * (x + 1 / 2) := by
    have := mul_le_mul_of_nonneg_right pk3 hx
    linarith
  have upP : (1 + eps) ^ 3 * x + 1 / 2 ≤ (1 + eps) ^ (k + 1 + 3) * (T + x + ((k + 1 : ℕ) : ℚ) / 2) := by
    rw [e4, hk1]
    refine le_trans hterm ?_
    have : x + 1 / 2 ≤ T + x + (k / 2 + 1 / 2) := by linarith
    exact mul_le_mul pk4 this (by linarith) (by positivity)
  rcases hA with ⟨hAf, hAp, hAl, hAu⟩ | ⟨hAi, hAb⟩
  · rcases hp with ⟨hpf, hpp, hpl, hpu⟩ | ⟨hpi, hpb⟩
    · have hnA := num_nonneg hAf hAp
      have hnp := num_nonneg hpf hpp
      have herr := add_err hAf hpf
      have hpos := add_pos hAp hpp
      rw [abs_of_nonneg (by linarith : 0 ≤ num A + num p)] at herr
      have up : (1 + eps) * (num A + num p) ≤ (1 + eps) ^ (k + 1 + 3) * (T + x + ((k + 1 : ℕ) : ℚ) / 2) := by
        rw [e4, hk1, pow_succ, mul_comm _ (1 + eps), mul_assoc]
        refine mul_le_mul_of_nonneg_left ?_ (by linarith)
        have : (1 + eps) ^ (k + 3) * (T + x + (k / 2 + 1 / 2)) = (1 + eps) ^ (k + 3) * (T + k / 2) + (1 + eps) ^ (k + 3) * (x + 1 / 2) := by ring
        rw [this]
        linarith
      rcases herr with ⟨f, e⟩ | ⟨s, i, b⟩
      · left
        obtain ⟨l, u⟩ := abs_le.mp e
        refine ⟨f, hpos, ?_, by linarith⟩
        have low : (1 - eps) ^ (k + 1 + 3) * (T + x) - ((k + 1 : ℕ) : ℚ) / 2 ≤ (1 - eps) * (num A + num p) := by
          rw [e4, hk1, pow_succ, mul_comm _ (1 - eps)]
          have q3 : (1 - eps) ^ (k + 3) ≤ (1 - eps) ^ 3 := pow_le_pow_of_le_one h1' (by linarith [eps_pos]) (by omega)
          have q4 := mul_le_mul_of_nonneg_right q3 hx
          have q5 : (1 - eps) ^ (k + 3) * (T + x) - (k / 2 + 1 / 2) ≤ num A + num p := by
            rw [mul_add]; linarith
          have q6 := mul_le_mul_of_nonneg_left q5 h1'
          have q7 : (1 - eps) * (k / 2 + 1 / 2) ≤ (k : ℚ) / 2 + 1 / 2 := by
            have := eps_pos
            nlinarith
          calc (1 - eps) * (1 - eps) ^ (k + 3) * (T + x) - (k / 2 + 1 / 2)
              ≤ (1 - eps) * (1 - eps) ^ (k + 3) * (T + x) - (1 - eps) * (k / 2 + 1 / 2) := by linarith
            _ = (1 - eps) * ((1 - eps) ^ (k + 3) * (T + x) - (k / 2 + 1 / 2)) := by ring
            _ ≤ _ := q6
        linarith
      · right
        rw [i] at hpos
        cases hpos
        exact ⟨i, by linarith⟩
    · right
      refine ⟨?_, le_trans hpb upP⟩
      rw [hpi]
      cases A with
      | nan => exact hAf.elim
      | inf s => exact hAf.elim
      | fin s n => rfl
  · right
    refine ⟨?_, le_trans hAb upA⟩
    rw [hAi]
    rcases hp with ⟨hpf, _⟩ | ⟨hpi, _⟩
    · cases p with
      | nan => exact hpf.elim
      | inf s => exact hpf.elim
      | fin s n => rfl
    · rw [hpi]; rfl

theorem sum_fold : ∀ (v w : Vec), FiniteVec v → FiniteVec w → v.length ≤ w.length → ∀ (acc : F32) (k : Nat) (T : ℚ), 0 ≤ T → SumOK k T (decode acc) →
    SumOK (k + v.length) (T + 2 ^ 149 * sqDist v w) (decode ((List.zipWith (sqDiff ieee) v w).foldl ieee.add acc)) := by
  intro v
  induction v with
  | nil => intro w _ _ _ acc k T _ h; simpa [sqDist] using h
  | cons a v ih =>
    intro w hv hw hl acc k T hT h
    cases w with
    | nil => simp at hl
    | cons b w =>
      have ha : Finite32 a := hv a (by simp)
      have hb : Finite32 b := hw b (by simp)
      have hx0 : 0 ≤ (num (decode a) - num (decode b)) ^ 2 / 2 ^ 149 := by positivity
      have hs : SumOK (k + 1) (T + (num (decode a) - num (decode b)) ^ 2 / 2 ^ 149) (decode (ieee.add acc (sqDiff ieee a b))) := by
        rw [ieee_add]
        exact sum_step hT hx0 h (sq_term ha hb rfl)
      have := ih w (fun x hx => hv x (by simp [hx])) (fun x hx => hw x (by simp [hx])) (by simpa using hl) _ _ _ (add_nonneg hT hx0) hs
      rw [List.zipWith_cons_cons, List.foldl_cons, List.length_cons]
      have e1 : k + (v.length + 1) = k + 1 + v.length := by omega
      have e2 : T + 2 ^ 149 * sqDist (a :: v) (b :: w) = T + (num (decode a) - num (decode b)) ^ 2 / 2 ^ 149 + 2 ^ 149 * sqDist v w := by
        unfold sqDist
        rw [List.zipWith_cons_cons, List.sum_cons, val32_num ha, val32_num hb]
        generalize (num (decode a)) = x
        generalize (num (decode b)) = y
        have hk : (2 : ℚ) ^ 149 ≠ 0 := by positivity
        generalize (2 : ℚ) ^ 149 = m at *
        field_simp
        ring
      rw [e1, e2]
      exact this

theorem isFin_of_not_finite {d : F32} (h : ¬ Finite32 d) : ¬ IsFin (decode d) := by
  unfold Finite32 at h
  unfold decode
  dsimp only
  rw [if_pos (by omega)]
  split <;> exact fun h => h

theorem sqDist_nonneg (v w : Vec) : 0 ≤ sqDist v w := by
  unfold sqDist
  refine List.sum_nonneg ?_
  intro x hx
  obtain ⟨i, h1, h2⟩ := List.getElem_of_mem hx
  rw [List.getElem_zipWith] at h2
  rw [← h2]
  positivity

theorem decode_rep (x : F32) : Rep (decode x) := by
  unfold decode
  dsimp only
  split
  · split <;> trivial
  · rename_i h
    split
    · refine ⟨?_, ?_⟩
      · have : x.toNat % 8388608 < 2 ^ 23 := Nat.mod_lt _ (by decide)
        exact Nat.lt_of_lt_of_le this (Nat.pow_le_pow_right (by decide) (by decide))
      · have : Nat.log2 (x.toNat % 8388608) ≤ 22 := log2_le_of_lt (Nat.mod_lt _ (by decide))
        rw [show Nat.log2 (x.toNat % 8388608) - 23 = 0 by omega]
        simp [Nat.mod_one]
    · have h1 : 8388608 + x.toNat % 8388608 < 2 ^ 24 := by omega
      have h2 : x.toNat / 8388608 % 256 - 1 ≤ 253 := by omega
      refine ⟨?_, rep_mul h1.le⟩
      calc (8388608 + x.toNat % 8388608) * 2 ^ (x.toNat / 8388608 % 256 - 1) < 2 ^ 24 * 2 ^ (x.toNat / 8388608 % 256 - 1) :=
            Nat.mul_lt_mul_of_pos_right h1 (Nat.two_pow_pos _)
        _ ≤ 2 ^ 24 * 2 ^ 253 := Nat.mul_le_mul_left _ (Nat.pow_le_pow_right (by decide) h2)
        _ = 2 ^ 277 := by rw [← Nat.pow_add]

/-- the root of the running sum. -/
theorem root_ok {k : Nat} {T : ℚ} {A : Val} (hT : 0 ≤ T) (hr : Rep A) (h : SumOK k T A) :
    (IsFin A.sqrt ∧ Pos A.sqrt ∧ ((1 - eps) ^ (k + 6) * T - k / 2) * 2 ^ 149 ≤ num A.sqrt ^ 2 ∧
      num A.sqrt ^ 2 ≤ (1 + eps) ^ (k + 6) * (T + k / 2) * 2 ^ 149) ∨
    (A.sqrt = .inf false ∧ (2 : ℚ) ^ 277 ≤ (1 + eps) ^ (k + 3) * (T + k / 2)) := by
  rcases h with ⟨hf, hp, hl, hu⟩ | ⟨hi, hb⟩
  · left
    have h1 := one_add_eps
    have h1' := one_sub_eps
    have hk : (0 : ℚ) ≤ k / 2 := by positivity
    have e6 : k + 6 = 3 + (k + 3) := by omega
    cases A with
    | nan => exact hf.elim
    | inf s => exact hf.elim
    | fin s n =>
      cases hp
      have hn : num (.fin false n) = n := by rw [num_fin]; simp
      rw [hn] at hl hu
      have low : (1 - eps) ^ (k + 6) * T - k / 2 ≤ (1 - eps) ^ 3 * n := by
        have := mul_le_mul_of_nonneg_left hl (pow_nonneg h1' 3)
        have q : (1 - eps) ^ 3 ≤ 1 := pow_le_one₀ h1' (by linarith [eps_pos])
        have q2 : (1 - eps) ^ 3 * (k / 2) ≤ (k / 2 : ℚ) := by
          have := mul_le_mul_of_nonneg_right q hk
          linarith
        calc (1 - eps) ^ (k + 6) * T - k / 2 ≤ (1 - eps) ^ (k + 6) * T - (1 - eps) ^ 3 * (k / 2) := by linarith
          _ = (1 - eps) ^ 3 * ((1 - eps) ^ (k + 3) * T - k / 2) := by rw [e6, pow_add]; ring
          _ ≤ _ := this
      have up : (1 + eps) ^ 3 * n ≤ (1 + eps) ^ (k + 6) * (T + k / 2) := by
        have := mul_le_mul_of_nonneg_left hu (pow_nonneg (by linarith : 0 ≤ 1 + eps) 3)
        calc (1 + eps) ^ 3 * n ≤ (1 + eps) ^ 3 * ((1 + eps) ^ (k + 3) * (T + k / 2)) := this
          _ = _ := by rw [e6, pow_add]; ring
      by_cases h0 : n = 0
      · subst h0
        rw [sqrt_zero, hn]
        refine ⟨trivial, rfl, ?_, ?_⟩
        · have : (1 - eps) ^ (k + 6) * T - k / 2 ≤ 0 := by simpa using low
          have := mul_nonpos_of_nonpos_of_nonneg this (by positivity : (0 : ℚ) ≤ 2 ^ 149)
          simpa using this
        · simp only [Nat.cast_zero, zero_pow (by decide : 2 ≠ 0)]
          positivity
      · obtain ⟨r, e, r1, r2⟩ := sqrt_err h0 hr.1
        rw [e]
        have hrn : num (.fin false r) = r := by rw [num_fin]; simp
        rw [hrn]
        refine ⟨trivial, rfl, le_trans ?_ r1, le_trans r2 ?_⟩
        · rw [← mul_assoc]
          exact mul_le_mul_of_nonneg_right low (by positivity)
        · rw [← mul_assoc]
          exact mul_le_mul_of_nonneg_right up (by positivity)
  · right
    exact ⟨by rw [hi]; rfl, hb⟩

/-- the computed Euclidean distance against the exact squared distance. -/
theorem euclid_accuracy {v w : Vec} (hv : FiniteVec v) (hw : FiniteVec w) {d : F32}
    (h : euclideanDistance ieee v w = .ok d) :
    (Finite32 d ∧ 0 ≤ val32 d ∧ (1 - eps) ^ (v.length + 6) * sqDist v w - v.length / 2 ^ 150 ≤ val32 d ^ 2 ∧
      val32 d ^ 2 ≤ (1 + eps) ^ (v.length + 6) * (sqDist v w + v.length / 2 ^ 150)) ∨
    (d = 0x7F800000 ∧ (2 : ℚ) ^ 128 ≤ (1 + eps) ^ (v.length + 3) * (sqDist v w + v.length / 2 ^ 150)) := by
  have hl : v.length ≤ w.length := by
    by_contra hc
    unfold euclideanDistance at h
    rw [euclidLoop_short ieee v w _ (by omega)] at h
    cases h
  unfold euclideanDistance at h
  rw [euclidLoop_sum ieee v w _ hl] at h
  cases h
  have h0 : SumOK 0 0 (decode ieee.zero) := by
    left
    rw [ieee_zero]
    refine ⟨trivial, rfl, ?_, ?_⟩ <;> simp [num, sgn]
  have hs := sum_fold v w hv hw hl ieee.zero 0 0 (le_refl _) h0
  have hS := sqDist_nonneg v w
  have hr := root_ok (by positivity) (decode_rep _) hs
  rw [← ieee_sqrt, Nat.zero_add, zero_add] at hr
  generalize he : ieee.sqrt ((List.zipWith (sqDiff ieee) v w).foldl ieee.add ieee.zero) = d at *
  rcases hr with ⟨hf, hp, l, u⟩ | ⟨hi, hb⟩
  · left
    have hfin : Finite32 d := by
      by_contra hc
      exact isFin_of_not_finite hc hf
    have hv32 := val32_num hfin
    refine ⟨hfin, ?_, ?_, ?_⟩
    · rw [hv32]; exact div_nonneg (num_nonneg hf hp) (by positivity)
    · rw [hv32, div_pow, le_div_iff₀ (by positivity)]
      refine le_trans (le_of_eq ?_) l
      ring
    · rw [hv32, div_pow, div_le_iff₀ (by positivity)]
      refine le_trans u (le_of_eq ?_)
      ring
  · right
    constructor
    · have : encode (decode d) = encode (.inf false) := by rw [hi]
      rw [← he] at this ⊢
      show ieee.sqrt _ = _
      have e2 : encode (decode (ieee.sqrt ((List.zipWith (sqDiff ieee) v w).foldl ieee.add ieee.zero))) =
          ieee.sqrt ((List.zipWith (sqDiff ieee) v w).foldl ieee.add ieee.zero) := by
        rw [ieee_sqrt]; rfl
      rw [e2] at this
      rw [this]; rfl
    · have e : (2 : ℚ) ^ 277 = 2 ^ 128 * 2 ^ 149 := by rw [← pow_add]
      have : (1 + eps) ^ (v.length + 3) * (2 ^ 149 * sqDist v w + v.length / 2) =
          (1 + eps) ^ (v.length + 3) * (sqDist v w + v.length / 2 ^ 150) * 2 ^ 149 := by ring
      rw [e, this] at hb
      exact le_of_mul_le_mul_right hb (by positivity)

/-! ## Inner products -/

/-- the running sum of `k` products, against the exact sum `T` and the sum of absolute values `B`. -/
def DotOK (k : Nat) (T B : ℚ) (A : Val) : Prop :=
  (IsFin A ∧ |num A - T| ≤ ((1 + eps) ^ (k + 1) - 1) * B + k / 2 * (1 + eps) ^ k) ∨
  ((2 : ℚ) ^ 277 ≤ (1 + eps) ^ (k + 1) * (B + k / 2))

theorem dot_step {k : Nat} {T B x : ℚ} {A p : Val} (hT : |T| ≤ B) (hA : DotOK k T B A)
    (hp : (IsFin p ∧ |num p - x| ≤ eps * |x| + 1 / 2) ∨ (∃ s, p = .inf s ∧ (2 : ℚ) ^ 277 ≤ (1 + eps) * |x| + 1 / 2)) :
    DotOK (k + 1) (T + x) (B + |x|) (A.add p) := by
  have h1 := one_add_eps
  have he := eps_pos
  have hB : 0 ≤ B := le_trans (abs_nonneg _) hT
  have hx : 0 ≤ |x| := abs_nonneg _
  have hk : (0 : ℚ) ≤ k / 2 := by positivity
  have hk1 : (((k + 1 : ℕ) : ℚ)) / 2 = k / 2 + 1 / 2 := by push_cast; ring
  have p1 : 1 ≤ (1 + eps) ^ k := one_le_pow₀ h1
  have p2 : (1 + eps) ^ k ≤ (1 + eps) ^ (k + 1) := pow_le_pow_right₀ h1 (by omega)
  have p3 : (1 + eps) ^ (k + 1) ≤ (1 + eps) ^ (k + 1 + 1) := pow_le_pow_right₀ h1 (by omega)
  have p4 : 1 + eps ≤ (1 + eps) ^ (k + 1) := by
    calc 1 + eps = (1 + eps) ^ 1 := (pow_one _).symm
      _ ≤ _ := pow_le_pow_right₀ h1 (by omega)
  have hterm : (1 + eps) * |x| + 1 / 2 ≤ (1 + eps) ^ (k + 1) * (|x| + 1 / 2) := by
    have := mul_le_mul_of_nonneg_right p4 hx
    linarith
  rcases hA with ⟨hf, hE⟩ | hb
  · rcases hp with ⟨pf, pE⟩ | ⟨s, pi, pb⟩
    · have hAabs : |num A| ≤ (1 + eps) ^ (k + 1) * (B + k / 2) := by
        have a1 : |num A| ≤ |num A - T| + |T| := by
          have := abs_add_le (num A - T) T
          simpa using this
        have a2 : k / 2 * (1 + eps) ^ k ≤ k / 2 * (1 + eps) ^ (k + 1) := mul_le_mul_of_nonneg_left p2 hk
        calc |num A| ≤ ((1 + eps) ^ (k + 1) - 1) * B + k / 2 * (1 + eps) ^ k + B := by linarith
          _ ≤ ((1 + eps) ^ (k + 1) - 1) * B + k / 2 * (1 + eps) ^ (k + 1) + B := by linarith
          _ = _ := by ring
      have hpabs : |num p| ≤ (1 + eps) ^ (k + 1) * (|x| + 1 / 2) := by
        have a1 : |num p| ≤ |num p - x| + |x| := by
          have := abs_add_le (num p - x) x
          simpa using this
        calc |num p| ≤ (1 + eps) * |x| + 1 / 2 := by linarith
          _ ≤ _ := hterm
      have hAp : |num A + num p| ≤ (1 + eps) ^ (k + 1) * (B + |x| + (k / 2 + 1 / 2)) := by
        calc |num A + num p| ≤ |num A| + |num p| := abs_add_le _ _
          _ ≤ (1 + eps) ^ (k + 1) * (B + k / 2) + (1 + eps) ^ (k + 1) * (|x| + 1 / 2) := add_le_add hAabs hpabs
          _ = _ := by ring
      rcases add_err hf pf with ⟨f, e⟩ | ⟨s, i, b⟩
      · left
        refine ⟨f, ?_⟩
        generalize hN : num (A.add p) = N at *
        -- |N - (T + x)| ≤ |N - (A+p)| + |A - T| + |p - x|
        have t1 : |N - (T + x)| ≤ |N - (num A + num p)| + (|num A - T| + |num p - x|) := by
          have e1 : N - (T + x) = (N - (num A + num p)) + ((num A - T) + (num p - x)) := by ring
          rw [e1]
          exact le_trans (abs_add_le _ _) (add_le_add (le_refl _) (abs_add_le _ _))
        have t2 : |num A + num p| ≤ (B + |x|) + (|num A - T| + |num p - x|) := by
          have e1 : num A + num p = (T + x) + ((num A - T) + (num p - x)) := by ring
          rw [e1]
          refine le_trans (abs_add_le _ _) (add_le_add ?_ (abs_add_le _ _))
          exact le_trans (abs_add_le _ _) (by linarith)
        have t3 : eps * |num A + num p| ≤ eps * ((B + |x|) + (|num A - T| + |num p - x|)) := mul_le_mul_of_nonneg_left t2 he.le
        have t4 : (1 + eps) * |num A - T| ≤ (1 + eps) * (((1 + eps) ^ (k + 1) - 1) * B + k / 2 * (1 + eps) ^ k) :=
          mul_le_mul_of_nonneg_left hE (by linarith)
        have t5 : (1 + eps) * |num p - x| ≤ (1 + eps) * (eps * |x| + 1 / 2) := mul_le_mul_of_nonneg_left pE (by linarith)
        have t6 : (1 + eps) * (1 / 2) ≤ 1 / 2 * (1 + eps) ^ (k + 1) := by linarith
        have t7 : ((1 + eps) * eps + eps) * |x| ≤ ((1 + eps) ^ (k + 1 + 1) - 1) * |x| := by
          refine mul_le_mul_of_nonneg_right ?_ hx
          have : (1 + eps) ^ 2 ≤ (1 + eps) ^ (k + 1 + 1) := pow_le_pow_right₀ h1 (by omega)
          nlinarith
        rw [hk1]
        calc |N - (T + x)| ≤ eps * ((B + |x|) + (|num A - T| + |num p - x|)) + (|num A - T| + |num p - x|) := by linarith
          _ = (1 + eps) * |num A - T| + (1 + eps) * |num p - x| + eps * (B + |x|) := by ring
          _ ≤ (1 + eps) * (((1 + eps) ^ (k + 1) - 1) * B + k / 2 * (1 + eps) ^ k) + (1 + eps) * (eps * |x| + 1 / 2) + eps * (B + |x|) := by linarith
          _ = ((1 + eps) ^ (k + 1 + 1) - 1) * B + k / 2 * (1 + eps) ^ (k + 1) + ((1 + eps) * eps + eps) * |x| + (1 + eps) * (1 / 2) := by ring
          _ ≤ ((1 + eps) ^ (k + 1 + 1) - 1) * B + k / 2 * (1 + eps) ^ (k + 1) + ((1 + eps) ^ (k + 1 + 1) - 1) * |x| + 1 / 2 * (1 + eps) ^ (k + 1) := by linarith
          _ = _ := by ring
      · right
        rw [hk1]
        calc (2 : ℚ) ^ 277 ≤ (1 + eps) * |num A + num p| := b
          _ ≤ (1 + eps) * ((1 + eps) ^ (k + 1) * (B + |x| + (k / 2 + 1 / 2))) := mul_le_mul_of_nonneg_left hAp (by linarith)
          _ = _ := by rw [pow_succ _ (k + 1)]; ring
    · right
      rw [hk1]
      calc (2 : ℚ) ^ 277 ≤ (1 + eps) * |x| + 1 / 2 := pb
        _ ≤ (1 + eps) ^ (k + 1) * (|x| + 1 / 2) := hterm
        _ ≤ (1 + eps) ^ (k + 1 + 1) * (B + |x| + (k / 2 + 1 / 2)) := mul_le_mul p3 (by linarith) (by linarith) (by positivity)
  · right
    rw [hk1]
    exact le_trans hb (mul_le_mul p3 (by linarith) (by linarith) (by positivity))

theorem dot_fold : ∀ (v w : Vec), FiniteVec v → FiniteVec w → v.length ≤ w.length → ∀ (acc : F32) (k : Nat) (T B : ℚ), |T| ≤ B →
    DotOK k T B (decode acc) →
    DotOK (k + v.length) (T + 2 ^ 149 * innerProd v w) (B + 2 ^ 149 * innerAbs v w) (decode ((List.zipWith ieee.mul v w).foldl ieee.add acc)) := by
  intro v
  induction v with
  | nil => intro w _ _ _ acc k T B _ h; simpa [innerProd, innerAbs] using h
  | cons a v ih =>
    intro w hv hw hl acc k T B hT h
    cases w with
    | nil => simp at hl
    | cons b w =>
      have ha : Finite32 a := hv a (by simp)
      have hb : Finite32 b := hw b (by simp)
      generalize hx : num (decode a) * num (decode b) / 2 ^ 149 = x
      have hs : DotOK (k + 1) (T + x) (B + |x|) (decode (ieee.add acc (ieee.mul a b))) := by
        rw [ieee_add, ieee_mul, ← hx]
        exact dot_step hT h (mul_err (finite_decode ha) (finite_decode hb))
      have := ih w (fun x hx => hv x (by simp [hx])) (fun x hx => hw x (by simp [hx])) (by simpa using hl) _ _ _ _
        (le_trans (abs_add_le T x) (by linarith)) hs
      rw [List.zipWith_cons_cons, List.foldl_cons, List.length_cons]
      have e1 : k + (v.length + 1) = k + 1 + v.length := by omega
      have e0 : 2 ^ 149 * (val32 a * val32 b) = x := by
        rw [val32_num ha, val32_num hb, ← hx]
        generalize (num (decode a)) = x
        generalize (num (decode b)) = y
        have hk : (2 : ℚ) ^ 149 ≠ 0 := by positivity
        generalize (2 : ℚ) ^ 149 = m at *
        field_simp
      have e2 : T + 2 ^ 149 * innerProd (a :: v) (b :: w) = T + x + 2 ^ 149 * innerProd v w := by
        unfold innerProd
        rw [List.zipWith_cons_cons, List.sum_cons, mul_add, e0]
        ring
      have e3 : B + 2 ^ 149 * innerAbs (a :: v) (b :: w) = B + |x| + 2 ^ 149 * innerAbs v w := by
        unfold innerAbs
        rw [List.zipWith_cons_cons, List.sum_cons, mul_add, ← e0, abs_mul ((2 : ℚ) ^ 149), abs_of_pos (by positivity : (0 : ℚ) < 2 ^ 149)]
        ring
      rw [e1, e2, e3]
      exact this

/-- the computed inner product against the exact one. -/
theorem dot_accuracy {v w : Vec} (hv : FiniteVec v) (hw : FiniteVec w) {d : F32}
    (h : dot ieee v w = .ok d) :
    (Finite32 d ∧ |val32 d - innerProd v w| ≤ ((1 + eps) ^ (v.length + 1) - 1) * innerAbs v w + v.length * (1 + eps) ^ v.length / 2 ^ 150) ∨
    ((2 : ℚ) ^ 128 ≤ (1 + eps) ^ (v.length + 1) * (innerAbs v w + v.length / 2 ^ 150)) := by
  have h8 : v.length % 8 = 0 := by
    by_contra hc
    rw [C44_dot_panics ieee v w hc] at h
    cases h
  have hl : v.length ≤ w.length := by
    by_contra hc
    unfold dot at h
    rw [dot_short ieee _ v w _ (Nat.le_refl _) h8 (by omega)] at h
    cases h
  unfold dot at h
  rw [dotLoop_sum ieee (v.length / 8) v w ieee.zero (by omega) hl] at h
  cases h
  have h0 : DotOK 0 0 0 (decode ieee.zero) := by
    left
    rw [ieee_zero]
    refine ⟨trivial, ?_⟩
    simp [num, sgn]
  have hs := dot_fold v w hv hw hl ieee.zero 0 0 0 (by simp) h0
  rw [Nat.zero_add, zero_add, zero_add] at hs
  generalize (List.zipWith ieee.mul v w).foldl ieee.add ieee.zero = d at *
  have hk : (0 : ℚ) < 2 ^ 149 := by positivity
  rcases hs with ⟨hf, hE⟩ | hb
  · left
    have hfin : Finite32 d := by
      by_contra hc
      exact isFin_of_not_finite hc hf
    refine ⟨hfin, ?_⟩
    rw [val32_num hfin]
    have e1 : num (decode d) / 2 ^ 149 - innerProd v w = (num (decode d) - 2 ^ 149 * innerProd v w) / 2 ^ 149 := by
      rw [sub_div, mul_div_cancel_left₀ _ hk.ne']
    rw [e1, abs_div, abs_of_pos hk, div_le_iff₀ hk]
    refine le_trans hE (le_of_eq ?_)
    ring
  · right
    have e : (2 : ℚ) ^ 277 = 2 ^ 128 * 2 ^ 149 := by rw [← pow_add]
    have : (1 + eps) ^ (v.length + 1) * (2 ^ 149 * innerAbs v w + v.length / 2) =
        (1 + eps) ^ (v.length + 1) * (innerAbs v w + v.length / 2 ^ 150) * 2 ^ 149 := by ring
    rw [e, this] at hb
    exact le_of_mul_le_mul_right hb hk

/-- small powers of `1 + eps` and `1 - eps`. -/
theorem pow_small {k : Nat} (h : k ≤ 10006) : (1 + eps) ^ k ≤ 1001 / 1000 ∧ 999 / 1000 ≤ (1 - eps) ^ k := by
  have h1 := one_add_eps
  have h1' := one_sub_eps
  constructor
  · -- (1 + e)^k (1 - k e) ≤ 1
    have hb : 1 + (k : ℚ) * (-eps) ≤ (1 + -eps) ^ k := one_add_mul_le_pow (by have := eps_le; linarith) k
    have hm : (1 + eps) ^ k * (1 + -eps) ^ k ≤ 1 := by
      rw [← mul_pow]
      refine pow_le_one₀ ?_ ?_
      · exact mul_nonneg (by linarith) (by linarith)
      · nlinarith [eps_pos]
    have hke : (k : ℚ) * eps ≤ 10006 / 2 ^ 24 := by
      unfold eps
      rw [mul_one_div]
      gcongr
      exact_mod_cast h
    have h2 : 10006 / 2 ^ 24 ≤ (9 / 10000 : ℚ) := by norm_num
    have h3 : (9991 / 10000 : ℚ) ≤ (1 + -eps) ^ k := by linarith
    have hp : 0 ≤ (1 + eps) ^ k := by positivity
    nlinarith
  · have hb : 1 + (k : ℚ) * (-eps) ≤ (1 + -eps) ^ k := one_add_mul_le_pow (by have := eps_le; linarith) k
    have hke : (k : ℚ) * eps ≤ 10006 / 2 ^ 24 := by
      unfold eps
      rw [mul_one_div]
      gcongr
      exact_mod_cast h
    have h2 : 10006 / 2 ^ 24 ≤ (9 / 10000 : ℚ) := by norm_num
    rw [sub_eq_add_neg]
    linarith

end Vectory.Ieee
