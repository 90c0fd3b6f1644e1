import Verif.Model.Ieee
import Verif.Spec.Compare
import Verif.Props.Distance
/-! Facts about binary32 arithmetic. -/
set_option exponentiation.threshold 420
namespace Vectory.Ieee

/-- the value has a bit pattern of its own. -/
def Rep : Val → Prop
  | .fin _ n => n < 2 ^ 277 ∧ n % 2 ^ (Nat.log2 n - 23) = 0
  | _ => True

theorem log2_le_of_lt {n k : Nat} (h : n < 2 ^ (k + 1)) : Nat.log2 n ≤ k := by
  by_cases hn : n = 0
  · subst hn; simp [Nat.log2_zero]
  · have := (Nat.log2_lt hn).mpr h; omega

theorem lt_pow_log2 (n : Nat) : n < 2 ^ (Nat.log2 n + 1) := Nat.lt_log2_self

theorem pow_log2_le {n : Nat} (h : n ≠ 0) : 2 ^ Nat.log2 n ≤ n := Nat.log2_self_le h

theorem rep_mul {k j : Nat} (hk : k ≤ 2 ^ 24) : (k * 2 ^ j) % 2 ^ (Nat.log2 (k * 2 ^ j) - 23) = 0 := by
  have main : ∀ k j, k < 2 ^ 24 → (k * 2 ^ j) % 2 ^ (Nat.log2 (k * 2 ^ j) - 23) = 0 := by
    intro k j hk
    have h1 : k * 2 ^ j < 2 ^ (23 + j + 1) := by
      have : (2 : Nat) ^ (23 + j + 1) = 2 ^ 24 * 2 ^ j := by rw [← Nat.pow_add]; congr 1; omega
      rw [this]
      exact Nat.mul_lt_mul_of_pos_right hk (Nat.two_pow_pos j)
    have h2 := log2_le_of_lt h1
    apply Nat.mod_eq_zero_of_dvd
    exact Nat.dvd_trans (Nat.pow_dvd_pow 2 (by omega : Nat.log2 (k * 2 ^ j) - 23 ≤ j)) (Nat.dvd_mul_left _ _)
  by_cases h : k < 2 ^ 24
  · exact main k j h
  · have : k = 2 ^ 24 := by omega
    subst this
    have h2 : (2 : Nat) ^ 24 * 2 ^ j = 2 ^ 23 * 2 ^ (j + 1) := by rw [← Nat.pow_add, ← Nat.pow_add]; congr 1; omega
    rw [h2]
    exact main (2 ^ 23) (j + 1) (by decide)

theorem roundNE_le (n s : Nat) : roundNE n s ≤ n / 2 ^ s + 1 := by
  unfold roundNE
  split
  · omega
  · split
    · omega
    · have := Nat.mod_lt (n / 2 ^ s) (by decide : 0 < 2); omega

theorem le_roundNE (n s : Nat) : n / 2 ^ s ≤ roundNE n s := by
  unfold roundNE
  split
  · omega
  · split
    · omega
    · omega

/-- the rounded number has at most 24 significant bits. -/
theorem roundTo_form (n t : Nat) : ∃ k j, k ≤ 2 ^ 24 ∧ roundTo 24 n t = k * 2 ^ j := by
  refine ⟨roundNE n (max t (Nat.log2 n + 1 - 24)), max t (Nat.log2 n + 1 - 24) - t, ?_, rfl⟩
  have h1 := roundNE_le n (max t (Nat.log2 n + 1 - 24))
  have h2 : n / 2 ^ (max t (Nat.log2 n + 1 - 24)) < 2 ^ 24 := by
    rw [Nat.div_lt_iff_lt_mul (Nat.two_pow_pos _), ← Nat.pow_add]
    exact Nat.lt_of_lt_of_le (lt_pow_log2 n) (Nat.pow_le_pow_right (by decide) (by omega))
  omega

theorem round_rep (neg : Bool) (n t : Nat) : Rep (round neg n t) := by
  unfold round
  dsimp only
  split
  · rename_i h
    obtain ⟨k, j, hk, he⟩ := roundTo_form n t
    exact ⟨h, by rw [he]; exact rep_mul hk⟩
  · trivial

theorem decode_of (b E f : Nat) (hb : b ≤ 1) (hE : E < 256) (hf : f < 8388608) :
    decode (UInt32.ofNat (b * 2147483648 + E * 8388608 + f)) =
      if E = 255 then (if f = 0 then .inf (decide (b = 1)) else .nan)
      else if E = 0 then .fin (decide (b = 1)) f else .fin (decide (b = 1)) ((8388608 + f) * 2 ^ (E - 1)) := by
  have h : (UInt32.ofNat (b * 2147483648 + E * 8388608 + f)).toNat = b * 2147483648 + E * 8388608 + f := by
    rw [UInt32.toNat_ofNat']
    apply Nat.mod_eq_of_lt
    have : (2 : Nat) ^ 32 = 4294967296 := by decide
    omega
  unfold decode
  rw [h]
  have h1 : (b * 2147483648 + E * 8388608 + f) / 8388608 % 256 = E := by omega
  have h2 : (b * 2147483648 + E * 8388608 + f) % 8388608 = f := by omega
  have h3 : decide (2147483648 ≤ b * 2147483648 + E * 8388608 + f) = decide (b = 1) := by
    rw [decide_eq_decide]; omega
  rw [h1, h2, h3]

theorem signBit_eq (neg : Bool) : signBit neg = (if neg then 1 else 0) * 2147483648 := by cases neg <;> rfl

/-- values with a bit pattern are read back. -/
theorem decode_encode {v : Val} (h : Rep v) : decode (encode v) = v := by
  cases v with
  | nan => decide
  | inf s => cases s <;> decide
  | fin s n =>
    obtain ⟨h1, h2⟩ := h
    have hs : decide ((if s = true then 1 else 0) = 1) = s := by cases s <;> rfl
    unfold encode
    dsimp only
    rw [signBit_eq]
    by_cases hn : n < 2 ^ 23
    · have : Nat.log2 n - 23 = 0 := by have := log2_le_of_lt (k := 22) hn; omega
      rw [this]
      have := decode_of (if s = true then 1 else 0) 0 n (by cases s <;> decide) (by decide) hn
      simp only [Nat.zero_mul, Nat.add_zero, Nat.pow_zero, Nat.div_one] at this ⊢
      rw [this]
      cases s <;> simp
    · have hn0 : n ≠ 0 := by intro h0; subst h0; exact hn (by decide)
      have hl : 23 ≤ Nat.log2 n := by
        cases Nat.lt_or_ge (Nat.log2 n) 23 with
        | inl h => exact absurd ((Nat.log2_lt hn0).mp h) hn
        | inr h => exact h
      have hu : Nat.log2 n < 277 := (Nat.log2_lt hn0).mpr h1
      generalize hS : Nat.log2 n - 23 = S at *
      have hq : n = n / 2 ^ S * 2 ^ S := by
        have := Nat.div_add_mod n (2 ^ S); rw [h2] at this; rw [Nat.mul_comm]; omega
      have q1 : 2 ^ 23 ≤ n / 2 ^ S := by
        rw [Nat.le_div_iff_mul_le (Nat.two_pow_pos _), ← Nat.pow_add]
        have : 23 + S = Nat.log2 n := by omega
        rw [this]; exact pow_log2_le hn0
      have q2 : n / 2 ^ S < 2 ^ 24 := by
        rw [Nat.div_lt_iff_lt_mul (Nat.two_pow_pos _), ← Nat.pow_add]
        have : 24 + S = Nat.log2 n + 1 := by omega
        rw [this]; exact lt_pow_log2 n
      have p23 : (2 : Nat) ^ 23 = 8388608 := by decide
      have p24 : (2 : Nat) ^ 24 = 16777216 := by decide
      have := decode_of (if s = true then 1 else 0) (S + 1) (n / 2 ^ S - 8388608) (by cases s <;> decide) (by omega) (by omega)
      have e1 : (if s = true then 1 else 0) * 2147483648 + S * 8388608 + n / 2 ^ S =
          (if s = true then 1 else 0) * 2147483648 + (S + 1) * 8388608 + (n / 2 ^ S - 8388608) := by omega
      rw [e1, this, if_neg (by omega), if_neg (by omega), hs]
      have e2 : 8388608 + (n / 2 ^ S - 8388608) = n / 2 ^ S := by omega
      rw [e2, Nat.add_sub_cancel, ← hq]

theorem mul_fin (s t : Bool) (n m : Nat) : (Val.fin s n).mul (.fin t m) = round (s != t) (n * m) 149 := by rw [Val.mul]

theorem rep_zero (s : Bool) : Rep (.fin s 0) := ⟨Nat.two_pow_pos _, by simp⟩

theorem add_rep (a b : Val) : Rep (a.add b) := by
  cases a with
  | nan => trivial
  | inf s =>
    cases b with
    | nan => trivial
    | inf t => simp only [Val.add]; split <;> trivial
    | fin t m => trivial
  | fin s n =>
    cases b with
    | nan => trivial
    | inf t => trivial
    | fin t m =>
      simp only [Val.add]
      split
      · exact rep_zero _
      · exact round_rep _ _ _

theorem mul_rep (a b : Val) : Rep (a.mul b) := by
  cases a with
  | nan => trivial
  | inf s =>
    cases b with
    | nan => trivial
    | inf t => trivial
    | fin t m => simp only [Val.mul]; split <;> trivial
  | fin s n =>
    cases b with
    | nan => trivial
    | inf t => simp only [Val.mul]; split <;> trivial
    | fin t m => rw [mul_fin]; generalize n * m = k; generalize 149 = e; exact round_rep _ k e

theorem sqrt_rep (a : Val) : Rep a.sqrt := by
  cases a with
  | nan => trivial
  | inf s => simp only [Val.sqrt]; split <;> trivial
  | fin s n =>
    simp only [Val.sqrt]
    split
    · exact rep_zero _
    · split
      · trivial
      · exact round_rep _ _ _

/-! ## Order -/

theorem lt_weak : OrdOn (fun v : Val => v ≠ .nan) Val.lt := by
  refine ⟨fun a b ha hb h => ?_, fun a b c ha hb hc h1 h2 => ?_⟩
  · simp only [Val.lt, ne_eq, ha, hb, not_false_eq_true, decide_true, Bool.true_and, decide_eq_true_eq, decide_eq_false_iff_not] at *
    omega
  · simp only [Val.lt, ne_eq, ha, hb, hc, not_false_eq_true, decide_true, Bool.true_and, decide_eq_false_iff_not] at *
    omega

/-! ## Euclidean distance: values without a sign -/

/-- zero, positive or `+Inf`. -/
def Pos : Val → Prop
  | .fin s _ => s = false
  | .inf s => s = false
  | .nan => False

theorem round_pos (n t : Nat) : Pos (round false n t) := by
  unfold round; dsimp only; split <;> rfl

theorem Pos.not_nan {v : Val} (h : Pos v) : v ≠ .nan := by intro he; subst he; exact h

theorem Pos.key {v : Val} (h : Pos v) : 0 ≤ v.key := by
  cases v with
  | nan => exact h.elim
  | inf s => cases h; simp only [Val.key, Bool.false_eq_true, if_false]; exact Int.le_of_lt (Int.pow_pos (by decide))
  | fin s n => cases h; simp [Val.key, sgn]

theorem add_pos {a b : Val} (ha : Pos a) (hb : Pos b) : Pos (a.add b) := by
  cases a with
  | nan => exact ha.elim
  | inf s =>
    cases ha
    cases b with
    | nan => exact hb.elim
    | inf t => cases hb; rfl
    | fin t m => rfl
  | fin s n =>
    cases ha
    cases b with
    | nan => exact hb.elim
    | inf t => cases hb; rfl
    | fin t m =>
      cases hb
      have e : sgn false n + sgn false m = ((n + m : Nat) : Int) := by simp [sgn]
      simp only [Val.add, e]
      split
      · rfl
      · rw [decide_eq_false (by omega)]
        exact round_pos _ _

theorem sq_pos {a : Val} (ha : a ≠ .nan) : Pos (a.mul a) := by
  cases a with
  | nan => exact absurd rfl ha
  | inf s => cases s <;> rfl
  | fin s n =>
    rw [mul_fin, bne_self_eq_false]
    generalize n * n = k
    generalize 149 = e
    exact round_pos k e

theorem sqrt_pos {a : Val} (ha : Pos a) : Pos a.sqrt := by
  cases a with
  | nan => exact ha.elim
  | inf s => cases ha; rfl
  | fin s n =>
    cases ha
    simp only [Val.sqrt]
    split
    · rfl
    · simp only [Bool.false_eq_true, if_false]; exact round_pos _ _

/-- a number, not an infinity and not NaN. -/
def IsFin : Val → Prop
  | .fin _ _ => True
  | _ => False

theorem sub_fin {a b : Val} (ha : IsFin a) (hb : IsFin b) : a.sub b ≠ .nan := by
  cases a with
  | nan => exact ha.elim
  | inf s => exact ha.elim
  | fin s n =>
    cases b with
    | nan => exact hb.elim
    | inf t => exact hb.elim
    | fin t m =>
      simp only [Val.sub, Val.neg, Val.add]
      split
      · exact fun h => nomatch h
      · unfold round; dsimp only; split <;> exact fun h => nomatch h

theorem roundTo_zero (t : Nat) : roundTo 24 0 t = 0 := by
  unfold roundTo roundNE
  simp [Nat.two_pow_pos]

theorem round_zero (s : Bool) (t : Nat) : round s 0 t = .fin s 0 := by
  unfold round
  rw [roundTo_zero]
  exact if_pos (Nat.two_pow_pos _)

/-- a finite number minus itself is `+0`. -/
theorem sub_self {a : Val} (ha : IsFin a) : a.sub a = .fin false 0 := by
  cases a with
  | nan => exact ha.elim
  | inf s => exact ha.elim
  | fin s n =>
    simp only [Val.sub, Val.neg, Val.add]
    have : sgn s n + sgn (!s) n = 0 := by cases s <;> simp [sgn] <;> omega
    rw [if_pos this]
    cases s <;> rfl

theorem zero_mul_zero : (Val.fin false 0).mul (.fin false 0) = .fin false 0 := by
  rw [mul_fin, bne_self_eq_false, Nat.mul_zero]
  exact round_zero _ _

theorem zero_add_zero : (Val.fin false 0).add (.fin false 0) = .fin false 0 := rfl

theorem sqrt_zero : (Val.fin false 0).sqrt = .fin false 0 := rfl

/-- the square of a difference does not depend on the order. -/
theorem sub_sq_comm {a b : Val} (ha : IsFin a) (hb : IsFin b) : (a.sub b).mul (a.sub b) = (b.sub a).mul (b.sub a) := by
  cases a with
  | nan => exact ha.elim
  | inf s => exact ha.elim
  | fin s n =>
    cases b with
    | nan => exact hb.elim
    | inf t => exact hb.elim
    | fin t m =>
      simp only [Val.sub, Val.neg, Val.add]
      have e : sgn t m + sgn (!s) n = -(sgn s n + sgn (!t) m) := by cases s <;> cases t <;> simp [sgn] <;> omega
      rw [e]
      generalize sgn s n + sgn (!t) m = x
      by_cases hx : x = 0
      · subst hx
        simp only [if_true, Int.neg_zero]
        rw [mul_fin, mul_fin, bne_self_eq_false, bne_self_eq_false]
      · rw [if_neg hx, if_neg (by omega), Int.natAbs_neg]
        have sq : ∀ s k, (round s k 0).mul (round s k 0) = (round false k 0).mul (round false k 0) := by
          intro s k
          unfold round; dsimp only
          split
          · rw [mul_fin, mul_fin, bne_self_eq_false, bne_self_eq_false]
          · simp only [Val.mul, bne_self_eq_false]
        rw [sq (decide (x < 0)), sq (decide (-x < 0))]

end Vectory.Ieee

namespace Vectory
open Ieee

theorem ieee_add (a b : F32) : decode (ieee.add a b) = (decode a).add (decode b) := decode_encode (add_rep _ _)
theorem ieee_sub (a b : F32) : decode (ieee.sub a b) = (decode a).sub (decode b) := decode_encode (add_rep _ _)
theorem ieee_mul (a b : F32) : decode (ieee.mul a b) = (decode a).mul (decode b) := decode_encode (mul_rep _ _)
theorem ieee_sqrt (a : F32) : decode (ieee.sqrt a) = (decode a).sqrt := decode_encode (sqrt_rep _)
theorem ieee_zero : decode ieee.zero = .fin false 0 := by decide


/-! ## Distances of vectors -/

/-- a `float32` that is neither NaN nor infinite: its exponent bits are not all ones. -/
def Finite32 (x : F32) : Prop := x.toNat / 8388608 % 256 ≠ 255

/-- a vector of such numbers. -/
def FiniteVec (v : Vec) : Prop := ∀ x ∈ v, Finite32 x

/-- a NaN: exponent bits all ones, fraction not zero. -/
def IsNaN (x : F32) : Prop := x.toNat / 8388608 % 256 = 255 ∧ x.toNat % 8388608 ≠ 0

theorem isNaN_iff (x : F32) : IsNaN x ↔ decode x = .nan := by
  unfold IsNaN decode
  dsimp only
  split
  · rename_i h
    split
    · rename_i h2; simp [h2]
    · rename_i h2; simp [h, h2]
  · rename_i h
    split
    · simp [h]
    · simp [h]

theorem finite_decode {x : F32} (h : Finite32 x) : IsFin (decode x) := by
  unfold decode
  dsimp only
  rw [if_neg h]
  split <;> trivial

theorem foldl_pos (l : List F32) (hl : ∀ x ∈ l, Pos (decode x)) (acc : F32) (ha : Pos (decode acc)) :
    Pos (decode (l.foldl ieee.add acc)) := by
  induction l generalizing acc with
  | nil => exact ha
  | cons x l ih =>
    rw [List.foldl_cons]
    refine ih (fun y hy => hl y (List.mem_cons_of_mem _ hy)) _ ?_
    rw [ieee_add]
    exact add_pos ha (hl x (by simp))

theorem sqDiff_pos {a b : F32} (ha : Finite32 a) (hb : Finite32 b) : Pos (decode (sqDiff ieee a b)) := by
  unfold sqDiff
  rw [ieee_mul, ieee_sub]
  exact sq_pos (sub_fin (finite_decode ha) (finite_decode hb))

theorem zipWith_mem {f : F32 → F32 → F32} : ∀ {v w : Vec} {x : F32}, x ∈ List.zipWith f v w → ∃ a ∈ v, ∃ b ∈ w, x = f a b := by
  intro v
  induction v with
  | nil => intro w x h; simp at h
  | cons a v ih =>
    intro w x h
    cases w with
    | nil => simp at h
    | cons b w =>
      rcases List.mem_cons.mp (by simpa using h) with h | h
      · exact ⟨a, by simp, b, by simp, h⟩
      · obtain ⟨a', h1, b', h2, h3⟩ := ih h
        exact ⟨a', by simp [h1], b', by simp [h2], h3⟩

theorem sum_pos {v w : Vec} (hv : FiniteVec v) (hw : FiniteVec w) : Pos (decode (sumOver ieee (sqDiff ieee) v w)) := by
  unfold sumOver
  refine foldl_pos _ ?_ _ (by rw [ieee_zero]; rfl)
  intro x hx
  obtain ⟨a, ha, b, hb, rfl⟩ := zipWith_mem hx
  exact sqDiff_pos (hv a ha) (hw b hb)

/-- the Euclidean distance of finite vectors is not negative and not NaN. -/
theorem euclid_pos {v w : Vec} (hv : FiniteVec v) (hw : FiniteVec w) {d : F32} (h : euclideanDistance ieee v w = .ok d) : Pos (decode d) := by
  by_cases hl : v.length ≤ w.length
  · unfold euclideanDistance at h
    rw [euclidLoop_sum ieee v w _ hl] at h
    cases h
    rw [ieee_sqrt]
    exact sqrt_pos (sum_pos hv hw)
  · unfold euclideanDistance at h
    rw [euclidLoop_short ieee v w _ (by omega)] at h
    cases h

theorem sqDiff_self {a : F32} (ha : Finite32 a) : sqDiff ieee a a = 0 := by
  have h1 : ieee.sub a a = 0 := by
    show encode ((decode a).sub (decode a)) = 0
    rw [sub_self (finite_decode ha)]; decide
  unfold sqDiff
  rw [h1]
  show encode ((decode 0).mul (decode 0)) = 0
  have : decode 0 = .fin false 0 := by decide
  rw [this, zero_mul_zero]; decide

theorem sqDiff_comm {a b : F32} (ha : Finite32 a) (hb : Finite32 b) : sqDiff ieee a b = sqDiff ieee b a := by
  show encode ((decode (ieee.sub a b)).mul (decode (ieee.sub a b))) = encode ((decode (ieee.sub b a)).mul (decode (ieee.sub b a)))
  rw [ieee_sub, ieee_sub, sub_sq_comm (finite_decode ha) (finite_decode hb)]

theorem foldl_zero (l : List F32) (hl : ∀ x ∈ l, x = 0) : l.foldl ieee.add 0 = 0 := by
  induction l with
  | nil => rfl
  | cons x l ih =>
    rw [List.foldl_cons, hl x (by simp)]
    have : ieee.add 0 0 = 0 := by decide
    rw [this]
    exact ih (fun y hy => hl y (List.mem_cons_of_mem _ hy))

/-- the Euclidean distance of a finite vector to itself is `+0`. -/
theorem euclid_self {v : Vec} (hv : FiniteVec v) : euclideanDistance ieee v v = .ok 0 := by
  rw [C44_euclidean ieee v v rfl]
  have : sumOver ieee (sqDiff ieee) v v = 0 := by
    unfold sumOver
    refine foldl_zero _ ?_
    intro x hx
    rw [List.zipWith_self] at hx
    obtain ⟨a, ha, rfl⟩ := List.mem_map.mp hx
    exact sqDiff_self (hv a ha)
  rw [this]
  have : ieee.sqrt 0 = 0 := by decide
  rw [this]

theorem zipWith_sqDiff_comm : ∀ {v w : Vec}, FiniteVec v → FiniteVec w →
    List.zipWith (sqDiff ieee) v w = List.zipWith (sqDiff ieee) w v := by
  intro v
  induction v with
  | nil => intro w _ _; simp
  | cons a v ih =>
    intro w hv hw
    cases w with
    | nil => simp
    | cons b w =>
      simp only [List.zipWith_cons_cons]
      rw [sqDiff_comm (hv a (by simp)) (hw b (by simp)), ih (fun x hx => hv x (by simp [hx])) (fun x hx => hw x (by simp [hx]))]

/-- the Euclidean distance of finite vectors of the same dimension is symmetric, to the last bit. -/
theorem euclid_comm {v w : Vec} (hv : FiniteVec v) (hw : FiniteVec w) (h : v.length = w.length) :
    euclideanDistance ieee v w = euclideanDistance ieee w v := by
  rw [C44_euclidean ieee v w h, C44_euclidean ieee w v h.symm]
  unfold sumOver
  rw [zipWith_sqDiff_comm hv hw]

/-! ## Comparable distances -/

theorem ieee_lt_ord : OrdOn (fun d => ¬ IsNaN d) ieee.lt := by
  refine ⟨fun a b ha hb h => ?_, fun a b c ha hb hc h1 h2 => ?_⟩
  · exact lt_weak.asymm _ _ (fun h => ha ((isNaN_iff a).mpr h)) (fun h => hb ((isNaN_iff b).mpr h)) h
  · exact lt_weak.negTrans _ _ _ (fun h => ha ((isNaN_iff a).mpr h)) (fun h => hb ((isNaN_iff b).mpr h))
      (fun h => hc ((isNaN_iff c).mpr h)) h1 h2

theorem euclid_not_nan {v w : Vec} (hv : FiniteVec v) (hw : FiniteVec w) {d : F32} (h : euclideanDistance ieee v w = .ok d) : ¬ IsNaN d :=
  fun hn => (euclid_pos hv hw h).not_nan ((isNaN_iff d).mp hn)

theorem euclid_not_neg {v w : Vec} (hv : FiniteVec v) (hw : FiniteVec w) {d : F32} (h : euclideanDistance ieee v w = .ok d) :
    ieee.lt d 0 = false := by
  have hp := euclid_pos hv hw h
  show (decode d).lt (decode 0) = false
  have : decode 0 = .fin false 0 := by decide
  rw [this]
  have hk : ¬ (decode d).key < (Val.fin false 0).key := by have := hp.key; simp only [Val.key, sgn] at *; simpa using this
  unfold Val.lt
  rw [decide_eq_false hk, Bool.and_false]

/-! ## Bounded components: no overflow -/

theorem roundNE_mul_le {n s b : Nat} (h : n ≤ b * 2 ^ s) : roundNE n s ≤ b := by
  have hp := Nat.two_pow_pos s
  have h1 : n / 2 ^ s ≤ b := Nat.div_le_of_le_mul (by rw [Nat.mul_comm]; exact h)
  by_cases he : n / 2 ^ s = b
  · have h2 := Nat.div_add_mod n (2 ^ s)
    rw [he, Nat.mul_comm] at h2
    have h3 : n % 2 ^ s = 0 := by omega
    unfold roundNE
    rw [h3, if_pos (by omega)]
    omega
  · have := roundNE_le n s
    omega

/-- a finite value of at most `B` units. -/
def Within (B : Nat) : Val → Prop
  | .fin _ n => n ≤ B
  | _ => False

theorem Within.not_nan {B : Nat} {v : Val} (h : Within B v) : v ≠ .nan := by intro he; subst he; exact h

theorem mul_within {a b : Val} (ha : Within (2 ^ 200) a) (hb : Within (2 ^ 200) b) : Within (2 ^ 251) (a.mul b) := by
  cases a with
  | nan => exact ha.elim
  | inf s => exact ha.elim
  | fin s n =>
    cases b with
    | nan => exact hb.elim
    | inf t => exact hb.elim
    | fin t m =>
      rw [mul_fin]
      have hnm : n * m ≤ 2 ^ 400 := by
        have h1 : n * m ≤ 2 ^ 200 * 2 ^ 200 := Nat.mul_le_mul ha hb
        have h2 : (2 : Nat) ^ 200 * 2 ^ 200 = 2 ^ 400 := by rw [← Nat.pow_add]
        omega
      generalize n * m = k at hnm
      have hl : Nat.log2 k ≤ 400 := log2_le_of_lt (Nat.lt_of_le_of_lt hnm (Nat.pow_lt_pow_right (by decide) (by decide)))
      have hs2 : max 149 (Nat.log2 k + 1 - 24) ≤ 400 := by omega
      have hs1 : 149 ≤ max 149 (Nat.log2 k + 1 - 24) := by omega
      have h277 : (2 : Nat) ^ 251 < 2 ^ 277 := Nat.pow_lt_pow_right (by decide) (by decide)
      have h149 : (251 : Nat) = 400 - 149 := by decide
      generalize 149 = t0 at *
      generalize 251 = p0 at *
      have key : roundTo 24 k t0 ≤ 2 ^ p0 := by
        unfold roundTo
        dsimp only
        generalize max t0 (Nat.log2 k + 1 - 24) = e at *
        have h0 : (2 : Nat) ^ 400 = 2 ^ (400 - e) * 2 ^ e := by rw [← Nat.pow_add]; congr 1; omega
        have h1 : roundNE k e ≤ 2 ^ (400 - e) := roundNE_mul_le (h0 ▸ hnm)
        have h2 : (2 : Nat) ^ p0 = 2 ^ (400 - e) * 2 ^ (e - t0) := by rw [← Nat.pow_add]; congr 1; omega
        rw [h2]
        exact Nat.mul_le_mul_right _ h1
      unfold round
      dsimp only
      rw [if_pos (Nat.lt_of_le_of_lt key h277)]
      exact key

theorem add_within {a b : Val} {i : Nat} (hi : i + 1 < 2 ^ 24) (ha : Within (i * 2 ^ 251) a) (hb : Within (2 ^ 251) b) :
    Within ((i + 1) * 2 ^ 251) (a.add b) := by
  cases a with
  | nan => exact ha.elim
  | inf s => exact ha.elim
  | fin s n =>
    cases b with
    | nan => exact hb.elim
    | inf t => exact hb.elim
    | fin t m =>
      simp only [Within] at ha hb
      have hx : (sgn s n + sgn t m).natAbs ≤ (i + 1) * 2 ^ 251 := by
        have h1 : (i + 1) * 2 ^ 251 = i * 2 ^ 251 + 2 ^ 251 := by rw [Nat.add_mul, Nat.one_mul]
        have h2 : (sgn s n + sgn t m).natAbs ≤ n + m := by cases s <;> cases t <;> simp [sgn] <;> omega
        omega
      simp only [Val.add]
      split
      · exact Nat.zero_le _
      · generalize (sgn s n + sgn t m).natAbs = k at hx
        generalize decide (sgn s n + sgn t m < 0) = sg
        have hB : (i + 1) * 2 ^ 251 < 2 ^ (274 + 1) := by
          have h2 : (2 : Nat) ^ (274 + 1) = 2 ^ 24 * 2 ^ 251 := by rw [← Nat.pow_add]
          rw [h2]
          exact Nat.mul_lt_mul_of_pos_right hi (Nat.two_pow_pos _)
        have hl : Nat.log2 k ≤ 274 := log2_le_of_lt (Nat.lt_of_le_of_lt hx hB)
        have hs : max 0 (Nat.log2 k + 1 - 24) ≤ 251 := by omega
        have key : roundTo 24 k 0 ≤ (i + 1) * 2 ^ 251 := by
          unfold roundTo
          dsimp only
          generalize max 0 (Nat.log2 k + 1 - 24) = e at *
          have h1 : (i + 1) * 2 ^ 251 = (i + 1) * 2 ^ (251 - e) * 2 ^ e := by
            rw [Nat.mul_assoc, ← Nat.pow_add]; rw [show 251 - e + e = 251 by omega]
          rw [Nat.sub_zero, h1]
          exact Nat.mul_le_mul_right _ (roundNE_mul_le (by rw [← h1]; exact hx))
        have hlt : (2 : Nat) ^ (274 + 1) < 2 ^ 277 := Nat.pow_lt_pow_right (by decide) (by decide)
        unfold round
        dsimp only
        rw [if_pos (Nat.lt_of_le_of_lt key (Nat.lt_trans hB hlt))]
        exact key

/-- a `float32` of absolute value at most `2^51` (about `2.25e15`). -/
def Modest (x : F32) : Prop := x.toNat % 2147483648 ≤ 0x59000000

/-- a vector of such numbers. -/
def ModestVec (v : Vec) : Prop := ∀ x ∈ v, Modest x

theorem Modest.within {x : F32} (h : Modest x) : Within (2 ^ 200) (decode x) := by
  unfold Modest at h
  unfold decode
  dsimp only
  have h255 : x.toNat / 8388608 % 256 ≤ 178 := by omega
  have hf : x.toNat % 8388608 < 8388608 := Nat.mod_lt _ (by decide)
  rw [if_neg (by omega)]
  split
  · show x.toNat % 8388608 ≤ 2 ^ 200
    exact Nat.le_trans (Nat.le_of_lt hf) (by decide)
  · show (8388608 + x.toNat % 8388608) * 2 ^ (x.toNat / 8388608 % 256 - 1) ≤ 2 ^ 200
    by_cases he : x.toNat / 8388608 % 256 = 178
    · have : x.toNat % 8388608 = 0 := by omega
      rw [he, this]
      decide
    · have h1 : 8388608 + x.toNat % 8388608 ≤ 2 ^ 24 := by
        have : (2 : Nat) ^ 24 = 16777216 := by decide
        omega
      have h2 : (2 : Nat) ^ (x.toNat / 8388608 % 256 - 1) ≤ 2 ^ 176 := Nat.pow_le_pow_right (by decide) (by omega)
      have h3 : (2 : Nat) ^ 200 = 2 ^ 24 * 2 ^ 176 := by rw [← Nat.pow_add]
      rw [h3]
      exact Nat.mul_le_mul h1 h2

theorem foldl_within (l : List F32) (hl : ∀ x ∈ l, Within (2 ^ 251) (decode x)) (i : Nat) (hi : i + l.length < 2 ^ 24) (acc : F32)
    (ha : Within (i * 2 ^ 251) (decode acc)) : Within ((i + l.length) * 2 ^ 251) (decode (l.foldl ieee.add acc)) := by
  induction l generalizing acc i with
  | nil => exact ha
  | cons x l ih =>
    rw [List.foldl_cons, List.length_cons]
    rw [List.length_cons] at hi
    have := ih (fun y hy => hl y (List.mem_cons_of_mem _ hy)) (i + 1) (by omega) (ieee.add acc x) (by
      rw [ieee_add]; exact add_within (by omega) ha (hl x (by simp)))
    rwa [show i + (l.length + 1) = i + 1 + l.length by omega]

theorem dotLoop_short (o : FloatOps) : ∀ (n : Nat) (v1 v2 : Vec) (acc : F32), v1.length ≤ n → v1.length % 8 = 0 → v2.length < v1.length →
    dotLoop o acc v1 v2 = .error .indexOutOfRange := by
  intro n
  induction n using Nat.strongRecOn with
  | _ n ih =>
    intro v1 v2 acc h hm hs
    rcases v1 with _ | ⟨a0, _ | ⟨a1, _ | ⟨a2, _ | ⟨a3, _ | ⟨a4, _ | ⟨a5, _ | ⟨a6, _ | ⟨a7, v1⟩⟩⟩⟩⟩⟩⟩⟩
    all_goals try rfl
    · simp at hs
    · rcases v2 with _ | ⟨b0, _ | ⟨b1, _ | ⟨b2, _ | ⟨b3, _ | ⟨b4, _ | ⟨b5, _ | ⟨b6, _ | ⟨b7, v2⟩⟩⟩⟩⟩⟩⟩⟩
      all_goals try rfl
      simp only [dotLoop]
      simp only [List.length_cons] at h hm hs
      exact ih v1.length (by omega) v1 v2 _ (by omega) (by omega) (by omega)

theorem dot_short (o : FloatOps) (n : Nat) (v1 v2 : Vec) (acc : F32) (h : v1.length ≤ n) (h8 : v1.length % 8 = 0) (hs : v2.length < v1.length) :
    dotLoop o acc v1 v2 = .error .indexOutOfRange := dotLoop_short o n v1 v2 acc h h8 hs

/-- the inner product of modest vectors is a finite number. -/
theorem dot_within {v w : Vec} (hv : ModestVec v) (hw : ModestVec w) (hl : v.length < 2 ^ 24) {d : F32} (h : dot ieee v w = .ok d) :
    ∃ B, Within B (decode d) := by
  by_cases h8 : v.length % 8 = 0
  · unfold dot at h
    by_cases hlw : v.length ≤ w.length
    · have e := dotLoop_sum ieee (v.length / 8) v w ieee.zero (by omega) hlw
      rw [e] at h
      cases h
      refine ⟨_, foldl_within _ ?_ 0 ?_ _ ?_⟩
      · intro x hx
        obtain ⟨a, ha, b, hb, rfl⟩ := zipWith_mem hx
        rw [ieee_mul]
        exact mul_within (hv a ha).within (hw b hb).within
      · rw [List.length_zipWith]; omega
      · rw [ieee_zero]; exact Nat.zero_le _
    · rw [dot_short ieee _ v w _ (Nat.le_refl _) h8 (by omega)] at h
      cases h
  · rw [C44_dot_panics ieee v w h8] at h
    cases h

theorem within_finite {B : Nat} {d : F32} (h : Within B (decode d)) : Finite32 d := by
  intro he
  unfold decode at h
  dsimp only at h
  rw [if_pos he] at h
  split at h <;> exact h

/-- the only value that is not negative and not above zero is `+0`. -/
theorem zero_of_key {d : F32} (hp : Pos (decode d)) (hk : (decode d).key ≤ (decode 0).key) : d = 0 := by
  have h0 : (decode 0).key = 0 := by decide
  rw [h0] at hk
  have h4 : d.toNat < 4294967296 := UInt32.toNat_lt d
  have : d.toNat = 0 := by
    unfold decode at hp hk
    dsimp only at hp hk
    by_cases he : d.toNat / 8388608 % 256 = 255
    · rw [if_pos he] at hp hk
      split at hp
      · rename_i hf
        rw [if_pos hf] at hk
        simp only [Pos] at hp
        rw [hp] at hk
        exfalso
        revert hk
        simp only [Val.key, Bool.false_eq_true, if_false]
        decide
      · exact hp.elim
    · rw [if_neg he] at hp hk
      by_cases h1 : d.toNat / 8388608 % 256 = 0
      · rw [if_pos h1] at hp hk
        simp only [Pos, decide_eq_false_iff_not] at hp
        simp only [Val.key, sgn, decide_eq_false hp, Bool.false_eq_true, if_false] at hk
        omega
      · rw [if_neg h1] at hp hk
        simp only [Pos, decide_eq_false_iff_not] at hp
        simp only [Val.key, sgn, decide_eq_false hp, Bool.false_eq_true, if_false] at hk
        exfalso
        have := Nat.mul_pos (by omega : 0 < 8388608 + d.toNat % 8388608) (Nat.two_pow_pos (d.toNat / 8388608 % 256 - 1))
        omega
  exact UInt32.toNat_inj.mp (by rw [this]; rfl)

end Vectory
