import Verif.Lemmas.Accuracy
import Verif.Props.Ieee
/-!
# How far the computed distances are from the true ones: C78

`Spec/Real32.lean` gives the numbers that `float32` values stand for, and the exact squared Euclidean distance and inner product of
vectors of such numbers. `eps = 2^-24`; `1 / 2^150` is half the smallest positive `float32`.
-/
set_option exponentiation.threshold 420
namespace Vectory
open Ieee
variable {V D : Type}

/-- C78: the computed Euclidean distance of two finite vectors of `n` dimensions is a number `d ≥ 0` whose square is the exact squared
distance `S` up to the factors `(1 ± 2^-24)^(n+6)` and `n` times half the smallest positive `float32` — or it is `+Inf`, and then `S` is at
least `2^128` up to the same factors. -/
theorem C78_euclidean (v w : Vec) (hv : FiniteVec v) (hw : FiniteVec w) (d : F32) (h : euclideanDistance ieee v w = .ok d) :
    (Finite32 d ∧ 0 ≤ val32 d ∧ (1 - eps) ^ (v.length + 6) * sqDist v w - v.length / 2 ^ 150 ≤ val32 d ^ 2 ∧
      val32 d ^ 2 ≤ (1 + eps) ^ (v.length + 6) * (sqDist v w + v.length / 2 ^ 150)) ∨
    (d = 0x7F800000 ∧ (2 : ℚ) ^ 128 ≤ (1 + eps) ^ (v.length + 3) * (sqDist v w + v.length / 2 ^ 150)) :=
  euclid_accuracy hv hw h

/-- C78: the computed inner product of two finite vectors of `n` dimensions is off by at most `(1 + 2^-24)^(n+1) - 1` times the sum of the
absolute values of the products (and the underflows), unless that sum is about `2^128` or more. -/
theorem C78_dot (v w : Vec) (hv : FiniteVec v) (hw : FiniteVec w) (d : F32) (h : dot ieee v w = .ok d) :
    (Finite32 d ∧ |val32 d - innerProd v w| ≤ ((1 + eps) ^ (v.length + 1) - 1) * innerAbs v w + v.length * (1 + eps) ^ v.length / 2 ^ 150) ∨
    ((2 : ℚ) ^ 128 ≤ (1 + eps) ^ (v.length + 1) * (innerAbs v w + v.length / 2 ^ 150)) :=
  dot_accuracy hv hw h

theorem len_small {n : Nat} (h : n ≤ 10000) : (n : ℚ) / 2 ^ 150 ≤ 10000 / 2 ^ 150 := by
  have : (n : ℚ) ≤ 10000 := by exact_mod_cast h
  gcongr

/-- C78, in round figures: up to 10000 dimensions and squared distances below `2^127`, the square of the computed distance is the exact
squared distance within a thousandth (and `2^-136` for underflow). -/
theorem C78_euclidean_permille (v w : Vec) (hv : FiniteVec v) (hw : FiniteVec w) (hn : v.length ≤ 10000) (hS : sqDist v w < 2 ^ 127) (d : F32)
    (h : euclideanDistance ieee v w = .ok d) :
    Finite32 d ∧ 0 ≤ val32 d ∧ 999 / 1000 * sqDist v w - 1 / 2 ^ 136 ≤ val32 d ^ 2 ∧ val32 d ^ 2 ≤ 1001 / 1000 * sqDist v w + 1 / 2 ^ 136 := by
  have h0 := sqDist_nonneg v w
  have hln := len_small hn
  have hl0 : (0 : ℚ) ≤ v.length / 2 ^ 150 := by positivity
  have hc : (10000 : ℚ) / 2 ^ 150 * (1001 / 1000) ≤ 1 / 2 ^ 136 := by norm_num
  have hc' : (10000 : ℚ) / 2 ^ 150 ≤ 1 / 2 ^ 136 := by norm_num
  have hc1 : (1 : ℚ) / 2 ^ 136 ≤ 1 := by norm_num
  rcases euclid_accuracy hv hw h with ⟨hf, hp, l, u⟩ | ⟨_, hb⟩
  · obtain ⟨p1, p2⟩ := pow_small (k := v.length + 6) (by omega)
    refine ⟨hf, hp, le_trans ?_ l, le_trans u ?_⟩
    · have := mul_le_mul_of_nonneg_right p2 h0
      linarith
    · have := mul_le_mul_of_nonneg_right p1 (add_nonneg h0 hl0)
      linarith
  · exfalso
    obtain ⟨p1, _⟩ := pow_small (k := v.length + 3) (by omega)
    have := mul_le_mul_of_nonneg_right p1 (add_nonneg h0 hl0)
    have h7 : (2 : ℚ) ^ 128 = 2 * 2 ^ 127 := by rw [← pow_succ']
    have h8 : (1 : ℚ) ≤ 2 ^ 100 := one_le_pow₀ (by norm_num)
    have h9 : (2 : ℚ) ^ 127 = 2 ^ 27 * 2 ^ 100 := by rw [← pow_add]
    have h10 : (2 : ℚ) ^ 27 = 134217728 := by norm_num
    generalize (2 : ℚ) ^ 136 = a at *
    generalize (2 : ℚ) ^ 150 = b at *
    generalize (2 : ℚ) ^ 100 = e at *
    generalize (2 : ℚ) ^ 127 = f at *
    rw [h10] at h9
    linarith

/-- C78, in round figures: up to 10000 dimensions, the computed inner product is off by at most a thousandth of the sum of the absolute
values of the products (and `2^-136` for underflow), if that sum is below `2^127`. -/
theorem C78_dot_permille (v w : Vec) (hv : FiniteVec v) (hw : FiniteVec w) (hn : v.length ≤ 10000) (hS : innerAbs v w < 2 ^ 127) (d : F32)
    (h : dot ieee v w = .ok d) : Finite32 d ∧ |val32 d - innerProd v w| ≤ innerAbs v w / 1000 + 1 / 2 ^ 136 := by
  have h0 : 0 ≤ innerAbs v w := by
    unfold innerAbs
    refine List.sum_nonneg ?_
    intro x hx
    obtain ⟨i, h1, h2⟩ := List.getElem_of_mem hx
    rw [List.getElem_zipWith] at h2
    rw [← h2]
    exact abs_nonneg _
  have hln := len_small hn
  have hl0 : (0 : ℚ) ≤ v.length / 2 ^ 150 := by positivity
  have hc : (10000 : ℚ) / 2 ^ 150 * (1001 / 1000) ≤ 1 / 2 ^ 136 := by norm_num
  have hc1 : (1 : ℚ) / 2 ^ 136 ≤ 1 := by norm_num
  have hc2 : (10000 : ℚ) / 2 ^ 150 ≤ 1 := by norm_num
  obtain ⟨p1, _⟩ := pow_small (k := v.length + 1) (by omega)
  obtain ⟨p2, _⟩ := pow_small (k := v.length) (by omega)
  rcases dot_accuracy hv hw h with ⟨hf, e⟩ | hb
  · refine ⟨hf, le_trans e ?_⟩
    have q1 : ((1 + eps) ^ (v.length + 1) - 1) * innerAbs v w ≤ 1 / 1000 * innerAbs v w := mul_le_mul_of_nonneg_right (by linarith) h0
    have q2 : v.length * (1 + eps) ^ v.length / 2 ^ 150 ≤ 10000 / 2 ^ 150 * (1001 / 1000 : ℚ) := by
      rw [mul_div_right_comm]
      exact mul_le_mul hln p2 (by have := one_add_eps; positivity) (by positivity)
    linarith
  · exfalso
    have := mul_le_mul_of_nonneg_right p1 (add_nonneg h0 hl0)
    have h7 : (2 : ℚ) ^ 128 = 2 * 2 ^ 127 := by rw [← pow_succ']
    have h8 : (1 : ℚ) ≤ 2 ^ 100 := one_le_pow₀ (by norm_num)
    have h9 : (2 : ℚ) ^ 127 = 2 ^ 27 * 2 ^ 100 := by rw [← pow_add]
    have h10 : (2 : ℚ) ^ 27 = 134217728 := by norm_num
    generalize (2 : ℚ) ^ 136 = a at *
    generalize (2 : ℚ) ^ 150 = b at *
    generalize (2 : ℚ) ^ 100 = e at *
    generalize (2 : ℚ) ^ 127 = f at *
    rw [h10] at h9
    linarith

theorem key_num {d : F32} (h : Finite32 d) : num (decode d) = ((decode d).key : ℚ) := by
  have := finite_decode h
  cases hd : decode d with
  | nan => rw [hd] at this; exact this.elim
  | inf s => rw [hd] at this; exact this.elim
  | fin s n => simp [num, Val.key]

/-- `a` is hardly farther from `q` than `b`, in exact arithmetic: the squared distance is greater by three thousandths at most (and `2^-134`). -/
def HardlyFarther (q a b : Vec) : Prop := sqDist a q ≤ 1003 / 1000 * sqDist b q + 1 / 2 ^ 134

theorem hardly_of_le {q a b : Vec} (ha : FiniteVec a) (hb : FiniteVec b) (hq : FiniteVec q) (hla : a.length ≤ 10000) (hlb : b.length ≤ 10000)
    (hS : sqDist b q < 2 ^ 127) {da db : F32} (hda : euclideanDistance ieee a q = .ok da) (hdb : euclideanDistance ieee b q = .ok db)
    (hle : ieee.lt db da = false) : HardlyFarther q a b := by
  obtain ⟨fb, pb, lb, ub⟩ := C78_euclidean_permille b q hb hq hlb hS db hdb
  have hk := (le_of_not_lt (euclid_not_nan ha hq hda) (euclid_not_nan hb hq hdb) hle).2.2
  have h0 := sqDist_nonneg a q
  have hln := len_small hla
  rcases euclid_accuracy ha hq hda with ⟨fa, pa, la, _⟩ | ⟨ei, _⟩
  · have hv : val32 da ≤ val32 db := by
      rw [val32_num fa, val32_num fb, key_num fa, key_num fb]
      have : ((decode da).key : ℚ) ≤ (decode db).key := by exact_mod_cast hk
      gcongr
    have hsq : val32 da ^ 2 ≤ val32 db ^ 2 := pow_le_pow_left₀ pa hv 2
    obtain ⟨_, p2⟩ := pow_small (k := a.length + 6) (by omega)
    have := mul_le_mul_of_nonneg_right p2 h0
    have hc' : (10000 : ℚ) / 2 ^ 150 ≤ 1 / 2 ^ 136 := by norm_num
    have hc2 : (1 : ℚ) / 2 ^ 134 = 4 * (1 / 2 ^ 136) := by norm_num
    have h0b := sqDist_nonneg b q
    have hpos : (0 : ℚ) < 1 / 2 ^ 136 := by positivity
    unfold HardlyFarther
    rw [hc2]
    generalize (1 : ℚ) / 2 ^ 136 = t at *
    generalize (10000 : ℚ) / 2 ^ 150 = t2 at *
    linarith
  · exfalso
    have e1 : (decode da).key = 2 ^ 300 := by rw [ei]; decide
    have hr := decode_rep db
    have hf := finite_decode fb
    rw [e1] at hk
    cases hd : decode db with
    | nan => rw [hd] at hf; exact hf.elim
    | inf s => rw [hd] at hf; exact hf.elim
    | fin s n =>
      rw [hd] at hk hr
      have h1 : n < 2 ^ 277 := hr.1
      have h2 : (2 : Int) ^ 300 ≤ n := by
        refine le_trans hk ?_
        cases s <;> simp [Val.key, sgn]
      have h3 : (2 : Nat) ^ 300 ≤ n := by exact_mod_cast h2
      exact absurd (le_trans (Nat.pow_le_pow_right (by decide) (by decide)) h3) (Nat.not_le_of_lt h1)

/-- C78: in an answer of a Euclidean collection of finite vectors (at most 10000 dimensions), a hit that comes before another is hardly
farther from the query in exact arithmetic, whenever the exact squared distance of the later one is below `2^127`. -/
theorem C78_ranking (L : Lib V F32) (hm : metricOf ieee "euclidean_distance" = some L.metric) (dim : Nat) (hdim : dim ≤ 10000) (cfg : Cfg)
    (ms : List String) (he : Bool) (hs : Setup L dim cfg) (h : List (Op V × Out V F32)) (c : Coll)
    (hr : Runs L dim (Coll.new cfg ms he) h c) (hfin : AllGiven FiniteVec h) (o : Object V) (embed : Embed V) (q : Vec)
    (hq : queryVector embed o = some q) (hqf : FiniteVec q) (k : Int) (hE : EmbedOK c embed dim [o]) (r : SearchResult V F32)
    (hres : c.semanticSearch L o embed k = .ok r) :
    r.objects.Pairwise (fun a b => ∀ xa xb va vb, c.get L [a.id] = .ok [xa] → xa.vec = some va → c.get L [b.id] = .ok [xb] → xb.vec = some vb →
      sqDist vb q < 2 ^ 127 → HardlyFarther q va vb) := by
  have hR : ReachAny L dim c := Reach.any ⟨cfg, ms, he, h, hs, hr⟩
  have hv : ∀ v, c.Holds v → FiniteVec v := fun v hv => hfin v (holds_given hs hr hv)
  have w : ∀ q', queryVector embed o = some q' → Ranks L c q' := by
    intro q' e
    rw [hq] at e; cases e
    exact (C77_euclidean_ranks L hm c q hv hqf).ranks
  have hsort := (C16_well_formed L dim c hR o embed w k hE r hres).2.2.2.1
  obtain ⟨q', eq, hd⟩ := C17_true_distance L dim c hR o embed k hE r hres
  rw [hq] at eq; cases eq
  have hM := euclid_metric hm
  rw [hM] at hsort
  refine (pairwise_mem hsort).imp ?_
  intro a b ⟨ha, hb, hab⟩ xa xb va vb ga ea gb eb hS
  obtain ⟨xa', va', ga', ea', da⟩ := hd a ha
  obtain ⟨xb', vb', gb', eb', db⟩ := hd b hb
  rw [ga] at ga'; cases ga'
  rw [gb] at gb'; cases gb'
  rw [ea] at ea'; cases ea'
  rw [eb] at eb'; cases eb'
  rw [hM] at da db
  have h1 := holds_of_get hR.weak.1 ga ea
  have h2 := holds_of_get hR.weak.1 gb eb
  refine hardly_of_le (hv _ h1) (hv _ h2) hqf ?_ ?_ hS da db hab
  · rw [hR.weak.1.holds_length h1]; exact hdim
  · rw [hR.weak.1.holds_length h2]; exact hdim

/-- C78: where C22 promises exact answers, an object that is left out is hardly nearer to the query than any that is returned. -/
theorem C78_nearest (L : Lib V F32) (hm : metricOf ieee "euclidean_distance" = some L.metric) (dim : Nat) (hdim : dim ≤ 10000) (cfg : Cfg)
    (ms : List String) (he : Bool) (hs : Setup L dim cfg) (h : List (Op V × Out V F32)) (c : Coll)
    (hr : Runs L dim (Coll.new cfg ms he) h c) (hfin : AllGiven FiniteVec h)
    (hsimple : c.index.cfg.heuristic = false) (hsmall : c.index.nodes.length ≤ min c.index.cfg.m c.index.cfg.efC + 1)
    (hef : c.index.nodes.length ≤ c.index.cfg.ef) (o : Object V) (embed : Embed V) (q : Vec)
    (hq : queryVector embed o = some q) (hqf : FiniteVec q) (k : Int) (hE : EmbedOK c embed dim [o]) (r : SearchResult V F32)
    (hres : c.semanticSearch L o embed k = .ok r) (id : UInt64) (x : Object V) (v : Vec) (hg : c.get L [id] = .ok [x]) (hx : x.vec = some v)
    (hS : sqDist v q < 2 ^ 127) (hout : id ∉ r.objects.map Hit.id) :
    (r.objects.length : Int) = k ∧ ∀ hit ∈ r.objects, ∃ y w, c.get L [hit.id] = .ok [y] ∧ y.vec = some w ∧ HardlyFarther q w v := by
  have hR : ReachAny L dim c := Reach.any ⟨cfg, ms, he, h, hs, hr⟩
  have hv : ∀ v, c.Holds v → FiniteVec v := fun v hv => hfin v (holds_given hs hr hv)
  obtain ⟨q', eq, hex⟩ := C77_euclidean_exact L hm dim cfg ms he hs h c hr hfin hsimple hsmall hef o embed
    (fun q' e => by rw [hq] at e; cases e; exact hqf) k hE r hres
  rw [hq] at eq; cases eq
  have hM := euclid_metric hm
  have h1 := holds_of_get hR.weak.1 hg hx
  have hql : v.length = q.length := by
    have := hR.weak.1.holds_length h1
    rw [this]
    obtain ⟨o1, hc, e1, hd, hk, hne⟩ := search_ok hR.weak.1 hE hres
    have := queryVector_of e1
    rw [hq] at this; cases this; exact hd.symm
  obtain ⟨d, hd⟩ : ∃ d, L.metric.dist v q = .ok d := by
    rw [hM]; exact ⟨_, C44_euclidean ieee v q hql⟩
  rcases hex.nearest id x v _ hg hx hd with hin | ⟨hk, hall⟩
  · exact absurd hin hout
  · refine ⟨hk, fun hit hh => ?_⟩
    obtain ⟨y, w, gy, ew, dw⟩ := hex.stored hit hh
    refine ⟨y, w, gy, ew, ?_⟩
    have h2 := holds_of_get hR.weak.1 gy ew
    have hle := hall hit hh
    rw [hM] at hle dw hd
    refine hardly_of_le (hv _ h2) (hv _ h1) hqf ?_ ?_ hS dw hd hle
    · rw [hR.weak.1.holds_length h2]; exact hdim
    · rw [hR.weak.1.holds_length h1]; exact hdim

/-! ## The errors are there -/

/-- `4096`, `2^24`, `-2^24`, `0.5`. -/
def f4096 : F32 := 0x45800000
def f2p24 : F32 := 0x4B800000
def fm2p24 : F32 := 0xCB800000
def fHalf : F32 := 0x3F000000

/-- `(4096, 1, 1, 1, 1, 1, 1, 1, 1)`: eight times, adding 1 to `2^24` has no effect. -/
def big9 : Vec := [f4096, f1, f1, f1, f1, f1, f1, f1, f1]
/-- `(0, 0, 1, 1, 1, 1, 1, 1, 4096)`: the ones are added first. -/
def small9 : Vec := [0, 0, f1, f1, f1, f1, f1, f1, f4096]
def zero9 : Vec := [0, 0, 0, 0, 0, 0, 0, 0, 0]

/-- C78, rankings can be wrong: the search for one neighbour of the origin, in a collection where C22's conditions hold, returns the vector
with exact squared distance `2^24 + 8` and leaves out the one with `2^24 + 6`. -/
theorem C78_wrong_order : ∃ c : Coll, Reach eucLib32 9 c ∧ c.index.cfg.heuristic = false ∧
    c.index.nodes.length ≤ min c.index.cfg.m c.index.cfg.efC + 1 ∧ c.index.nodes.length ≤ c.index.cfg.ef ∧ c.index.deleted = [] ∧
    (c.get eucLib32 [0, 1]).toOption.map (List.map Object.vec) = some [some big9, some small9] ∧
    hitList (c.semanticSearch eucLib32 (obj32 zero9) noEmbed 1) = some [(0, f4096)] ∧
    sqDist big9 zero9 = 2 ^ 24 + 8 ∧ sqDist small9 zero9 = 2 ^ 24 + 6 := by
  refine ⟨(state32 eucLib32 9 [big9, small9]).1, ⟨demoCfg, ["a"], false, _, setup_euc32 9 (by decide), runs32 _ _ _⟩, ?_, ?_, ?_, ?_, ?_, ?_, ?_, ?_⟩
  · decide +kernel
  · decide +kernel
  · decide +kernel
  · decide +kernel
  · decide +kernel
  · decide +kernel
  · decide +kernel
  · decide +kernel

/-- `(2^24, 1, -2^24, 0, 0, 0, 0, 0)` -/
def cancel8 : Vec := [f2p24, f1, fm2p24, 0, 0, 0, 0, 0]
def half8 : Vec := [fHalf, 0, 0, 0, 0, 0, 0, 0]
def ones8 : Vec := [f1, f1, f1, f1, f1, f1, f1, f1]

/-- C78, inner products of either sign can be off by any relative error: the exact inner product with `(1, …, 1)` is 1, the computed one is 0; a
vector whose inner product is exactly `0.5` comes after it. -/
theorem C78_cancellation : ∃ c : Coll, Reach dotLib32 8 c ∧
    (c.get dotLib32 [0, 1]).toOption.map (List.map Object.vec) = some [some cancel8, some half8] ∧
    hitList (c.semanticSearch dotLib32 (obj32 ones8) noEmbed 2) = some [(0, 0), (1, fHalf)] ∧
    innerProd cancel8 ones8 = 1 ∧ innerProd half8 ones8 = 1 / 2 := by
  refine ⟨(state32 dotLib32 8 [cancel8, half8]).1, reach_dot32 _, ?_, ?_, ?_, ?_⟩
  · decide +kernel
  · decide +kernel
  · decide +kernel
  · decide +kernel

/-- the hypotheses are met: finite vectors with computed distances. -/
example : FiniteVec [f1, f4] ∧ FiniteVec [f4, 0] ∧ euclideanDistance ieee [f1, f4] [f4, 0] = .ok 0x40A00000 ∧ val32 0x40A00000 = 5 ∧
    sqDist [f1, f4] [f4, 0] = 25 ∧ (dot ieee cancel8 ones8).toOption = some 0 ∧ innerAbs cancel8 ones8 = 2 ^ 25 + 1 ∧ FiniteVec cancel8 := by
  refine ⟨?_, ?_, (C44_euclidean ieee _ _ (by rfl)).trans (congrArg _ ?_), ?_, ?_, ?_, ?_, ?_⟩
  · unfold FiniteVec Finite32; decide +kernel
  · unfold FiniteVec Finite32; decide +kernel
  all_goals first | decide +kernel | (unfold FiniteVec Finite32; decide +kernel)

end Vectory
