import Verif.Lemmas.Level
import Verif.Props.Crash
import Verif.Spec.Demo
/-! C86: the level drawn for a vector. -/
namespace Vectory.Level
variable {V D : Type}

/-- C86, the range: whatever `rand.Float64` returns other than 0, the level lies between 0 and 63 - so it always fits the 32
bits of a log record, as `Legal` asks. -/
theorem C86_level_range (F : Float64Ops) (hF : Accurate F) (m : Nat) (h2 : 2 ≤ m) (hm : m ≤ 2 ^ 53) (u : ℝ) (hu : Draw u) :
    0 ≤ drawLevel F m u ∧ drawLevel F m u ≤ 63 := by
  obtain ⟨p, h, n⟩ := draw_near hF h2 hm hu
  obtain ⟨_, t2⟩ := ideal_bounds h2 hm hu
  rw [h]
  refine ⟨Int.floor_nonneg.mpr (n.pos (by norm_num)).le, ?_⟩
  have : ⌊p⌋ < 64 := by
    rw [Int.floor_lt]
    have := n.2.2
    have hs := dlt_small
    have hd := dlt_pos
    have := n.1
    push_cast
    nlinarith
  omega

/-- C86, the distribution: the level is at least `l` when `u ≤ m^-l`, and below `l` when `u > m^-l`, except possibly in a
window of relative width `2^-32` around `m^-l`. So the level reaches `l` with probability `m^-l`. -/
theorem C86_level_distribution (F : Float64Ops) (hF : Accurate F) (m : Nat) (h2 : 2 ≤ m) (hm : m ≤ 2 ^ 53) (u : ℝ) (hu : Draw u)
    (l : Nat) :
    (u * m ^ l ≤ 1 - 1 / 2 ^ 32 → (l : Int) ≤ drawLevel F m u) ∧
    (1 + 1 / 2 ^ 32 ≤ u * m ^ l → drawLevel F m u < l) := by
  obtain ⟨p, h, n⟩ := draw_near hF h2 hm hu
  obtain ⟨t1, t2⟩ := ideal_bounds h2 hm hu
  obtain ⟨a1, a2⟩ := log_m h2 hm
  have l1 := log_two_ge
  have hA : 0 < Real.log m := by linarith
  have hu0 : 0 < u := lt_of_lt_of_le (by positivity) hu.1
  have hm0 : (0 : ℝ) < m := by exact_mod_cast (by omega : 0 < m)
  have hlog : Real.log (u * m ^ l) = (l - ideal m u) * Real.log m := by
    rw [Real.log_mul hu0.ne' (by positivity), Real.log_pow]
    unfold ideal; field_simp; ring
  have h8 : 8 * dlt * 63 ≤ 1 / 2 ^ 41 := by unfold dlt; norm_num
  have hd := dlt_pos
  have hp : |p - ideal m u| ≤ 1 / 2 ^ 41 := by
    rw [abs_le]
    have e1 : ideal m u * (8 * dlt) ≤ 63 * (8 * dlt) := mul_le_mul_of_nonneg_right t2 (by positivity)
    have := n.2.1; have := n.2.2
    constructor <;> nlinarith
  rw [abs_le] at hp
  rw [h]
  have hpos : (0 : ℝ) < u * m ^ l := by positivity
  constructor
  · intro hle
    rw [Int.le_floor]
    push_cast
    have e1 := Real.log_le_sub_one_of_pos hpos
    rw [hlog] at e1
    have e2 : 1 / 2 ^ 32 ≤ (ideal m u - l) * Real.log m := by linarith
    by_cases hneg : ideal m u - l ≤ 0
    · have : (ideal m u - l) * Real.log m ≤ 0 := mul_nonpos_of_nonpos_of_nonneg hneg hA.le
      exact absurd (e2.trans this) (by norm_num)
    · have : (ideal m u - l) * Real.log m ≤ (ideal m u - l) * 53 := mul_le_mul_of_nonneg_left a2 (by linarith)
      have e3 : (1 : ℝ) / 2 ^ 32 / 53 ≤ ideal m u - l := by linarith
      have e4 : (1 : ℝ) / 2 ^ 41 ≤ 1 / 2 ^ 32 / 53 := by norm_num
      linarith [hp.1]
  · intro hge
    rw [Int.floor_lt]
    push_cast
    have e1 := Real.one_sub_inv_le_log_of_pos hpos
    rw [hlog] at e1
    have e0 : (u * m ^ l)⁻¹ ≤ 1 - 1 / 2 ^ 33 := by
      rw [inv_le_comm₀ hpos (by norm_num)]
      refine le_trans ?_ hge
      norm_num
    have e2 : 1 / 2 ^ 33 ≤ (l - ideal m u) * Real.log m := by linarith
    by_cases hneg : l - ideal m u ≤ 0
    · have : (l - ideal m u) * Real.log m ≤ 0 := mul_nonpos_of_nonpos_of_nonneg hneg hA.le
      exact absurd (e2.trans this) (by norm_num)
    · have : (l - ideal m u) * Real.log m ≤ (l - ideal m u) * 53 := mul_le_mul_of_nonneg_left a2 (by linarith)
      have e3 : (1 : ℝ) / 2 ^ 33 / 53 ≤ l - ideal m u := by linarith
      have e4 : (1 : ℝ) / 2 ^ 41 < 1 / 2 ^ 33 / 53 := by norm_num
      linarith [hp.2]

/-- non-vacuous: with `m = 16` and a draw of `1/1000` the level is 2. -/
example : drawLevel exactOps 16 (1 / 1000) = 2 := by
  have hu : Draw (1 / 1000) := by constructor <;> norm_num
  have h1 := (C86_level_distribution exactOps exact_accurate 16 (by norm_num) (by norm_num) _ hu 2).1 (by norm_num)
  have h2 := (C86_level_distribution exactOps exact_accurate 16 (by norm_num) (by norm_num) _ hu 3).2 (by norm_num)
  push_cast at h1 h2
  omega

theorem rest_eq (M : Metric D) (h : Hnsw) (hm : h.cfg.m ≠ 1) (vec : Vec) (id : UInt64) (level : Nat) :
    h.insertRest M vec id level (List.replicate (level + 1) []) = h.insertNext M vec id level := by
  unfold Hnsw.insertRest Hnsw.insertNext
  rw [if_neg hm]

theorem init_ok {n : Int} (h0 : 0 ≤ n) (h1 : n ≤ 63) :
    vertexInit (addInt64 n 1) = .ok (List.replicate (n.toNat + 1) []) := by
  have e : addInt64 n 1 = n + 1 := by unfold addInt64; omega
  rw [e]; unfold vertexInit
  rw [if_neg (by omega), if_neg (by omega)]
  congr 2; omega

/-- C86, the model of the other properties: an insertion whose draw is not 0 is an insertion with a level of at most 63, the
one computed from the draw. -/
theorem C86_insert (F : Float64Ops) (hF : Accurate F) (M : Metric D) (h : Hnsw) (h2 : 2 ≤ h.cfg.m) (hm : h.cfg.m ≤ 2 ^ 53)
    (u : ℝ) (hu : Draw u) (vec : Vec) (id : UInt64) :
    (drawLevel F h.cfg.m u).toNat ≤ 63 ∧ h.insertDraw F M vec id u = h.insert M vec id (drawLevel F h.cfg.m u).toNat := by
  obtain ⟨r0, r1⟩ := C86_level_range F hF _ h2 hm u hu
  refine ⟨by omega, ?_⟩
  unfold Hnsw.insertDraw Hnsw.insert
  split
  · rfl
  · simp only [init_ok r0 r1]
    exact rest_eq M { h with once := true } (by simp only; omega) vec id _

/-- C86, the same for a whole `Insert` of a collection. -/
theorem C86_collection_insert (F : Float64Ops) (hF : Accurate F) (L : Lib V D) (c : Coll) (h2 : 2 ≤ c.index.cfg.m)
    (hm : c.index.cfg.m ≤ 2 ^ 53) (o : Object V) (env : InsEnv) (u : ℝ) (hu : Draw u) :
    ∃ level, level ≤ 63 ∧ level = (drawLevel F c.index.cfg.m u).toNat ∧
      ∀ c' o' e, c.insertOne L o { env with level := level } = .ok (c', o', e) → c.insertDraw F L o env u = .returned c' e := by
  refine ⟨_, (C86_insert F hF L.metric c.index h2 hm u hu [] 0).1, rfl, ?_⟩
  intro c' o' e hc
  unfold Coll.insertOne at hc
  unfold Coll.insertDraw
  rcases hf : fetchAndInc c.counter env.counterFails with ⟨ctr, r⟩
  cases r with
  | error e => simp only [hf] at hc ⊢; cases hc; rfl
  | ok id =>
    simp only [hf] at hc ⊢
    rcases hp : putObject L.json c.stores { o with id := id } env.put with ⟨st, pe⟩
    cases pe with
    | some e => simp only [hp] at hc ⊢; cases hc; rfl
    | none =>
      simp only [hp] at hc ⊢
      rw [(C86_insert F hF L.metric c.index h2 hm u hu _ _).2]
      rcases hi : c.index.insert L.metric (o.vec.getD []) id (drawLevel F c.index.cfg.m u).toNat with p | idx
      · simp only [hi] at hc; cases hc
      · simp only [hi] at hc ⊢; cases hc; rfl

theorem wild_init {F : Float64Ops} (hF : Accurate F) : vertexInit (addInt64 F.wild 1) = .error .makeLen := by
  rcases hF.wild with h | h <;> rw [h] <;> rfl

theorem zero_level {F : Float64Ops} (hF : Accurate F) {m : Nat} (h2 : 2 ≤ m) (hm : m ≤ 2 ^ 53) : drawLevel F m 0 = F.wild := by
  obtain ⟨a1, a2⟩ := log_m h2 hm
  have l1 := log_two_ge
  have h2' : (2 : ℝ) ≤ m := by exact_mod_cast h2
  have hm' : (m : ℝ) ≤ 2 ^ 53 := by exact_mod_cast hm
  have na : Near 1 (F.log m) (Real.log m) :=
    near_of_close (by linarith) (hF.log m (le_trans (by norm_num) h2') (hm'.trans (by norm_num)))
  have ha := na.pos (by norm_num)
  unfold drawLevel mL goLog
  rw [if_pos rfl, if_neg (by linarith)]
  simp only [goRecip, goNeg]
  rw [if_neg ha.ne']
  simp only [goMul]
  split <;> rfl

theorem one_level {F : Float64Ops} (hF : Accurate F) {u : ℝ} (hu : u = 0 ∨ Draw u) : drawLevel F 1 u = F.wild := by
  unfold drawLevel mL goLog
  simp only [Nat.cast_one, one_ne_zero, if_false, hF.log_one, goRecip, if_true]
  split
  · rfl
  · simp only [goNeg, goMul]
    split <;> rfl

/-- C86, what goes wrong: when `rand.Float64` returns 0, or with `m = 1` whatever it returns, an insertion into an index that
was used before panics. -/
theorem C86_zero_panics (F : Float64Ops) (hF : Accurate F) (M : Metric D) (h : Hnsw) (hne : h.once = true ∨ h.nodes ≠ [])
    (u : ℝ) (hu : h.cfg.m = 1 ∧ (u = 0 ∨ Draw u) ∨ 2 ≤ h.cfg.m ∧ h.cfg.m ≤ 2 ^ 53 ∧ u = 0) (vec : Vec) (id : UInt64) :
    h.insertDraw F M vec id u = .error .makeLen := by
  have e : drawLevel F h.cfg.m u = F.wild := by
    rcases hu with ⟨h1, h2⟩ | ⟨h1, h2, rfl⟩
    · rw [h1]; exact one_level hF h2
    · exact zero_level hF h1 h2
  unfold Hnsw.insertDraw
  rw [if_neg (by rintro ⟨a, b⟩; rcases hne with k | k <;> simp_all)]
  simp only [e, wild_init hF]
  rfl

/-- C86, histories: in every state reached by calls, crashes and reopens, inserting an object whose vector has the dimension
of the collection does not panic unless the draw is 0, and does exactly what it does in the model of the other properties
with a level that `Legal` allows. -/
theorem C86_no_panic (F : Float64Ops) (hF : Accurate F) (L : Lib V D) (dim : Nat) (c : Coll) (hr : ReachAny L dim c)
    (o : Object V) (hd : (o.vec.getD []).length = dim) (hcnt : c.counter.count.toNat + 1 < 18446744073709551616)
    (env : InsEnv) (u : ℝ) (hu : Draw u) :
    ∃ level c' o' e, level < 4294967296 ∧ c.insertOne L o { env with level := level } = .ok (c', o', e) ∧
      c.insertDraw F L o env u = .returned c' e := by
  obtain ⟨i, _⟩ := hr.weak
  have := i.cfg.mM; have := i.cfg.small
  obtain ⟨level, h1, _, h3⟩ := C86_collection_insert F hF L c i.cfg.m2 (by omega) o env u hu
  obtain ⟨c', o', e, k, _⟩ := insertOne_spec (env := { env with level := level }) i hd (by simp only; omega) (by omega)
  exact ⟨level, c', o', e, by omega, k, h3 _ _ _ k⟩

/-- C86, and the data: in every state reached by calls, crashes and reopens, an `Insert` whose draw is 0 panics after the
object and its vector were stored and before the index log says so; if the panic ends the process, the collection cannot be
opened any more. -/
theorem C86_zero_loses (F : Float64Ops) (hF : Accurate F) (L : Lib V D) (dim : Nat) (c : Coll) (hr : ReachAny L dim c)
    (hne : c.index.nodes ≠ []) (o : Object V) (hl : (Ev.crashInsert [] o 0 .vector : Ev V D).Legal L dim c) :
    ∃ d, c.insertDraw F L o {} 0 = .panicked .makeLen d ∧
      openColl c.index.cfg c.mappings c.hasEmbedder d = .error (.panic .nilDeref) := by
  obtain ⟨i, _⟩ := hr.weak
  have := i.cfg.mM; have := i.cfg.small
  obtain ⟨d, h1, h2⟩ := C31_unopenable_after_vector L dim c hr o 0 hl
  obtain ⟨_, hcc, _, _, _, hj, _, _⟩ := hl
  obtain ⟨b, hb⟩ := Option.isSome_iff_exists.mp hj
  refine ⟨d, ?_, h2⟩
  cases h1
  unfold Coll.insertDraw
  have hz := C86_zero_panics F hF L.metric c.index (Or.inr hne) 0 (Or.inr ⟨i.cfg.m2, by omega, rfl⟩) (o.vec.getD []) c.counter.count
  simp only [fetchAndInc, hcc, Bool.false_or, Bool.false_eq_true, if_false, putObject, serializeProperties, hb, reduceCtorEq, hz,
    Coll.disk]

/-- non-vacuous: the hypotheses hold in the state of the examples of C31 (three vectors), for exact arithmetic. -/
example : ReachAny demoLib 1 (demoState demoCfg c31Ops) ∧ (demoState demoCfg c31Ops).index.nodes ≠ [] ∧
    (Ev.crashInsert [] (demoObj 8) 0 .vector : Ev UInt8 Nat).Legal demoLib 1 (demoState demoCfg c31Ops) ∧ Draw (1 / 1000) :=
  ⟨c31_state.1, by decide, ⟨by decide, by decide, (by intro x hx; cases hx), rfl, by decide, rfl, by decide, trivial⟩,
    by constructor <;> norm_num⟩

end Vectory.Level
