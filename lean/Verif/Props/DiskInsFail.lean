import Verif.Props.DiskInsConc
/-! # C70 and C71: a case that meets the hypotheses, and runs in which the full claim of C71 is false -/
namespace Vectory
open DiskAnn
variable {D : Type}

namespace DiskAnn

/-- one-dimensional vectors with distance `|a - b|`, at most `limit` vectors in a part. -/
def lineParams (limit : UInt32) : Params Nat :=
  { metric := lineMetric, close := fun d c => decide (2 * d ≤ c), listSize := 10, maxDegree := 2, dim := 1, limit := limit }

/-- one step of a schedule. -/
inductive Act where
  | t (i : Nat)
  | s (j : Nat) (w : When)

/-- a schedule. -/
def World.run (P : Params D) : World → List Act → World
  | w, [] => w
  | w, .t i :: as => World.run P (w.stepTask P [] i) as
  | w, .s j t :: as => World.run P (w.stepSnap j t) as

/-- whether the steps of a schedule are allowed by `World.Step`. -/
def World.canRun (P : Params D) : World → List Act → Bool
  | _, [] => true
  | w, .t i :: as => !w.panicked && decide (w.da.currId.toNat + 1 < 18446744073709551616) && World.canRun P (w.stepTask P [] i) as
  | w, .s j t :: as => !w.panicked && World.canRun P (w.stepSnap j t) as

theorem World.Runs.trans {P : Params D} {a b c : World} (h : World.Runs P a b) (k : World.Runs P b c) : World.Runs P a c := by
  induction k with
  | refl => exact h
  | step _ s ih => exact .step ih s

theorem World.run_runs {P : Params D} : ∀ (as : List Act) (w : World), World.canRun P w as = true → World.Runs P w (World.run P w as) := by
  intro as
  induction as with
  | nil => intro w _; exact .refl w
  | cons a as ih =>
    intro w h
    cases a with
    | t i =>
      simp only [World.canRun, Bool.and_eq_true, Bool.not_eq_true', decide_eq_true_eq] at h
      exact (World.Runs.step (.refl w) (.task [] i h.1.1 h.1.2)).trans (ih _ h.2)
    | s j t =>
      simp only [World.canRun, Bool.and_eq_true, Bool.not_eq_true'] at h
      exact (World.Runs.step (.refl w) (.snap j t h.1)).trans (ih _ h.2)

end DiskAnn

/-- C70 and C71 speak of something: parts of two, four calls, one of them with a vector that is too long. -/
example : ∃ P : Params Nat, Ord P.metric.lt ∧ DimOK P.metric P.dim.toNat ∧ 1 ≤ P.limit.toNat ∧
    ∃ da, DiskAnn.insertAll P (newDA P) [([], [10]), ([], [20]), ([3], [30, 1]), ([], [40])] = .ok (da, [none, none, some .dimension, none]) ∧
      da.parts.map (fun mi => AMap.keys mi.graph) = [[1, 2], [4]] := by
  refine ⟨lineParams 2, line_ord, line_dim, by decide, ?_⟩
  obtain ⟨da, h1, _⟩ := C70_insert_sequential (lineParams 2) line_ord line_dim (by decide) [([], [10]), ([], [20]), ([3], [30, 1]), ([], [40])] (by decide)
  refine ⟨da, h1, ?_⟩
  have h2 : ((DiskAnn.insertAll (lineParams 2) (newDA (lineParams 2)) [([], [10]), ([], [20]), ([3], [30, 1]), ([], [40])]).toOption.map
      (fun r => r.1.parts.map (fun mi => AMap.keys mi.graph))) = some [[1, 2], [4]] := by decide
  rw [h1] at h2
  simpa [Except.toOption] using h2

/-- C71 fails: the caller's vector has the right length, yet it is refused as if he had written to a read-only index. Goroutine 1 picked the
newest part; before it called `insert` there, goroutine 2 found that part full and made it read-only. -/
theorem C71_spurious_refusal :
    ∃ (vs : List Vec) (w : World), World.Runs (lineParams 1) (World.start (lineParams 1) vs) w ∧
      (∀ v ∈ vs, v.length = 1) ∧ ∃ (i : Nat) (v : Vec) (id : UInt64), w.tasks[i]? = some (v, .done id (some .readOnly)) := by
  refine ⟨[[10], [20], [30]], World.run (lineParams 1) (World.start (lineParams 1) [[10], [20], [30]]) ([0, 0, 0, 1, 1, 1, 0, 0, 2, 1].map .t),
    World.run_runs _ _ (by decide), by decide, 1, [20], 2, by decide⟩

/-- C71 fails: a part grows past the limit. Both goroutines found room for one. -/
theorem C71_limit_exceeded :
    ∃ (vs : List Vec) (w : World), World.Runs (lineParams 1) (World.start (lineParams 1) vs) w ∧
      ∃ (mi : MemIndex), w.da.parts[0]? = some mi ∧ mi.readOnly = false ∧ mi.graph.length = 2 := by
  refine ⟨[[10], [20]], World.run (lineParams 1) (World.start (lineParams 1) [[10], [20]]) ([0, 0, 0, 1, 1, 1, 0, 0, 1, 1, 1].map .t),
    World.run_runs _ _ (by decide), ?_⟩
  have h : ∃ mi ∈ (World.run (lineParams 1) (World.start (lineParams 1) [[10], [20]]) ([0, 0, 0, 1, 1, 1, 0, 0, 1, 1, 1].map .t)).da.parts[0]?,
      mi.readOnly = false ∧ mi.graph.length = 2 := by decide
  exact h

/-- C71 fails: the file written for a part that became read-only holds another part. The goroutine started for part 0 evaluates
`da.rwIndex` only after it was replaced; no file is ever written for part 0. -/
theorem C71_snapshot_of_wrong_part :
    ∃ (vs : List Vec) (w : World), World.Runs (lineParams 1) (World.start (lineParams 1) vs) w ∧ w.snaps = [.finished] ∧
      ∃ (mi ro : MemIndex), w.da.parts[0]? = some ro ∧ ro.readOnly = true ∧ ro.graph ≠ [] ∧ w.files = [(1, mi)] ∧
        mi.graph.length = 1 ∧ ∀ k ∈ AMap.keys ro.graph, k ∉ AMap.keys mi.graph := by
  refine ⟨[[10], [20]], World.run (lineParams 1) (World.start (lineParams 1) [[10], [20]])
    (([0, 0, 0, 0, 0, 1, 1, 1, 1, 1].map .t) ++ [.s 0 .late, .s 0 .late]), World.run_runs _ _ (by decide), by decide, ?_⟩
  refine ⟨((World.run (lineParams 1) (World.start (lineParams 1) [[10], [20]])
    (([0, 0, 0, 0, 0, 1, 1, 1, 1, 1].map .t) ++ [.s 0 .late, .s 0 .late])).da.parts[1]?).getD (newMemIndex 0 0 0),
    ((World.run (lineParams 1) (World.start (lineParams 1) [[10], [20]])
    (([0, 0, 0, 0, 0, 1, 1, 1, 1, 1].map .t) ++ [.s 0 .late, .s 0 .late])).da.parts[0]?).getD (newMemIndex 0 0 0), by decide, by decide, by decide, by decide, by decide, by decide⟩

namespace DiskAnn

theorem past_step {P : Params D} (w : Ord P.metric.lt) (hd : DimOK P.metric P.dim.toNat) {da : DA} (i : PInv P da) {mi : MemIndex}
    (hmi : da.parts[da.rw]? = some mi) (hpast : P.limit.toNat < mi.graph.length) (hsz : mi.graph.length < 4294967296)
    (hb : da.currId.toNat + 1 < 18446744073709551616) (del : List UInt32) (v : Vec) (hv : v.length = P.dim.toNat) :
    ∃ da' mi', da.insert P del v = .ok (da', none) ∧ PInv P da' ∧ da'.currId.toNat = da.currId.toNat + 1 ∧
      da'.parts.length = da.parts.length ∧ da'.parts[da'.rw]? = some mi' ∧ mi'.graph.length = mi.graph.length + 1 := by
  have hnf : da.full P = false := by
    unfold DA.full
    rw [hmi]
    simp only [MemIndex.sizeNow, beq_eq_false_iff_ne]
    intro h
    have := congrArg UInt32.toNat h
    simp at this
    omega
  have hrot : da.rotate P = da := by unfold DA.rotate; rw [hnf]; rfl
  have hcn : (da.currId + 1).toNat = da.currId.toNat + 1 := by
    rw [UInt64.toNat_add]
    show (da.currId.toNat + 1) % 18446744073709551616 = _
    omega
  have i2 : PInv P { da with currId := da.currId + 1 } :=
    ⟨i.ne, i.part, fun p mi h k hk => by
      have := i.below p mi h k hk
      show k.toNat < (da.currId + 1).toNat
      omega, i.disj, i.last⟩
  obtain ⟨da', r, h1, h2, h3, h4, _, _, h7, _, h9⟩ := put_spec w hd i2 del (p := da.rw) hmi v da.currId
    (by show da.currId.toNat < (da.currId + 1).toNat; omega) (fun q mi' hq hk => by have := i.below q mi' hq _ hk; omega)
  have hr := h7 (i.last mi hmi) hv
  subst hr
  obtain ⟨_, mi', k2, k3, _⟩ := h9 rfl
  have hrw : da'.rw = da.rw := by unfold DA.rw; rw [h4]
  refine ⟨da', mi', ?_, h2, by rw [h3]; exact hcn, h4, ?_, k3⟩
  · unfold DA.insert
    rw [hrot]
    exact h1
  · rw [hrw, k2]
    dsimp only
    rw [List.getElem?_set, if_pos rfl, if_pos (DA.rw_lt i.ne)]

end DiskAnn

/-- C71 fails for good: once the newest part has outgrown the limit, in whatever run, and the calls so far have returned, no later call ever
starts a new part: all later
vectors go into it, however many there are (as long as its size fits 32 bits). -/
theorem C71_never_rotates_again (P : Params D) (o : Ord P.metric.lt) (hd : DimOK P.metric P.dim.toNat) (vs : List Vec) (w : World)
    (r : World.Runs P (World.start P vs) w) (mi : MemIndex) (hmi : w.da.parts[w.da.rw]? = some mi) (hpast : P.limit.toNat < mi.graph.length)
    (hret : ∀ t ∈ w.tasks, ∃ id r, t.2 = .done id r)
    (ops : List (List UInt32 × Vec)) (hv : ∀ op ∈ ops, op.2.length = P.dim.toNat) (hsz : mi.graph.length + ops.length < 4294967296)
    (hb : w.da.currId.toNat + ops.length < 18446744073709551616) :
    ∃ da' mi', DiskAnn.insertAll P w.da ops = .ok (da', ops.map (fun _ => none)) ∧ da'.parts.length = w.da.parts.length ∧
      da'.parts[w.da.rw]? = some mi' ∧ mi'.graph.length = mi.graph.length + ops.length := by
  have i := (DiskAnn.winv_runs o hd r).pinv (fun j v id p h => by
    obtain ⟨_, _, h'⟩ := hret _ (List.mem_of_getElem? h)
    cases h')
  clear r hret
  generalize w.da = da at *
  clear w vs
  induction ops generalizing da mi with
  | nil => exact ⟨da, mi, rfl, rfl, hmi, rfl⟩
  | cons op ops ih =>
    obtain ⟨del, v⟩ := op
    simp only [List.length_cons] at hsz hb
    obtain ⟨d1, m1, h1, i1, c1, l1, g1, s1⟩ := DiskAnn.past_step o hd i hmi hpast (by omega) (by omega) del v (hv _ List.mem_cons_self)
    obtain ⟨d2, m2, k1, k2, k3, k4⟩ := ih m1 (by omega) (fun op h => hv op (by simp [h])) (by omega) d1 g1 (by omega) i1
    refine ⟨d2, m2, ?_, by rw [k2, l1], ?_, by rw [k4, s1]; simp only [List.length_cons]; omega⟩
    · unfold DiskAnn.insertAll
      rw [h1, ok_bind]
      dsimp only
      rw [k1, ok_bind]
      rfl
    · have : d1.rw = da.rw := by unfold DA.rw; rw [l1]
      rw [← this]; exact k3

end Vectory
