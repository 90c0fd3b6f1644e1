import Verif.Lemmas.ConcRace
import Verif.Props.ConcLive
/-!
# Concurrent inserts without the race (C50, C51, C62)

The only thing that can go wrong is the race of `Spec/Race.lean`: on every schedule of the program as it is that never passes through
it, with any levels, C50, C51 and C62 hold. (`C50_fails`, `C51_fails` and `C62_fails` are schedules that pass through it; batches of
level 0 never do, `C50_level_zero_no_race`.)
-/
namespace Vectory.Conc
open Vectory
variable {V D : Type}

/-- C50 for the program as it is, for all levels: on every schedule that never passes through the race, at every moment no worker
has panicked, the graph is sound, and every prefix of the log replays to a sound graph. -/
theorem C50_race_free (L : Lib V D) (dim : Nat) (c : Coll) (hr : ReachAny L dim c) (n : Nat) (js : List Job) (m : Mach D)
    (hs : RaceFree L.metric dim (Mach.init c.index n) js m) :
    (∀ t ∈ m.ts, t.pc.panicked = false) ∧ Sound m.h ∧
      ∀ p, p <+: logOf m.h → ∃ s, loadFromWAL (Hnsw.empty m.h.cfg p) p = .ok s ∧ Sound s :=
  C50_with_lock L dim c hr n js m (race_free_fixed hr.weak.1.dimM (reach_start hr n) hs)

/-- C51 for the program as it is, for all levels: when the workers are done after a schedule that never passed through the race,
replaying the log gives the graph in memory; exactly the vertices of the batch were added, with their vectors; and searches do not
panic. -/
theorem C51_race_free (L : Lib V D) (dim : Nat) (c : Coll) (hr : ReachAny L dim c) (n : Nat) (js : List Job) (m : Mach D)
    (hs : RaceFree L.metric dim (Mach.init c.index n) js m) (hq : m.quiet) :
    LogMatches m.h ∧ Grown c.index js m.h ∧
      ∀ (q : Vec) (k : Int), q.length = dim → 0 ≤ k → m.h.nodes ≠ [] → ∃ r, m.h.search L.metric q k = .ok r :=
  over hr (race_free_fixed hr.weak.1.dimM (reach_start hr n) hs) hq

/-- C62 for the program as it is, for all levels: whatever the scheduler does from there on, the calls in progress take boundedly many
steps in all; and as long as the schedule does not pass through the race, they have all returned or one of them can make a step that
does not lead into the race either. -/
theorem C62_race_free (L : Lib V D) (dim : Nat) (c : Coll) (hr : ReachAny L dim c) (n : Nat) (js : List Job) (m : Mach D) :
    ∃ B, ∀ (is : List Nat) (m' : Mach D), m.run false L.metric (is.map Act.run) = some m' → is.length ≤ B ∧
      (RaceFree L.metric dim (Mach.init c.index n) js m' →
        m'.quiet ∨ ∃ i m'', m'.step false L.metric (.run i) = some m'' ∧ ¬ Race m'') := by
  obtain ⟨B, hB⟩ := C62_bounded false L.metric m
  refine ⟨B, fun is m' h => ⟨hB is m' h, fun hf => ?_⟩⟩
  have hs := race_free_fixed hr.weak.1.dimM (reach_start hr n) hf
  obtain ⟨an, i⟩ := sched_inv hr.weak.1.dimM hs (reach_start hr n)
  by_cases hq : m'.quiet
  · exact Or.inl hq
  · obtain ⟨k, m'', hk⟩ := C62_no_deadlock true L.metric m' (inv_sound i).1 hq
    obtain ⟨an', i'⟩ := sched_inv hr.weak.1.dimM (.run k hs hk) (reach_start hr n)
    exact Or.inr ⟨k, m'', step_real hk, inv_no_race i'⟩

/-- when every level drawn in the batch is 0, no schedule passes through the race. -/
theorem C50_level_zero_no_race (L : Lib V D) (dim : Nat) (c : Coll) (hr : ReachAny L dim c) (n : Nat) (js : List Job) (m : Mach D)
    (hs : Sched false L.metric dim (Mach.init c.index n) js m) (h0 : ∀ j ∈ js, j.level = 0) :
    RaceFree L.metric dim (Mach.init c.index n) js m :=
  fixed_race_free hr.weak.1.dimM (reach_start hr n)
    (sched_level0 hr.weak.1.dimM (init_quiet _ _) (reach_start hr n) hs h0).1

/-- every legal schedule is race-free or passes through the race. -/
theorem C50_race_or_not (M : Metric D) (dim : Nat) (m₀ : Mach D) (js : List Job) (m : Mach D) (hs : Sched false M dim m₀ js m) :
    RaceFree M dim m₀ js m ∨
      ∃ js₁ js₂ m₁, js = js₁ ++ js₂ ∧ Sched false M dim m₀ js₁ m₁ ∧ Race m₁ ∧ Sched false M dim m₁ js₂ m := by
  induction hs with
  | start => exact Or.inl .start
  | @run js m₁ m₂ i h1 h ih =>
    rcases ih with ih | ⟨js₁, js₂, m', e, a, b, d⟩
    · by_cases hr : Race m₂
      · exact Or.inr ⟨js, [], m₂, by simp, .run i h1 h, hr, .start⟩
      · exact Or.inl (.run i ih h hr)
    · exact Or.inr ⟨js₁, js₂, m', e, a, b, .run i d h⟩
  | @call js m₁ m₂ i j h1 hf hj h ih =>
    rcases ih with ih | ⟨js₁, js₂, m', e, a, b, d⟩
    · by_cases hr : Race m₂
      · exact Or.inr ⟨js ++ [j], [], m₂, by simp, .call i j h1 hf hj h, hr, .start⟩
      · exact Or.inl (.call i j ih hf hj h hr)
    · exact Or.inr ⟨js₁, js₂ ++ [j], m', by rw [e, List.append_assoc], a, b, .call i j d hf hj h⟩

/-! ### The hypotheses are met -/

/-- a race-free interleaved schedule with levels 0, 1, 1 and 2 in which all the calls return. -/
example : ∃ (js : List Job) (m : Mach Nat), RaceFree demoLib.metric 1 (Mach.init (Coll.new demoCfg [] false).index 2) js m ∧
    js.map Job.level = [0, 1, 1, 2] ∧ m.quiet ∧ m.h.maxLayer = 2 := by
  have h : (match altPlay true 1 1 2 with
    | some (js, m) => decide (js.map Job.level = [0, 1, 1, 2]) && (m.ts.all (fun t => !t.pc.active) &&
        decide (m.h.maxLayer = 2))
    | none => false) = true := by decide +kernel
  split at h
  · rename_i js m hp
    simp only [Bool.and_eq_true, decide_eq_true_eq] at h
    obtain ⟨h1, h3, h4⟩ := h
    unfold altPlay at hp
    split at hp
    · cases hp
    · have hr := race_reach demoCfg (by constructor <;> decide)
      refine ⟨js, m, fixed_race_free hr.weak.1.dimM (reach_start hr 2) (play_sched _ _ _ _ hp), h1, ?_, h4⟩
      intro t ht; simpa using List.all_eq_true.mp h3 t ht
  · cases h

/-- the check of `Race` for two workers. -/
def raceB (m : Mach Nat) : Bool :=
  match m.ts[0]?, m.ts[1]? with
  | some t, some u => t.pc.writesOwn && u.held false == some t.job.id
  | _, _ => false

/-- the schedules of the counterexamples do pass through the race: while worker 0 stands before `insert.go:75` with vertex 2,
worker 1 holds the lock of vertex 2. -/
example : ∃ (js : List Job) (m : Mach Nat), Sched false demoLib.metric 1 (Mach.init (Coll.new demoCfg [] false).index 2) js m ∧
    Race m := by
  obtain ⟨js, m, h1, h2⟩ := leadsTo_sched (cfg := demoCfg)
    (acts := raceActs 50 ++ .call 1 ⟨5, [12], 1⟩ :: runs 1 16) (P := raceB) (by decide +kernel)
  refine ⟨js, m, h1, ?_⟩
  unfold raceB at h2
  split at h2
  · rename_i t u ht hu
    simp only [Bool.and_eq_true, beq_iff_eq] at h2
    exact ⟨0, 1, t, u, by decide, ht, hu, h2.1, h2.2⟩
  · cases h2

end Vectory.Conc
