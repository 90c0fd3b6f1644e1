import Verif.Lemmas.ConcLive
import Verif.Props.Conc
/-!
# Concurrent inserts finish (C62)

From any state, whatever the schedule, the calls in progress can make only boundedly many steps between them (`C62_bounded`), and
as long as one of them has not returned and nobody has panicked, some goroutine can move (`C62_no_deadlock`). Together: the calls
return, under every scheduler, unless somebody panics. Under the assumptions of C50 nobody does, so the calls always return.

After a panic (`C50_fails`) the lock that the goroutine held stays locked, and later calls wait for it forever: `C62_fails`.
-/
namespace Vectory.Conc
open Vectory
variable {V D : Type}

/-- however the goroutines are scheduled, the calls in progress take boundedly many steps in all. No assumption on the index. -/
theorem C62_bounded (fixed : Bool) (M : Metric D) (m : Mach D) :
    ∃ B, ∀ (is : List Nat) (m' : Mach D), m.run fixed M (is.map Act.run) = some m' → is.length ≤ B :=
  ⟨total (dimsOf m) m, fun is m' h => Nat.le_of_add_right_le (run_length is m m' (fits_dims m) h)⟩

/-- no deadlock: if nobody has panicked and some call has not returned, some goroutine can move. No assumption on the index. -/
theorem C62_no_deadlock (fixed : Bool) (M : Metric D) (m : Mach D) (hp : ∀ t ∈ m.ts, t.pc.panicked = false) (hq : ¬ m.quiet) :
    ∃ i m', m.step fixed M (.run i) = some m' := by
  refine progress hp (Classical.byContradiction fun hc => ?_)
  refine hq (fun t ht => ?_)
  rw [Bool.eq_false_iff]
  exact fun h => hc ⟨t, ht, h⟩

/-- a schedule followed by more steps. -/
theorem sched_more {fixed : Bool} {M : Metric D} {dim : Nat} {m₀ : Mach D} {js : List Job} : ∀ (is : List Nat) (m m' : Mach D),
    Sched fixed M dim m₀ js m → m.run fixed M (is.map Act.run) = some m' → Sched fixed M dim m₀ js m' := by
  intro is
  induction is with
  | nil => intro m m' hs h; cases h; exact hs
  | cons i is ih =>
    intro m m' hs h
    simp only [List.map_cons, Mach.run] at h
    cases h1 : m.step fixed M (.run i) with
    | none => rw [h1] at h; cases h
    | some m1 => rw [h1] at h; exact ih m1 m' (.run i hs h1) h

/-- the calls in progress in `m` return, whatever the scheduler does: there is a bound on the number of steps, and as long as one
of them has not returned a step is possible. -/
def Finishes (fixed : Bool) (M : Metric D) (m : Mach D) : Prop :=
  ∃ B, ∀ (is : List Nat) (m' : Mach D), m.run fixed M (is.map Act.run) = some m' →
    is.length ≤ B ∧ (m'.quiet ∨ ∃ i m'', m'.step fixed M (.run i) = some m'')

/-- C62 for the program as it is, when every level drawn is 0. Excluded: levels above 0, where it is false (`C62_fails`). -/
theorem C62_level_zero (L : Lib V D) (dim : Nat) (c : Coll) (hr : ReachAny L dim c) (n : Nat) (js : List Job) (m : Mach D)
    (hs : Sched false L.metric dim (Mach.init c.index n) js m) (h0 : ∀ j ∈ js, j.level = 0) : Finishes false L.metric m := by
  obtain ⟨B, hB⟩ := C62_bounded false L.metric m
  refine ⟨B, fun is m' h => ⟨hB is m' h, ?_⟩⟩
  have hp := (C50_level_zero L dim c hr n js m' (sched_more is m m' hs h) h0).1
  by_cases hq : m'.quiet
  · exact Or.inl hq
  · exact Or.inr (C62_no_deadlock false L.metric m' hp hq)

/-- C62 for all levels, for the program in which `insert.go:73-75` runs under the lock of the new vertex. -/
theorem C62_with_lock (L : Lib V D) (dim : Nat) (c : Coll) (hr : ReachAny L dim c) (n : Nat) (js : List Job) (m : Mach D)
    (hs : Sched true L.metric dim (Mach.init c.index n) js m) : Finishes true L.metric m := by
  obtain ⟨B, hB⟩ := C62_bounded true L.metric m
  refine ⟨B, fun is m' h => ⟨hB is m' h, ?_⟩⟩
  have hp := (C50_with_lock L dim c hr n js m' (sched_more is m m' hs h)).1
  by_cases hq : m'.quiet
  · exact Or.inl hq
  · exact Or.inr (C62_no_deadlock true L.metric m' hp hq)

/-! ### The counterexample -/

/-- goroutine `i` waits, in a search, for a lock that a dead goroutine holds. -/
def Stuck (M : Metric D) (i : Nat) (m : Mach D) : Prop :=
  ∃ (t : Thread D) (cur : Nat) (ph : Phase) (s : SL D) (buf : List UInt64) (c : Elem D) (rest : List (Elem D)) (f : Elem D)
    (k : Nat) (tk : Thread D) (p : Panic),
    m.ts[i]? = some t ∧ t.pc = .pop cur ph s buf ∧ Heap.pop (minLess M.lt) s.cands = some (c, rest) ∧ Heap.peek s.nn = some f ∧
    M.lt f.dist c.dist = false ∧ c.id ∈ m.h.nodes.keys ∧ m.ts[k]? = some tk ∧ tk.pc = .dead p (some c.id)

theorem stuck_step {fixed : Bool} {M : Metric D} {i : Nat} {m m' : Mach D} {a : Act} (hs : Stuck M i m)
    (h : m.step fixed M a = some m') : Stuck M i m' ∧ m'.ts[i]? = m.ts[i]? := by
  obtain ⟨t, cur, ph, s, buf, c, rest, f, k, tk, p, h1, h2, h3, h4, h5, h6, h7, h8⟩ := hs
  have hlock : lockedBy fixed m.ts c.id = true := by
    refine List.any_eq_true.mpr ⟨tk, List.mem_of_getElem? h7, ?_⟩
    unfold Thread.held; rw [h8]; simp [PC.held]
  cases a with
  | run a =>
    simp only [Mach.step] at h
    cases ha : m.ts[a]? with
    | none => rw [ha] at h; cases h
    | some ta =>
      rw [ha] at h
      dsimp only at h
      cases hst : stepPC fixed M m.h (lockedBy fixed m.ts) ta.job ta.pc with
      | none => rw [hst] at h; cases h
      | some r =>
        obtain ⟨h', pc'⟩ := r
        rw [hst] at h
        cases h
        have hai : a ≠ i := by
          rintro rfl
          rw [h1] at ha
          cases ha
          rw [h2] at hst
          obtain ⟨cv, hcv⟩ := Option.isSome_iff_exists.mp ((AMap.get?_isSome_iff _ _).mpr h6)
          simp [stepPC, h3, h4, h5, hcv, hlock] at hst
        have hak : a ≠ k := by
          rintro rfl
          rw [h7] at ha
          cases ha
          rw [h8] at hst
          cases hst
        have hk : c.id ∈ h'.nodes.keys := by
          rcases (stepPC_eff hst).nodes with ⟨hsh, _⟩ | ⟨_, _, cs, hn⟩
          · rw [hsh.keys]; exact h6
          · rw [hn, AMap.keys_set]; split
            · exact h6
            · exact List.mem_append_left _ h6
        refine ⟨⟨t, cur, ph, s, buf, c, rest, f, k, tk, p, ?_, h2, h3, h4, h5, hk, ?_, h8⟩, ?_⟩
        · show (m.ts.set a _)[i]? = _; rw [List.getElem?_set_ne hai]; exact h1
        · show (m.ts.set a _)[k]? = _; rw [List.getElem?_set_ne hak]; exact h7
        · show (m.ts.set a _)[i]? = _; rw [List.getElem?_set_ne hai]
  | call a j =>
    simp only [Mach.step] at h
    cases ha : m.ts[a]? with
    | none => rw [ha] at h; cases h
    | some ta =>
      rw [ha] at h
      dsimp only at h
      split at h
      · rename_i hidle
        cases h
        have hai : a ≠ i := by rintro rfl; rw [h1] at ha; cases ha; rw [h2] at hidle; cases hidle
        have hak : a ≠ k := by rintro rfl; rw [h7] at ha; cases ha; rw [h8] at hidle; cases hidle
        refine ⟨⟨t, cur, ph, s, buf, c, rest, f, k, tk, p, ?_, h2, h3, h4, h5, h6, ?_, h8⟩, ?_⟩
        · show (m.ts.set a _)[i]? = _; rw [List.getElem?_set_ne hai]; exact h1
        · show (m.ts.set a _)[k]? = _; rw [List.getElem?_set_ne hak]; exact h7
        · show (m.ts.set a _)[i]? = _; rw [List.getElem?_set_ne hai]
      · cases h

theorem stuck_forever {fixed : Bool} {M : Metric D} {dim : Nat} {i : Nat} {m m' : Mach D} {js : List Job} (hs : Stuck M i m)
    (h : Sched fixed M dim m js m') : Stuck M i m' ∧ m'.ts[i]? = m.ts[i]? := by
  induction h with
  | start => exact ⟨hs, rfl⟩
  | run _ _ h ih => obtain ⟨a, b⟩ := stuck_step ih.1 h; exact ⟨a, b.trans ih.2⟩
  | call _ _ _ _ _ h ih => obtain ⟨a, b⟩ := stuck_step ih.1 h; exact ⟨a, b.trans ih.2⟩

/-- after worker 1 panicked holding the lock of vertex 0, worker 0 inserts another vertex. -/
def hangActs : List Act := tornActs ++ .call 0 ⟨6, [11], 0⟩ :: runs 0 26

/-- the check of `Stuck`. -/
def stuckB (M : Metric D) (i k : Nat) (m : Mach D) : Bool :=
  match m.ts[i]?, m.ts[k]? with
  | some t, some tk =>
    match t.pc, tk.pc with
    | .pop _ _ s _, .dead _ (some x) =>
      match Heap.pop (minLess M.lt) s.cands, Heap.peek s.nn with
      | some (c, _), some f => !(M.lt f.dist c.dist) && (m.h.nodes.has c.id && c.id == x)
      | _, _ => false
    | _, _ => false
  | _, _ => false

theorem stuckB_stuck {M : Metric D} {i k : Nat} {m : Mach D} (h : stuckB M i k m = true) : Stuck M i m := by
  unfold stuckB at h
  split at h
  · rename_i t tk h1 h2
    split at h
    · rename_i cur ph s buf p x h3 h4
      split at h
      · rename_i c rest f h5 h6
        simp only [Bool.and_eq_true, Bool.not_eq_true', beq_iff_eq] at h
        obtain ⟨a1, a2, a3⟩ := h
        subst a3
        exact ⟨t, cur, ph, s, buf, c, rest, f, k, tk, p, h1, h3, h5, h6, a1, (AMap.has_iff _ _).mp a2, h2, h4⟩
      · cases h
    · cases h
  · cases h

/-- C62 fails for the program as it is: some schedule of legal inserts leads to a state from which the call `Insert(6)` of worker 0
never returns, whatever happens later. -/
theorem C62_fails : ∃ (c : Coll) (js : List Job) (m : Mach Nat) (t : Thread Nat), ReachAny demoLib 1 c ∧
    Sched false demoLib.metric 1 (Mach.init c.index 2) js m ∧ m.ts[0]? = some t ∧ t.job.id = 6 ∧ t.pc.active = true ∧
    t.pc.panicked = false ∧ ∀ js' m', Sched false demoLib.metric 1 m js' m' → m'.ts[0]? = some t := by
  obtain ⟨js, m, h1, h2⟩ := leadsTo_sched (cfg := demoCfg) (acts := hangActs)
    (P := fun m => stuckB demoLib.metric 0 1 m && (match m.ts[0]? with
      | some t => t.job.id == 6
      | none => false)) (by decide +kernel)
  rw [Bool.and_eq_true] at h2
  have hst := stuckB_stuck h2.1
  obtain ⟨t, cur, ph, s, buf, c, rest, f, k, tk, p, h3, h4, h5⟩ := hst
  have hid := h2.2
  rw [h3] at hid
  refine ⟨_, js, m, t, race_reach demoCfg (by constructor <;> decide), h1, h3, by simpa using hid, by rw [h4]; rfl,
    by rw [h4]; rfl, ?_⟩
  intro js' m' hs
  rw [(stuck_forever ⟨t, cur, ph, s, buf, c, rest, f, k, tk, p, h3, h4, h5⟩ hs).2, h3]

/-! ### The hypotheses of the positive theorems are met -/

/-- let worker 1 make every third step, as far as possible. -/
def altActs (fixed : Bool) (M : Metric D) : Nat → Mach D → List Act
  | 0, _ => []
  | n + 1, m =>
    let i := if n % 3 = 0 then 1 else 0
    match m.step fixed M (.run i) with
    | some m' => .run i :: altActs fixed M n m'
    | none =>
      match m.step fixed M (.run (1 - i)) with
      | some m' => .run (1 - i) :: altActs fixed M n m'
      | none => []

/-- two batches of two inserts each, both workers taking turns until nobody can move. -/
def altSchedule (fixed : Bool) (l1 l2 l3 : Nat) : Option (List Act × Mach Nat) :=
  let m0 : Mach Nat := raceStart demoCfg
  let a1 : List Act := [.call 0 ⟨0, [10], 0⟩, .call 1 ⟨1, [20], l1⟩]
  match m0.run fixed demoLib.metric a1 with
  | none => none
  | some m1 =>
    let b1 := altActs fixed demoLib.metric 100 m1
    match m1.run fixed demoLib.metric b1 with
    | none => none
    | some m2 =>
      let a2 : List Act := [.call 0 ⟨2, [30], l2⟩, .call 1 ⟨3, [40], l3⟩]
      match m2.run fixed demoLib.metric a2 with
      | none => none
      | some m3 =>
        let b2 := altActs fixed demoLib.metric 100 m3
        match m3.run fixed demoLib.metric b2 with
        | none => none
        | some m4 => some (a1 ++ b1 ++ a2 ++ b2, m4)

/-- the same, with the legality of the calls checked: the calls made and the final state. -/
def altPlay (fixed : Bool) (l1 l2 l3 : Nat) : Option (List Job × Mach Nat) :=
  match altSchedule fixed l1 l2 l3 with
  | none => none
  | some (as, _) => (raceStart demoCfg).play fixed demoLib.metric 1 as

/-- a legal interleaved schedule of the program as it is with four calls, all of level 0, that all return. -/
example : ∃ (js : List Job) (m : Mach Nat), Sched false demoLib.metric 1 (Mach.init (Coll.new demoCfg [] false).index 2) js m ∧
    js.length = 4 ∧ (∀ j ∈ js, j.level = 0) ∧ m.quiet ∧ m.h.nodes.length = 4 := by
  have h : (match altPlay false 0 0 0 with
    | some (js, m) => decide (js.length = 4) && (js.all (fun j => j.level == 0) && (m.ts.all (fun t => !t.pc.active) &&
        decide (m.h.nodes.length = 4)))
    | none => false) = true := by decide +kernel
  split at h
  · rename_i js m hp
    simp only [Bool.and_eq_true, decide_eq_true_eq] at h
    obtain ⟨h1, h2, h3, h4⟩ := h
    unfold altPlay at hp
    split at hp
    · cases hp
    · refine ⟨js, m, play_sched _ _ _ _ hp, h1, ?_, ?_, h4⟩
      · intro j hj; simpa using List.all_eq_true.mp h2 j hj
      · intro t ht; simpa using List.all_eq_true.mp h3 t ht
  · cases h

/-- a legal interleaved schedule of the program with the lock, with levels 0, 1, 1 and 2. -/
example : ∃ (js : List Job) (m : Mach Nat), Sched true demoLib.metric 1 (Mach.init (Coll.new demoCfg [] false).index 2) js m ∧
    js.map Job.level = [0, 1, 1, 2] ∧ m.quiet ∧ m.h.maxLayer = 2 := by
  have h : (match altPlay true 1 1 2 with
    | some (js, m) => decide (js.map Job.level = [0, 1, 1, 2]) && (m.ts.all (fun t => !t.pc.active) &&
        decide (m.h.maxLayer = 2))
    | none => false) = true := by decide +kernel
  split at h
  · rename_i js m hp
    simp only [Bool.and_eq_true, decide_eq_true_eq] at h
    obtain ⟨h1, h3, h4⟩ := h
    unfold altPlay at hp
    split at hp
    · cases hp
    · refine ⟨js, m, play_sched _ _ _ _ hp, h1, ?_, h4⟩
      intro t ht; simpa using List.all_eq_true.mp h3 t ht
  · cases h

end Vectory.Conc
