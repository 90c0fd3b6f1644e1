import Verif.Props.DiskInsConc
/-! # C71: under every fair schedule all calls of `DiskAnn.Insert` return -/
namespace Vectory
open DiskAnn
variable {D : Type}

namespace DiskAnn

/-- who moves next. -/
inductive World.Move where
  | task (del : List UInt32) (i : Nat)
  | snap (j : Nat) (t : When)

/-- one move. -/
def World.move (P : Params D) (w : World) : World.Move → World
  | .task del i => w.stepTask P del i
  | .snap j t => w.stepSnap j t

/-- the world after the first `n` moves of an infinite schedule. -/
def World.play (P : Params D) (w : World) (σ : Nat → World.Move) : Nat → World
  | 0 => w
  | n + 1 => (World.play P w σ n).move P (σ n)

/-- the sum of the steps made. -/
def World.made (w : World) : Nat := (w.tasks.map (fun t => t.2.steps)).sum

theorem PC.steps_le (pc : PC) : pc.steps ≤ 6 := by cases pc <;> simp [PC.steps]

theorem steps_sum_set {ts : List (Vec × PC)} {i : Nat} {a : Vec × PC} (b : Vec × PC) (h : ts[i]? = some a) :
    ((ts.set i b).map (fun t => t.2.steps)).sum + a.2.steps = (ts.map (fun t => t.2.steps)).sum + b.2.steps := by
  induction ts generalizing i with
  | nil => cases h
  | cons t ts ih =>
    cases i with
    | zero => cases h; simp only [List.set_cons_zero, List.map_cons, List.sum_cons]; omega
    | succ i =>
      have := ih (i := i) h
      simp only [List.set_cons_succ, List.map_cons, List.sum_cons]; omega

theorem stepTask_tasks (P : Params D) (del : List UInt32) (w : World) (i : Nat) :
    (w.stepTask P del i).tasks = w.tasks ∨ ∃ v pc pc', w.tasks[i]? = some (v, pc) ∧ (w.stepTask P del i).tasks = w.tasks.set i (v, pc') ∧
      pc.steps < pc'.steps := by
  unfold World.stepTask
  cases ht : w.tasks[i]? with
  | none => exact Or.inl rfl
  | some t =>
    obtain ⟨v, pc⟩ := t
    cases pc with
    | check => exact Or.inr ⟨v, _, _, rfl, rfl, by simp [PC.steps]⟩
    | fetch => exact Or.inr ⟨v, _, _, rfl, rfl, by simp [PC.steps]⟩
    | load id => exact Or.inr ⟨v, _, _, rfl, rfl, by simp [PC.steps]⟩
    | call id p =>
      dsimp only
      split
      · exact Or.inl rfl
      · split
        · exact Or.inl rfl
        · split
          · exact Or.inr ⟨v, _, _, rfl, rfl, by simp [PC.steps]⟩
          · exact Or.inr ⟨v, _, _, rfl, rfl, by simp [PC.steps]⟩
    | inside id p =>
      dsimp only
      split
      · exact Or.inl rfl
      · split
        · exact Or.inl rfl
        · rename_i f _
          exact Or.inr ⟨v, _, _, rfl, rfl, by cases f <;> simp [PC.steps]⟩
    | added id p =>
      dsimp only
      split
      · exact Or.inl rfl
      · split
        · exact Or.inl rfl
        · exact Or.inr ⟨v, _, _, rfl, rfl, by simp [PC.steps]⟩
    | done id r => exact Or.inl rfl

theorem move_made (P : Params D) (w : World) (m : World.Move) : (w.move P m).tasks = w.tasks ∨ w.made < (w.move P m).made := by
  cases m with
  | snap j t => exact Or.inl (stepSnap_tasks w j t)
  | task del i =>
    rcases stepTask_tasks P del w i with h | ⟨v, pc, pc', h1, h2, h3⟩
    · exact Or.inl h
    · right
      unfold World.made
      show _ < ((World.stepTask P del w i).tasks.map _).sum
      rw [h2]
      have := steps_sum_set (v, pc') h1
      dsimp only at this
      omega

theorem move_length (P : Params D) (w : World) (m : World.Move) : (w.move P m).tasks.length = w.tasks.length := by
  cases m with
  | snap j t => exact congrArg _ (stepSnap_tasks w j t)
  | task del i =>
    rcases stepTask_tasks P del w i with h | ⟨v, pc, pc', h1, h2, h3⟩
    · exact congrArg _ h
    · show (World.stepTask P del w i).tasks.length = _
      rw [h2, List.length_set]

theorem made_le (w : World) : w.made ≤ 6 * w.tasks.length := by
  unfold World.made
  induction w.tasks with
  | nil => simp
  | cons t ts ih =>
    have := t.2.steps_le
    simp only [List.map_cons, List.sum_cons, List.length_cons]; omega

/-- goroutines that have not taken an id yet. -/
def World.waiting (w : World) : Nat := w.tasks.countP (fun t => t.2.id?.isNone)

theorem countP_set' {ts : List (Vec × PC)} {i : Nat} {a b : Vec × PC} (p : Vec × PC → Bool) (h : ts[i]? = some a) :
    (ts.set i b).countP p + (if p a then 1 else 0) = ts.countP p + (if p b then 1 else 0) := by
  induction ts generalizing i with
  | nil => cases h
  | cons t ts ih =>
    cases i with
    | zero => cases h; simp only [List.set_cons_zero, List.countP_cons]; omega
    | succ i =>
      have := ih (i := i) h
      simp only [List.set_cons_succ, List.countP_cons]; omega

/-- ids taken and ids to be taken. -/
theorem move_ids (P : Params D) {w : World} (m : World.Move) (hb : w.da.currId.toNat + 1 < 18446744073709551616) :
    (w.move P m).da.currId.toNat + (w.move P m).waiting = w.da.currId.toNat + w.waiting := by
  cases m with
  | snap j t =>
    show (w.stepSnap j t).da.currId.toNat + _ = _
    have h1 : (w.stepSnap j t).da = w.da := by unfold World.stepSnap; split <;> (try split) <;> rfl
    have h2 : (World.move P w (.snap j t)).waiting = w.waiting := by
      show (w.stepSnap j t).tasks.countP _ = _
      rw [stepSnap_tasks]; rfl
    rw [h1, h2]
  | task del i =>
    show (w.stepTask P del i).da.currId.toNat + (w.stepTask P del i).waiting = _
    unfold World.stepTask World.waiting
    cases ht : w.tasks[i]? with
    | none => rfl
    | some t =>
      obtain ⟨v, pc⟩ := t
      have hs : ∀ pc', (w.tasks.set i (v, pc')).countP (fun t => t.2.id?.isNone) + (if pc.id?.isNone then 1 else 0) =
          w.tasks.countP (fun t => t.2.id?.isNone) + (if pc'.id?.isNone then 1 else 0) := fun pc' => countP_set' _ ht
      cases pc with
      | check =>
        dsimp only
        have h1 : (w.da.rotate P).currId = w.da.currId := by unfold DA.rotate; split <;> rfl
        have this : (w.tasks.set i (v, .fetch)).countP (fun t => t.2.id?.isNone) + 1 = w.tasks.countP (fun t => t.2.id?.isNone) + 1 := hs (.fetch)
        rw [h1]; omega
      | fetch =>
        dsimp only
        have this : (w.tasks.set i (v, .load w.da.currId)).countP (fun t => t.2.id?.isNone) + 1 = w.tasks.countP (fun t => t.2.id?.isNone) + 0 := hs (.load w.da.currId)
        rw [UInt64.toNat_add]
        have e : (1 : UInt64).toNat = 1 := rfl
        rw [e, Nat.mod_eq_of_lt (by omega)]
        omega
      | load id => dsimp only; have this : (w.tasks.set i (v, .call id w.da.rw)).countP (fun t => t.2.id?.isNone) + 0 = w.tasks.countP (fun t => t.2.id?.isNone) + 0 := hs (.call id w.da.rw); omega
      | call id p =>
        dsimp only
        split
        · rfl
        · split
          · rfl
          · split
            · rename_i f _; have this : (w.tasks.set i (v, .done id (some f))).countP (fun t => t.2.id?.isNone) + 0 = w.tasks.countP (fun t => t.2.id?.isNone) + 0 := hs (.done id (some f)); dsimp only; omega
            · have this : (w.tasks.set i (v, .inside id p)).countP (fun t => t.2.id?.isNone) + 0 = w.tasks.countP (fun t => t.2.id?.isNone) + 0 := hs (.inside id p); dsimp only; omega
      | inside id p =>
        dsimp only
        split
        · rfl
        · split
          · rfl
          · rename_i f _
            have h1 : (w.tasks.set i (v, .done id none)).countP (fun t => t.2.id?.isNone) + 0 = w.tasks.countP (fun t => t.2.id?.isNone) + 0 := hs (.done id none)
            have h2 : (w.tasks.set i (v, .added id p)).countP (fun t => t.2.id?.isNone) + 0 = w.tasks.countP (fun t => t.2.id?.isNone) + 0 := hs (.added id p)
            dsimp only
            cases f
            · rw [if_neg (by simp)]; omega
            · rw [if_pos rfl]; omega
      | added id p =>
        dsimp only
        split
        · rfl
        · split
          · rfl
          · have this : (w.tasks.set i (v, .done id none)).countP (fun t => t.2.id?.isNone) + 0 = w.tasks.countP (fun t => t.2.id?.isNone) + 0 := hs (.done id none); dsimp only; omega
      | done id r => rfl

theorem play_runs {P : Params D} (o : Ord P.metric.lt) (hd : DimOK P.metric P.dim.toNat) (vs : List Vec) (hn : vs.length + 2 < 18446744073709551616)
    (σ : Nat → World.Move) (n : Nat) :
    World.Runs P (World.start P vs) (World.play P (World.start P vs) σ n) ∧
      (World.play P (World.start P vs) σ n).da.currId.toNat + 1 < 18446744073709551616 ∧
      (World.play P (World.start P vs) σ n).tasks.length = vs.length ∧
      (World.play P (World.start P vs) σ n).da.currId.toNat + (World.play P (World.start P vs) σ n).waiting = vs.length + 1 := by
  induction n with
  | zero =>
    refine ⟨.refl _, ?_, by simp [World.play, World.start], ?_⟩
    · show 1 + 1 < _; omega
    · show 1 + (World.start P vs).waiting = _
      have : (World.start P vs).waiting = vs.length := by
        unfold World.waiting World.start
        rw [List.countP_map]
        rw [List.countP_eq_length.mpr]
        intro a _; rfl
      omega
  | succ n ih =>
    obtain ⟨h1, h2, h3, h4⟩ := ih
    have hal := (winv_runs o hd h1).alive
    have hi := move_ids P (σ n) h2
    have hr : World.Runs P (World.start P vs) (World.play P (World.start P vs) σ (n + 1)) := by
      refine .step h1 ?_
      show World.Step P _ (World.move P _ (σ n))
      cases σ n with
      | task del i => exact .task del i hal h2
      | snap j t => exact .snap j t hal
    refine ⟨hr, ?_, ?_, ?_⟩
    · show (World.move P _ (σ n)).da.currId.toNat + 1 < _
      omega
    · show (World.move P _ (σ n)).tasks.length = _
      rw [move_length]; exact h3
    · show (World.move P _ (σ n)).da.currId.toNat + (World.move P _ (σ n)).waiting = _
      rw [hi]; exact h4

/-- goroutine `i` has not returned and does not wait for a lock. -/
def World.Enabled (w : World) (i : Nat) : Prop :=
  ∃ v pc, w.tasks[i]? = some (v, pc) ∧ pc.steps < 6 ∧ ∀ id p, pc = .call id p → w.locked p = false

theorem enabled_of_tasks {w w' : World} (h : w'.tasks = w.tasks) {i : Nat} (e : w.Enabled i) : w'.Enabled i := by
  obtain ⟨v, pc, h1, h2, h3⟩ := e
  exact ⟨v, pc, by rw [h]; exact h1, h2, fun id p hp => by unfold World.locked; rw [h]; exact h3 id p hp⟩

theorem enabled_moves {P : Params D} (o : Ord P.metric.lt) (hd : DimOK P.metric P.dim.toNat) {vs : List Vec} {w : World}
    (r : World.Runs P (World.start P vs) w) (hb : w.da.currId.toNat + 1 < 18446744073709551616) {i : Nat} (e : w.Enabled i) (del : List UInt32) :
    (w.stepTask P del i).tasks ≠ w.tasks := by
  obtain ⟨v, pc, h1, h2, h3⟩ := e
  intro heq
  rcases (C71_insert_returns P o hd vs w r hb i v pc h1 h2 del).1 with ⟨pc', h4, h5, _⟩ | ⟨_, id, p, rfl, j, u, id', _, hj⟩
  · rw [heq, h1] at h4; cases h4; omega
  · have hl := h3 id p rfl
    rcases hj with hj | hj
    · exact not_locked hl j u _ hj rfl
    · exact not_locked hl j u _ hj rfl

theorem some_enabled {w : World} (h : ∃ t ∈ w.tasks, t.2.steps < 6) : ∃ i, w.Enabled i := by
  obtain ⟨⟨v, pc⟩, hm, hs⟩ := h
  obtain ⟨i, hi⟩ := List.mem_iff_getElem?.mp hm
  by_cases hc : ∃ id p, pc = .call id p ∧ w.locked p = true
  · obtain ⟨id, p, rfl, hl⟩ := hc
    unfold World.locked at hl
    rw [List.any_eq_true] at hl
    obtain ⟨⟨u, q⟩, hm', hq⟩ := hl
    obtain ⟨j, hj⟩ := List.mem_iff_getElem?.mp hm'
    have hq : q.lock = some p := by simpa using hq
    refine ⟨j, u, q, hj, ?_, ?_⟩
    · cases q with
      | inside a b => show 4 < 6; omega
      | added a b => show 5 < 6; omega
      | _ => cases hq
    · rintro id' p' rfl; cases hq
  · refine ⟨i, v, pc, hi, hs, fun id p hp => ?_⟩
    cases hl : w.locked p with
    | false => rfl
    | true => exact absurd ⟨id, p, hp, hl⟩ hc

/-- a bounded sequence that never falls stops rising. -/
theorem stops_rising (f : Nat → Nat) (B : Nat) (hB : ∀ n, f n ≤ B) (hm : ∀ n, f n ≤ f (n + 1)) : ∃ N, ∀ n, N ≤ n → f n = f N := by
  have mono : ∀ a b, a ≤ b → f a ≤ f b := by
    intro a b h
    induction h with
    | refl => exact Nat.le_refl _
    | step _ ih => exact Nat.le_trans ih (hm _)
  suffices h : ∀ k N, B - f N ≤ k → ∃ N', ∀ n, N' ≤ n → f n = f N' from h (B - f 0) 0 (Nat.le_refl _)
  intro k
  induction k with
  | zero =>
    intro N h
    refine ⟨N, fun n hn => ?_⟩
    have h1 := mono N n hn
    have h2 := hB n
    omega
  | succ k ih =>
    intro N h
    by_cases hc : ∃ n, N ≤ n ∧ f n ≠ f N
    · obtain ⟨n, hn, hne⟩ := hc
      have := mono N n hn
      exact ih n (by omega)
    · exact ⟨N, fun n hn => Classical.byContradiction (fun he => hc ⟨n, hn, he⟩)⟩

end DiskAnn

/-- C71, calls return: under every schedule, infinite and such that each goroutine is given a step again and again, there is a moment from
which on all calls of `Insert` have returned: no deadlock, no call overtaken for ever. -/
theorem C71_all_return (P : Params D) (o : Ord P.metric.lt) (hd : DimOK P.metric P.dim.toNat) (vs : List Vec)
    (hn : vs.length + 2 < 18446744073709551616) (σ : Nat → World.Move)
    (fair : ∀ i, i < vs.length → ∀ n, ∃ m, n ≤ m ∧ ∃ del, σ m = .task del i) :
    ∃ N, ∀ n, N ≤ n → ∀ t ∈ (World.play P (World.start P vs) σ n).tasks, ∃ id r, t.2 = .done id r := by
  let W := World.play P (World.start P vs) σ
  have hmono : ∀ n, (W n).made ≤ (W (n + 1)).made := by
    intro n
    rcases DiskAnn.move_made P (W n) (σ n) with h | h
    · show (W n).made ≤ (World.move P (W n) (σ n)).made
      unfold World.made; rw [h]; exact Nat.le_refl _
    · exact Nat.le_of_lt h
  obtain ⟨N, hN⟩ := DiskAnn.stops_rising (fun n => (W n).made) (6 * vs.length)
    (fun n => by have := DiskAnn.made_le (W n); rw [(DiskAnn.play_runs o hd vs hn σ n).2.2.1] at this; exact this) hmono
  have htasks : ∀ n, N ≤ n → (W n).tasks = (W N).tasks := by
    intro n h
    induction h with
    | refl => rfl
    | @step n h ih =>
      rcases DiskAnn.move_made P (W n) (σ n) with h1 | h1
      · exact Eq.trans h1 ih
      · have h2 := hN n h
        have h3 := hN (n + 1) (Nat.le_succ_of_le h)
        have : (W (n + 1)).made = (World.move P (W n) (σ n)).made := rfl
        omega
  have hall : ∀ t ∈ (W N).tasks, ∃ id r, t.2 = .done id r := by
    intro t ht
    by_cases hs : t.2.steps < 6
    · exfalso
      obtain ⟨i, e⟩ := DiskAnn.some_enabled ⟨t, ht, hs⟩
      have hi : i < vs.length := by
        obtain ⟨v, pc, h1, _⟩ := e
        rw [← (DiskAnn.play_runs o hd vs hn σ N).2.2.1]
        exact (List.getElem?_eq_some_iff.mp h1).1
      obtain ⟨m, hm, del, hσ⟩ := fair i hi N
      have e' := DiskAnn.enabled_of_tasks (htasks m hm) e
      obtain ⟨r, hb, _⟩ := DiskAnn.play_runs o hd vs hn σ m
      apply DiskAnn.enabled_moves o hd r hb e' del
      have h1 : (W (m + 1)).tasks = (World.stepTask P del (W m) i).tasks := by
        show (World.move P (W m) (σ m)).tasks = _
        rw [hσ]; rfl
      have h2 : (W (m + 1)).tasks = (W m).tasks := by rw [htasks _ (Nat.le_succ_of_le hm), htasks m hm]
      exact h1.symm.trans h2
    · obtain ⟨v, pc⟩ := t
      cases pc with
      | done id r => exact ⟨id, r, rfl⟩
      | _ => exact absurd (by simp [PC.steps]) hs
  exact ⟨N, fun n h t ht => hall t (by rw [← htasks n h]; exact ht)⟩

-- round robin over three goroutines is such a schedule
example : ∃ σ : Nat → World.Move, ∀ i, i < 3 → ∀ n, ∃ m, n ≤ m ∧ ∃ del, σ m = .task del i := by
  refine ⟨fun m => .task [] (m % 3), fun i hi n => ⟨3 * n + i, by omega, [], ?_⟩⟩
  show World.Move.task [] ((3 * n + i) % 3) = _
  rw [show (3 * n + i) % 3 = i by omega]

end Vectory
