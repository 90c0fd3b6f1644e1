import Verif.Lemmas.ConcReal
import Verif.Spec.Race
/-! The race-free schedules of the program as it is are the schedules of the program with the lock. -/
namespace Vectory.Conc
open Vectory
variable {D : Type} {M : Metric D} {dim : Nat}

/-- who holds a lock in the program with the lock holds it in the program as it is, or stands at `insert.go:75`. -/
theorem held_or {u : Thread D} {x : UInt64} (h : u.held true = some x) :
    u.held false = some x ∨ (u.pc.writesOwn = true ∧ u.job.id = x) := by
  unfold Thread.held at *
  cases hp : u.pc <;> rw [hp] at h <;> first | exact Or.inl h | (cases h; exact Or.inr ⟨rfl, rfl⟩)

theorem locked_true {fixed : Bool} {ts : List (Thread D)} {x : UInt64} (h : lockedBy fixed ts x = true) :
    ∃ (k : Nat) (u : Thread D), ts[k]? = some u ∧ u.held fixed = some x := by
  obtain ⟨u, hu, hx⟩ := List.any_eq_true.mp h
  obtain ⟨k, hk⟩ := List.getElem?_of_mem hu
  exact ⟨k, u, hk, by simpa using hx⟩

theorem orDie_held {A : Type} {x : UInt64} {r : Except Panic A} {k : A → PC D} {id : UInt64}
    (hk : ∀ a, (k a).held false id = some x) : (orDie (some x) r k).held false id = some x := by
  unfold orDie
  split
  · exact hk _
  · rfl

/-- a step that does not lead into a race is a step of the program with the lock. -/
theorem calm_fixed {m m' : Mach D} {an : AMap UInt64 Vertex} (c : MachInv M dim m.h an m.ts) {i : Nat}
    (h : m.step false M (.run i) = some m') (hr : ¬ Race m') : m.step true M (.run i) = some m' := by
  obtain ⟨t, pc, ht, hs, e⟩ := step_run h
  have hi : i < m.ts.length := (List.getElem?_eq_some_iff.mp ht).1
  have hself : m'.ts[i]? = some { t with pc := pc } := by rw [e, List.getElem?_set_self hi]
  have hother : ∀ (k : Nat), k ≠ i → m'.ts[k]? = m.ts[k]? := fun k hk => by rw [e, List.getElem?_set_ne (fun h => hk h.symm)]
  -- taking the lock of `x`
  have hfree : ∀ x, pc.held false t.job.id = some x → t.pc.writesOwn = false → lockedBy false m.ts x = false →
      lockedBy true m.ts x = false := by
    intro x hx hw hl
    cases hb : lockedBy true m.ts x with
    | false => rfl
    | true =>
      exfalso
      obtain ⟨k, u, hk, hux⟩ := locked_true hb
      rcases held_or hux with h1 | ⟨h1, h2⟩
      · exact locked_false hl hk h1
      · have hki : k ≠ i := by
          rintro rfl
          rw [ht] at hk; cases hk; rw [hw] at h1; cases h1
        exact hr ⟨k, i, u, _, hki, by rw [hother k hki, hk], hself, h1, by rw [h2]; exact hx⟩
  have key : stepPC true M m.h (lockedBy true m.ts) t.job t.pc = some (m'.h, pc) := by
    cases hpc : t.pc with
    | pop cur ph sl buf =>
      rw [hpc] at hs
      simp only [stepPC] at hs ⊢
      split at hs
      · exact hs
      · split at hs
        · exact hs
        · split at hs
          · rename_i hc; rw [if_pos hc]; exact hs
          · rename_i hc
            rw [if_neg hc]
            split at hs
            · exact hs
            · split at hs
              · cases hs
              · rename_i hl
                rw [if_neg]
                · exact hs
                · have hp := (Prod.mk.inj (Option.some.inj hs)).2
                  rw [hfree _ (by
                    rw [← hp]
                    apply orDie_held
                    intro a
                    split <;> rfl) (by rw [hpc]; rfl) (by simpa using hl)]
                  simp
    | link cur l nns todo =>
      rw [hpc] at hs
      cases todo with
      | nil => exact hs
      | cons n rest =>
        simp only [stepPC] at hs ⊢
        split at hs
        · exact hs
        · split at hs
          · cases hs
          · rename_i hl
            rw [if_neg]
            · exact hs
            · have hp := (Prod.mk.inj (Option.some.inj hs)).2
              rw [hfree n (by
                rw [← hp]
                apply orDie_held
                intro a
                split
                · rfl
                · exact orDie_held (fun _ => rfl)) (by rw [hpc]; rfl) (by simpa using hl)]
              simp
    | logOwn cur l nns ns =>
      rw [hpc] at hs
      simp only [stepPC, Bool.false_and, Bool.true_and] at hs ⊢
      rw [if_neg]
      · simpa using hs
      · intro hb
        obtain ⟨k, u, hk, hux⟩ := locked_true hb
        have hki : k ≠ i := by
          rintro rfl
          rw [ht] at hk; cases hk
          unfold Thread.held at hux; rw [hpc] at hux; cases hux
        rcases held_or hux with h1 | ⟨h1, h2⟩
        · have hp : pc = .setOwn cur l nns ns := by
            have := Option.some.inj (hs.symm.trans (if_neg (by simp)))
            exact (Prod.mk.inj this).2
          exact hr ⟨i, k, _, u, fun e => hki e.symm, hself, by rw [hother k hki, hk], by rw [hp]; rfl, h1⟩
        · refine hki (c.ids k i u t hk ht ?_ (by rw [hpc]; rfl) h2)
          cases hp : u.pc <;> rw [hp] at h1 <;> first | rfl | cases h1
    | _ => rw [hpc] at hs; exact hs
  simp only [Mach.step, ht, key]
  cases m' with
  | mk h1 ts1 => cases e; rfl

theorem race_free_fixed (hM : DimOK M dim) {m m' : Mach D} {js : List Job} (hi : ∃ an, MachInv M dim m.h an m.ts)
    (hs : RaceFree M dim m js m') : Sched true M dim m js m' := by
  induction hs with
  | start => exact .start
  | run i _ h hr ih =>
    obtain ⟨an, c⟩ := sched_inv hM ih hi
    exact .run i ih (calm_fixed c h hr)
  | call i j _ hf hj h _ ih => exact .call i j ih hf hj h

/-- with the lock there is no race. -/
theorem inv_no_race {m : Mach D} {an : AMap UInt64 Vertex} (c : MachInv M dim m.h an m.ts) : ¬ Race m := by
  rintro ⟨i, k, t, u, hne, ht, hu, hw, hx⟩
  refine hne (c.excl i k t u t.job.id ht hu ?_ (held_le hx))
  unfold Thread.held
  cases hp : t.pc <;> rw [hp] at hw <;> first | rfl | cases hw

theorem fixed_race_free (hM : DimOK M dim) {m m' : Mach D} {js : List Job} (hi : ∃ an, MachInv M dim m.h an m.ts)
    (hs : Sched true M dim m js m') : RaceFree M dim m js m' := by
  induction hs with
  | start => exact .start
  | run i h1 h ih =>
    obtain ⟨an, c⟩ := sched_inv hM (.run i h1 h) hi
    exact .run i ih (step_real h) (inv_no_race c)
  | call i j h1 hf hj h ih =>
    obtain ⟨an, c⟩ := sched_inv hM (.call i j h1 hf hj h) hi
    exact .call i j ih hf hj h (inv_no_race c)

/-- a check for the race, for any number of workers. -/
def raceAny {D : Type} (ts : List (Thread D)) : Bool :=
  ts.any (fun t => t.pc.writesOwn && ts.any (fun u => u.held false == some t.job.id))

theorem raceAny_sound {D : Type} {m : Mach D} (h : raceAny m.ts = false) : ¬ Race m := by
  rintro ⟨i, k, t, u, _, ht, hu, hw, hh⟩
  have : raceAny m.ts = true := by
    unfold raceAny
    refine List.any_eq_true.mpr ⟨t, List.mem_of_getElem? ht, ?_⟩
    rw [hw, Bool.true_and]
    exact List.any_eq_true.mpr ⟨u, List.mem_of_getElem? hu, by rw [hh]; simp⟩
  rw [h] at this
  cases this

end Vectory.Conc
