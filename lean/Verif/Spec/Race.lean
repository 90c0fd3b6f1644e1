import Verif.Spec.Sched
/-!
# The race of concurrent inserts

`Insert` logs the list of its new vertex and then writes it (`insert.go:73-75`) without the lock of that vertex. The race: while one
worker stands between those two lines, another worker holds the lock of the vertex, to read or change the same lists.
-/
namespace Vectory.Conc
open Vectory
variable {D : Type}

/-- the worker stands between `insert.go:73` and `:75`. -/
def PC.writesOwn : PC D → Bool
  | .setOwn _ _ _ _ => true
  | _ => false

/-- worker `i` is about to write the list of its new vertex while another worker, `k`, holds the lock of that vertex. -/
def Race (m : Mach D) : Prop :=
  ∃ (i k : Nat) (t u : Thread D), i ≠ k ∧ m.ts[i]? = some t ∧ m.ts[k]? = some u ∧ t.pc.writesOwn = true ∧
    u.held false = some t.job.id

/-- a legal schedule of the program as it is that never passes through a race. -/
inductive RaceFree (M : Metric D) (dim : Nat) (m : Mach D) : List Job → Mach D → Prop where
  | start : RaceFree M dim m [] m
  | run {js : List Job} {m₁ m₂ : Mach D} (i : Nat) : RaceFree M dim m js m₁ → m₁.step false M (.run i) = some m₂ → ¬ Race m₂ →
      RaceFree M dim m js m₂
  | call {js : List Job} {m₁ m₂ : Mach D} (i : Nat) (j : Job) : RaceFree M dim m js m₁ → FreshCall m₁ j → JobOK dim j →
      m₁.step false M (.call i j) = some m₂ → ¬ Race m₂ → RaceFree M dim m (js ++ [j]) m₂

/-- a race-free schedule is a schedule. -/
theorem RaceFree.sched {M : Metric D} {dim : Nat} {m m' : Mach D} {js : List Job} (h : RaceFree M dim m js m') :
    Sched false M dim m js m' := by
  induction h with
  | start => exact .start
  | run i _ h _ ih => exact .run i ih h
  | call i j _ hf hj h _ ih => exact .call i j ih hf hj h

end Vectory.Conc
