import Verif.Spec.Growth
import Verif.Spec.CollSched
/-!
# What batches leave behind

Histories for C81 that also contain batches run by several workers: with any vectors, under any schedule, also one that runs into the
race of `Spec/Race.lean` or into panics.
-/
namespace Vectory.Conc
open Vectory
variable {V D : Type}

/-- `b` is what has become of the call `InsertBatch(os)` (`InsertBatch2` if `two`) on `c` with a pool of `workers` workers, after the
actions `acts`, none of which drew a level above `top`. -/
def BatchRun (fixed two : Bool) (L : Lib V D) (workers top : Nat) (c : Coll) (os : List (Object V)) (embed : Embed V)
    (acts : List BAct) (b : Batch V D) : Prop :=
  0 < workers ∧ (∀ i env, BAct.work i env ∈ acts → env.level ≤ top) ∧
  ∃ objs b0, prepare c os embed = .ok (.ok objs) ∧
    (if two then some (startBatch2 c objs workers) else startBatch c objs workers) = some b0 ∧ b0.run fixed L acts = some b

/-- the batch was accepted: it returned nil, its context was not cancelled, and no worker panicked. -/
def Batch.accepts (b : Batch V D) : Prop := b.returned none ∧ b.cancelled = false ∧ b.noPanic

/-- `c'` is what became of `c` after a history of calls and crashes inside calls, of batches run by several workers that have returned
and whose tasks have ended, and of crashes at any moment of such batches; at least `n` objects were accepted in it, and its calls may log
`most` records. -/
inductive History (fixed : Bool) (L : Lib V D) (c : Coll) : Nat → Nat → Coll → Prop where
  | refl : History fixed L c 0 0 c
  | event {c1 c2 : Coll} {e : Ev V D} {n most : Nat} : History fixed L c n most c1 → e.Step L c1 c2 →
      History fixed L c (n + e.accepted) (most + e.mayLog c.index.cfg.m) c2
  | batch {c1 : Coll} {n most : Nat} {two : Bool} {workers top : Nat} {os : List (Object V)} {embed : Embed V} {acts : List BAct} {b : Batch V D} :
      History fixed L c n most c1 → BatchRun fixed two L workers top c1 os embed acts b → b.ret ≠ none → (∀ t ∈ b.tasks, t.pc.over = true) →
      History fixed L c n (most + os.length * perObject c.index.cfg.m top) b.c
  | accepted {c1 : Coll} {n most : Nat} {two : Bool} {workers top : Nat} {os : List (Object V)} {embed : Embed V} {acts : List BAct} {b : Batch V D} :
      History fixed L c n most c1 → BatchRun fixed two L workers top c1 os embed acts b → b.accepts →
      History fixed L c (n + os.length) (most + os.length * perObject c.index.cfg.m top) b.c
  | crash {c1 c2 : Coll} {n most : Nat} {two : Bool} {workers top : Nat} {os : List (Object V)} {embed : Embed V} {acts : List BAct} {b : Batch V D} :
      History fixed L c n most c1 → BatchRun fixed two L workers top c1 os embed acts b → b.c.reopen = .ok c2 →
      History fixed L c n (most + os.length * perObject c.index.cfg.m top) c2

/-- `c'` is what became of `c` after a history of legal calls, reopens, crashes inside calls, batches run by several workers (without the
race, `NoRace`) that have returned and whose tasks have ended, and crashes at any moment of such batches, whenever the collection could be
opened again; `n` objects were accepted in it (for a batch: it returned nil and its context was not cancelled), and `handed` objects were
handed to inserts. -/
inductive Kept (fixed : Bool) (L : Lib V D) (dim : Nat) (c : Coll) : Nat → Nat → Coll → Prop where
  | refl : Kept fixed L dim c 0 0 c
  | event {c1 c2 : Coll} {e : Ev V D} {n handed : Nat} : Kept fixed L dim c n handed c1 → e.Legal L dim c1 → e.Step L c1 c2 →
      Kept fixed L dim c (n + e.accepted) (handed + e.objects) c2
  | batch {c1 : Coll} {n handed : Nat} {two : Bool} {workers : Nat} {os : List (Object V)} {embed : Embed V} {acts : List BAct}
      {b : Batch V D} : Kept fixed L dim c n handed c1 → BatchAt fixed two L dim workers c1 os embed acts b →
      NoRace fixed two L dim workers c1 os embed acts → b.ret ≠ none → (∀ t ∈ b.tasks, t.pc.over = true) →
      Kept fixed L dim c (n + if b.ret = some none ∧ b.cancelled = false then os.length else 0) (handed + os.length) b.c
  | crash {c1 c2 : Coll} {n handed : Nat} {two : Bool} {workers : Nat} {os : List (Object V)} {embed : Embed V} {acts : List BAct}
      {b : Batch V D} : Kept fixed L dim c n handed c1 → BatchAt fixed two L dim workers c1 os embed acts b →
      NoRace fixed two L dim workers c1 os embed acts → b.c.reopen = .ok c2 → Kept fixed L dim c n (handed + os.length) c2

end Vectory.Conc
