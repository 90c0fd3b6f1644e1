import Verif.Model.CollConc
import Verif.Spec.History
import Verif.Spec.Race
/-!
# Batches run by several workers

The vocabulary for `InsertBatch` (`two = false`) and `InsertBatch2` (`two = true`) under all interleavings of their workers. The
program as it is has `fixed = false`; `fixed = true` is the program in which `insert.go:73-75` runs under the lock of the new vertex.
-/
namespace Vectory.Conc
open Vectory
variable {V D : Type}

/-- `b` is what has become of the call `InsertBatch(os)` on the open collection `c` with a pool of `workers` workers after the
actions `acts`: the objects were accepted, the tasks were submitted, and any tasks made steps in any order. The vectors (given or
embedded) have the dimension `dim`, the levels drawn fit the log format, and there are enough ids. -/
def BatchAt (fixed two : Bool) (L : Lib V D) (dim workers : Nat) (c : Coll) (os : List (Object V)) (embed : Embed V)
    (acts : List BAct) (b : Batch V D) : Prop :=
  0 < workers ∧ EmbedOK c embed dim os ∧ c.counter.count.toNat + os.length < 18446744073709551616 ∧
  (∀ i env, BAct.work i env ∈ acts → env.level < 4294967296) ∧
  ∃ objs b0, prepare c os embed = .ok (.ok objs) ∧
    (if two then some (startBatch2 c objs workers) else startBatch c objs workers) = some b0 ∧ b0.run fixed L acts = some b

/-- the batch never passed through the race of `Spec/Race.lean`: at no moment did one worker hold the lock of a vertex while the
inserter of that vertex stood between `insert.go:73` and `:75`. -/
def NoRace (fixed two : Bool) (L : Lib V D) (dim workers : Nat) (c : Coll) (os : List (Object V)) (embed : Embed V)
    (acts : List BAct) : Prop :=
  ∀ (pre : List BAct) (b : Batch V D), pre <+: acts → BatchAt fixed two L dim workers c os embed pre b → ¬ Race ⟨b.c.index, b.ts⟩

/-- the race cannot occur (`Low.noRace`): the program has the lock, or there is only one worker, or no vertex of the batch rises above
the ground layer. -/
def Low (fixed : Bool) (workers : Nat) (acts : List BAct) : Prop :=
  fixed = true ∨ workers = 1 ∨ ∀ i env, BAct.work i env ∈ acts → env.level = 0

/-- no worker was stopped by a panic. -/
def Batch.noPanic (b : Batch V D) : Prop := ∀ t ∈ b.tasks, t.pc ≠ .panicked

/-- the call has returned `r` (`none` is Go's `nil`). -/
def Batch.returned (b : Batch V D) (r : Option GroupErr) : Prop := b.ret = some r

/-- all the objects of the batch `os` are stored in `c'` and indexed: they carry the caller's properties and vectors, their ids
(which the caller sees in `os'`) are the next ids of `c` in some order, every one of them can be read back, the size has grown by
their number, and every other id reads as before. -/
structure AllStored (L : Lib V D) (c : Coll) (os : List (Object V)) (c' : Coll) (os' : List (Object V)) : Prop where
  len : os'.length = os.length
  same : ∀ (k : Nat) (o o' : Object V), os[k]? = some o → os'[k]? = some o' →
    o'.props = o.props ∧ ∀ v, o.vec = some v → o'.vec = some v
  ids : (os'.map (fun o => o.id.toNat)).Perm (List.range' c.counter.count.toNat os.length)
  read : ∀ o ∈ os', ∃ text props, L.json.marshal o.props = some text ∧ L.json.unmarshal text = some props ∧
    c'.get L [o.id] = .ok [{ id := o.id, props := props, vec := some (o.vec.getD []) }]
  size : c'.getSize = c.getSize.map (· + os.length)
  others : ∀ id : UInt64, (∀ o ∈ os', o.id ≠ id) → c'.get L [id] = c.get L [id]
  index : ∀ o ∈ os', ∃ v : Vertex, c'.index.nodes.get? o.id = some v ∧ v.vec = o.vec.getD []

/-- `c` is reached from a new collection by legal calls, by reopens with no log record waiting, and by batches run by several
workers (without the race, `NoRace`) that have returned and whose tasks have all ended. -/
inductive ReachConc (fixed : Bool) (L : Lib V D) (dim : Nat) : Coll → Prop where
  | new {cfg : Cfg} {ms : List String} {he : Bool} : Setup L dim cfg → ReachConc fixed L dim (Coll.new cfg ms he)
  | call {c c' : Coll} {op : Op V} {out : Out V D} : ReachConc fixed L dim c → Legal dim c op → c.apply L op = .ok (c', out) →
      ReachConc fixed L dim c'
  | batch {c : Coll} {two : Bool} {workers : Nat} {os : List (Object V)} {embed : Embed V} {acts : List BAct} {b : Batch V D} :
      ReachConc fixed L dim c → BatchAt fixed two L dim workers c os embed acts b →
      NoRace fixed two L dim workers c os embed acts → b.ret ≠ none → (∀ t ∈ b.tasks, t.pc.over = true) → ReachConc fixed L dim b.c

/-- as `ReachConc`, and the process may stop at any moment of a call or of such a batch, and the collection is opened again,
whenever this succeeds. -/
inductive ReachAnyConc (fixed : Bool) (L : Lib V D) (dim : Nat) : Coll → Prop where
  | new {cfg : Cfg} {ms : List String} {he : Bool} : Setup L dim cfg → ReachAnyConc fixed L dim (Coll.new cfg ms he)
  | event {c c' : Coll} {e : Ev V D} : ReachAnyConc fixed L dim c → e.Legal L dim c → e.Step L c c' → ReachAnyConc fixed L dim c'
  | batch {c : Coll} {two : Bool} {workers : Nat} {os : List (Object V)} {embed : Embed V} {acts : List BAct} {b : Batch V D} :
      ReachAnyConc fixed L dim c → BatchAt fixed two L dim workers c os embed acts b →
      NoRace fixed two L dim workers c os embed acts → b.ret ≠ none → (∀ t ∈ b.tasks, t.pc.over = true) → ReachAnyConc fixed L dim b.c
  | crash {c c' : Coll} {two : Bool} {workers : Nat} {os : List (Object V)} {embed : Embed V} {acts : List BAct} {b : Batch V D} :
      ReachAnyConc fixed L dim c → BatchAt fixed two L dim workers c os embed acts b → NoRace fixed two L dim workers c os embed acts →
      b.c.reopen = .ok c' → ReachAnyConc fixed L dim c'

/-- as `ReachConc`, and no failure of the disk was ever reported: every call succeeded or was refused, every batch returned nil. -/
inductive CleanConc (fixed : Bool) (L : Lib V D) (dim : Nat) : Coll → Prop where
  | new {cfg : Cfg} {ms : List String} {he : Bool} : Setup L dim cfg → CleanConc fixed L dim (Coll.new cfg ms he)
  | call {c c' : Coll} {op : Op V} {out : Out V D} : CleanConc fixed L dim c → Legal dim c op → c.apply L op = .ok (c', out) →
      out.clean → CleanConc fixed L dim c'
  | batch {c : Coll} {two : Bool} {workers : Nat} {os : List (Object V)} {embed : Embed V} {acts : List BAct} {b : Batch V D} :
      CleanConc fixed L dim c → BatchAt fixed two L dim workers c os embed acts b →
      NoRace fixed two L dim workers c os embed acts → b.returned none → CleanConc fixed L dim b.c

/-- the ids that the objects of the batch received, as the caller sees them: all of them if the call returned nil and its context was
not cancelled, otherwise those that changed. -/
def Batch.received (os : List (Object V)) (b : Batch V D) : List UInt64 :=
  (os.zip b.objs).filterMap
    (fun p => if (b.ret = some none ∧ b.cancelled = false) ∨ p.2.id ≠ p.1.id then some p.2.id else none)

/-- `c'` is what became of `c` after a history of calls, reopens, crashes inside calls, batches run by several workers
(without the race, `NoRace`) and crashes inside such batches; callers received the ids `ids` (in the order of the calls), and every id of an object that a delete was
asked to remove has the property `T`. -/
inductive Later (fixed : Bool) (L : Lib V D) (dim : Nat) (T : UInt64 → Prop) (c : Coll) : List UInt64 → Coll → Prop where
  | refl : Later fixed L dim T c [] c
  | event {c1 c2 : Coll} {e : Ev V D} {ids : List UInt64} : Later fixed L dim T c ids c1 → e.Legal L dim c1 → e.Step L c1 c2 →
      (∀ x, e.touches x → T x) → Later fixed L dim T c (ids ++ e.received) c2
  | batch {c1 : Coll} {ids : List UInt64} {two : Bool} {workers : Nat} {os : List (Object V)} {embed : Embed V} {acts : List BAct}
      {b : Batch V D} : Later fixed L dim T c ids c1 → BatchAt fixed two L dim workers c1 os embed acts b →
      NoRace fixed two L dim workers c1 os embed acts → b.ret ≠ none → (∀ t ∈ b.tasks, t.pc.over = true) → Later fixed L dim T c (ids ++ b.received os) b.c
  | crash {c1 c2 : Coll} {ids : List UInt64} {two : Bool} {workers : Nat} {os : List (Object V)} {embed : Embed V} {acts : List BAct}
      {b : Batch V D} : Later fixed L dim T c ids c1 → BatchAt fixed two L dim workers c1 os embed acts b →
      NoRace fixed two L dim workers c1 os embed acts → b.c.reopen = .ok c2 → Later fixed L dim T c ids c2

end Vectory.Conc
