import Verif.Model.Locks
/-! # Using one data directory from several `DB` values: vocabulary -/
namespace Vectory

/-- the collection can be used: nobody has tried to close it. -/
def OpenColl.Usable (oc : OpenColl) : Prop := oc.coll.closed = false ∧ oc.coll.counter.closed = false

/-- the `DB` numbered `i` has the collection `n` open, as `oc`. -/
def World.Uses (w : World) (i : Nat) (n : String) (oc : OpenColl) : Prop :=
  ∃ x, w.insts i = some x ∧ x.colls.get? n = some oc ∧ oc.Usable

/-- no `DB` deletes a collection that its client has closed, while the `DB` itself is still open. -/
def World.Tidy (w : World) : WAct → Prop
  | .drop i n _ _ => ∀ x oc, w.insts i = some x → x.metaClosed = false → x.colls.get? n = some oc → oc.Usable
  | _ => True

/-- runs of any number of processes from a directory in which there is nothing. -/
inductive WReach : World → Prop where
  | new : WReach {}
  | step {w w' : World} {a : WAct} {o : Outcome} : WReach w → w.Tidy a → w.step a = some (w', o) → WReach w'

/-- the step is one of the `DB` numbered `i`, or the end of its process. -/
def WAct.by (w : World) (i : Nat) : WAct → Prop
  | .open _ _ => False
  | .create j _ _ _ => j = i
  | .drop j _ _ _ => j = i
  | .call j _ _ => j = i
  | .closeColl j _ _ => j = i
  | .close j _ _ => j = i
  | .exit p => ∃ x, w.insts i = some x ∧ x.proc = p

/-- the step happens in process `p`. -/
def WAct.inProc (w : World) (p : Nat) : WAct → Prop
  | .open q _ => q = p
  | .create j _ _ _ => ∃ x, w.insts j = some x ∧ x.proc = p
  | .drop j _ _ _ => ∃ x, w.insts j = some x ∧ x.proc = p
  | .call j _ _ => ∃ x, w.insts j = some x ∧ x.proc = p
  | .closeColl j _ _ => ∃ x, w.insts j = some x ∧ x.proc = p
  | .close j _ _ => ∃ x, w.insts j = some x ∧ x.proc = p
  | .exit q => q = p

/-- the lock of the objects of `n` is held by process `p` for a `DB` that does not have the collection open. -/
def World.Leaked (w : World) (n : String) (p : Nat) : Prop :=
  ∃ i, w.objLocks n = some { proc := p, inst := i } ∧ ∀ oc, ¬ w.Uses i n oc

/-- runs in which process `p` does not end (or panic) and nobody deletes the collection `n`. -/
inductive Blocked (n : String) (p : Nat) : World → World → Prop where
  | refl (w : World) : Blocked n p w w
  | step {w w1 w2 : World} {a : WAct} {o : Outcome} : Blocked n p w w1 → w1.Tidy a → w1.step a = some (w2, o) →
      a ≠ .exit p → (∀ q, o ≠ .panicked q) → (∀ i ef rf, a ≠ .drop i n ef rf) → Blocked n p w w2

/-- every lock is held for a `DB` that has the collection open. -/
def World.NoLeak (w : World) : Prop :=
  ∀ n o, w.objLocks n = some o ∨ w.vecLocks n = some o → ∃ oc, w.Uses o.inst n oc

/-- the rows can be opened one after the other by somebody who is alone: nobody holds a lock on them, nothing fails, and the files of each of
them are those of a collection. -/
def World.Openable (w : World) (f : String → OpenFaults) (rows : List Row) : Prop :=
  ∀ r ∈ rows, w.objLocks r.name = none ∧ w.vecLocks r.name = none ∧ f r.name = {} ∧ r.indexType = "hnsw" ∧
    ∃ c, newCollection r.config ((w.dirs.get? r.name).getD {}) false = .ok c

/-- what a single process would see if it opened the directory with nobody else around. -/
def World.alone (w : World) : Db := { rows := w.rows, nextId := w.nextId, dirs := w.dirs }

/-- nothing goes wrong: `Open` and `CreateCollection` succeed, the stores close without an error. -/
def WAct.Fine (o : Outcome) : WAct → Prop
  | .open _ _ => o = .ok
  | .create _ _ _ _ => o = .ok
  | .closeColl _ _ f => f = .none
  | .close _ _ f => ∀ n, f n = .none
  | _ => True

/-- runs in which nothing goes wrong with the stores (calls may fail, `DeleteCollection` may fail, processes may end at any moment). -/
inductive WFine : World → Prop where
  | new : WFine {}
  | step {w w' : World} {a : WAct} {o : Outcome} : WFine w → w.Tidy a → w.step a = some (w', o) → a.Fine o → WFine w'

end Vectory
