import Verif.Spec.History
/-!
# What calls leave behind

How much a call may add to the index log, counted in records and in bytes, and how much it must leave there.
-/
namespace Vectory
variable {V D : Type}

/-- the most records one object may add to the log: two, and for every layer from 0 to its level one for the links of the new
vertex and one for each of its at most `m` neighbours. -/
def perObject (m level : Nat) : Nat := 2 + (level + 1) * (m + 1)

/-- the most records a call may add to the log. -/
def Op.mayLog (m : Nat) : Op V → Nat
  | .insert _ _ env _ => perObject m env.level
  | .insertBatch os _ envs _ => ((List.range os.length).map (fun i => perObject m (envs i).level)).sum
  | .delete _ _ _ => 1
  | _ => 0

/-- the objects a call accepted: it returned no error. -/
def accepted : Op V × Out V D → Nat
  | (.insert _ _ _ _, .inserted _ none) => 1
  | (.insertBatch os _ _ _, .insertedBatch _ none) => os.length
  | _ => 0

/-- the same for an event: a completed call, or a crash inside one. -/
def Ev.mayLog (m : Nat) : Ev V D → Nat
  | .call op _ => op.mayLog m
  | .crashInsert pre _ level _ => (pre.map (fun x => perObject m x.2.level)).sum + perObject m level
  | .crashDelete _ _ => 1

def Ev.accepted : Ev V D → Nat
  | .call op out => Vectory.accepted (op, out)
  | _ => 0

/-- the vertices the index holds in memory. -/
def Coll.vertices (c : Coll) : Nat := c.index.nodes.length

/-- the size in bytes of a file of records, without the framing the log library adds. -/
def bytesOf (log : List Bytes) : Nat := (log.map List.length).sum

/-- the largest record the index writes: links to `max m mMax0` vertices. -/
def largestRecord (cfg : Cfg) : Nat := 17 + 8 * max 1 (max cfg.m cfg.mMax0)

end Vectory
