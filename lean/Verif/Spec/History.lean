import Verif.Spec.Assume
/-!
# Histories of one collection

The vocabulary in which the collection properties are stated: calls, what they return, and sequences of calls.
-/
namespace Vectory
variable {V D : Type}

/-- a call on a collection, together with the choices the environment makes during it. -/
inductive Op (V : Type) where
  | insert (o : Object V) (embed : Embed V) (env : InsEnv) (flushFails : Bool)
  | insertBatch (os : List (Object V)) (embed : Embed V) (envs : Nat → InsEnv) (flushFails : Bool)
  | delete (id : UInt64) (deleteFails flushFails : Bool)
  | get (ids : List UInt64)
  | search (o : Object V) (embed : Embed V) (k : Int)
  | size
  | update (o : Object V)
  | close (storesFail : Bool)
  /-- the process ends (cleanly or not) between calls, and the collection is opened again. -/
  | reopen

/-- what the caller gets: for inserts, the object as the caller holds it afterwards. -/
inductive Out (V D : Type) where
  | inserted (o : Object V) (e : Option Err)
  | insertedBatch (os : List (Object V)) (e : Option Err)
  | deleted (e : Option Err)
  | objects (r : Except Abort (List (Object V)))
  | found (r : Except Abort (SearchResult V D))
  | size (r : Except Err Nat)
  | done (e : Option Err)

/-- executing one call. An `error` is a panic of a modifying call, or a failing open. -/
def Coll.apply (L : Lib V D) (c : Coll) : Op V → Except Abort (Coll × Out V D)
  | .insert o embed env ff => do
    let (c, o, e) ← liftPanic (c.insert L o embed env ff)
    .ok (c, .inserted o e)
  | .insertBatch os embed envs ff => do
    let (c, os, e) ← liftPanic (c.insertBatch L os embed envs ff)
    .ok (c, .insertedBatch os e)
  | .delete id df ff => do
    let (c, e) ← liftPanic (c.delete L id df ff)
    .ok (c, .deleted e)
  | .get ids => .ok (c, .objects (c.get L ids))
  | .search o embed k => .ok (c, .found (c.semanticSearch L o embed k))
  | .size => .ok (c, .size c.getSize)
  | .update o => .ok (c, .done (c.update o))
  | .close sf => let (c, e) := c.close sf; .ok (c, .done e)
  | .reopen => do
    let c ← c.reopen
    .ok (c, .done none)

/-- the embedding service gives every object a vector of dimension `dim`, or reports an error; objects that bring their
own vector have that dimension too. -/
def EmbedOK (c : Coll) (embed : Embed V) (dim : Nat) (os : List (Object V)) : Prop :=
  ∃ r, embedObjectsIfNeeded c embed os = .ok r ∧ ∀ os', r = .ok os' → ∀ o ∈ os', (o.vec.getD []).length = dim

/-- the calls covered: vectors of the collection's dimension, levels that fit the log format (32 bits), fewer than
`2^64` ids in total, and a reopen only when no log record is waiting for a successful flush. -/
def Legal (dim : Nat) (c : Coll) : Op V → Prop
  | .insert o embed env _ =>
    EmbedOK c embed dim [o] ∧ env.level < 4294967296 ∧ c.counter.count.toNat + 1 < 18446744073709551616
  | .insertBatch os embed envs _ =>
    EmbedOK c embed dim os ∧ (∀ i, (envs i).level < 4294967296) ∧
      c.counter.count.toNat + os.length < 18446744073709551616
  | .reopen => c.index.wal.batch = []
  | _ => True

/-- a sequence of legal calls with their results. -/
inductive Runs (L : Lib V D) (dim : Nat) : Coll → List (Op V × Out V D) → Coll → Prop where
  | nil (c : Coll) : Runs L dim c [] c
  | cons {c c1 c2 : Coll} {op : Op V} {out : Out V D} {h : List (Op V × Out V D)} :
      Legal dim c op → c.apply L op = .ok (c1, out) → Runs L dim c1 h c2 → Runs L dim c ((op, out) :: h) c2

/-- the ids that objects of this call received, as the callers see them: the object was accepted, or its `Id` changed. -/
def received : Op V × Out V D → List UInt64
  | (.insert o _ _ _, .inserted o' e) => if e = none ∨ o'.id ≠ o.id then [o'.id] else []
  | (.insertBatch os _ _ _, .insertedBatch os' e) =>
    (os.zip os').filterMap (fun p => if e = none ∨ p.2.id ≠ p.1.id then some p.2.id else none)
  | _ => []

/-- does this call remove the object `x` when it succeeds? -/
def Op.touches : Op V → UInt64 → Prop
  | .delete id _ _, x => x = id
  | _, _ => False

/-- the number of objects a call hands to the store. -/
def Op.objects : Op V → Nat
  | .insert _ _ _ _ => 1
  | .insertBatch os _ _ _ => os.length
  | _ => 0

/-- the assumptions about the environment of a collection: JSON, the distance function on the collection's dimension, the
index parameters. -/
structure Setup (L : Lib V D) (dim : Nat) (cfg : Cfg) : Prop where
  json : JsonOK L.json
  metric : DimOK L.metric dim
  dim32 : dim < 4294967296
  cfg : CfgOK cfg

/-- `c` is reached from a new collection by a sequence of legal calls. -/
def Reach (L : Lib V D) (dim : Nat) (c : Coll) : Prop :=
  ∃ (cfg : Cfg) (ms : List String) (he : Bool) (h : List (Op V × Out V D)),
    Setup L dim cfg ∧ Runs L dim (Coll.new cfg ms he) h c

/-- a sequence of calls with their results, with no condition on the calls (other than that none of them panics and no
open fails). -/
inductive Trace (L : Lib V D) : Coll → List (Op V × Out V D) → Coll → Prop where
  | nil (c : Coll) : Trace L c [] c
  | cons {c c1 c2 : Coll} {op : Op V} {out : Out V D} {h : List (Op V × Out V D)} :
      c.apply L op = .ok (c1, out) → Trace L c1 h c2 → Trace L c ((op, out) :: h) c2

/-- errors that refuse a call, as opposed to failures while carrying it out. -/
def Err.rejection : Err → Prop
  | .collectionClosed | .tooManyProperties _ | .missingProperty _ _ | .missingVectorAndEmbedder | .embed => True
  | _ => False

/-- the call succeeded or was refused; no failure of the disk was reported. -/
def Out.clean : Out V D → Prop
  | .inserted _ e => ∀ x, e = some x → x.rejection
  | .insertedBatch _ e => ∀ x, e = some x → x.rejection
  | .deleted e => e = none
  | .done e => ∀ x, e = some x → x.rejection
  | _ => True

/-- what can happen to a collection when processes crash: a completed call; or the process stops inside an insert, after
having stored `pre` of a batch, and the collection is opened again; or it stops inside a delete. -/
inductive Ev (V D : Type) where
  | call (op : Op V) (out : Out V D)
  | crashInsert (pre : List (Object V × InsEnv)) (o : Object V) (level : Nat) (p : InsertCrash)
  | crashDelete (id : UInt64) (p : DeleteCrash)

/-- one event. -/
inductive Ev.Step (L : Lib V D) (c : Coll) : Ev V D → Coll → Prop where
  | call {op : Op V} {out : Out V D} {c' : Coll} : c.apply L op = .ok (c', out) → Ev.Step L c (.call op out) c'
  | crashInsert {pre : List (Object V × InsEnv)} {o : Object V} {level : Nat} {p : InsertCrash} {c1 c' : Coll}
      {os : List (Object V)} {d : Disk} :
      c.insertAll L pre = .ok (c1, os, none) → c1.crashInsert L o level p = .ok d →
      openColl c.index.cfg c.mappings c.hasEmbedder d = .ok c' → Ev.Step L c (.crashInsert pre o level p) c'
  | crashDelete {id : UInt64} {p : DeleteCrash} {c' : Coll} :
      openColl c.index.cfg c.mappings c.hasEmbedder (c.crashDelete id p) = .ok c' → Ev.Step L c (.crashDelete id p) c'

/-- a sequence of events. -/
inductive Events (L : Lib V D) : Coll → List (Ev V D) → Coll → Prop where
  | nil (c : Coll) : Events L c [] c
  | cons {c c1 c2 : Coll} {e : Ev V D} {h : List (Ev V D)} : e.Step L c c1 → Events L c1 h c2 → Events L c (e :: h) c2

/-- no counter write is cut in the middle (a crash of the process, not of the machine). -/
def Ev.untorn : Ev V D → Prop
  | .crashInsert _ _ _ (.counter j) => j = 0 ∨ 8 ≤ j
  | _ => True

/-- the ids that callers received in an event. -/
def Ev.received : Ev V D → List UInt64
  | .call op out => Vectory.received (op, out)
  | _ => []

/-- the number of objects an event hands to the store. -/
def Ev.objects : Ev V D → Nat
  | .call op _ => op.objects
  | .crashInsert pre _ _ _ => pre.length + 1
  | .crashDelete _ _ => 0

/-- the events covered when processes may stop at any moment: calls as in `Legal`, but the process may also end while log
records are waiting; a crash inside an insert (of an accepted, embedded object, the last of `pre ++ [o]`) or inside the
delete of a stored object, on an open collection. -/
def Ev.Legal (L : Lib V D) (dim : Nat) (c : Coll) : Ev V D → Prop
  | .call .reopen _ => True
  | .call op _ => Vectory.Legal dim c op
  | .crashInsert pre o level p =>
    c.closed = false ∧ c.counter.closed = false ∧ (∀ x ∈ pre, (x.1.vec.getD []).length = dim ∧ x.2.level < 4294967296) ∧
      (o.vec.getD []).length = dim ∧ level < 4294967296 ∧ (L.json.marshal o.props).isSome ∧
      c.counter.count.toNat + pre.length + 1 < 18446744073709551616 ∧ (Ev.crashInsert pre o level p : Ev V D).untorn
  | .crashDelete id _ => c.closed = false ∧ ∃ o, c.get L [id] = .ok [o]

/-- a sequence of such events. -/
inductive EventRuns (L : Lib V D) (dim : Nat) : Coll → List (Ev V D) → Coll → Prop where
  | nil (c : Coll) : EventRuns L dim c [] c
  | cons {c c1 c2 : Coll} {e : Ev V D} {h : List (Ev V D)} :
      e.Legal L dim c → e.Step L c c1 → EventRuns L dim c1 h c2 → EventRuns L dim c (e :: h) c2

/-- `c` is reached from a new collection by calls, crashes inside calls and reopens, whenever these succeed in opening. -/
def ReachAny (L : Lib V D) (dim : Nat) (c : Coll) : Prop :=
  ∃ (cfg : Cfg) (ms : List String) (he : Bool) (h : List (Ev V D)),
    Setup L dim cfg ∧ EventRuns L dim (Coll.new cfg ms he) h c

/-- does this event remove the object `x` (or may it, when it is interrupted)? -/
def Ev.touches : Ev V D → UInt64 → Prop
  | .call op _, x => op.touches x
  | .crashDelete id _, x => x = id
  | _, _ => False

end Vectory
