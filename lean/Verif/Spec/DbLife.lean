import Verif.Spec.DbMap
/-!
# The life of a database: legal calls, restarts, processes that stop inside a call

`interrupted` says whether processes may stop at any moment (`True`) or only between calls, when nothing waits for a flush
(`False`). `dims` gives the dimension of each collection; collections are identified by the number the metadata store gave them.
-/
namespace Vectory
variable {V : Type}

/-- what the validator does not check but the index needs (`C40` and `C19` show why): parameters whose keys survive a Go map, `m ≥ 2`
neighbours that fit the bottom layer's lists, lists short enough for the log format, and a dimension the distance function accepts. -/
structure ConfigOK (dim : Nat) (cfg : Config) : Prop where
  keys : ∀ j, cfg.indexParams = some j → DistinctKeys j ∨ viaMap j = some j
  params : ∀ j p, cfg.indexParams = some j → decodeHnsw j = some p →
    2 ≤ p.m ∧ p.m ≤ 2 * p.mMax ∧ 2 * p.mMax < 4294967296 ∧ (p.distanceType = "dot_product" → dim % 8 = 0)
  dim : dim < 4294967296

/-- a directory without a collection: what an interrupted `DeleteCollection` leaves. -/
def Db.leftover (db : Db) (n : String) : Prop := db.dirs.has n = true ∧ db.colls.has n = false

/-- nothing waits for a flush. -/
def Db.flushed (db : Db) : Prop := ∀ n oc, db.colls.get? n = some oc → oc.coll.index.wal.batch = []

/-- the calls covered. -/
def DbOp.Legal (interrupted : Prop) (dims : Nat → Nat) (db : Db) : DbOp V → Prop
  | .create cfg _ => Documented cfg → ConfigOK (dims db.nextId) cfg ∧ ¬ db.leftover cfg.name
  | .on n op => op ≠ .reopen ∧ ∀ oc, db.get n = .ok oc → Vectory.Legal (dims oc.id) oc.coll op
  | .restart => interrupted ∨ db.flushed
  | _ => True

/-- what can happen to a database: a completed call (or a restart between calls); the process stops inside an insert into a
collection, after having stored `pre` of a batch, or inside a delete, or inside `CreateCollection` or `DeleteCollection`, and the
database is opened again. -/
inductive DbEv (V : Type) where
  | call (op : DbOp V) (out : DbOut V)
  | crashInsert (name : String) (pre : List (Object V × InsEnv)) (o : Object V) (level : Nat) (p : InsertCrash)
  | crashDelete (name : String) (id : UInt64) (p : DeleteCrash)
  | crashCreate (cfg : Config) (p : CreateCrash)
  | crashDrop (name : String) (p : DropCrash)

/-- the process stopped and left the files `d` for one collection, the others as they are. -/
def Db.stopped (db : Db) (name : String) (d : Disk) : Db :=
  { db with colls := db.colls.erase name, dirs := db.dirs.set name d }

/-- one event. -/
inductive DbEv.Step (js : Json V) (o : FloatOps) (db : Db) : DbEv V → Db → Prop where
  | call {op : DbOp V} {out : DbOut V} {db' : Db} : DbStep js o db op out db' → DbEv.Step js o db (.call op out) db'
  | crashInsert {name : String} {pre : List (Object V × InsEnv)} {x : Object V} {level : Nat} {p : InsertCrash} {oc : OpenColl}
      {L : Lib V F32} {c1 : Coll} {os : List (Object V)} {d : Disk} {db' : Db} :
      db.get name = .ok oc → oc.config.lib js o = some L → oc.coll.insertAll L pre = .ok (c1, os, none) →
      c1.crashInsert L x level p = .ok d → (db.stopped name d).reopen = .ok db' →
      DbEv.Step js o db (.crashInsert name pre x level p) db'
  | crashDelete {name : String} {id : UInt64} {p : DeleteCrash} {oc : OpenColl} {db' : Db} :
      db.get name = .ok oc → (db.stopped name (oc.coll.crashDelete id p)).reopen = .ok db' →
      DbEv.Step js o db (.crashDelete name id p) db'
  | crashCreate {cfg : Config} {p : CreateCrash} {db' : Db} :
      (db.crashCreate cfg p).reopen = .ok db' → DbEv.Step js o db (.crashCreate cfg p) db'
  | crashDrop {name : String} {p : DropCrash} {db' : Db} :
      (db.crashDrop name p).reopen = .ok db' → DbEv.Step js o db (.crashDrop name p) db'

/-- the events covered. -/
def DbEv.Legal (js : Json V) (o : FloatOps) (interrupted : Prop) (dims : Nat → Nat) (db : Db) : DbEv V → Prop
  | .call op out => op.Legal interrupted dims db ∧ CleanOp (op, out)
  | .crashInsert n pre x level p => interrupted ∧ ∀ oc L, db.get n = .ok oc → oc.config.lib js o = some L →
      (Ev.crashInsert pre x level p : Ev V F32).Legal L (dims oc.id) oc.coll
  | .crashDelete n id p => interrupted ∧ ∀ oc L, db.get n = .ok oc → oc.config.lib js o = some L →
      (Ev.crashDelete id p : Ev V F32).Legal L (dims oc.id) oc.coll
  | .crashCreate cfg _ => (interrupted ∨ db.flushed) ∧ (DbOp.create cfg {} : DbOp V).Legal interrupted dims db ∧
      CleanOp ((DbOp.create cfg {} : DbOp V), .done none)
  | .crashDrop _ _ => interrupted ∨ db.flushed

/-- a sequence of such events. -/
inductive DbLife (js : Json V) (o : FloatOps) (interrupted : Prop) (dims : Nat → Nat) : Db → List (DbEv V) → Db → Prop where
  | nil (db : Db) : DbLife js o interrupted dims db [] db
  | cons {db db1 db2 : Db} {e : DbEv V} {h : List (DbEv V)} : e.Legal js o interrupted dims db → e.Step js o db db1 →
      DbLife js o interrupted dims db1 h db2 → DbLife js o interrupted dims db (e :: h) db2

/-- does this event delete (or may it, when interrupted) the object `id` of collection `n`? -/
def DbEv.touches (n : String) (id : UInt64) : DbEv V → Prop
  | .call (.on m op) _ => m = n ∧ op.touches id
  | .crashDelete m x _ => m = n ∧ id = x
  | _ => False

/-- is this event a call of DeleteCollection on `n` (complete, or interrupted after its first write)? -/
def DbEv.drops (n : String) : DbEv V → Prop
  | .call (.delete m _ _) _ => m = n
  | .crashDrop m (.row _) => m = n
  | _ => False

end Vectory
