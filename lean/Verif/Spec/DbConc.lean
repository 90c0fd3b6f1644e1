import Verif.Spec.DbLife
import Verif.Spec.CollSched
/-!
# The life of a database whose batches are run by several workers

As `Spec/DbLife.lean`, with two more events: `InsertBatch` (or `InsertBatch2`) on a collection, run by several workers under any
schedule, and a process that stops while several collections are in the middle of a call each, and a collection is being created or
dropped. Calls on one collection exclude each other (`c.mu`), calls on different collections do not.
-/
namespace Vectory
open Conc
variable {V D : Type}

/-- `d` are the files the process leaves of the collection `c` when it stops: between calls, or at any moment of an insert, of a delete
(`deleting` is the id it was asked to remove) or of a batch run by several workers. -/
inductive Leaves (fixed : Bool) (L : Lib V D) (dim : Nat) (c : Coll) : (deleting : Option UInt64) → Disk → Prop where
  | rest : Leaves fixed L dim c none c.disk
  | insert {pre : List (Object V × InsEnv)} {x : Object V} {level : Nat} {p : InsertCrash} {c1 : Coll} {os : List (Object V)} {d : Disk} :
      (Ev.crashInsert pre x level p : Ev V D).Legal L dim c → c.insertAll L pre = .ok (c1, os, none) →
      c1.crashInsert L x level p = .ok d → Leaves fixed L dim c none d
  | delete {id : UInt64} {p : DeleteCrash} : (Ev.crashDelete id p : Ev V D).Legal L dim c →
      Leaves fixed L dim c (some id) (c.crashDelete id p)
  | batch {two : Bool} {workers : Nat} {os : List (Object V)} {embed : Embed V} {acts : List BAct} {b : Batch V D} :
      BatchAt fixed two L dim workers c os embed acts b → NoRace fixed two L dim workers c os embed acts →
      Leaves fixed L dim c none b.c.disk

/-- a call on the database itself that was cut off when the process stopped (`db.go:38-91`; they exclude each other, `db.mu`). -/
inductive CutOff where
  | nothing
  | create (cfg : Config) (p : CreateCrash)
  | drop (name : String) (p : DropCrash)

/-- what that call has done so far. -/
def Db.cutOff (db : Db) : CutOff → Db
  | .nothing => db
  | .create cfg p => db.crashCreate cfg p
  | .drop name p => db.crashDrop name p

/-- the calls covered. -/
def CutOff.Legal (V : Type) (interrupted : Prop) (dims : Nat → Nat) (db : Db) : CutOff → Prop
  | .create cfg _ => (DbOp.create cfg {} : DbOp V).Legal interrupted dims db ∧ CleanOp ((DbOp.create cfg {} : DbOp V), .done none)
  | _ => True

/-- what can happen: what `DbEv` says; a batch of `os` on collection `name` that became `b`; the process stops, while objects
`deleting` were being deleted and a collection was being created or dropped (`half`), and the database is opened again. -/
inductive DbEvC (V : Type) where
  | ev (e : DbEv V)
  | batch (name : String) (os : List (Object V)) (b : Batch V F32)
  | crash (half : CutOff) (deleting : String → Option UInt64)

/-- the files that are left when the process stops: `files` for everything. -/
def Db.left (db : Db) (files : AMap String Disk) : Db := { db with colls := [], dirs := files }

/-- one event. The workers of a batch have all ended when the call returned; the batch does not pass through the race of C14. -/
inductive DbEvC.Step (fixed : Bool) (js : Json V) (o : FloatOps) (interrupted : Prop) (dims : Nat → Nat) (db : Db) : DbEvC V → Db → Prop where
  | ev {e : DbEv V} {db' : Db} : e.Legal js o interrupted dims db → e.Step js o db db' → DbEvC.Step fixed js o interrupted dims db (.ev e) db'
  | batch {name : String} {two : Bool} {workers : Nat} {os : List (Object V)} {embed : Embed V} {acts : List BAct} {b : Batch V F32}
      {oc : OpenColl} {L : Lib V F32} : db.get name = .ok oc → oc.config.lib js o = some L →
      BatchAt fixed two L (dims oc.id) workers oc.coll os embed acts b → NoRace fixed two L (dims oc.id) workers oc.coll os embed acts →
      b.ret ≠ none → (∀ t ∈ b.tasks, t.pc.over = true) →
      DbEvC.Step fixed js o interrupted dims db (.batch name os b) { db with colls := db.colls.set name { oc with coll := b.c } }
  | crash {half : CutOff} {deleting : String → Option UInt64} {files : AMap String Disk} {db' : Db} : interrupted →
      half.Legal V interrupted dims db →
      (∀ n oc, (db.cutOff half).colls.get? n = some oc → ∃ L d, oc.config.lib js o = some L ∧ files.get? n = some d ∧
        Leaves fixed L (dims oc.id) oc.coll (deleting n) d) →
      (∀ n, (db.cutOff half).colls.has n = false → files.get? n = (db.cutOff half).dirs.get? n) →
      ((db.cutOff half).left files).reopen = .ok db' → DbEvC.Step fixed js o interrupted dims db (.crash half deleting) db'

/-- a sequence of such events. -/
inductive DbLifeC (fixed : Bool) (js : Json V) (o : FloatOps) (interrupted : Prop) (dims : Nat → Nat) : Db → List (DbEvC V) → Db → Prop where
  | nil (db : Db) : DbLifeC fixed js o interrupted dims db [] db
  | cons {db db1 db2 : Db} {e : DbEvC V} {h : List (DbEvC V)} : e.Step fixed js o interrupted dims db db1 →
      DbLifeC fixed js o interrupted dims db1 h db2 → DbLifeC fixed js o interrupted dims db (e :: h) db2

/-- does this event delete (or may it, when interrupted) the object `id` of collection `n`? -/
def DbEvC.touches (n : String) (id : UInt64) : DbEvC V → Prop
  | .ev e => e.touches n id
  | .batch .. => False
  | .crash _ deleting => deleting n = some id

/-- is this event a call of DeleteCollection on `n` (complete, or interrupted after its first write)? -/
def DbEvC.drops (n : String) : DbEvC V → Prop
  | .ev e => e.drops n
  | .crash (.drop m (.row _)) _ => m = n
  | _ => False

end Vectory
