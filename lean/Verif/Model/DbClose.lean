import Verif.Spec.DbMap
/-!
# `DB.Close` while clients use their collections (`db/db.go:111-132`)

`DB.Close` holds `db.mu`, so no other method of `DB` runs meanwhile; but calls on a `*Collection` do not take `db.mu`. `Close` closes the
metadata store, then for every cached collection, in the order the Go map yields them, asks `IsClosed` (no lock, `collection.go:132-134`)
and calls `Collection.Close` (under `c.mu`). A call of a client on one collection is one step here (C52 says why that loses nothing, except
for `GetSize`).
-/
namespace Vectory
variable {V : Type}

/-- a `DB.Close` in progress. -/
structure Closing where
  db : Db
  /-- the collections the loop has not looked at -/
  todo : List String
  /-- the loop saw that this collection is not closed and will call `Close` next (`db.go:124`) -/
  now : Option String := none
  /-- what `DB.Close` returned -/
  ret : Option (Option Err) := none

/-- `DB.Close` up to the loop (`db.go:111-117`), for the map order `order`. -/
def Db.startClose (db : Db) (metaFails : Bool) (order : List String) : Closing :=
  if metaFails then { db := db, todo := [], ret := some (some .io) }
  else { db := { db with metaClosed := true }, todo := order }

/-- the next step of the loop and the end (`db.go:119-131`). `storesFail`: closing the stores fails in this step. -/
def Closing.step (s : Closing) (storesFail : Bool) : Closing :=
  match s.ret with
  | some _ => s
  | none =>
    match s.now with
    | some n =>
      match s.db.colls.get? n with
      | none => { s with now := none }
      | some oc =>
        let (c, e) := oc.coll.close storesFail
        let db := { s.db with colls := s.db.colls.set n { oc with coll := c } }
        match e with
        | some e => { s with db := db, now := none, ret := some (some e) }
        | none => { s with db := db, now := none }
    | none =>
      match s.todo with
      | [] => { s with db := { s.db with closed := true }, ret := some none }
      | n :: rest =>
        match s.db.colls.get? n with
        | none => { s with todo := rest }
        | some oc => if oc.coll.closed then { s with todo := rest } else { s with todo := rest, now := some n }

/-- what happens while `DB.Close` runs: a step of the loop, or a call `op` on a collection through a handle, which returns `out`. `faults`: may
closing a store fail? -/
inductive Closing.Step (js : Json V) (o : FloatOps) (faults : Prop) : Closing → Option (String × Op V × Out V F32) → Closing → Prop where
  | loop {s : Closing} (sf : Bool) : (sf = true → faults) → s.ret = none → Closing.Step js o faults s none (s.step sf)
  | client {s : Closing} {n : String} {op : Op V} {oc : OpenColl} {L : Lib V F32} {c' : Coll} {out : Out V F32} :
      s.ret = none → s.db.colls.get? n = some oc → oc.config.lib js o = some L → op ≠ .reopen → oc.coll.apply L op = .ok (c', out) →
      Closing.Step js o faults s (some (n, op, out)) { s with db := { s.db with colls := s.db.colls.set n { oc with coll := c' } } }

/-- `DB.Close` from `s` on, while the clients make the calls `h` (in this order); every call is legal when it is made. -/
inductive Closing.Runs (js : Json V) (o : FloatOps) (faults : Prop) (dims : Nat → Nat) : Closing → List (String × Op V × Out V F32) → Closing → Prop where
  | nil (s : Closing) : Closing.Runs js o faults dims s [] s
  | loop {s s1 s2 : Closing} {h : List (String × Op V × Out V F32)} :
      Closing.Step js o faults s none s1 → Closing.Runs js o faults dims s1 h s2 → Closing.Runs js o faults dims s h s2
  | client {s s1 s2 : Closing} {n : String} {op : Op V} {out : Out V F32} {h : List (String × Op V × Out V F32)} :
      (∀ oc, s.db.colls.get? n = some oc → Legal (dims oc.id) oc.coll op) → Closing.Step js o faults s (some (n, op, out)) s1 →
      Closing.Runs js o faults dims s1 h s2 → Closing.Runs js o faults dims s ((n, op, out) :: h) s2

end Vectory
