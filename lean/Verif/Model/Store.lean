import Verif.Model.Object
/-!
# The object store (`db/core/objstore/store.go`)

A bitcask database is a map from byte keys to byte values; `Put`, `Get`, `Delete`, `Len`, `Keys` are the map
operations and completed writes survive a process crash (trusted contract of
`git.mills.io/prologic/bitcask`). A `Put`/`Delete` may fail, in which case it changed nothing.
-/
namespace Vectory

/-- a `*bitcask.Bitcask`. -/
abbrev Bitcask := AMap Bytes Bytes

/-- `objstore.Stores` (`store.go:15-21`). -/
structure Stores where
  objects : Bitcask := []
  vectors : Bitcask := []
  deriving DecidableEq, Repr

/-- which of the two `Put`s of `PutObject` the environment lets fail. -/
inductive PutFault where
  | none | objects | vectors
  deriving DecidableEq, Repr

variable {V : Type}

/-- the eight key bytes of an id (`store.go:37-38` and everywhere else). -/
def keyOf (id : UInt64) : Bytes := putUint64 id

/-- `PutObject` (`store.go:36-56`): the new stores, and whether an error was returned. -/
def putObject (js : Json V) (s : Stores) (o : Object V) (fault : PutFault) : Stores × Option Err :=
  match serializeProperties js o with
  | .error e => (s, some e)
  | .ok objBytes =>
    let vecBytes := serializeVector (o.vec.getD [])
    if fault = .objects then (s, some .io)
    else
      let s := { s with objects := s.objects.set (keyOf o.id) objBytes }
      if fault = .vectors then (s, some .io)
      else ({ s with vectors := s.vectors.set (keyOf o.id) vecBytes }, none)

/-- `GetObject` (`store.go:58-94`): `ok none` is "not found". -/
def getObject (js : Json V) (s : Stores) (id : UInt64) : Except Abort (Option (Object V)) :=
  match s.objects.get? (keyOf id) with
  | none => .ok none
  | some object =>
    match s.vectors.get? (keyOf id) with
    | none => .ok none
    | some vector =>
      match deserializeProperties js object with
      | .error a => .error a
      | .ok props =>
        match deserializeVector vector with
        | .error p => .error (.panic p)
        | .ok vec => .ok (some { id := id, props := props, vec := some vec })

/-- `GetObjects` (`store.go:96-112`), and the identical loop of `Collection.Get`
(`db/collection_get.go:19-33`): skip what is not found. -/
def getObjects (js : Json V) (s : Stores) : List UInt64 → Except Abort (List (Object V))
  | [] => .ok []
  | id :: ids =>
    match getObject js s id with
    | .error a => .error a
    | .ok o? =>
      match getObjects js s ids with
      | .error a => .error a
      | .ok os =>
        match o? with
        | none => .ok os
        | some o => .ok (o :: os)

/-- `DeleteObject` (`store.go:114-120`): only the object, its vector stays. -/
def deleteObject (s : Stores) (id : UInt64) : Stores :=
  { s with objects := s.objects.erase (keyOf id) }

/-- `GetVector` (`store.go:122-142`). -/
def getVector (s : Stores) (id : UInt64) : Except Panic (Option Vec) :=
  match s.vectors.get? (keyOf id) with
  | none => .ok none
  | some b =>
    match deserializeVector b with
    | .error p => .error p
    | .ok v => .ok (some v)

/-- `Size` (`store.go:149-151`). -/
def Stores.size (s : Stores) : Nat := s.objects.length

end Vectory
