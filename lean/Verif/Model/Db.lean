import Verif.Model.Config
/-!
# The database: metadata rows, directories, open collections (`db/db.go`, `db/metadata/meta_manager.go`)

Contracts trusted here: ent/sqlite saves a row atomically and durably and enforces the unique name
(`metadata/schema/collection.go:14`); `os.Mkdir` fails with "exists" exactly when the name exists; bitcask and the counter
create the directories and files they miss. Simplifications: `db.mu` makes the methods atomic; a `*Collection` handle
obtained before `DeleteCollection` is not used afterwards; names are single path components (`Model/Path.lean` has the rest).
-/
namespace Vectory
variable {V D : Type}

/-- a row of the table `collections` (`gen/ent/migrate/schema.go:12-21`). -/
structure Row where
  id : Nat
  name : String
  indexType : String
  dataType : String
  embedderType : String
  indexParams : JVal
  embedderConfig : JVal
  mappings : List String
  deriving DecidableEq, Repr

/-- a `*Collection` in the cache: its configuration, id and state. -/
structure OpenColl where
  id : Nat
  config : Config
  coll : Coll
  deriving DecidableEq, Repr

/-- `DB` (`db.go:13-20`) together with the durable state it works on. `dirs` are the collection directories; for an open
collection the contents are `coll.disk` (see `Db.contents`). -/
structure Db where
  rows : List Row := []
  nextId : Nat := 1
  dirs : AMap String Disk := []
  colls : AMap String OpenColl := []
  closed : Bool := false
  /-- the sqlite handle was closed -/
  metaClosed : Bool := false
  deriving DecidableEq, Repr

/-- the files of a collection directory as they are now. -/
def Db.contents (db : Db) (name : String) : Option Disk :=
  match db.colls.get? name with
  | some oc => some oc.coll.disk
  | none => db.dirs.get? name

/-- the environment's choices during `CreateCollection`. -/
structure CreateEnv where
  /-- sqlite refuses the row for another reason than the unique name (I/O, cancelled context) -/
  saveFails : Bool := false
  /-- `os.Mkdir` fails for another reason than "exists" -/
  mkdirFails : Bool := false
  /-- opening the stores, the counter file or the log fails -/
  openFails : Bool := false
  deriving DecidableEq, Repr

/-- `MetaManager.CreateCollection` (`meta_manager.go:40-89`): the row's id, 0 when nothing was saved. -/
def Db.metaCreate (db : Db) (cfg : Config) (env : CreateEnv) : Db × Except Err Nat :=
  match cfg.indexParams with
  | none => (db, .ok 0)                               -- meta_manager.go:42-44, returns a nil error
  | some ip =>
    match viaMap ip with
    | none => (db, .error .json)
    | some params =>
      match cfg.embedderConfig with
      | none => (db, .ok 0)                           -- meta_manager.go:53-55, returns a nil error
      | some ec =>
        match viaMap ec with
        | none => (db, .error .json)
        | some config =>
          if env.saveFails || db.metaClosed then (db, .error .io)
          else if db.rows.any (fun r => decide (r.name = cfg.name)) then (db, .error .uniqueConstraint)
          else
            let row : Row := Row.mk db.nextId cfg.name cfg.indexType cfg.dataType cfg.embedderType params config cfg.mappings
            let db := { db with rows := db.rows ++ [row], nextId := db.nextId + 1 }
            if env.mkdirFails then (db, .error .io)
            else if db.dirs.has cfg.name then (db, .error .dirExists)   -- meta_manager.go:88 returns `err`
            else ({ db with dirs := db.dirs.set cfg.name {} }, .ok row.id)

/-- `newCollection` (`collection.go:38-93`) on the files found in the collection's directory. -/
def newCollection (cfg : Config) (d : Disk) (openFails : Bool) : Except Abort Coll :=
  if openFails then .error (.error .io)
  else if cfg.indexType = "hnsw" then
    openColl (((cfg.indexParams.bind decodeHnsw).getD {}).toCfg) cfg.mappings cfg.hasEmbedder d
  else .error (.error .unknownIndexType)

/-- `DB.CreateCollection` (`db.go:38-68`). Opening the stores creates the directory if the metadata manager did not. -/
def Db.create (db : Db) (cfg : Config) (env : CreateEnv) : Except Panic (Db × Option Err) :=
  if db.closed then .ok (db, some .databaseClosed)
  else
    match validateConfig cfg with
    | some why => .ok (db, some (.validationFailed why))
    | none =>
      if db.colls.has cfg.name then .ok (db, some .collectionAlreadyExists)
      else
        let (db, r) := db.metaCreate cfg env
        match r with
        | .error e => .ok (db, some e)
        | .ok id =>
          let d := (db.dirs.get? cfg.name).getD {}
          let db := { db with dirs := db.dirs.set cfg.name d }
          match newCollection cfg d env.openFails with
          | .error (.panic p) => .error p
          | .error (.error e) => .ok (db, some e)
          | .ok c => .ok ({ db with colls := db.colls.set cfg.name { id := id, config := cfg, coll := c } }, none)

/-- `DB.GetCollection` (`db.go:94-108`). -/
def Db.get (db : Db) (name : String) : Except Err OpenColl :=
  if db.closed then .error .databaseClosed
  else
    match db.colls.get? name with
    | none => .error (.validationFailed "collection does not exist")
    | some oc => .ok oc

/-- `DB.DeleteCollection` (`db.go:71-91`, `meta_manager.go:91-103`). `execFails`: the SQL delete fails; `removeFails`:
`os.RemoveAll` fails (the model then leaves the directory as it is). -/
def Db.delete (db : Db) (name : String) (execFails removeFails : Bool) : Db × Option Err :=
  if db.closed then (db, some .databaseClosed)
  else if db.colls.has name = false then (db, some (.validationFailed "collection does not exist"))
  else if execFails || db.metaClosed then (db, some .io)
  else if db.rows.any (fun r => decide (r.name = name)) = false then (db, some .metaCollectionDoesntExist)
  else
    let db := { db with rows := db.rows.filter (fun r => decide (r.name ≠ name)) }
    if removeFails then (db, some .io)
    else ({ db with dirs := db.dirs.erase name, colls := db.colls.erase name }, none)

/-- the loop of `DB.Close` (`db.go:119-127`) over the cached collections, in the order the Go map yields them. -/
def closeAll (storesFail : String → Bool) : AMap String OpenColl → AMap String OpenColl × Option Err
  | [] => ([], none)
  | (n, oc) :: rest =>
    if oc.coll.closed then
      let (rest, e) := closeAll storesFail rest
      ((n, oc) :: rest, e)
    else
      let (c, e) := oc.coll.close (storesFail n)
      match e with
      | some e => ((n, { oc with coll := c }) :: rest, some e)
      | none =>
        let (rest, e) := closeAll storesFail rest
        ((n, { oc with coll := c }) :: rest, e)

/-- `DB.Close` (`db.go:111-132`). -/
def Db.close (db : Db) (metaFails : Bool) (storesFail : String → Bool) : Db × Option Err :=
  if metaFails then (db, some .io)
  else
    let (colls, e) := closeAll storesFail db.colls
    let db := { db with metaClosed := true, colls := colls }
    match e with
    | some e => (db, some e)
    | none => ({ db with closed := true }, none)

/-- the configuration `init` builds from a row (`db.go:155-162`): `Mappings` is not set. -/
def Row.config (r : Row) : Config :=
  { name := r.name, indexType := r.indexType, embedderType := r.embedderType, dataType := r.dataType,
    indexParams := some r.indexParams, embedderConfig := some r.embedderConfig, mappings := [] }

/-- the loop of `init` (`db.go:154-169`). -/
def initColls (files : String → Option Disk) : List Row → AMap String OpenColl → Except Abort (AMap String OpenColl)
  | [], colls => .ok colls
  | r :: rest, colls => do
    let c ← newCollection r.config ((files r.name).getD {}) false
    initColls files rest (colls.set r.name { id := r.id, config := r.config, coll := c })

/-- creating missing directories while opening (`NewStores`, `newIdCounter`). -/
def touchDirs (files : String → Option Disk) : List Row → AMap String Disk → AMap String Disk
  | [], dirs => dirs
  | r :: rest, dirs => touchDirs files rest (dirs.set r.name ((files r.name).getD {}))

/-- the process ends (cleanly or not) and `Open` (`db.go:23-35`) runs on what is on disk. -/
def Db.reopen (db : Db) : Except Abort Db := do
  let colls ← initColls db.contents db.rows []
  .ok { rows := db.rows, nextId := db.nextId, dirs := touchDirs db.contents db.rows (db.colls.foldl (fun d x => d.set x.1 x.2.coll.disk) db.dirs),
        colls := colls }

/-! ## Crash points of `CreateCollection` and `DeleteCollection` -/

/-- where `CreateCollection` can be interrupted: before the row is saved (`meta_manager.go:68-76`), between that and `os.Mkdir`
(`meta_manager.go:83`), after it. Opening the stores, the counter and the log (`collection.go:49-71`) only creates empty files, which a
later opening cannot tell from missing ones. -/
inductive CreateCrash where
  | start
  | saved
  | made
  deriving DecidableEq, Repr

/-- the durable state when `CreateCollection` is interrupted at `p` (`db.go:38-68`). -/
def Db.crashCreate (db : Db) (cfg : Config) (p : CreateCrash) : Db :=
  if db.closed || (validateConfig cfg).isSome || db.colls.has cfg.name then db
  else
    match p with
    | .start => db
    | .saved => (db.metaCreate cfg { mkdirFails := true }).1
    | .made => (db.metaCreate cfg {}).1

/-- where `DeleteCollection` can be interrupted: before the row is deleted (`meta_manager.go:92`), or after it: then `os.RemoveAll`
(`meta_manager.go:102`) has left `left` of the directory, `none` when it was done. -/
inductive DropCrash where
  | start
  | row (left : Option Disk)
  deriving DecidableEq, Repr

/-- the durable state when `DeleteCollection` is interrupted at `p` (`db.go:71-91`). -/
def Db.crashDrop (db : Db) (name : String) (p : DropCrash) : Db :=
  if db.closed || !db.colls.has name then db
  else
    match p with
    | .start => db
    | .row left =>
      { db with
        rows := db.rows.filter (fun r => decide (r.name ≠ name)), colls := db.colls.erase name
        dirs := match left with
          | some d => db.dirs.set name d
          | none => db.dirs.erase name }

/-- the library a collection uses (`hnsw.go:51-56`): its distance type chooses the distance function. -/
def Config.lib (json : Json V) (o : FloatOps) (cfg : Config) : Option (Lib V F32) :=
  match metricOf o ((cfg.indexParams.bind decodeHnsw).getD {}).distanceType with
  | none => none
  | some m => some { json := json, metric := m }

/-! ## REST handlers (`api/handlers/collection.go`) -/

/-- the answer of a handler. -/
structure Response where
  code : Nat
  /-- the `Collection` in the payload of a successful GET -/
  payload : Option Config := none
  deriving DecidableEq, Repr

/-- `errors.Is(err, db.ErrValidationFailed)` (`collection.go:31,72,89`). -/
def Err.isValidation : Err → Bool
  | .validationFailed _ => true
  | _ => false

/-- the status code for an error. -/
def errCode (e : Err) : Nat := if e.isValidation then 400 else 500

/-- `getCollection` (`api/handlers/collection.go:25-54`) with `GetConfig` (`db/collection.go:96-102`): the payload leaves
out `Mappings`. -/
def Db.handleGet (db : Db) (name : String) : Response :=
  match db.get name with
  | .error e => { code := errCode e }
  | .ok oc =>
    if oc.coll.closed then { code := 500 }
    else { code := 200, payload := some { oc.config with mappings := [] } }

/-- `addCollection` (`api/handlers/collection.go:57-80`). -/
def Db.handleAdd (db : Db) (cfg : Config) (env : CreateEnv) : Except Panic (Db × Response) := do
  let (db, e) ← db.create cfg env
  match e with
  | some e => .ok (db, { code := errCode e })
  | none => .ok (db, { code := 201 })

/-- `deleteCollection` (`api/handlers/collection.go:83-97`). -/
def Db.handleDelete (db : Db) (name : String) (execFails removeFails : Bool) : Db × Response :=
  match db.delete name execFails removeFails with
  | (db, some e) => (db, { code := errCode e })
  | (db, none) => (db, { code := 200 })

end Vectory
