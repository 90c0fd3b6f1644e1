import Verif.Model.Db
import Verif.Spec.History
/-!
# Histories of a database, and the specification "a map from names to contents"
-/
namespace Vectory
variable {V : Type}

/-- a configuration as the documentation describes it. -/
def Documented (cfg : Config) : Prop :=
  cfg.name ≠ "" ∧
  ((cfg.indexType = "hnsw" ∧ ∃ j p, cfg.indexParams = some j ∧ decodeHnsw j = some p ∧
      0 < p.m ∧ 0 < p.mMax ∧ 0 < p.ef ∧ 0 < p.efConstruction ∧
      (p.distanceType = "dot_product" ∨ p.distanceType = "euclidean_distance")) ∨
    cfg.indexType = "disk_ann") ∧
  cfg.embedderType ∈ ["", "text2vec-huggingface", "fake_embedder"] ∧ cfg.dataType = "text"

/-- the keys of a JSON object differ in more than the case of letters. -/
def DistinctKeys : JVal → Prop
  | .obj kvs => (kvs.map (fun kv => kv.1.toLower)).Nodup
  | _ => True

/-- the calls on a database. `on` is a call on the collection that `GetCollection` returns; `restart`: the process ends,
cleanly or not, between calls, and `Open` runs. -/
inductive DbOp (V : Type) where
  | create (cfg : Config) (env : CreateEnv)
  | get (name : String)
  | delete (name : String) (execFails removeFails : Bool)
  | on (name : String) (op : Op V)
  | close (metaFails : Bool) (storesFail : String → Bool)
  | restart

inductive DbOut (V : Type) where
  | done (e : Option Err)
  | called (out : Out V F32)

/-- `DB.GetCollection` as a caller sees it: the error, if any. -/
def Db.getErr (db : Db) (name : String) : Option Err :=
  match db.get name with
  | .ok _ => none
  | .error e => some e

/-- one call. A panic, or an `Open` that fails, has no successor. -/
inductive DbStep (js : Json V) (o : FloatOps) : Db → DbOp V → DbOut V → Db → Prop where
  | create {db db' : Db} {cfg : Config} {env : CreateEnv} {e : Option Err} :
      db.create cfg env = .ok (db', e) → DbStep js o db (.create cfg env) (.done e) db'
  | get {db : Db} {name : String} : DbStep js o db (.get name) (.done (db.getErr name)) db
  | delete {db : Db} {name : String} {ef rf : Bool} :
      DbStep js o db (.delete name ef rf) (.done (db.delete name ef rf).2) (db.delete name ef rf).1
  | on {db : Db} {name : String} {op : Op V} {oc : OpenColl} {L : Lib V F32} {c' : Coll} {out : Out V F32} :
      db.get name = .ok oc → oc.config.lib js o = some L → op ≠ .reopen → oc.coll.apply L op = .ok (c', out) →
      DbStep js o db (.on name op) (.called out) { db with colls := db.colls.set name { oc with coll := c' } }
  | onMissing {db : Db} {name : String} {op : Op V} {e : Err} :
      db.get name = .error e → DbStep js o db (.on name op) (.done (some e)) db
  | close {db : Db} {mf : Bool} {sf : String → Bool} :
      DbStep js o db (.close mf sf) (.done (db.close mf sf).2) (db.close mf sf).1
  | restart {db db' : Db} : db.reopen = .ok db' → DbStep js o db .restart (.done none) db'

inductive DbRuns (js : Json V) (o : FloatOps) : Db → List (DbOp V × DbOut V) → Db → Prop where
  | nil (db : Db) : DbRuns js o db [] db
  | cons {db db1 db2 : Db} {op : DbOp V} {out : DbOut V} {h : List (DbOp V × DbOut V)} :
      DbStep js o db op out db1 → DbRuns js o db1 h db2 → DbRuns js o db ((op, out) :: h) db2

/-- a name that is one path component other than `.`, `..` and the metadata file. -/
def PlainName (n : String) : Prop := n ≠ "" ∧ n ≠ "." ∧ n ≠ ".." ∧ n ≠ "metadata.db" ∧ '/' ∉ n.toList

/-- no failures of the environment: no disk or database error is injected, accepted configurations are HNSW ones whose
embedder configuration is a JSON object or null, names are plain, closing works. -/
def CleanOp : DbOp V × DbOut V → Prop
  | (.create cfg env, _) =>
    env = {} ∧ PlainName cfg.name ∧
    (Documented cfg → cfg.indexType = "hnsw" ∧ ∃ ec m, cfg.embedderConfig = some ec ∧ viaMap ec = some m)
  | (.delete _ ef rf, _) => ef = false ∧ rf = false
  | (.close _ _, out) => out = .done none
  | _ => True

/-! ## The specification -/

/-- what a collection contains: the answer to a read of each id. -/
abbrev Contents (V : Type) := UInt64 → Except Abort (Option (Object V))

/-- a database is a map from names to contents, or it is closed. -/
structure SpecDb (V : Type) where
  map : String → Option (Contents V)
  closed : Bool

def SpecDb.empty : SpecDb V := ⟨fun _ => none, false⟩

/-- assign one name. -/
def SpecDb.upd (s : SpecDb V) (n : String) (x : Option (Contents V)) : SpecDb V :=
  { s with map := fun k => if k = n then x else s.map k }

inductive SpecStep : SpecDb V → DbOp V → DbOut V → SpecDb V → Prop where
  /-- a closed database refuses everything except `Close` -/
  | closedCreate {s : SpecDb V} {cfg : Config} {env : CreateEnv} :
      s.closed = true → SpecStep s (.create cfg env) (.done (some .databaseClosed)) s
  | closedGet {s : SpecDb V} {n : String} : s.closed = true → SpecStep s (.get n) (.done (some .databaseClosed)) s
  | closedDelete {s : SpecDb V} {n : String} {a b : Bool} :
      s.closed = true → SpecStep s (.delete n a b) (.done (some .databaseClosed)) s
  | closedOn {s : SpecDb V} {n : String} {op : Op V} :
      s.closed = true → SpecStep s (.on n op) (.done (some .databaseClosed)) s
  /-- create: refused for a bad configuration and for a name in use, otherwise the name is bound to empty contents -/
  | invalid {s : SpecDb V} {cfg : Config} {env : CreateEnv} {why : String} :
      s.closed = false → ¬ Documented cfg → SpecStep s (.create cfg env) (.done (some (.validationFailed why))) s
  | exists {s : SpecDb V} {cfg : Config} {env : CreateEnv} :
      s.closed = false → Documented cfg → (s.map cfg.name).isSome →
      SpecStep s (.create cfg env) (.done (some .collectionAlreadyExists)) s
  | create {s : SpecDb V} {cfg : Config} {env : CreateEnv} :
      s.closed = false → Documented cfg → s.map cfg.name = none →
      SpecStep s (.create cfg env) (.done none) (s.upd cfg.name (some (fun _ => .ok none)))
  | getMissing {s : SpecDb V} {n : String} {why : String} :
      s.closed = false → s.map n = none → SpecStep s (.get n) (.done (some (.validationFailed why))) s
  | get {s : SpecDb V} {n : String} : s.closed = false → (s.map n).isSome → SpecStep s (.get n) (.done none) s
  | deleteMissing {s : SpecDb V} {n : String} {a b : Bool} {why : String} :
      s.closed = false → s.map n = none → SpecStep s (.delete n a b) (.done (some (.validationFailed why))) s
  | delete {s : SpecDb V} {n : String} {a b : Bool} :
      s.closed = false → (s.map n).isSome → SpecStep s (.delete n a b) (.done none) (s.upd n none)
  /-- a call on one collection may change its own contents only -/
  | on {s : SpecDb V} {n : String} {op : Op V} {out : Out V F32} {x : Contents V} :
      s.closed = false → (s.map n).isSome → SpecStep s (.on n op) (.called out) (s.upd n (some x))
  | onMissing {s : SpecDb V} {n : String} {op : Op V} {why : String} :
      s.closed = false → s.map n = none → SpecStep s (.on n op) (.done (some (.validationFailed why))) s
  | close {s : SpecDb V} {a : Bool} {b : String → Bool} : SpecStep s (.close a b) (.done none) { s with closed := true }
  | restart {s : SpecDb V} : SpecStep s .restart (.done none) { s with closed := false }

inductive SpecRuns : SpecDb V → List (DbOp V × DbOut V) → SpecDb V → Prop where
  | nil (s : SpecDb V) : SpecRuns s [] s
  | cons {s s1 s2 : SpecDb V} {op : DbOp V} {out : DbOut V} {h : List (DbOp V × DbOut V)} :
      SpecStep s op out s1 → SpecRuns s1 h s2 → SpecRuns s ((op, out) :: h) s2

/-- what a database contains, read from its open collections. -/
def Db.view (js : Json V) (db : Db) : SpecDb V :=
  { map := fun n => (db.colls.get? n).map (fun oc => fun id => getObject js oc.coll.stores id), closed := db.closed }

end Vectory
