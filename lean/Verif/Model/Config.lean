import Verif.Model.Collection
/-!
# Collection configurations: JSON, validation (`entities/collection`, `entities/index`)

`encoding/json` is modelled on the values that occur here: a scalar or nested value, or an object. Integers are exact (in
Go they pass through `float64` when a configuration is stored; exact up to `2^53`). Field names match up to the case of
ASCII letters.
-/
namespace Vectory

/-- a JSON value that is not an object, or an object or array nested inside one. -/
inductive JScalar where
  | null
  | bool (b : Bool)
  | int (n : Int)
  /-- a number that is not an integer -/
  | frac (text : String)
  | str (s : String)
  /-- an array or a nested object -/
  | nested (text : String)
  deriving DecidableEq, Repr

/-- what `json.Marshal` produced for an `interface{}`. -/
inductive JVal where
  | scalar (s : JScalar)
  | obj (kvs : List (String × JScalar))
  deriving DecidableEq, Repr

/-- `HnswParams` (`entities/index/models.go:10-26`). -/
structure HnswParams where
  m : Int := 0
  mMax : Int := 0
  efConstruction : Int := 0
  ef : Int := 0
  heuristic : Bool := false
  distanceType : String := ""
  deriving DecidableEq, Repr

/-- `json.Unmarshal` into one field: every pair whose key matches is assigned in turn, JSON null leaves the field alone,
another type is an error (`none`). `conv` is the conversion to the field's type. -/
def decodeField {α : Type} (conv : JScalar → Option α) (name : String) (zero : α) (kvs : List (String × JScalar)) : Option α :=
  kvs.foldl (fun acc kv =>
    if kv.1.toLower = name then
      match acc with
      | none => none
      | some a => if kv.2 = .null then some a else conv kv.2
    else acc) (some zero)

/-- a Go `int`. -/
def convInt : JScalar → Option Int
  | .int n => if -9223372036854775808 ≤ n ∧ n < 9223372036854775808 then some n else none
  | _ => none

def convBool : JScalar → Option Bool
  | .bool b => some b
  | _ => none

def convStr : JScalar → Option String
  | .str s => some s
  | _ => none

/-- `json.Unmarshal(b, &hnswParams)` (`entities/index/validator.go:17-20`, `db/collection.go:67-68`). -/
def decodeHnsw : JVal → Option HnswParams
  | .scalar .null => some {}
  | .scalar _ => none
  | .obj kvs => do
    let m ← decodeField convInt "m" 0 kvs
    let mMax ← decodeField convInt "m_max" 0 kvs
    let efc ← decodeField convInt "ef_construction" 0 kvs
    let ef ← decodeField convInt "ef" 0 kvs
    let he ← decodeField convBool "heuristic" false kvs
    let dt ← decodeField convStr "distance_type" "" kvs
    some { m := m, mMax := mMax, efConstruction := efc, ef := ef, heuristic := he, distanceType := dt }

/-- `collection.Collection` (`entities/collection/models.go:9-31`). `indexParams` and `embedderConfig` are what
`json.Marshal` makes of the value; `none`: it fails (a channel, a function, NaN, …). -/
structure Config where
  name : String
  indexType : String
  embedderType : String
  dataType : String
  indexParams : Option JVal
  embedderConfig : Option JVal
  mappings : List String
  deriving DecidableEq, Repr

/-- `ValidateHnswParams` (`entities/index/validator.go:9-46`). -/
def validateHnswParams (params : Option JVal) : Option String :=
  match params with
  | none => some "json"
  | some j =>
    match decodeHnsw j with
    | none => some "json"
    | some p =>
      if p.m ≤ 0 then some "m must be greater than zero"
      else if p.mMax ≤ 0 then some "m_max must be greater than zero"
      else if p.ef ≤ 0 then some "ef must be greater than zero"
      else if p.efConstruction ≤ 0 then some "ef_construction must be greater than zero"
      else if p.distanceType = "dot_product" then none
      else if p.distanceType = "euclidean_distance" then none
      else some "unsupported distance_type"

/-- the second half of `collection.Validate` (`entities/collection/validator.go:30-44`). -/
def validateTypes (cfg : Config) : Option String :=
  if cfg.embedderType = "" ∨ cfg.embedderType = "text2vec-huggingface" ∨ cfg.embedderType = "fake_embedder" then
    if cfg.dataType = "text" then none else some "data_type inserted is not supported"
  else some "embedder_type inserted is not supported"

/-- `collection.Validate` (`entities/collection/validator.go:10-45`). -/
def validateConfig (cfg : Config) : Option String :=
  if cfg.name = "" then some "collection name field is empty"
  else if cfg.indexType = "hnsw" then
    match validateHnswParams cfg.indexParams with
    | some e => some e
    | none => validateTypes cfg
  else if cfg.indexType = "disk_ann" then validateTypes cfg
  else some "index_type inserted is not supported"

/-- a Go `map[string]…` kept in key order, as `json.Marshal` prints it; assigning a key again replaces the value. -/
def insertSorted (k : String) (v : JScalar) : List (String × JScalar) → List (String × JScalar)
  | [] => [(k, v)]
  | (k', v') :: m =>
    if k' = k then (k, v) :: m
    else if k < k' then (k, v) :: (k', v') :: m
    else (k', v') :: insertSorted k v m

/-- `json.Unmarshal(b, &params)` with `params map[string]interface{}` (`meta_manager.go:46-50,57-61`), and later
`json.Marshal` of that map: only an object or null is accepted; keys come out sorted and once. -/
def viaMap : JVal → Option JVal
  | .scalar .null => some (.scalar .null)
  | .scalar _ => none
  | .obj kvs => some (.obj (kvs.foldl (fun m kv => insertSorted kv.1 kv.2 m) []))

/-- the index parameters in the form the index holds them (`hnsw.go:37-48`); positive after validation. -/
def HnswParams.toCfg (p : HnswParams) : Cfg :=
  { m := p.m.toNat, mMax := p.mMax.toNat, efC := p.efConstruction.toNat, ef := p.ef.toNat, heuristic := p.heuristic }

/-- is an embedder built (`collection.go:81-90`)? -/
def Config.hasEmbedder (cfg : Config) : Bool :=
  decide (cfg.embedderType = "text2vec-huggingface" ∨ cfg.embedderType = "fake_embedder")

end Vectory
