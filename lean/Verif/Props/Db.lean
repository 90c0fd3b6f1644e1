import Verif.Lemmas.DbMore
import Verif.Spec.DemoDb
import Verif.Props.Distance
/-!
# C35–C42, C54: the database
-/
namespace Vectory
variable {V : Type}

/-! ## Example configurations -/

def demoParams : JVal :=
  .obj [("m", .int 2), ("m_max", .int 2), ("ef_construction", .int 4), ("ef", .int 4), ("heuristic", .bool false),
    ("distance_type", .str "euclidean_distance")]

def demoConfig (name : String) : Config :=
  { name := name, indexType := "hnsw", embedderType := "", dataType := "text", indexParams := some demoParams,
    embedderConfig := some (.obj []), mappings := ["a"] }

theorem demoConfig_documented : Documented (demoConfig "a") := (validate_iff _).mp (by decide +kernel)

/-- final state of a concrete run. -/
def dbOf (ops : List (DbOp UInt8)) : Option Db := (Db.play demoJson intOps {} ops).map Prod.fst

/-- the answers of a concrete run, without the results of collection calls. -/
def answersOf (ops : List (DbOp UInt8)) : Option (List (Option (Option Err))) :=
  (Db.play demoJson intOps {} ops).map (fun r => r.2.map (fun x => doneOf x.2))

/-! ## C36 -/

/-- **C36.** Every clean history of a database — any sequence of CreateCollection, GetCollection, DeleteCollection, calls on
collections, Close and restarts — is a history of a map from names to contents (`SpecRuns`). -/
theorem C36_map (js : Json V) (o : FloatOps) (h : List (DbOp V × DbOut V)) (db : Db) (hr : DbRuns js o {} h db)
    (hcl : ∀ x ∈ h, CleanOp x) : SpecRuns SpecDb.empty h (db.view js) :=
  (db_runs (dbInv_init _) hr hcl).2

def c36Ops : List (DbOp UInt8) :=
  [.create (demoConfig "a") {}, .on "a" (demoInsert 5), .create (demoConfig "b") {}, .create (demoConfig "a") {},
   .restart, .get "a", .delete "b" false false, .get "b", .create (demoConfig "b") {}, .delete "c" false false,
   .close false (fun _ => false), .get "a", .restart, .get "a"]

example : answersOf c36Ops = some [some none, none, some none, some (some .collectionAlreadyExists),
    some none, some none, some none, some (some (.validationFailed "collection does not exist")), some none,
    some (some (.validationFailed "collection does not exist")),
    some none, some (some .databaseClosed), some none, some none] := by decide +kernel

example : ∃ db hs, DbRuns demoJson intOps {} hs db ∧ (∀ x ∈ hs, CleanOp x) ∧ Db.play demoJson intOps {} c36Ops = some (db, hs) :=
  play_clean (by decide +kernel)

/-! ## C35 -/

/-- what must survive of a configuration: names and types, the index parameters that are in effect, the embedder
configuration as a JSON object. -/
structure SameConfig (cfg cfg' : Config) : Prop where
  name : cfg'.name = cfg.name
  indexType : cfg'.indexType = cfg.indexType
  dataType : cfg'.dataType = cfg.dataType
  embedderType : cfg'.embedderType = cfg.embedderType
  params : cfg'.indexParams.bind decodeHnsw = cfg.indexParams.bind decodeHnsw
  embedder : cfg'.embedderConfig = cfg.embedderConfig.bind viaMap

/-- **C35, the part that holds.** After any clean history and a restart, every collection that was created and not deleted
is there; its configuration is the one it was created with except for the mappings; it uses the same index parameters, the
same distance function and the same kind of embedder. The index parameters are a struct or an object whose keys differ in more than
case (`DistinctKeys`), or a Go map (`viaMap ip = some ip`: its keys come out sorted and once). Excluded: the mappings
(`C35_mappings_lost`). -/
theorem C35_holds (js : Json V) (o : FloatOps) (h : List (DbOp V × DbOut V)) (db db' : Db) (hr : DbRuns js o {} h db)
    (hcl : ∀ x ∈ h, CleanOp x) (hre : db.reopen = .ok db') (n : String) (cfg : Config) (hc : createdWith h n = some cfg)
    (hk : ∀ ip, cfg.indexParams = some ip → DistinctKeys ip ∨ viaMap ip = some ip) :
    ∃ oc, db'.get n = .ok oc ∧ SameConfig cfg oc.config ∧ oc.config.lib js o = cfg.lib js o ∧
      oc.coll.index.cfg = ((cfg.indexParams.bind decodeHnsw).getD {}).toCfg ∧ oc.coll.hasEmbedder = cfg.hasEmbedder ∧
      oc.coll.mappings = [] := by
  have ti := track_runs hr _ tinv_init hcl
  obtain ⟨hn, r, hrow, ro⟩ := ti.rows n cfg hc
  obtain ⟨h1, h2, h3, _⟩ := reopen_spec_db hre
  obtain ⟨c, hcol, hget⟩ := (initColls_spec _ _ _ _ h1 ti.inv.nd).2 r hrow
  obtain ⟨ip, hip, hvp⟩ := ro.params
  obtain ⟨ec, hec, hve⟩ := ro.embedder
  have hdec : decodeHnsw r.indexParams = decodeHnsw ip := by
    rcases hk ip hip with hk | hk
    · exact decode_viaMap hvp hk
    · rw [hk] at hvp; cases hvp; rfl
  have hps : r.config.indexParams.bind decodeHnsw = cfg.indexParams.bind decodeHnsw := by
    rw [hip]; exact hdec
  have hnm : r.name = n := ro.name.trans hn
  rw [hnm] at hget
  obtain ⟨k1, k2, k3, k4, k5⟩ := newCollection_ok hcol
  refine ⟨⟨r.id, r.config, c⟩, ?_, ⟨ro.name, ro.indexType, ro.dataType, ro.embedderType, hps, ?_⟩, ?_, ?_, ?_, k2⟩
  · unfold Db.get
    rw [h3, hget]; rfl
  · rw [hec]; exact hve.symm
  · simp only [Config.lib, hps]
  · rw [newCollection_cfg hcol, hps]
  · rw [k3]; simp only [Config.hasEmbedder, Row.config, ro.embedderType]

/-- **C35 fails for mappings**: after a restart every collection has lost its mappings: no object with a property is
accepted any more, whatever the collection was created with. -/
theorem C35_mappings_lost (L : Lib V F32) (db db' : Db) (hre : db.reopen = .ok db') (n : String) (oc : OpenColl)
    (hg : db'.get n = .ok oc) (x : Object V) (hx : x.props ≠ []) (embed : Embed V) (env : InsEnv) (ff : Bool) :
    oc.config.mappings = [] ∧ oc.coll.insert L x embed env ff = .ok (oc.coll, x, some (.tooManyProperties 0)) := by
  obtain ⟨h1, _⟩ := reopen_spec_db hre
  have key := initColls_all db.contents (fun _ oc => oc.config.mappings = [] ∧ oc.coll.mappings = [] ∧ oc.coll.closed = false)
    db.rows [] db'.colls h1 (fun n oc h => by simp [AMap.get?] at h)
    (fun r _ c hc => ⟨rfl, (newCollection_ok hc).2.1, (newCollection_ok hc).2.2.2.1⟩) n oc (get_ok hg).2
  refine ⟨key.1, ?_⟩
  have hlen : 0 < x.props.length := List.length_pos_iff.mpr hx
  unfold Coll.insert
  rw [key.2.2]
  simp [validateObjects, validateObject, key.2.1, hlen]

/-- the answer to an insert of `x` into "a". -/
def insertAnswer (ops : List (DbOp UInt8)) (x : UInt32) : Option (Option Err) :=
  match Db.play demoJson intOps {} (ops ++ [.on "a" (demoInsert x)]) with
  | some (_, h) =>
    match h.getLast? with
    | some (_, .called (.inserted _ e)) => some e
    | _ => none
  | none => none

/-- the collection accepts an object; the same object is refused after a clean restart. -/
theorem C35_witness :
    insertAnswer [.create (demoConfig "a") {}] 5 = some none ∧
    insertAnswer [.create (demoConfig "a") {}, .on "a" (demoInsert 4), .close false (fun _ => false), .restart] 5 =
      some (some (.tooManyProperties 0)) := by decide +kernel

/-- the hypotheses of `C35_holds` are met by a run that ends open, with a collection "a". -/
example : (Db.play demoJson intOps {} c36Ops).any (fun r => (createdWith r.2 "a" == some (demoConfig "a")) &&
    (match r.1.reopen with | .ok _ => true | .error _ => false)) = true := by decide +kernel

example : ∀ ip, (demoConfig "a").indexParams = some ip → DistinctKeys ip := by
  intro ip h; cases h
  show (List.map (fun kv : String × JScalar => kv.1.toLower) _).Nodup
  decide +kernel

/-! ## C37 -/

/-- **C37, the part that holds.** If CreateCollection of an HNSW collection returns an error and neither creating the
directory nor opening the files failed, nothing has changed — in memory, in the metadata and on disk — provided the
directory did not exist. Excluded: DiskANN configurations (`C37_disk_ann`) and left-over directories
(`C37_existing_directory`). -/
theorem C37_holds (db db' : Db) (cfg : Config) (env : CreateEnv) (e : Err) (h : db.create cfg env = .ok (db', some e))
    (hh : cfg.indexType = "hnsw") (hm : env.mkdirFails = false) (ho : env.openFails = false)
    (hd : db.dirs.has cfg.name = false) : db' = db := by
  rcases create_rejected h with ⟨rfl, _⟩ | ⟨hc, hdoc, hn⟩
  · rfl
  rw [create_reduce env hc hdoc hn] at h
  have hnew : ∀ d : Disk, d = {} → ∃ c, newCollection cfg d env.openFails = .ok c := by
    intro d hd; subst hd
    unfold newCollection
    rw [ho, if_neg (by simp), if_pos hh, openColl_empty]
    exact ⟨_, rfl⟩
  have hnone : db.dirs.get? cfg.name = none := by
    simpa [AMap.has] using hd
  rcases metaCreate_cases db cfg env with ⟨e1, h1⟩ | ⟨h1, _⟩ | ⟨_, _, _, _, _, _, _, _, _, _, _, h1, h2⟩ |
      ⟨_, _, _, _, r, _, _, _, _, _, h1, _⟩
  · rw [h1] at h; cases h; rfl
  · rw [h1] at h
    dsimp only at h
    obtain ⟨c, hcn⟩ := hnew _ (by rw [hnone]; rfl : (db.dirs.get? cfg.name).getD {} = {})
    rw [hcn] at h; cases h
  · rcases h2 with h2 | h2
    · rw [hm] at h2; cases h2
    · rw [hd] at h2; cases h2
  · rw [h1] at h
    dsimp only at h
    obtain ⟨c, hcn⟩ := hnew _ (by rw [AMap.get?_set_self]; rfl : ((db.dirs.set cfg.name ({} : Disk)).get? cfg.name).getD {} = {})
    rw [hcn] at h; cases h

/-- in a clean history a name that is not in use has no directory, so `C37_holds` applies. -/
theorem C37_no_leftovers (js : Json V) (o : FloatOps) (h : List (DbOp V × DbOut V)) (db : Db) (hr : DbRuns js o {} h db)
    (hcl : ∀ x ∈ h, CleanOp x) (n : String) (hn : db.colls.has n = false) : db.dirs.has n = false := by
  cases hb : db.dirs.has n with
  | false => rfl
  | true => rw [((db_runs (dbInv_init _) hr hcl).1.dirs n hb).resolve_right (fun h => h)] at hn; cases hn

/-- a rejected create: the hypotheses of `C37_holds` are met. -/
example : answersOf [.create { demoConfig "a" with dataType := "image" } {}] =
    some [some (some (.validationFailed "data_type inserted is not supported"))] := by decide +kernel

/-- **C37 fails for DiskANN**: the configuration passes validation, CreateCollection returns "unknown index type", but its
row stays: whatever is called afterwards (other than a delete of that name, which is refused while the collection is not
open), the database cannot be opened again. -/
theorem C37_disk_ann (js : Json V) (o : FloatOps) (db : Db) (cfg : Config) (hc : db.closed = false) (hd : Documented cfg)
    (ht : cfg.indexType = "disk_ann") (hmc : db.metaClosed = false) (hn : db.colls.has cfg.name = false)
    (hr : cfg.name ∉ db.rows.map Row.name) (hdir : db.dirs.has cfg.name = false)
    (ip params ec conf : JVal) (h1 : cfg.indexParams = some ip) (h2 : viaMap ip = some params)
    (h3 : cfg.embedderConfig = some ec) (h4 : viaMap ec = some conf) :
    ∃ db', db.create cfg {} = .ok (db', some .unknownIndexType) ∧
      (db'.delete cfg.name false false).2 = some (.validationFailed "collection does not exist") ∧
      ∀ h db2, DbRuns js o db' h db2 → (∀ x ∈ h, ∀ a b, x.1 ≠ .delete cfg.name a b) → ∃ a, db2.reopen = .error a := by
  have hany : db.rows.any (fun r => decide (r.name = cfg.name)) = false := by
    cases hb : db.rows.any (fun r => decide (r.name = cfg.name)) with
    | false => rfl
    | true => exact absurd ((hasRow_iff db cfg.name).mp hb) hr
  have hmeta : db.metaCreate cfg {} = ({ db with
      rows := db.rows ++ [Row.mk db.nextId cfg.name cfg.indexType cfg.dataType cfg.embedderType params conf cfg.mappings],
      nextId := db.nextId + 1, dirs := db.dirs.set cfg.name {} }, .ok db.nextId) := by
    unfold Db.metaCreate
    rw [h1]; dsimp only
    rw [h2]; dsimp only
    rw [h3]; dsimp only
    rw [h4]; dsimp only
    rw [hmc, hany, hdir]
    simp
  have hnew : ∀ d, newCollection cfg d false = .error (.error .unknownIndexType) := by
    intro d
    unfold newCollection
    rw [if_neg (by simp), if_neg (by rw [ht]; decide)]
  have hcr := create_reduce {} hc hd hn
  rw [hmeta] at hcr
  dsimp only at hcr
  rw [hnew] at hcr
  refine ⟨_, hcr, ?_, ?_⟩
  · unfold Db.delete
    dsimp only
    rw [hc, hn]
    simp
  · intro h db2 hruns hdel
    have hrow := runs_keep (r := Row.mk db.nextId cfg.name cfg.indexType cfg.dataType cfg.embedderType params conf cfg.mappings)
      hruns (by simp) hdel
    obtain ⟨a, ha⟩ := initColls_fail db2.contents db2.rows [] _ hrow (by
      intro c hcn
      have := (newCollection_ok hcn).2.2.2.2
      simp only [Row.config, ht] at this
      exact absurd this (by decide))
    refine ⟨a, ?_⟩
    unfold Db.reopen
    rw [ha]; rfl

def annConfig : Config :=
  { name := "d", indexType := "disk_ann", embedderType := "", dataType := "text", indexParams := some (.obj []),
    embedderConfig := some (.obj []), mappings := [] }

/-- on a database with a collection that holds an object: the failed create makes the whole database unopenable. -/
theorem C37_disk_ann_witness :
    answersOf [.create (demoConfig "a") {}, .on "a" (demoInsert 5), .create annConfig {}, .delete "d" false false] =
      some [some none, none, some (some .unknownIndexType), some (some (.validationFailed "collection does not exist"))] ∧
    (dbOf [.create (demoConfig "a") {}, .on "a" (demoInsert 5), .create annConfig {}, .restart]).isNone = true := by
  decide +kernel

/-- **C37 fails when the directory exists**: CreateCollection returns the "exists" error, but the row is saved: after the
next restart the collection is there, with whatever the left-over directory contains. -/
theorem C37_existing_directory (db : Db) (cfg : Config) (hc : db.closed = false) (hd : Documented cfg)
    (hmc : db.metaClosed = false) (hn : db.colls.has cfg.name = false)
    (hr : cfg.name ∉ db.rows.map Row.name) (hdir : db.dirs.has cfg.name = true)
    (ip params ec conf : JVal) (h1 : cfg.indexParams = some ip) (h2 : viaMap ip = some params)
    (h3 : cfg.embedderConfig = some ec) (h4 : viaMap ec = some conf) :
    ∃ db', db.create cfg {} = .ok (db', some .dirExists) ∧ db'.getErr cfg.name = some (.validationFailed "collection does not exist") ∧
      ∀ db2, db'.reopen = .ok db2 → db2.getErr cfg.name = none := by
  have hany : db.rows.any (fun r => decide (r.name = cfg.name)) = false := by
    cases hb : db.rows.any (fun r => decide (r.name = cfg.name)) with
    | false => rfl
    | true => exact absurd ((hasRow_iff db cfg.name).mp hb) hr
  have hmeta : db.metaCreate cfg {} = ({ db with
      rows := db.rows ++ [Row.mk db.nextId cfg.name cfg.indexType cfg.dataType cfg.embedderType params conf cfg.mappings],
      nextId := db.nextId + 1 }, .error .dirExists) := by
    unfold Db.metaCreate
    rw [h1]; dsimp only
    rw [h2]; dsimp only
    rw [h3]; dsimp only
    rw [h4]; dsimp only
    rw [hmc, hany, hdir]
    simp
  have hcr := create_reduce {} hc hd hn
  rw [hmeta] at hcr
  refine ⟨_, hcr, ?_, ?_⟩
  · unfold Db.getErr Db.get
    dsimp only
    rw [hc]
    have : db.colls.get? cfg.name = none := by simpa [AMap.has] using hn
    rw [this]; rfl
  · intro db2 hre
    obtain ⟨k1, _, k3, _⟩ := reopen_spec_db hre
    have hh := (initColls_has _ _ _ _ k1 cfg.name).mpr (Or.inr (by simp))
    obtain ⟨oc, hoc⟩ := get_of_has hh
    unfold Db.getErr Db.get
    rw [k3, hoc]; rfl

/-- a configuration whose embedder configuration cannot be marshalled. -/
def badConfig (name : String) : Config := { demoConfig name with embedderConfig := none }

/-- reachable: a collection created with a configuration that cannot be marshalled is forgotten by a restart, its
directory stays; creating it again fails, and yet it is there — with the old object — after the next restart. -/
theorem C37_existing_directory_witness :
    answersOf [.create (badConfig "a") {}, .on "a" (demoInsert 5), .restart, .get "a", .create (demoConfig "a") {}, .get "a",
        .restart, .get "a"] =
      some [some none, none, some none, some (some (.validationFailed "collection does not exist")), some (some .dirExists),
        some (some (.validationFailed "collection does not exist")), some none, some none] ∧
    (dbOf [.create (badConfig "a") {}, .on "a" (demoInsert 5), .restart, .create (demoConfig "a") {}, .restart]).any
      (fun db => (db.colls.get? "a").any (fun oc => oc.coll.stores.objects.length == 1)) = true := by decide +kernel

/-! ## C38 -/

/-- **C38, the part that holds.** A collection that CreateCollection returned, whose embedder configuration can be
marshalled, is found after any further calls and restarts that do not delete it. Excluded: configurations that cannot be
marshalled (`C38_lost`). -/
theorem C38_holds (js : Json V) (o : FloatOps) (db db1 : Db) (cfg : Config) (env : CreateEnv)
    (hc : db.create cfg env = .ok (db1, none)) (he : cfg.embedderConfig ≠ none) (hh : cfg.indexType = "hnsw")
    (h : List (DbOp V × DbOut V)) (db2 db3 : Db) (hr : DbRuns js o db1 h db2)
    (hd : ∀ x ∈ h, ∀ a b, x.1 ≠ .delete cfg.name a b) (hre : db2.reopen = .ok db3) : db3.getErr cfg.name = none := by
  have hrow : ∃ r ∈ db1.rows, r.name = cfg.name := by
    rcases create_rejected hc with ⟨_, hne⟩ | ⟨h1, h2, h3⟩
    · exact absurd rfl hne
    rw [create_reduce env h1 h2 h3] at hc
    have hip : cfg.indexParams ≠ none := by
      obtain ⟨_, ⟨_, j, p, hj, _⟩ | ht, _⟩ := h2
      · rw [hj]; simp
      · rw [hh] at ht; exact absurd ht (by decide)
    rcases metaCreate_cases db cfg env with ⟨e1, h1⟩ | ⟨h1, h2⟩ | ⟨_, _, _, _, _, _, _, _, _, _, _, h1, _⟩ |
        ⟨_, _, _, _, r, _, _, _, _, hreq, h1, _⟩
    · rw [h1] at hc; cases hc
    · rcases h2 with h2 | h2
      · exact absurd h2 hip
      · exact absurd h2 he
    · rw [h1] at hc; cases hc
    · rw [h1] at hc
      dsimp only at hc
      generalize newCollection cfg _ env.openFails = w at hc
      cases w with
      | error a => cases a <;> cases hc
      | ok c => cases hc; exact ⟨r, by simp, by rw [hreq]⟩
  obtain ⟨r, hr1, hrn⟩ := hrow
  have hk := runs_keep hr hr1 (by rw [hrn]; exact hd)
  obtain ⟨k1, _, k3, _⟩ := reopen_spec_db hre
  have hh := (initColls_has _ _ _ _ k1 cfg.name).mpr (Or.inr (by rw [← hrn]; exact List.mem_map_of_mem hk))
  obtain ⟨oc, hoc⟩ := get_of_has hh
  unfold Db.getErr Db.get
  rw [k3, hoc]; rfl

/-- **C38 fails** when the embedder configuration cannot be marshalled: CreateCollection succeeds and saves nothing; after a
restart there is no such collection. -/
theorem C38_lost (db db1 db2 : Db) (cfg : Config) (env : CreateEnv) (hc : db.create cfg env = .ok (db1, none))
    (he : cfg.embedderConfig = none) (hr : cfg.name ∉ db.rows.map Row.name) (hre : db1.reopen = .ok db2) :
    db1.getErr cfg.name = none ∧ db2.getErr cfg.name = some (.validationFailed "collection does not exist") := by
  rcases create_rejected hc with ⟨_, hne⟩ | ⟨h1, h2, h3⟩
  · exact absurd rfl hne
  rw [create_reduce env h1 h2 h3] at hc
  have hm : (db.metaCreate cfg env = (db, .ok 0)) ∨ ∃ e, db.metaCreate cfg env = (db, .error e) := by
    rcases metaCreate_cases db cfg env with h1 | ⟨h1, h2⟩ | ⟨_, _, _, _, _, _, _, _, h0, _, _, h1, _⟩ |
        ⟨_, _, _, _, r, _, _, h0, _, hreq, h1, _⟩
    · exact Or.inr h1
    · exact Or.inl h1
    · rw [he] at h0; cases h0
    · rw [he] at h0; cases h0
  rcases hm with hm | ⟨e, hm⟩
  · rw [hm] at hc
    dsimp only at hc
    generalize newCollection cfg _ env.openFails = w at hc
    cases w with
    | error a => cases a <;> cases hc
    | ok c =>
      cases hc
      constructor
      · unfold Db.getErr Db.get
        dsimp only
        rw [h1, AMap.get?_set_self]; rfl
      · obtain ⟨k1, _, k3, _⟩ := reopen_spec_db hre
        have hh : db2.colls.has cfg.name ≠ true := by
          intro hq
          rcases (initColls_has _ _ _ _ k1 cfg.name).mp hq with h | h
          · simp [AMap.has] at h
          · exact hr h
        have hg : db2.colls.get? cfg.name = none := by
          cases hq : db2.colls.get? cfg.name with
          | none => rfl
          | some x => exact absurd (has_of_get hq) hh
        unfold Db.getErr Db.get
        rw [k3, hg]; rfl
  · rw [hm] at hc; cases hc

/-- both situations occur. -/
example : answersOf [.create (demoConfig "a") {}, .create (badConfig "b") {}, .get "b", .restart, .get "a", .get "b"] =
    some [some none, some none, some none, some none, some none, some (some (.validationFailed "collection does not exist"))] := by
  decide +kernel

/-! ## C39 -/

/-- **C39, the database.** After a successful Close the database is closed and so is every collection handle; on a closed
database CreateCollection, GetCollection and DeleteCollection return the closed error and change nothing. -/
theorem C39_database (db : Db) (mf : Bool) (sf : String → Bool) (hc : (db.close mf sf).2 = none) :
    (∀ n oc, (db.close mf sf).1.colls.get? n = some oc → oc.coll.closed = true) ∧
    (∀ cfg env, (db.close mf sf).1.create cfg env = .ok ((db.close mf sf).1, some .databaseClosed)) ∧
    (∀ n, (db.close mf sf).1.getErr n = some .databaseClosed) ∧
    (∀ n a b, (db.close mf sf).1.delete n a b = ((db.close mf sf).1, some .databaseClosed)) := by
  have hcl : (db.close mf sf).1.closed = true ∧ ∀ n oc, (db.close mf sf).1.colls.get? n = some oc → oc.coll.closed = true := by
    unfold Db.close at hc ⊢
    by_cases hm : mf = true
    · rw [if_pos hm] at hc; cases hc
    · rw [if_neg hm] at hc ⊢
      dsimp only at hc ⊢
      cases he : (closeAll sf db.colls).2 with
      | some e => rw [he] at hc; cases hc
      | none =>
        rw [he] at hc
        refine ⟨rfl, fun n oc h => ?_⟩
        exact closeAll_closed sf db.colls he (n, oc) (AMap.mem_of_get? h)
  refine ⟨hcl.2, ?_, ?_, ?_⟩
  · intro cfg env; unfold Db.create; rw [if_pos hcl.1]
  · intro n; unfold Db.getErr Db.get; rw [if_pos hcl.1]
  · intro n a b; unfold Db.delete; rw [if_pos hcl.1]

example : (dbOf [.create (demoConfig "a") {}, .on "a" (demoInsert 5)]).any
    (fun db => decide ((db.close false (fun _ => false)).2 = none)) = true := by decide +kernel

/-- the answer "the collection is closed". -/
def Out.closedError {V D : Type} : Out V D → Prop
  | .inserted _ e => e = some .collectionClosed
  | .insertedBatch _ e => e = some .collectionClosed
  | .objects r => r = .error (.error .collectionClosed)
  | .found r => r = .error (.error .collectionClosed)
  | .size r => r = .error .collectionClosed
  | .done e => e = some .collectionClosed
  | .deleted e => e = some .collectionClosed

/-- **C39, collections, the part that holds.** On a closed collection Insert, InsertBatch, Get, SemanticSearch, GetSize and
Update return the closed error and change nothing. Excluded: Delete (`C39_delete_not_refused`). -/
theorem C39_collection {D : Type} (L : Lib V D) (c : Coll) (hc : c.closed = true) (op : Op V) (hop : op ≠ .reopen)
    (hnd : ∀ id a b, op ≠ .delete id a b) (hnc : ∀ a, op ≠ .close a) :
    ∃ out, c.apply L op = .ok (c, out) ∧ out.closedError := by
  cases op with
  | insert o embed env ff =>
    exact ⟨.inserted o (some .collectionClosed), by simp only [Coll.apply, Coll.insert, hc, if_true]; rfl, rfl⟩
  | insertBatch os embed envs ff =>
    exact ⟨.insertedBatch os (some .collectionClosed), by simp only [Coll.apply, Coll.insertBatch, hc, if_true]; rfl, rfl⟩
  | delete id a b => exact absurd rfl (hnd id a b)
  | get ids => exact ⟨_, rfl, by simp only [Out.closedError, Coll.get, hc, if_true]⟩
  | search o embed k => exact ⟨_, rfl, by simp only [Out.closedError, Coll.semanticSearch, hc, if_true]⟩
  | size => exact ⟨_, rfl, by simp only [Out.closedError, Coll.getSize, hc, if_true]⟩
  | update o => exact ⟨_, rfl, by simp only [Out.closedError, Coll.update, hc, if_true]⟩
  | close a => exact absurd rfl (hnc a)
  | reopen => exact absurd rfl hop

/-- a successful `Close` closes the collection and leaves its files alone. -/
theorem C39_close_closes (c : Coll) (sf : Bool) (h : (c.close sf).2 = none) :
    (c.close sf).1.closed = true ∧ (c.close sf).1.disk = c.disk := by
  unfold Coll.close at *
  cases hq : c.counter.close with
  | mk ctr e =>
    rw [hq] at h
    cases e with
    | some e => cases h
    | none =>
      dsimp only at h ⊢
      cases sf with
      | true => simp at h
      | false =>
        have hf : ctr.file = c.counter.file := by
          unfold IdCounter.close at hq
          split at hq <;> cases hq <;> rfl
        simp [Coll.disk, hf]

/-- **C39 fails for Delete**: on a closed collection, deleting an id that is not stored is reported as a success; a stored
one gives an I/O error, not the closed error. (Nothing is changed in either case.) -/
theorem C39_delete_not_refused {D : Type} (L : Lib V D) (c : Coll) (hc : c.closed = true) (id : UInt64) (a b : Bool) :
    (c.stores.objects.has (keyOf id) = false → c.delete L id a b = .ok (c, none)) ∧
    (c.stores.objects.has (keyOf id) = true → c.delete L id a b = .ok (c, some .io)) := by
  constructor
  · intro h
    have hg : getObject L.json c.stores id = .ok none := by
      unfold getObject
      have : c.stores.objects.get? (keyOf id) = none := by simpa [AMap.has] using h
      rw [this]
    unfold Coll.delete
    rw [hc, h, hg]; rfl
  · intro h
    unfold Coll.delete
    rw [hc, h]; rfl

/-- both cases occur: a collection with one object, closed. -/
example : (dbOf [.create (demoConfig "a") {}, .on "a" (demoInsert 5), .on "a" (.close false)]).any
    (fun db => (db.colls.get? "a").any (fun oc => oc.coll.closed && oc.coll.stores.objects.has (keyOf 0) &&
      !oc.coll.stores.objects.has (keyOf 1))) = true := by decide +kernel

/-! ## C40 -/

/-- **C40.** On an open database CreateCollection reports a validation error exactly when the configuration is not as
documented (`Documented`). -/
theorem C40_validation (db db' : Db) (cfg : Config) (env : CreateEnv) (e : Option Err) (hc : db.closed = false)
    (h : db.create cfg env = .ok (db', e)) : (∃ why, e = some (.validationFailed why)) ↔ ¬ Documented cfg := by
  constructor
  · rintro ⟨why, rfl⟩
    exact ((create_validation h).mp rfl).2
  · intro hd
    cases e with
    | none =>
      rcases create_rejected h with ⟨_, hne⟩ | ⟨_, hd', _⟩
      · exact absurd rfl hne
      · exact absurd hd' hd
    | some e =>
      have := (create_validation h).mpr ⟨hc, hd⟩
      cases e <;> simp [Err.isValidation] at this
      exact ⟨_, rfl⟩

/-- the parameters in a configuration sent as JSON are the ones validated and used. -/
theorem C40_parameters (m mMax efc ef : Int) (he : Bool) (dt : String)
    (h1 : -9223372036854775808 ≤ m ∧ m < 9223372036854775808) (h2 : -9223372036854775808 ≤ mMax ∧ mMax < 9223372036854775808)
    (h3 : -9223372036854775808 ≤ efc ∧ efc < 9223372036854775808) (h4 : -9223372036854775808 ≤ ef ∧ ef < 9223372036854775808) :
    decodeHnsw (.obj [("m", .int m), ("m_max", .int mMax), ("ef_construction", .int efc), ("ef", .int ef),
      ("heuristic", .bool he), ("distance_type", .str dt)]) =
      some { m := m, mMax := mMax, efConstruction := efc, ef := ef, heuristic := he, distanceType := dt } := by
  have e1 : "m".toLower = "m" := by decide +kernel
  have e2 : "m_max".toLower = "m_max" := by decide +kernel
  have e3 : "ef_construction".toLower = "ef_construction" := by decide +kernel
  have e4 : "ef".toLower = "ef" := by decide +kernel
  have e5 : "heuristic".toLower = "heuristic" := by decide +kernel
  have e6 : "distance_type".toLower = "distance_type" := by decide +kernel
  simp [decodeHnsw, decodeField, e1, e2, e3, e4, e5, e6, convInt, convBool, convStr, h1, h2, h3, h4]

/-- for such a configuration of an HNSW collection the documented conditions, field by field. -/
theorem C40_fields (name et dt0 : String) (m mMax efc ef : Int) (he : Bool) (dt : String) (ec : Option JVal) (ms : List String)
    (h1 : -9223372036854775808 ≤ m ∧ m < 9223372036854775808) (h2 : -9223372036854775808 ≤ mMax ∧ mMax < 9223372036854775808)
    (h3 : -9223372036854775808 ≤ efc ∧ efc < 9223372036854775808) (h4 : -9223372036854775808 ≤ ef ∧ ef < 9223372036854775808) :
    validateConfig (Config.mk name "hnsw" et dt0 (some (.obj [("m", .int m), ("m_max", .int mMax), ("ef_construction", .int efc),
        ("ef", .int ef), ("heuristic", .bool he), ("distance_type", .str dt)])) ec ms) = none ↔
      (name ≠ "" ∧ 0 < m ∧ 0 < mMax ∧ 0 < ef ∧ 0 < efc ∧ (dt = "dot_product" ∨ dt = "euclidean_distance") ∧
        (et = "" ∨ et = "text2vec-huggingface" ∨ et = "fake_embedder") ∧ dt0 = "text") := by
  rw [validate_iff]
  unfold Documented
  constructor
  · rintro ⟨k1, ⟨_, j, p, hj, hp, k2⟩ | k2, k3, k4⟩
    · cases hj
      rw [C40_parameters m mMax efc ef he dt h1 h2 h3 h4] at hp
      cases hp
      exact ⟨k1, k2.1, k2.2.1, k2.2.2.1, k2.2.2.2.1, k2.2.2.2.2, by simpa using k3, k4⟩
    · have k2 : "hnsw" = "disk_ann" := k2
      exact absurd k2 (by decide)
  · rintro ⟨k1, k2, k3, k4, k5, k6, k7, k8⟩
    exact ⟨k1, Or.inl ⟨rfl, _, _, rfl, C40_parameters m mMax efc ef he dt h1 h2 h3 h4, k2, k3, k4, k5, k6⟩, by simpa using k7, k8⟩

/-- the parameters are the ones the index runs with: `m` neighbours chosen on insertion, at most `m_max` per vertex (twice as many at
the bottom), candidate lists of `ef_construction` while inserting and of `ef` while searching, the heuristic or the simple selection,
and the distance function named. -/
theorem C40_used (js : Json V) (o : FloatOps) (h : List (DbOp V × DbOut V)) (db db' : Db) (hr : DbRuns js o {} h db)
    (hcl : ∀ x ∈ h, CleanOp x) (cfg : Config)
    (hclean : CleanOp (DbOp.create cfg {}, (DbOut.done none : DbOut V))) (hcr : db.create cfg {} = .ok (db', none))
    (m mMax efc ef : Int) (he : Bool) (dt : String)
    (h1 : -9223372036854775808 ≤ m ∧ m < 9223372036854775808) (h2 : -9223372036854775808 ≤ mMax ∧ mMax < 9223372036854775808)
    (h3 : -9223372036854775808 ≤ efc ∧ efc < 9223372036854775808) (h4 : -9223372036854775808 ≤ ef ∧ ef < 9223372036854775808)
    (hp : cfg.indexParams = some (.obj [("m", .int m), ("m_max", .int mMax), ("ef_construction", .int efc), ("ef", .int ef),
      ("heuristic", .bool he), ("distance_type", .str dt)])) :
    ∃ oc, db'.get cfg.name = .ok oc ∧ (oc.coll.index.cfg.m : Int) = m ∧ (oc.coll.index.cfg.mMax : Int) = mMax ∧
      (oc.coll.index.cfg.efC : Int) = efc ∧ (oc.coll.index.cfg.ef : Int) = ef ∧ oc.coll.index.cfg.heuristic = he ∧
      oc.coll.mappings = cfg.mappings ∧
      ((dt = "dot_product" ∧ oc.config.lib js o = some { json := js, metric := { lt := o.lt, dist := dot o } }) ∨
       (dt = "euclidean_distance" ∧
          oc.config.lib js o = some { json := js, metric := { lt := o.lt, dist := euclideanDistance o } })) := by
  rcases create_rejected hcr with ⟨_, hne⟩ | ⟨hc, hd, hn⟩
  · exact absurd rfl hne
  obtain ⟨_, _, hacc⟩ := hclean
  obtain ⟨hh, ec, em, hec, hem⟩ := hacc hd
  obtain ⟨ip, params, p, hip, _, hdec, hcr'⟩ := create_fresh (db_runs (dbInv_init _) hr hcl).1 (fun h => h) hc hd hh hec hem hn
  rw [hp] at hip; cases hip
  have hpar := C40_parameters m mMax efc ef he dt h1 h2 h3 h4
  rw [hpar] at hdec; cases hdec
  rw [hcr] at hcr'; cases hcr'
  obtain ⟨_, ⟨_, j, p, hj, hjp, p1, p2, p3, p4, p5⟩ | hx, _⟩ := id hd
  · rw [hp] at hj; cases hj
    rw [hpar] at hjp; cases hjp
    dsimp only at p1 p2 p3 p4 p5
    refine ⟨_, by simp [Db.get, hc, AMap.get?_set_self]; rfl, ?_, ?_, ?_, ?_, rfl, rfl, ?_⟩
    · show ((m.toNat : Nat) : Int) = m; omega
    · show ((mMax.toNat : Nat) : Int) = mMax; omega
    · show ((efc.toNat : Nat) : Int) = efc; omega
    · show ((ef.toNat : Nat) : Int) = ef; omega
    · simp only [Config.lib, hp, Option.bind_some, hpar, Option.getD_some]
      rcases p5 with rfl | rfl
      · left; exact ⟨rfl, by simp [metricOf]⟩
      · right; exact ⟨rfl, by simp [metricOf]⟩
  · rw [hh] at hx; exact absurd hx (by decide)

example : (match Db.create {} (demoConfig "a") {} with
    | .ok (_, none) => true
    | _ => false) = true := by decide +kernel

example : CleanOp (DbOp.create (demoConfig "a") {}, (DbOut.done none : DbOut UInt8)) := cleanB_sound (by decide +kernel)

/-- not everything an HNSW index needs is validated: `m = 1` is accepted, and the level multiplier `1/ln m` is then infinite
(`hnsw.go:47`); `m = 1` is excluded by hand in the collection theorems (`CfgOK.m2`). -/
example : validateConfig (Config.mk "a" "hnsw" "" "text" (some (.obj [("m", .int 1), ("m_max", .int 2), ("ef_construction", .int 4),
    ("ef", .int 4), ("distance_type", .str "dot_product")])) none []) = none := by decide +kernel

/-! ## C41 -/

/-- **C41, POST.** The handler does what CreateCollection does; the code is 201 exactly on success, 400 exactly for a
configuration that is not as documented (on an open database), 500 otherwise. -/
theorem C41_add (db db' : Db) (cfg : Config) (env : CreateEnv) (r : Response) (h : db.handleAdd cfg env = .ok (db', r)) :
    ∃ e, db.create cfg env = .ok (db', e) ∧ (r.code = 201 ↔ e = none) ∧
      (r.code = 400 ↔ db.closed = false ∧ ¬ Documented cfg) ∧
      (r.code = 500 ↔ e ≠ none ∧ (db.closed = true ∨ Documented cfg)) := by
  unfold Db.handleAdd at h
  obtain ⟨⟨d, e⟩, hc, h⟩ := (bind_ok_iff _ _ _).mp h
  dsimp only at h
  cases e with
  | none =>
    cases h
    refine ⟨none, hc, by simp, ?_, by simp⟩
    rcases create_rejected hc with ⟨_, hne⟩ | ⟨_, hd, _⟩
    · exact absurd rfl hne
    · simp [hd]
  | some e =>
    cases h
    have hv := create_validation hc
    refine ⟨some e, hc, ?_, ?_, ?_⟩
    · unfold errCode; split <;> simp
    · unfold errCode
      rw [← hv]
      split <;> simp_all
    · unfold errCode
      by_cases hb : e.isValidation = true
      · rw [if_pos hb]
        have := hv.mp hb
        simp [this.1, this.2]
      · rw [if_neg hb]
        simp only [ne_eq, reduceCtorEq, not_false_eq_true, true_and, true_iff]
        by_cases hcl : db.closed = true
        · exact Or.inl hcl
        · exact Or.inr (Classical.not_not.mp (fun hd => hb (hv.mpr ⟨by simpa using hcl, hd⟩)))

/-- **C41, GET.** 200 exactly for a collection that is there (and was not closed on its own), 400 exactly for an unknown
name on an open database, 500 otherwise. -/
theorem C41_get (db : Db) (n : String) :
    ((db.handleGet n).code = 200 ↔ ∃ oc, db.get n = .ok oc ∧ oc.coll.closed = false) ∧
    ((db.handleGet n).code = 400 ↔ db.closed = false ∧ db.colls.has n = false) ∧
    ((db.handleGet n).code = 500 ↔ db.closed = true ∨ ∃ oc, db.get n = .ok oc ∧ oc.coll.closed = true) := by
  unfold Db.handleGet Db.get
  by_cases hc : db.closed = true
  · simp [hc, errCode, Err.isValidation]
  · have hc' : db.closed = false := by simpa using hc
    cases hg : db.colls.get? n with
    | none => simp [hc', errCode, Err.isValidation, AMap.has, hg]
    | some oc =>
      cases hq : oc.coll.closed <;> simp [hc', AMap.has, hg, hq]

/-- **C41, DELETE.** The handler does what DeleteCollection does; 200 exactly on success, 400 exactly for an unknown name on
an open database, 500 otherwise. -/
theorem C41_delete (db : Db) (n : String) (a b : Bool) :
    (db.handleDelete n a b).1 = (db.delete n a b).1 ∧
    ((db.handleDelete n a b).2.code = 200 ↔ (db.delete n a b).2 = none) ∧
    ((db.handleDelete n a b).2.code = 400 ↔ db.closed = false ∧ db.colls.has n = false) ∧
    ((db.handleDelete n a b).2.code = 500 ↔ (db.delete n a b).2 ≠ none ∧ (db.closed = true ∨ db.colls.has n = true)) := by
  have hval : ∀ e, (db.delete n a b).2 = some e → (e.isValidation = true ↔ (db.closed = false ∧ db.colls.has n = false)) := by
    intro e he
    unfold Db.delete at he
    by_cases hc : db.closed = true
    · rw [if_pos hc] at he; cases he; simp [Err.isValidation, hc]
    rw [if_neg hc] at he
    by_cases hh : db.colls.has n = false
    · rw [if_pos hh] at he; cases he; simp [Err.isValidation, hc, hh]
    rw [if_neg hh] at he
    have : e.isValidation = false := by
      dsimp only at he
      repeat' (split at he)
      all_goals first | (cases he; rfl) | cases he
    simp [this, hh]
  unfold Db.handleDelete
  have hnone : (db.delete n a b).2 = none → db.closed = false ∧ db.colls.has n = true := by
    intro he
    unfold Db.delete at he
    by_cases hc : db.closed = true
    · rw [if_pos hc] at he; cases he
    rw [if_neg hc] at he
    by_cases hh : db.colls.has n = false
    · rw [if_pos hh] at he; cases he
    exact ⟨by simpa using hc, by simpa using hh⟩
  cases hd : db.delete n a b with
  | mk d e =>
    rw [hd] at hval hnone
    cases e with
    | none =>
      have := hnone rfl
      simp [this.1, this.2]
    | some e =>
      have hv := hval e rfl
      dsimp only
      refine ⟨rfl, ?_, ?_, ?_⟩
      · unfold errCode; split <;> simp
      · rw [← hv]; unfold errCode; split <;> simp_all
      · unfold errCode
        by_cases hb : e.isValidation = true
        · rw [if_pos hb]
          have := hv.mp hb
          simp [this.1, this.2]
        · rw [if_neg hb]
          simp only [ne_eq, reduceCtorEq, not_false_eq_true, true_and, true_iff]
          by_cases hcl : db.closed = true
          · exact Or.inl hcl
          · right
            cases hq : db.colls.has n with
            | true => rfl
            | false => exact absurd (hv.mpr ⟨by simpa using hcl, hq⟩) hb

/-- all codes occur. -/
example : (dbOf [.create (demoConfig "a") {}]).any (fun db =>
    (db.handleGet "a").code == 200 && (db.handleGet "b").code == 400 && (db.handleDelete "a" false false).2.code == 200 &&
    (db.handleDelete "a" true false).2.code == 500 && (db.handleDelete "b" false false).2.code == 400 &&
    (match db.handleAdd (demoConfig "b") {} with | .ok r => r.2.code == 201 | .error _ => false) &&
    (match db.handleAdd (demoConfig "a") {} with | .ok r => r.2.code == 500 | .error _ => false) &&
    (match db.handleAdd (demoConfig "") {} with | .ok r => r.2.code == 400 | .error _ => false)) = true := by decide +kernel

/-! ## C42 -/

/-- **C42, the part that holds.** For plain names — one path component, not `.`, `..` or the metadata file — the files of a
collection are directly inside the data directory, away from the metadata file, and two collections share or nest nothing.
Excluded: CreateCollection accepts other names (`C42_escapes`). -/
theorem C42_plain (data : List String) (n : String) (h : PlainName n) :
    collectionDir data n = data ++ [n] ∧ collectionDir data n ≠ metadataFile data ∧
    ∀ n', PlainName n' → n' ≠ n → ¬ collectionDir data n <+: collectionDir data n' := by
  have key : ∀ n, PlainName n → collectionDir data n = data ++ [n] := by
    intro n h
    obtain ⟨h1, h2, h3, h4, h5⟩ := h
    unfold collectionDir
    rw [splitSlash_plain _ h5]
    simp only [List.foldl_cons, List.foldl_nil, followOne]
    have e1 : ∀ (s : String), n.toList = s.toList → n = s := fun s he => String.toList_inj.mp he
    rw [if_neg, if_neg]
    · simp
    · intro he; exact h3 (e1 ".." he)
    · rintro (he | he)
      · exact h1 (e1 "" he)
      · exact h2 (e1 "." he)
  refine ⟨key n h, ?_, ?_⟩
  · rw [key n h]
    intro he
    have := List.append_cancel_left he
    exact h.2.2.2.1 (by simpa using this)
  · intro n' h' hne hp
    rw [key n h, key n' h'] at hp
    have := (List.prefix_append_right_inj data).mp hp
    rw [List.cons_prefix_cons] at this
    exact hne this.1.symm

example : PlainName "a" ∧ PlainName "some collection" := by unfold PlainName; decide +kernel

/-- **C42 fails**: any non-empty name is accepted. The name `../x` puts the files beside the data directory, `a/object_storage`
inside another collection's store, `./a` on top of another collection, `metadata.db` on top of the metadata, and `..` makes
DeleteCollection remove the parent directory. -/
theorem C42_escapes (data : List String) (d : String) :
    (∀ n, n ≠ "" → Documented { demoConfig "a" with name := n }) ∧
    collectionDir (data ++ [d]) "../x" = data ++ ["x"] ∧
    collectionDir data "a/object_storage" = collectionDir data "a" ++ ["object_storage"] ∧ "object_storage" ∈ collectionFiles ∧
    collectionDir data "./a" = collectionDir data "a" ∧
    collectionDir data "metadata.db" = metadataFile data ∧
    collectionDir (data ++ [d]) ".." = data := by
  have e0 : (("../x" : String).toList) = ['.', '.', '/', 'x'] := by decide +kernel
  have e1 : (("a/object_storage" : String).toList) = ['a', '/', 'o', 'b', 'j', 'e', 'c', 't', '_', 's', 't', 'o', 'r', 'a', 'g', 'e'] := by decide +kernel
  have e2 : (("./a" : String).toList) = ['.', '/', 'a'] := by decide +kernel
  have e3 : (("a" : String).toList) = ['a'] := by decide +kernel
  have e4 : ((".." : String).toList) = ['.', '.'] := by decide +kernel
  have e5 : (("metadata.db" : String).toList) = ['m', 'e', 't', 'a', 'd', 'a', 't', 'a', '.', 'd', 'b'] := by decide +kernel
  have s1 : String.ofList ['x'] = "x" := by decide +kernel
  have s2 : String.ofList ['o', 'b', 'j', 'e', 'c', 't', '_', 's', 't', 'o', 'r', 'a', 'g', 'e'] = "object_storage" := by decide +kernel
  have s3 : String.ofList ['m', 'e', 't', 'a', 'd', 'a', 't', 'a', '.', 'd', 'b'] = "metadata.db" := by decide +kernel
  have s4 : String.ofList ['a'] = "a" := by decide +kernel
  refine ⟨?_, ?_, ?_, by decide, ?_, ?_, ?_⟩
  · intro n hn
    obtain ⟨_, h2, h3⟩ := demoConfig_documented
    exact ⟨hn, h2, h3⟩
  · unfold collectionDir; rw [e0]; simp [splitSlash, followOne, s1]
  · unfold collectionDir; rw [e1, e3]; simp [splitSlash, followOne, s2, s4]
  · unfold collectionDir; rw [e2, e3]; simp [splitSlash, followOne, s4]
  · unfold collectionDir metadataFile; rw [e5]; simp [splitSlash, followOne, s3]
  · unfold collectionDir; rw [e4]; simp [splitSlash, followOne]

/-! ## C54 -/

/-- **C54, the part that holds.** GET of a collection that was just created answers with its configuration, except for the
mappings. Excluded: the mappings (`C54_mappings_hidden`). -/
theorem C54_holds (db db' : Db) (cfg : Config) (env : CreateEnv) (h : db.create cfg env = .ok (db', none)) :
    ∃ p, db'.handleGet cfg.name = { code := 200, payload := some p } ∧ p = { cfg with mappings := p.mappings } := by
  rcases create_rejected h with ⟨_, hne⟩ | ⟨h1, h2, h3⟩
  · exact absurd rfl hne
  rw [create_reduce env h1 h2 h3] at h
  cases hm : db.metaCreate cfg env with
  | mk db1 r =>
    have hcl : db1.closed = db.closed := by
      rcases metaCreate_cases db cfg env with ⟨e1, h1⟩ | ⟨h1, _⟩ | ⟨_, _, _, _, _, _, _, _, _, _, _, h1, _⟩ |
        ⟨_, _, _, _, r, _, _, _, _, _, h1, _⟩ <;> rw [h1] at hm <;> cases hm <;> rfl
    rw [hm] at h
    cases r with
    | error e => cases h
    | ok id =>
      dsimp only at h
      cases hw : newCollection cfg ((db1.dirs.get? cfg.name).getD {}) env.openFails with
      | error a => rw [hw] at h; cases a <;> cases h
      | ok c =>
        rw [hw] at h
        cases h
        have hcc := (newCollection_ok hw).2.2.2.1
        refine ⟨{ cfg with mappings := [] }, ?_, rfl⟩
        unfold Db.handleGet Db.get
        dsimp only
        rw [hcl, h1, AMap.get?_set_self]
        simp [hcc]

/-- **C54 fails for mappings**: the payload never contains any. -/
theorem C54_mappings_hidden (db : Db) (n : String) (p : Config) (h : (db.handleGet n).payload = some p) : p.mappings = [] := by
  unfold Db.handleGet at h
  split at h
  · cases h
  · split at h
    · cases h
    · cases h; rfl

example : (dbOf [.create (demoConfig "a") {}]).any (fun db => (db.handleGet "a").payload == some { demoConfig "a" with mappings := [] }) = true := by
  decide +kernel

end Vectory
