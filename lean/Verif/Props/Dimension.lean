import Verif.Props.DbLife
import Verif.Props.Crash
/-!
# C69: vectors of the wrong dimension

Nothing compares the length of a vector with those already stored (`collection_insert.go:9-34`, `insert.go:8-127`). The distance
functions read the second vector at every index of the first (`rest.go:8`, `dot.go:10`), and the stored vector comes first.
-/
namespace Vectory
variable {V D : Type}

/-- a distance function that reads its second argument at every index of the first. -/
def ReadsSecond (M : Metric D) : Prop := ∀ a b : Vec, b.length < a.length → M.dist a b = .error .indexOutOfRange

/-- both distance functions of vectory are such. -/
theorem reads_second {o : FloatOps} {t : String} {M : Metric F32} (h : metricOf o t = some M) : ReadsSecond M := by
  unfold metricOf at h
  split at h
  · cases h
    have key : ∀ (n : Nat) (a b : Vec) (acc : F32), a.length = n → b.length < n → dotLoop o acc a b = .error .indexOutOfRange := by
      intro n
      induction n using Nat.strongRecOn with
      | ind n ih =>
        intro a b acc hn hb
        unfold dotLoop
        split
        · simp at hn; omega
        · simp at hn hb
          exact ih (n - 8) (by omega) _ _ _ (by omega) (by omega)
        · rfl
    intro a b hab
    exact key _ a b _ rfl hab
  · split at h
    · cases h
      have key : ∀ (a b : Vec) (acc : F32), b.length < a.length → euclidLoop o acc a b = .error .indexOutOfRange := by
        intro a
        induction a with
        | nil => intro b acc hl; simp at hl
        | cons x a ih => intro b acc hl; cases b with
          | nil => rfl
          | cons y b => exact ih b _ (by simpa using hl)
      intro a b hab
      simp only [euclideanDistance, key _ _ _ hab]
    · cases h

theorem insert_panics {M : Metric D} {h : Hnsw} (hm : h.cfg.m ≠ 1) {ep : Vertex} (hep : AMap.get? h.nodes h.entry = some ep) {vec : Vec}
    {p : Panic} (hd : M.dist ep.vec vec = .error p) {id : UInt64} (hid : AMap.get? h.nodes id = none) (level : Nat) :
    h.insert M vec id level = .error p := by
  have hne : h.entry ≠ id := by intro he; rw [he, hid] at hep; cases hep
  unfold Hnsw.insert
  rw [if_neg (by intro hc; rw [hc.2] at hep; cases hep)]
  unfold Hnsw.insertNext
  rw [if_neg hm]
  have : nodeAt (AMap.set h.nodes id { id := id, conns := List.replicate (level + 1) [], vec := vec }) h.entry = .ok ep := by
    apply nodeAt_of; rw [AMap.get?_set_ne _ _ _ _ (Ne.symm hne)]; exact hep
  simp only [Hnsw.log]
  rw [this, ok_bind, hd]
  rfl

theorem short_unopenable {L : Lib V D} {dim : Nat} {S : Prop} {X : UInt64 → Prop} {c : Coll} (i : WInv S L dim X c) (dv : DInv S c.index)
    {o : Object V} {level : Nat} (hv : (o.vec.getD []).length < 4294967296) (hj : (L.json.marshal o.props).isSome) :
    ∃ d, c.crashInsert L o level .vector = .ok d ∧
      ∀ ms he, openColl c.index.cfg ms he d = .error (.panic .nilDeref) := by
  obtain ⟨jb, hjb⟩ := Option.isSome_iff_exists.mp hj
  have hser : serializeProperties L.json { o with id := c.counter.count } = .ok (putUint32 (UInt32.ofNat jb.length) ++ jb) := by
    simp [serializeProperties, hjb]
  refine ⟨_, rfl, ?_⟩
  intro ms he
  obtain ⟨s, h1, h2, _⟩ := dv.ex
  have hload : loadFromWAL (Hnsw.empty c.index.cfg c.index.wal.disk) c.index.wal.disk =
      .ok { s with wal := newWal c.index.wal.disk } := by
    have h3 := loadFromWAL_wal (newWal c.index.wal.disk) c.index.wal.disk { cfg := c.index.cfg }
    unfold loadLog at h1
    rw [h1] at h3
    exact h3
  obtain ⟨ids, hids⟩ := keys_as_ids i.vkeys
  have hfr := (fresh_of i).2.1
  have hctr : ∃ k, newIdCounter (overwrite c.counter.file (putUint64 (c.counter.count + 1))) = .ok k := by
    rw [overwrite_counter i]
    exact ⟨_, by simpa using newIdCounter_put (c.counter.count + 1) []⟩
  obtain ⟨k, hctr⟩ := hctr
  have hgv : ∀ id ∈ ids ++ [c.counter.count], getVector (putObject L.json c.stores { o with id := c.counter.count } .none).1 id =
      .ok (if id = c.counter.count then some (o.vec.getD []) else vecOf c.index.nodes id) := by
    intro id _
    unfold putObject
    rw [hser]
    simp only [reduceCtorEq, if_false]
    unfold getVector
    dsimp only
    by_cases hid : id = c.counter.count
    · rw [hid, AMap.get?_set_self, if_pos rfl]
      dsimp only
      rw [deserialize_serializeVector _ hv]
    · rw [AMap.get?_set_ne _ _ _ _ (fun h => hid (keyOf_inj h).symm), if_neg hid]
      exact i.vstore id
  have hkeys : (putObject L.json c.stores { o with id := c.counter.count } .none).1.vectors.keys = (ids ++ [c.counter.count]).map keyOf := by
    unfold putObject
    rw [hser]
    simp only [reduceCtorEq, if_false]
    rw [AMap.keys_set, if_neg hfr, List.map_append, hids]
    rfl
  unfold openColl
  simp only [Coll.disk]
  rw [hctr]
  simp only [liftErr, ok_bind]
  rw [hload, ok_bind, hkeys, populateVectors_eq _ _ _ _ hgv,
    populate_missing _ { s with wal := newWal c.index.wal.disk } c.counter.count
      (by rw [List.map_map]; exact List.mem_map.mpr ⟨c.counter.count, by simp, rfl⟩)
      (fun h => hfr ((vkey_iff i _).mpr (h2 _ h)))]
  rfl

theorem short_panics {L : Lib V D} {dim : Nat} {S : Prop} {X : UInt64 → Prop} {c : Coll} (i : WInv S L dim X c) (hm : ReadsSecond L.metric)
    (hcl : c.closed = false) (hcc : c.counter.closed = false) {id : UInt64} {x : Object V} (hx : c.get L [id] = .ok [x])
    {o : Object V} {v : Vec} (hov : o.vec = some v) (hshort : v.length < dim)
    (hval : validateObjects c.mappings 0 [o] = none) (hj : (L.json.marshal o.props).isSome)
    {embed : Embed V} (hemb : embedObjectsIfNeeded c embed [o] = .ok (.ok [o])) (level : Nat) (flushFails : Bool) :
    c.insert L o embed { level := level } flushFails = .error .indexOutOfRange := by
  rw [get_single_some hcl] at hx
  obtain ⟨r, hgr, hs, _⟩ := getObject_eq i id
  rw [hx] at hgr; cases hgr
  have hidn : id ∈ c.index.nodes.keys := (vkey_iff i _).mp (hs.mp rfl).2
  have hent : ∃ ep, AMap.get? c.index.nodes c.index.entry = some ep := by
    rcases i.idx.m.good.entry with h | ⟨y, hy, _⟩
    · rw [h] at hidn; cases hidn
    · exact ⟨y, hy⟩
  obtain ⟨ep, hep⟩ := hent
  have hdist : L.metric.dist ep.vec v = .error .indexOutOfRange := hm _ _ (by rw [i.vecs _ _ hep]; exact hshort)
  have hnew : AMap.get? c.index.nodes c.counter.count = none := by
    rw [AMap.get?_none_iff]; exact fun h => (fresh_of i).2.1 ((vkey_iff i _).mpr h)
  have hput : (putObject L.json c.stores { o with id := c.counter.count } .none).2 = none := by
    obtain ⟨jb, hjb⟩ := Option.isSome_iff_exists.mp hj
    unfold putObject
    simp [serializeProperties, hjb]
  unfold Coll.insert
  rw [hcl, hval, hemb]
  simp only [Bool.false_eq_true, if_false, ok_bind]
  unfold Coll.insertOne fetchAndInc
  rw [hcc]
  simp only [Bool.or_self, Bool.false_eq_true, if_false]
  rw [hput]
  simp only [hov, Option.getD_some]
  rw [insert_panics (by have := i.cfg.m2; omega) hep hdist hnew]
  rfl

theorem w69_short_vector_destroys (L : Lib V D) (dim : Nat) (c : Coll) {S : Prop} (i : WInv S L dim (fun _ => True) c) (dv : DInv S c.index) (hm : ReadsSecond L.metric)
    (hcl : c.closed = false) (hcc : c.counter.closed = false) (id : UInt64) (x : Object V) (hx : c.get L [id] = .ok [x])
    (o : Object V) (v : Vec) (hov : o.vec = some v) (hshort : v.length < dim)
    (hval : validateObjects c.mappings 0 [o] = none) (hj : (L.json.marshal o.props).isSome)
    (embed : Embed V) (hemb : embedObjectsIfNeeded c embed [o] = .ok (.ok [o])) (level : Nat) (flushFails : Bool) :
    c.insert L o embed { level := level } flushFails = .error .indexOutOfRange ∧
    ∃ d, c.crashInsert L o level .vector = .ok d ∧
      openColl c.index.cfg c.mappings c.hasEmbedder d = .error (.panic .nilDeref) := by
  have hl32 : (o.vec.getD []).length < 4294967296 := by
    have := i.dim32
    rw [hov]; simp only [Option.getD_some]; omega
  obtain ⟨d, hd, hop⟩ := short_unopenable (level := level) i dv hl32 hj
  exact ⟨short_panics i hm hcl hcc hx hov hshort hval hj hemb level flushFails, d, hd, hop _ _⟩

/-- C69 is false of the code: take any collection reached by calls, crashes and reopens that holds a readable object, and
an object the collection accepts whose vector is shorter than those stored. `Insert` neither refuses it nor finishes: it
panics, after the counter, the object and the vector were written. What is on disk then can never be opened again. -/
theorem C69_short_vector_destroys (L : Lib V D) (dim : Nat) (c : Coll) (hr : ReachAny L dim c) (hm : ReadsSecond L.metric)
    (hcl : c.closed = false) (hcc : c.counter.closed = false) (id : UInt64) (x : Object V) (hx : c.get L [id] = .ok [x])
    (o : Object V) (v : Vec) (hov : o.vec = some v) (hshort : v.length < dim)
    (hval : validateObjects c.mappings 0 [o] = none) (hj : (L.json.marshal o.props).isSome)
    (embed : Embed V) (hemb : embedObjectsIfNeeded c embed [o] = .ok (.ok [o])) (level : Nat) (flushFails : Bool) :
    c.insert L o embed { level := level } flushFails = .error .indexOutOfRange ∧
    ∃ d, c.crashInsert L o level .vector = .ok d ∧
      openColl c.index.cfg c.mappings c.hasEmbedder d = .error (.panic .nilDeref) :=
  w69_short_vector_destroys L dim c hr.weak.1 hr.weak.2 hm hcl hcc id x hx o v hov hshort hval hj embed hemb level flushFails

theorem w69_short_query_panics (L : Lib V D) (dim : Nat) (c : Coll) {S : Prop} (i : WInv S L dim (fun _ => True) c) (hm : ReadsSecond L.metric)
    (hcl : c.closed = false) (id : UInt64) (x : Object V) (hx : c.get L [id] = .ok [x])
    (o : Object V) (v : Vec) (hov : o.vec = some v) (hshort : v.length < dim)
    (embed : Embed V) (hemb : embedObjectsIfNeeded c embed [o] = .ok (.ok [o])) (k : Int) (hk : 0 ≤ k) :
    c.semanticSearch L o embed k = .error (.panic .indexOutOfRange) := by
  rw [get_single_some hcl] at hx
  obtain ⟨r, hgr, hs, _⟩ := getObject_eq i id
  rw [hx] at hgr; cases hgr
  have hidn : id ∈ c.index.nodes.keys := (vkey_iff i _).mp (hs.mp rfl).2
  have hent : ∃ ep, AMap.get? c.index.nodes c.index.entry = some ep := by
    rcases i.idx.m.good.entry with h | ⟨y, hy, _⟩
    · rw [h] at hidn; cases hidn
    · exact ⟨y, hy⟩
  obtain ⟨ep, hep⟩ := hent
  have hdist : L.metric.dist ep.vec v = .error .indexOutOfRange := hm _ _ (by rw [i.vecs _ _ hep]; exact hshort)
  unfold Coll.semanticSearch
  rw [hcl, hemb]
  simp only [Bool.false_eq_true, if_false, liftPanic, ok_bind, hov, Option.getD_some]
  unfold Hnsw.search
  rw [if_neg (by omega), nodeAt_of hep, ok_bind, hdist]
  rfl

/-- a query vector that is too short makes every search of a collection with a readable object panic. -/
theorem C69_short_query_panics (L : Lib V D) (dim : Nat) (c : Coll) (hr : ReachAny L dim c) (hm : ReadsSecond L.metric)
    (hcl : c.closed = false) (id : UInt64) (x : Object V) (hx : c.get L [id] = .ok [x])
    (o : Object V) (v : Vec) (hov : o.vec = some v) (hshort : v.length < dim)
    (embed : Embed V) (hemb : embedObjectsIfNeeded c embed [o] = .ok (.ok [o])) (k : Int) (hk : 0 ≤ k) :
    c.semanticSearch L o embed k = .error (.panic .indexOutOfRange) :=
  w69_short_query_panics L dim c hr.weak.1 hm hcl id x hx o v hov hshort embed hemb k hk

/-! ## The whole database -/

theorem unopenable_database {js : Json V} {o : FloatOps} {S W : Prop} {dims : Nat → Nat} {db : Db} (g : DbGood S js o W dims db) {n : String}
    {oc : OpenColl} (hoc : db.colls.get? n = some oc) {d : Disk}
    (hd : ∀ ms he, ∃ a, openColl oc.coll.index.cfg ms he d = .error a) : ∃ a, (db.stopped n d).reopen = .error a := by
  cases hre : (db.stopped n d).reopen with
  | error a => exact ⟨a, rfl⟩
  | ok db' =>
    exfalso
    obtain ⟨r, hr, rfl, L, k⟩ := g.held n oc hoc
    obtain ⟨h1, _⟩ := reopen_spec_db hre
    obtain ⟨_, g2⟩ := initColls_spec _ _ _ _ h1 g.inv.nd
    obtain ⟨c, hc, _⟩ := g2 r hr
    rw [newCollection_hnsw (by exact k.hnsw), k.cfg, contents_stopped, if_pos rfl] at hc
    obtain ⟨a, ha⟩ := hd r.config.mappings r.config.hasEmbedder
    rw [Option.getD_some, ha] at hc
    cases hc

/-- C69, the database: an `Insert` of a vector that is too short, into one collection, leaves files with which `Open` never
succeeds again - every other collection of the database is lost with it. -/
theorem C69_short_vector_destroys_database (js : Json V) (hj : JsonOK js) (o : FloatOps) (W : Prop) (dims : Nat → Nat) (h : List (DbEv V))
    (db : Db) (hlife : DbLife js o W dims {} h db) (n : String) (oc : OpenColl) (hget : db.get n = .ok oc)
    (L : Lib V F32) (hL : oc.config.lib js o = some L) (hcl : oc.coll.closed = false) (hcc : oc.coll.counter.closed = false)
    (id : UInt64) (x : Object V) (hx : oc.coll.get L [id] = .ok [x]) (y : Object V) (v : Vec) (hov : y.vec = some v)
    (hshort : v.length < dims oc.id) (hval : validateObjects oc.coll.mappings 0 [y] = none) (hjs : (js.marshal y.props).isSome)
    (embed : Embed V) (hemb : embedObjectsIfNeeded oc.coll embed [y] = .ok (.ok [y])) (level : Nat) (flushFails : Bool) :
    oc.coll.insert L y embed { level := level } flushFails = .error .indexOutOfRange ∧
    ∃ d a, oc.coll.crashInsert L y level .vector = .ok d ∧ (db.stopped n d).reopen = .error a := by
  have g := (good_life hj (dbGood_init True js o W dims) hlife).1
  obtain ⟨r, hr, hrn, L', k⟩ := g.held n oc (get_ok hget).2
  rw [k.lib] at hL; cases hL
  have hm : ReadsSecond L.metric ∧ L.json = js := by
    have := k.lib
    unfold Config.lib at this
    cases hmo : metricOf o ((oc.config.indexParams.bind decodeHnsw).getD {}).distanceType with
    | none => rw [hmo] at this; cases this
    | some M => rw [hmo] at this; cases this; exact ⟨reads_second hmo, rfl⟩
  have hjs' : (L.json.marshal y.props).isSome := by rw [hm.2]; exact hjs
  refine ⟨short_panics k.inv hm.1 hcl hcc hx hov hshort hval hjs' hemb level flushFails, ?_⟩
  have hl32 : (y.vec.getD []).length < 4294967296 := by
    have := k.inv.dim32
    rw [hov]; simp only [Option.getD_some]; omega
  obtain ⟨d, hd, hop⟩ := short_unopenable (level := level) k.inv k.log hl32 hjs'
  obtain ⟨a, ha⟩ := unopenable_database g (get_ok hget).2 (d := d) (fun ms he => ⟨_, hop ms he⟩)
  exact ⟨d, a, hd, ha⟩

/-- C31, the database: a process that stops inside `Insert` between the write of the vector and the flush leaves files with which
`Open` never succeeds again, whatever else is in the database. -/
theorem C31_unopenable_database (js : Json V) (hj : JsonOK js) (o : FloatOps) (W : Prop) (dims : Nat → Nat) (h : List (DbEv V))
    (db : Db) (hlife : DbLife js o W dims {} h db) (n : String) (oc : OpenColl) (hget : db.get n = .ok oc)
    (L : Lib V F32) (hL : oc.config.lib js o = some L) (y : Object V) (level : Nat)
    (hl : (Ev.crashInsert [] y level .vector : Ev V F32).Legal L (dims oc.id) oc.coll) :
    ∃ d a, oc.coll.crashInsert L y level .vector = .ok d ∧ (db.stopped n d).reopen = .error a := by
  have g := (good_life hj (dbGood_init True js o W dims) hlife).1
  obtain ⟨r, hr, hrn, L', k⟩ := g.held n oc (get_ok hget).2
  rw [k.lib] at hL; cases hL
  obtain ⟨_, _, _, hd, _, hjs, _⟩ := hl
  obtain ⟨d, hd, hop⟩ := short_unopenable (level := level) k.inv k.log (by rw [hd]; exact k.inv.dim32) hjs
  obtain ⟨a, ha⟩ := unopenable_database g (get_ok hget).2 (d := d) (fun ms he => ⟨_, hop ms he⟩)
  exact ⟨d, a, hd, ha⟩

/-! ## Concrete cases -/

/-- an object with the one-component vector `[x]`. -/
def obj1 (x : UInt32) : Object UInt8 := { id := 0, props := [("a", 7)], vec := some [x] }

/-- one object with an eight-component vector was inserted. -/
def c69State : Coll :=
  match playLegal eucLib 8 (Coll.new demoCfg ["a"] false) [.insert (obj8 5) noEmbed {} false] with
  | some (c, _) => c
  | none => Coll.new demoCfg ["a"] false

theorem c69_reach : Reach eucLib 8 c69State := by
  have hs : Setup eucLib 8 demoCfg := by
    refine ⟨demoJson_ok, fun a b ha hb => ?_, by decide, by constructor <;> decide⟩
    exact ⟨_, C44_euclidean intOps a b (by omega)⟩
  unfold c69State
  cases h : playLegal eucLib 8 (Coll.new demoCfg ["a"] false) [.insert (obj8 5) noEmbed {} false] with
  | none => exact ⟨demoCfg, ["a"], false, [], hs, .nil _⟩
  | some r => exact ⟨demoCfg, ["a"], false, r.2, hs, playLegal_runs _ _ _ _ h⟩

/-- the hypotheses of `C69_short_vector_destroys` and `C69_short_query_panics` are met. -/
example : ReachAny eucLib 8 c69State ∧ ReadsSecond eucLib.metric ∧ c69State.closed = false ∧ c69State.counter.closed = false ∧
    (∃ x, c69State.get eucLib [0] = .ok [x]) ∧ (obj1 3).vec = some [3] ∧ validateObjects c69State.mappings 0 [obj1 3] = none ∧
    (eucLib.json.marshal (obj1 3).props).isSome ∧ embedObjectsIfNeeded c69State noEmbed [obj1 3] = .ok (.ok [obj1 3]) := by
  refine ⟨c69_reach.any, reads_second (o := intOps) (t := "euclidean_distance") rfl, by decide +kernel, by decide +kernel, ?_, rfl, by decide +kernel,
    by decide, ?_⟩
  · have : (match c69State.get eucLib [0] with | .ok [_] => true | _ => false) = true := by decide +kernel
    split at this
    · rename_i x hx; exact ⟨x, hx⟩
    · cases this
  · unfold embedObjectsIfNeeded; rw [show c69State.hasEmbedder = false by decide +kernel]; rfl

/-- does a call end in a panic? -/
def panics {α : Type} : Except Panic α → Bool
  | .error _ => true
  | .ok _ => false

/-- C69 for longer vectors: a collection with one one-component vector accepts a two-component one without complaint; from then on
the searches and inserts that were fine before panic. -/
theorem C69_long_vector_poisons :
    (match (Coll.new demoCfg ["a"] false).insert eucLib (obj1 5) noEmbed {} false with
      | .ok (c, _, none) =>
        hitList (c.semanticSearch eucLib (obj1 4) noEmbed 1) == some [(0, 1)] && !panics (c.insert eucLib (obj1 4) noEmbed {} false) &&
        (match c.insert eucLib { id := 0, props := [("a", 7)], vec := some [1, 2] } noEmbed {} false with
          | .ok (c', _, none) => (match c'.semanticSearch eucLib (obj1 4) noEmbed 1 with | .error (.panic _) => true | _ => false) &&
            panics (c'.insert eucLib (obj1 4) noEmbed {} false)
          | _ => false)
      | _ => false) = true := by decide +kernel

/-- the hypotheses of the database theorems are met: two collections, of dimension 8; a vector with one component for "a". -/
example : ∃ db hs oc L x, DbLife demoJson intOps True (fun _ => 8) {} hs db ∧ db.get "a" = .ok oc ∧ oc.config.lib demoJson intOps = some L ∧
    oc.coll.closed = false ∧ oc.coll.counter.closed = false ∧ oc.coll.get L [0] = .ok [x] ∧
    validateObjects oc.coll.mappings 0 [obj1 3] = none ∧ embedObjectsIfNeeded oc.coll noEmbed [obj1 3] = .ok (.ok [obj1 3]) ∧
    (Ev.crashInsert [] (obj8 3) 0 .vector : Ev UInt8 F32).Legal L 8 oc.coll := by
  obtain ⟨db, hs, h1, h2, _⟩ := life_of (js := demoJson) (o := intOps) (dims := fun _ => 8) (db := {})
    (ops := [.create (demoConfig "b") {}, .create (demoConfig "a") {}, .on "a" (.insert (obj8 5) noEmbed {} false)]) True
    (fun db _ => match db.get "a" with
      | .ok oc => !oc.coll.closed && !oc.coll.counter.closed && decide (validateObjects oc.coll.mappings 0 [obj1 3] = none) &&
          !oc.coll.hasEmbedder && decide (oc.coll.counter.count = 1) &&
          (match oc.config.lib demoJson intOps with
            | some L => (match oc.coll.get L [0] with | .ok [_] => true | _ => false)
            | none => false)
      | .error _ => false) (by decide +kernel)
  split at h2
  · rename_i oc hoc
    simp only [Bool.and_eq_true, Bool.not_eq_true', decide_eq_true_eq] at h2
    obtain ⟨⟨⟨⟨⟨h3, h4⟩, h5⟩, h6⟩, h7⟩, h8⟩ := h2
    cases hL : oc.config.lib demoJson intOps with
    | none => rw [hL] at h8; cases h8
    | some L =>
      rw [hL] at h8
      dsimp only at h8
      have hjs : L.json = demoJson := by
        unfold Config.lib at hL
        cases hmo : metricOf intOps ((oc.config.indexParams.bind decodeHnsw).getD {}).distanceType with
        | none => rw [hmo] at hL; cases hL
        | some M => rw [hmo] at hL; cases hL; rfl
      split at h8
      · rename_i x hx
        refine ⟨db, hs, oc, L, x, h1, hoc, hL, h3, h4, hx, h5, ?_, h3, h4, ?_, rfl, by decide, ?_, ?_, trivial⟩
        · unfold embedObjectsIfNeeded; rw [h6]; rfl
        · intro x hx; cases hx
        · rw [hjs]; decide
        · rw [h7]; decide
      · cases h8
  · cases h2

end Vectory
