import Verif.Lemmas.DbLife
import Verif.Props.Db
import Verif.Spec.DemoLife
import Verif.Props.Search
import Verif.Props.Panics
/-!
# C65, C66 and collection properties seen through a database

Histories of a whole database (`DbLife`): several collections, created and deleted and created again, calls on them, Close, restarts,
and — when `interrupted` holds — processes that stop at any moment of a call.
-/
namespace Vectory
variable {V : Type}

/-! ## C65 -/

theorem calls_return {S : Prop} {js : Json V} {o : FloatOps} {dims : Nat → Nat} {db : Db} (g : DbGood S js o False dims db) (op : DbOp V)
    (hl : op.Legal False dims db) (hcl : CleanOp (op, (DbOut.done none : DbOut V))) : ∃ out db', DbStep js o db op out db' := by
  cases op with
  | create cfg env =>
    obtain ⟨he, _, hacc⟩ := hcl
    subst he
    by_cases hc : db.closed = true
    · exact ⟨_, _, .create (by unfold Db.create; rw [if_pos hc])⟩
    · have hc' : db.closed = false := by simpa using hc
      by_cases hd : Documented cfg
      · cases hn : db.colls.has cfg.name with
        | true =>
          refine ⟨_, _, .create (e := some .collectionAlreadyExists) (db' := db) ?_⟩
          unfold Db.create
          rw [if_neg hc, (validate_iff cfg).mpr hd]
          simp [hn]
        | false =>
          obtain ⟨hh, ec, em, hec, hem⟩ := hacc hd
          obtain ⟨_, _, _, _, _, _, hcr⟩ := create_fresh g.inv (hl hd).2 hc' hd hh hec hem hn
          exact ⟨_, _, .create hcr⟩
      · cases hv : validateConfig cfg with
        | none => exact absurd ((validate_iff cfg).mp hv) hd
        | some why =>
          refine ⟨_, _, .create (e := some (.validationFailed why)) (db' := db) ?_⟩
          unfold Db.create
          rw [if_neg hc, hv]
  | get n => exact ⟨_, _, .get⟩
  | delete n a b => exact ⟨_, _, .delete⟩
  | on n op =>
    cases hg : db.get n with
    | error e => exact ⟨_, _, .onMissing hg⟩
    | ok oc =>
      obtain ⟨r, _, _, L, k⟩ := g.held n oc (get_ok hg).2
      obtain ⟨c', out, ha, _⟩ := apply_spec k.inv op (hl.2 oc hg)
      exact ⟨_, _, .on hg k.lib hl.1 ha⟩
  | close a b => exact ⟨_, _, .close⟩
  | restart =>
    obtain ⟨db', hre⟩ := restart_total g rfl (fun n oc hoc => contents_open hoc) (hl.elim False.elim (fun h => h))
    exact ⟨_, _, .restart hre⟩

/-- **C65.** In every database reached by legal calls, the next legal call — including Close and a restart with nothing waiting for a
flush — returns: no panic, and `Open` does not fail. -/
theorem C65_calls_return (js : Json V) (o : FloatOps) (hj : JsonOK js) (dims : Nat → Nat) (h : List (DbEv V)) (db : Db)
    (hr : DbLife js o False dims {} h db) (op : DbOp V) (hl : op.Legal False dims db) (hcl : CleanOp (op, (DbOut.done none : DbOut V))) :
    ∃ out db', DbStep js o db op out db' :=
  calls_return (good_life hj (dbGood_init True js o False dims) hr).1 op hl hcl

theorem reads_return {S : Prop} {js : Json V} {o : FloatOps} {dims : Nat → Nat} {db : Db} (g : DbGood S js o False dims db) {n : String}
    {oc : OpenColl} (hg : db.get n = .ok oc) : ∃ L, oc.config.lib js o = some L ∧
      (∀ (ids : List UInt64) (p : Panic), oc.coll.get L ids ≠ .error (.panic p)) ∧
      (∀ (x : Object V) (embed : Embed V) (k : Int) (p : Panic), EmbedOK oc.coll embed (dims oc.id) [x] → 0 ≤ k →
        oc.coll.index.nodes ≠ [] → oc.coll.semanticSearch L x embed k ≠ .error (.panic p)) := by
  obtain ⟨r, _, _, L, k⟩ := g.held n oc (get_ok hg).2
  obtain ⟨_, h2, h3⟩ := w19_no_panic_partial L (dims oc.id) oc.coll k.inv
  exact ⟨L, k.lib, h3, fun x embed k p h hk hne => h2 x embed k p h hk hne⟩

/-- C65 for the read calls, whose results carry a panic as a value: in every database reached by legal calls, `Get` never panics and a
search for `k ≥ 0` neighbours never does on a collection that something was inserted into (the exceptions are `C19`'s). -/
theorem C65_reads_return (js : Json V) (o : FloatOps) (hj : JsonOK js) (dims : Nat → Nat) (h : List (DbEv V)) (db : Db)
    (hr : DbLife js o False dims {} h db) (n : String) (oc : OpenColl) (hg : db.get n = .ok oc) :
    ∃ L, oc.config.lib js o = some L ∧
      (∀ (ids : List UInt64) (p : Panic), oc.coll.get L ids ≠ .error (.panic p)) ∧
      (∀ (x : Object V) (embed : Embed V) (k : Int) (p : Panic), EmbedOK oc.coll embed (dims oc.id) [x] → 0 ≤ k →
        oc.coll.index.nodes ≠ [] → oc.coll.semanticSearch L x embed k ≠ .error (.panic p)) :=
  reads_return (good_life hj (dbGood_init True js o False dims) hr).1 hg

/-- two collections, one of them deleted and created again, inserts, a delete of an object, Close, restarts. -/
def lifeOps : List (DbOp UInt8) :=
  [.create (demoConfig "a") {}, .on "a" (demoInsert 5), .create (demoConfig "b") {}, .on "b" (demoInsert 1), .on "a" (demoInsert 9 1),
   .delete "b" false false, .create (demoConfig "b") {}, .on "b" (demoInsert 3), .on "a" (.delete 0 false false),
   .close false (fun _ => false), .restart]

/-- the hypotheses of `C65_calls_return` are met by a run with two collections, and restarts and creations are legal there. -/
example : ∃ db hs, DbLife demoJson intOps False (fun _ => 1) {} hs db ∧
    (decide (hs.length = 11) && dbLegalB (fun _ => 1) db (.restart : DbOp UInt8) &&
      dbLegalB (fun _ => 1) db (.create (demoConfig "c") {} : DbOp UInt8) && dbLegalB (fun _ => 1) db (.on "b" (.search (demoObj 4) noEmbed 3)) &&
      (db.colls.get? "a").any (fun (oc : OpenColl) => decide (List.length oc.coll.index.nodes = 2)) &&
      (db.colls.get? "b").any (fun (oc : OpenColl) => decide (List.length oc.coll.index.nodes = 1))) = true := by
  obtain ⟨db, hs, h1, h2, _⟩ := life_of (js := demoJson) (o := intOps) (dims := fun _ => 1) (db := {}) (ops := lifeOps) False
    (fun (db : Db) (hs : List (DbEv UInt8)) => (decide (hs.length = 11) && dbLegalB (fun _ => 1) db (.restart : DbOp UInt8) &&
      dbLegalB (fun _ => 1) db (.create (demoConfig "c") {} : DbOp UInt8) && dbLegalB (fun _ => 1) db (.on "b" (.search (demoObj 4) noEmbed 3)) &&
      (db.colls.get? "a").any (fun (oc : OpenColl) => decide (List.length oc.coll.index.nodes = 2)) &&
      (db.colls.get? "b").any (fun (oc : OpenColl) => decide (List.length oc.coll.index.nodes = 1)))) (by decide +kernel)
  exact ⟨db, hs, h1, h2⟩

/-! ## C66 -/

theorem step_on {js : Json V} {o : FloatOps} {db db' : Db} {n : String} {op : Op V} {out : Out V F32}
    (h : DbStep js o db (.on n op) (.called out) db') : ∃ oc L c', db.get n = .ok oc ∧ oc.config.lib js o = some L ∧
      oc.coll.apply L op = .ok (c', out) ∧ db' = { db with colls := db.colls.set n { oc with coll := c' } } ∧ op ≠ .reopen := by
  cases h with
  | on h1 h2 h3 h4 => exact ⟨_, _, _, h1, h2, h4, rfl, h3⟩

theorem insert_stored {L : Lib V F32} {dim : Nat} {S : Prop} {X : UInt64 → Prop} {c c1 : Coll} {o o1 : Object V} {embed : Embed V}
    {env : InsEnv} {ff : Bool} (i : WInv S L dim X c) (hl : Legal dim c (.insert o embed env ff))
    (h1 : c.insert L o embed env ff = .ok (c1, o1, none)) :
    Stored L c1 o1 ∧ o1.props = o.props ∧ (∀ v, o.vec = some v → o1.vec = some v) := by
  obtain ⟨⟨r, hr, hd⟩, hlev, hcnt⟩ := hl
  generalize he : (none : Option Err) = e at h1
  cases insert_res h1 with
  | closed => cases he
  | invalid => cases he
  | embed => cases he
  | storage => cases he
  | done o2 _ c3 _ _ hem hin =>
    have hk := embed_keep hem 0 o o2 rfl rfl
    rw [hr] at hem; cases hem
    obtain ⟨c4, o3, e2, h2, i2, f2⟩ := insertOne_spec i (env := env) (hd [o2] rfl o2 (by simp)) hlev hcnt
    rw [hin] at h2; cases h2
    exact ⟨(f2.stored).evo i2 (flush_evo L c3 ff (fun _ => False)) (by simp), f2.props.trans hk.1,
      fun v hv => by rw [f2.vec]; exact hk.2.2 v hv⟩

/-- the answer of `GetCollection(n)` followed by `Get([id])` on it. -/
def Db.Reads (js : Json V) (o : FloatOps) (db : Db) (n : String) (id : UInt64) (r : List (Object V)) : Prop :=
  ∃ db', DbStep js o db (.on n (.get [id])) (.called (.objects (.ok r))) db'

theorem reads_iff {js : Json V} {o : FloatOps} {db : Db} {n : String} {id : UInt64} {r : List (Object V)} {oc : OpenColl} {L : Lib V F32}
    (hg : db.get n = .ok oc) (hL : oc.config.lib js o = some L) : db.Reads js o n id r ↔ oc.coll.get L [id] = .ok r := by
  constructor
  · rintro ⟨db', h⟩
    obtain ⟨oc', L', c', h1, h2, h3, _⟩ := step_on h
    rw [hg] at h1; cases h1
    rw [hL] at h2; cases h2
    simp only [Coll.apply, Except.ok.injEq, Prod.mk.injEq, Out.objects.injEq] at h3
    exact h3.2
  · intro h
    exact ⟨_, .on hg hL (by intro h; cases h) (by simp only [Coll.apply, h]; rfl)⟩

theorem reads_open {js : Json V} {o : FloatOps} {db : Db} {n : String} {id : UInt64} {r : List (Object V)} (h : db.Reads js o n id r) :
    ∃ oc L, db.get n = .ok oc ∧ oc.config.lib js o = some L ∧ oc.coll.closed = false ∧ oc.coll.get L [id] = .ok r := by
  have h0 := h
  obtain ⟨db', hs⟩ := h0
  obtain ⟨oc, L, c', h1, h2, _⟩ := step_on hs
  have h3 := (reads_iff h1 h2).mp h
  refine ⟨oc, L, h1, h2, ?_, h3⟩
  cases hc : oc.coll.closed with
  | false => rfl
  | true => simp [Coll.get, hc] at h3

/-- a read of an object that is there, at two moments of a database's life. -/
theorem reads_keep {js : Json V} {o : FloatOps} {S W : Prop} {dims : Nat → Nat} (hj : JsonOK js) {db1 db2 : Db} {h : List (DbEv V)}
    (g : DbGood S js o W dims db1) (hr : DbLife js o W dims db1 h db2) {n : String} (hd : ∀ e ∈ h, ¬ e.drops n) {oc1 : OpenColl}
    {L : Lib V F32} (hg : db1.colls.get? n = some oc1) (hL : oc1.config.lib js o = some L) {T : UInt64 → Prop}
    (ht : ∀ e ∈ h, ∀ id, e.touches n id → T id) (ho : db2.closed = false) :
    ∃ oc2, db2.get n = .ok oc2 ∧ oc2.config.lib js o = some L ∧ Conc.Keeps L oc1.coll oc2.coll T := by
  obtain ⟨oc2, h1, _, h2, kp⟩ := (good_life hj g hr).2 n hd T ht oc1 L hg hL
  exact ⟨oc2, by unfold Db.get; rw [ho, h1]; rfl, h2, kp⟩

/-- **C66, inserts.** Once `Insert` into a collection of a database returned no error, the object is read back at every later moment of
the database's life — after whatever is done to this and other collections, after Close, restarts and (if `interrupted`) crashes from
which the database opens again — until that object is deleted or its collection is: with the id the caller received, the properties as
JSON gives them back, and the vector. -/
theorem C66_insert_survives (js : Json V) (o : FloatOps) (hj : JsonOK js) (interrupted : Prop) (dims : Nat → Nat) (before : List (DbEv V))
    (db db1 : Db) (hr : DbLife js o interrupted dims {} before db) (n : String) (x x1 : Object V) (embed : Embed V) (env : InsEnv) (ff : Bool)
    (hl : (DbOp.on n (.insert x embed env ff)).Legal interrupted dims db)
    (hs : DbStep js o db (.on n (.insert x embed env ff)) (.called (.inserted x1 none)) db1)
    (later : List (DbEv V)) (db2 : Db) (hr2 : DbLife js o interrupted dims db1 later db2) (hd : ∀ e ∈ later, ¬ e.drops n)
    (ht : ∀ e ∈ later, ¬ e.touches n x1.id) (ho : db2.closed = false) (hoc : ∀ oc, db2.get n = .ok oc → oc.coll.closed = false) :
    (∃ text props, js.marshal x.props = some text ∧ js.unmarshal text = some props ∧
      db2.Reads js o n x1.id [{ id := x1.id, props := props, vec := some (x1.vec.getD []) }]) ∧
    (∀ v, x.vec = some v → x1.vec = some v) := by
  have g := (good_life hj (dbGood_init True js o interrupted dims) hr).1
  have g1 := (good_step hj g (e := .call (.on n (.insert x embed env ff)) (.called (.inserted x1 none))) ⟨hl, trivial⟩ (.call hs)).1
  obtain ⟨oc, L, c1, hget, hL, happ, rfl, _⟩ := step_on hs
  obtain ⟨r, _, _, L', k⟩ := g.held n oc (get_ok hget).2
  rw [k.lib] at hL; cases hL
  have hleg := hl.2 oc hget
  have hins : oc.coll.insert L x embed env ff = .ok (c1, x1, none) := by
    simp only [Coll.apply] at happ
    obtain ⟨⟨a, b, c⟩, h1, h2⟩ := (bind_ok_iff _ _ _).mp happ
    cases h2
    cases hh : oc.coll.insert L x embed env ff with
    | error p => rw [hh] at h1; cases h1
    | ok r => rw [hh] at h1; cases h1; rfl
  obtain ⟨hst, hp, hv⟩ := insert_stored k.inv hleg hins
  obtain ⟨k1, _⟩ := k.call hleg happ
  refine ⟨?_, hv⟩
  obtain ⟨oc2, hg2, hL2, kp⟩ := reads_keep hj g1 hr2 hd (AMap.get?_set_self _ _ _) k1.lib (T := fun y => y ≠ x1.id)
    (fun e he id hid h => ht e he (h ▸ hid)) ho
  obtain ⟨b, p, s1, s2, s3⟩ := Conc.Stored.keeps k1.inv hst kp (by simp)
  have hjs : L.json = js := by
    have := k.lib
    unfold Config.lib at this
    split at this <;> cases this
    rfl
  rw [hjs] at s1 s2
  exact ⟨b, p, by rw [← hp]; exact s1, s2, (reads_iff hg2 hL2).mpr ((get_single_some (hoc oc2 hg2)).mpr s3)⟩

/-- **C66, reads.** Whatever a collection of a database answers for the id of a stored object, it answers at every later moment of the
database's life until that object or its collection is deleted. -/
theorem C66_read_survives (js : Json V) (o : FloatOps) (hj : JsonOK js) (interrupted : Prop) (dims : Nat → Nat) (before : List (DbEv V))
    (db : Db) (hr : DbLife js o interrupted dims {} before db) (n : String) (id : UInt64) (x : Object V) (hx : db.Reads js o n id [x])
    (later : List (DbEv V)) (db2 : Db) (hr2 : DbLife js o interrupted dims db later db2) (hd : ∀ e ∈ later, ¬ e.drops n)
    (ht : ∀ e ∈ later, ¬ e.touches n id) (ho : db2.closed = false) (hoc : ∀ oc, db2.get n = .ok oc → oc.coll.closed = false) :
    db2.Reads js o n id [x] := by
  have g := (good_life hj (dbGood_init True js o interrupted dims) hr).1
  obtain ⟨oc, L, h1, h2, h3, h4⟩ := reads_open hx
  obtain ⟨r, _, _, L', k⟩ := g.held n oc (get_ok h1).2
  rw [k.lib] at h2; cases h2
  obtain ⟨oc2, hg2, hL2, kp⟩ := reads_keep hj g hr2 hd (get_ok h1).2 k.lib (T := fun y => y ≠ id)
    (fun e he y hy h => ht e he (h ▸ hy)) ho
  have h5 := (get_single_some h3).mp h4
  refine (reads_iff hg2 hL2).mpr ((get_single_some (hoc oc2 hg2)).mpr ?_)
  rw [kp.keep id (getObject_used k.inv h5) (by simp), h5]

/-- **C66, deletions.** An object that was there and is gone stays gone at every later moment of the database's life, until its
collection is deleted: no restart, no other call, no crash brings it back. -/
theorem C66_gone_stays_gone (js : Json V) (o : FloatOps) (hj : JsonOK js) (interrupted : Prop) (dims : Nat → Nat) (before : List (DbEv V))
    (db : Db) (hr : DbLife js o interrupted dims {} before db) (n : String) (id : UInt64) (x : Object V) (hx : db.Reads js o n id [x])
    (mid : List (DbEv V)) (db1 : Db) (hr1 : DbLife js o interrupted dims db mid db1) (hd1 : ∀ e ∈ mid, ¬ e.drops n)
    (hgone : db1.Reads js o n id []) (later : List (DbEv V)) (db2 : Db)
    (hr2 : DbLife js o interrupted dims db1 later db2) (hd : ∀ e ∈ later, ¬ e.drops n) (ho : db2.closed = false)
    (hoc : ∀ oc, db2.get n = .ok oc → oc.coll.closed = false) : db2.Reads js o n id [] := by
  have g := (good_life hj (dbGood_init True js o interrupted dims) hr).1
  have g1 := (good_life hj g hr1).1
  obtain ⟨oc, L, h1, h2, h3, h4⟩ := reads_open hx
  obtain ⟨r, _, _, L', k⟩ := g.held n oc (get_ok h1).2
  rw [k.lib] at h2; cases h2
  obtain ⟨oc1, L1, q1, q2, q3, q4⟩ := reads_open hgone
  obtain ⟨oc1', hg1, hL1, kp1⟩ := reads_keep hj g hr1 hd1 (get_ok h1).2 k.lib (T := fun _ => True) (fun _ _ _ _ => trivial) (get_ok q1).1
  rw [q1] at hg1; cases hg1
  rw [q2] at hL1; cases hL1
  obtain ⟨oc2, hg2, hL2, kp2⟩ := reads_keep hj g1 hr2 hd (get_ok q1).2 q2 (T := fun _ => True) (fun _ _ _ _ => trivial) ho
  have h5 := getObject_used k.inv ((get_single_some h3).mp h4)
  refine (reads_iff hg2 hL2).mpr ((get_single_none (hoc oc2 hg2)).mpr ?_)
  exact kp2.gone id (Nat.lt_of_lt_of_le h5 kp1.file) ((get_single_none q3).mp q4)

/-- the calls before and after the insert of an object in the example below. -/
def beforeOps : List (DbOp UInt8) := [.create (demoConfig "a") {}, .on "a" (demoInsert 5), .create (demoConfig "b") {}]
def laterOps : List (DbOp UInt8) :=
  [.on "b" (demoInsert 1), .on "a" (.delete 0 false false), .delete "b" false false, .close false (fun _ => false), .restart,
   .on "a" (.get [1])]

def evTouchB (n : String) (id : UInt64) : DbEv V → Bool
  | .call (.on m (.delete x _ _)) _ => decide (m = n) && decide (id = x)
  | .crashDelete m x _ => decide (m = n) && decide (id = x)
  | _ => false

theorem evTouchB_sound {n : String} {id : UInt64} {e : DbEv V} (h : evTouchB n id e = false) : ¬ e.touches n id := by
  intro ht
  cases e with
  | call op out =>
    cases op with
    | on m op =>
      cases op with
      | delete x a b =>
        obtain ⟨h1, h2⟩ := ht
        have h2 : id = x := h2
        simp [evTouchB, h1, h2] at h
      | _ => exact ht.2
    | _ => exact ht
  | crashInsert => exact ht
  | crashDelete m x p =>
    obtain ⟨h1, h2⟩ := ht
    simp [evTouchB, h1, h2] at h
  | crashCreate => exact ht
  | crashDrop => exact ht

def evDropB (n : String) : DbEv V → Bool
  | .call (.delete m _ _) _ => decide (m = n)
  | .crashDrop m (.row _) => decide (m = n)
  | _ => false

theorem evDropB_sound {n : String} {e : DbEv V} (h : evDropB n e = false) : ¬ e.drops n := by
  intro ht
  cases e with
  | call op out =>
    cases op with
    | delete m a b =>
      have ht : m = n := ht
      simp [evDropB, ht] at h
    | _ => exact ht
  | crashInsert => exact ht
  | crashDelete => exact ht
  | crashCreate => exact ht
  | crashDrop m p =>
    cases p with
    | start => exact ht
    | row left =>
      have ht : m = n := ht
      simp [evDropB, ht] at h

/-- the hypotheses of `C66_insert_survives` are met: an insert into "a", then work on both collections, a delete of another object, Close and
a restart. -/
example : ∃ db db1 db2 before later x1, DbLife demoJson intOps True (fun _ => 1) {} before db ∧
    (DbOp.on "a" (demoInsert 9 1)).Legal True (fun _ => 1) db ∧
    DbStep demoJson intOps db (.on "a" (demoInsert 9 1)) (.called (.inserted x1 none)) db1 ∧ x1.id = 1 ∧
    DbLife demoJson intOps True (fun _ => 1) db1 later db2 ∧ later.length = 6 ∧ (∀ e ∈ later, ¬ e.drops "a") ∧
    (∀ e ∈ later, ¬ e.touches "a" x1.id) ∧ db2.closed = false := by
  obtain ⟨db, hs, h1, h2, h3⟩ := life_of (js := demoJson) (o := intOps) (dims := fun _ => 1) (db := {}) (ops := beforeOps) True
    (fun db _ => dbLegalB (fun _ => 1) db (.on "a" (demoInsert 9 1)) &&
      (match db.play1 demoJson intOps (.on "a" (demoInsert 9 1)) with
        | some (db1, .called (.inserted x1 none)) => decide (x1.id = 1) &&
          (db1.live demoJson intOps (fun _ => 1) laterOps).any (fun r => decide (r.2.length = 6) && !r.1.closed &&
            r.2.all (fun e => !evDropB "a" e && !evTouchB "a" 1 e))
        | _ => false)) (by decide +kernel)
  simp only [Bool.and_eq_true] at h2
  obtain ⟨h2, h4⟩ := h2
  split at h4
  · rename_i db1 x1 hp
    simp only [Bool.and_eq_true, decide_eq_true_eq] at h4
    obtain ⟨hid, h4⟩ := h4
    obtain ⟨db2, hs2, h5, h6, _⟩ := life_of (js := demoJson) (o := intOps) (dims := fun _ => 1) (db := db1) (ops := laterOps) True
      (fun db hs => decide (hs.length = 6) && !db.closed && hs.all (fun e => !evDropB "a" e && !evTouchB "a" 1 e)) h4
    simp only [Bool.and_eq_true, decide_eq_true_eq, Bool.not_eq_true', List.all_eq_true] at h6
    exact ⟨db, db1, db2, hs, hs2, x1, h1, dbLegalB_sound h2, play1_step hp, hid, h5, h6.1.1,
      fun e he => evDropB_sound (h6.2 e he).1, fun e he => by rw [hid]; exact evTouchB_sound (h6.2 e he).2, h6.1.2⟩
  · cases h4

/-- a process that stops inside a delete: the event is legal, and the database opens again. -/
example : ∃ db db' before, DbLife demoJson intOps True (fun _ => 1) {} before db ∧
    (DbEv.crashDelete "a" 0 .erased : DbEv UInt8).Legal demoJson intOps True (fun _ => 1) db ∧
    (DbEv.crashDelete "a" 0 .erased : DbEv UInt8).Step demoJson intOps db db' ∧ db'.closed = false := by
  obtain ⟨db, hs, h1, h2, _⟩ := life_of (js := demoJson) (o := intOps) (dims := fun _ => 1) (db := {}) (ops := beforeOps) True
    (fun db _ => match db.get "a" with
      | .ok oc => !oc.coll.closed &&
          (match oc.config.lib demoJson intOps with
            | some L => (match oc.coll.get L [0] with | .ok [_] => true | _ => false)
            | none => false) &&
          (match (db.stopped "a" (oc.coll.crashDelete 0 .erased)).reopen with
            | .ok db' => !db'.closed
            | .error _ => false)
      | .error _ => false) (by decide +kernel)
  split at h2
  · rename_i oc hoc
    simp only [Bool.and_eq_true, Bool.not_eq_true'] at h2
    obtain ⟨⟨h3, h4⟩, h5⟩ := h2
    split at h5
    · rename_i db' hdb
      refine ⟨db, db', hs, h1, ⟨trivial, fun oc' L ho hL => ?_⟩, .crashDelete hoc hdb, by simpa using h5⟩
      rw [hoc] at ho; cases ho
      rw [hL] at h4
      dsimp only at h4
      split at h4
      · rename_i x hx; exact ⟨h3, x, hx⟩
      · cases h4
    · cases h5
  · cases h2

/-! ## Ids -/

/-- the ids that callers of collection `n` received in an event. -/
def DbEv.received (n : String) : DbEv V → List UInt64
  | .call (.on m op) (.called out) => if m = n then Vectory.received (op, out) else []
  | _ => []

/-- C04 in a database: over the whole life of a collection — from its creation until it is deleted — the ids its callers receive
increase; none is given twice, across restarts and crashes. -/
theorem C04_ids_database (js : Json V) (o : FloatOps) (hj : JsonOK js) (interrupted : Prop) (dims : Nat → Nat) (before : List (DbEv V))
    (db : Db) (hr : DbLife js o interrupted dims {} before db) (n : String) (oc : OpenColl) (hg : db.colls.get? n = some oc)
    (later : List (DbEv V)) (db2 : Db) (hr2 : DbLife js o interrupted dims db later db2) (hd : ∀ e ∈ later, ¬ e.drops n) :
    (later.flatMap (DbEv.received n)).Pairwise (fun a b => a.toNat < b.toNat) := by
  have g := (good_life hj (dbGood_init True js o interrupted dims) hr).1
  clear hr
  suffices H : ∀ oc, db.colls.get? n = some oc → (later.flatMap (DbEv.received n)).Pairwise (fun a b => a.toNat < b.toNat) ∧
      ∀ x ∈ later.flatMap (DbEv.received n), fileCount oc.coll ≤ x.toNat from (H oc hg).1
  clear hg oc
  induction hr2 with
  | nil => intro oc _; simp
  | @cons db db1 db2 e t hl hs _ ih =>
    intro oc hg
    obtain ⟨r, _, _, L, k⟩ := g.held n oc hg
    obtain ⟨g1, sv⟩ := good_step hj g hl hs
    obtain ⟨oc1, hg1, _, hL1, kp⟩ := sv n (hd e (by simp)) oc L hg k.lib
    obtain ⟨p1, p2⟩ := ih (fun e' he' => hd e' (by simp [he'])) g1 oc1 hg1
    have key : (DbEv.received n e).Pairwise (fun a b => a.toNat < b.toNat) ∧
        ∀ x ∈ DbEv.received n e, fileCount oc.coll ≤ x.toNat ∧ x.toNat < fileCount oc1.coll := by
      cases hs with
      | @call op out _ hs =>
        cases op with
        | on m op =>
          cases out with
          | done e => simp [DbEv.received]
          | called out =>
            by_cases hm : m = n
            · subst hm
              obtain ⟨oc', L', c', h1, h2, h3, rfl, hre⟩ := step_on hs
              rw [(get_ok h1).2] at hg; cases hg
              rw [k.lib] at h2; cases h2
              rw [AMap.get?_set_self] at hg1; cases hg1
              have hleg := hl.1.2 oc h1
              have hlegal : (Ev.call op out : Ev V F32).Legal L (dims oc.id) oc.coll := by
                cases op <;> first | exact hleg | trivial
              have hb := legalEv_bound hlegal
              have s := event_ids (.call h3) hb.2 k.inv.file_le hb.1
              have e : DbEv.received m (.call (.on m op) (.called out)) = (Ev.call op out : Ev V F32).received := by
                simp [DbEv.received, Ev.received]
              rw [e]
              exact ⟨s.inc, fun x hx => s.fresh x hx⟩
            · simp [DbEv.received, hm]
        | _ => simp [DbEv.received]
      | crashInsert => simp [DbEv.received]
      | crashDelete => simp [DbEv.received]
      | crashCreate => simp [DbEv.received]
      | crashDrop => simp [DbEv.received]
    rw [List.flatMap_cons]
    refine ⟨List.pairwise_append.mpr ⟨key.1, p1, fun a ha b hb => ?_⟩, fun x hx => ?_⟩
    · have := (key.2 a ha).2
      have := p2 b hb
      omega
    · rcases List.mem_append.mp hx with hx | hx
      · exact (key.2 x hx).1
      · have := p2 x hx
        have := kp.file
        omega

/-! ## Searches -/

theorem search_good {S W : Prop} {js : Json V} {o : FloatOps} {dims : Nat → Nat} {db db' : Db} (g : DbGood S js o W dims db) (n : String)
    (x : Object V) (embed : Embed V) (k : Int)
    (w : ∀ oc L q, db.get n = .ok oc → oc.config.lib js o = some L → queryVector embed x = some q → Ranks L oc.coll q)
    (he : ∀ oc, db.get n = .ok oc → EmbedOK oc.coll embed (dims oc.id) [x]) (r : SearchResult V F32)
    (hs : DbStep js o db (.on n (.search x embed k)) (.called (.found (.ok r))) db') :
    ∃ oc L q, db.get n = .ok oc ∧ oc.config.lib js o = some L ∧ queryVector embed x = some q ∧
      (r.objects.length : Int) ≤ k ∧ r.objects.length ≤ oc.coll.index.cfg.ef ∧ r.hits = r.objects.length ∧
      (r.objects.map Hit.id).Nodup ∧ r.objects.Pairwise (fun a b => o.lt b.dist a.dist = false) ∧
      ∀ hit ∈ r.objects, ∃ v, L.metric.dist v q = .ok hit.dist ∧
        db.Reads js o n hit.id [{ id := hit.id, props := hit.props, vec := some v }] := by
  obtain ⟨oc, L, c', h1, h2, h3, _, _⟩ := step_on hs
  obtain ⟨row, _, _, L', k'⟩ := g.held n oc (get_ok h1).2
  rw [k'.lib] at h2; cases h2
  simp only [Coll.apply, Except.ok.injEq, Prod.mk.injEq, Out.found.injEq] at h3
  have hlt : L.metric.lt = o.lt := by
    have := k'.lib
    unfold Config.lib at this
    split at this
    · cases this
    · rename_i m hm
      cases this
      unfold metricOf at hm
      split at hm
      · cases hm; rfl
      · split at hm
        · cases hm; rfl
        · cases hm
  have a := w16_well_formed L (dims oc.id) oc.coll k'.inv x embed (fun q => w oc L q h1 k'.lib) k (he oc h1) r h3.2
  obtain ⟨_, q, hq, b⟩ := w18_hits_live L (dims oc.id) oc.coll k'.inv x embed k (he oc h1) r h3.2
  refine ⟨oc, L, q, h1, k'.lib, hq, a.1, a.2.1, a.2.2.2.2, a.2.2.1, ?_, fun hit hh => ?_⟩
  · have := a.2.2.2.1
    unfold Le at this
    rw [hlt] at this
    exact this
  · obtain ⟨y, v, g1, g2, g3, g4, g5⟩ := b hit hh
    refine ⟨v, g5, (reads_iff h1 k'.lib).mpr ?_⟩
    rw [g1]
    obtain ⟨yi, yp, yv⟩ := y
    dsimp only at g2 g3 g4
    subst g2 g3 g4
    rfl

/-- C16, C17, C18 in a database: a search on any collection, at any moment of the database's life, returns at most `k` (and at most `ef`)
hits with different ids, sorted by distance, each one an object that `Get` returns with the same properties, at its true distance from
the query vector; the distance function is the one the collection was created with. -/
theorem C18_database (js : Json V) (o : FloatOps) (hj : JsonOK js) (interrupted : Prop) (dims : Nat → Nat) (h : List (DbEv V))
    (db db' : Db) (hr : DbLife js o interrupted dims {} h db) (n : String) (x : Object V) (embed : Embed V) (k : Int)
    (w : ∀ oc L q, db.get n = .ok oc → oc.config.lib js o = some L → queryVector embed x = some q → Ranks L oc.coll q)
    (he : ∀ oc, db.get n = .ok oc → EmbedOK oc.coll embed (dims oc.id) [x]) (r : SearchResult V F32)
    (hs : DbStep js o db (.on n (.search x embed k)) (.called (.found (.ok r))) db') :
    ∃ oc L q, db.get n = .ok oc ∧ oc.config.lib js o = some L ∧ queryVector embed x = some q ∧
      (r.objects.length : Int) ≤ k ∧ r.objects.length ≤ oc.coll.index.cfg.ef ∧ r.hits = r.objects.length ∧
      (r.objects.map Hit.id).Nodup ∧ r.objects.Pairwise (fun a b => o.lt b.dist a.dist = false) ∧
      ∀ hit ∈ r.objects, ∃ v, L.metric.dist v q = .ok hit.dist ∧
        db.Reads js o n hit.id [{ id := hit.id, props := hit.props, vec := some v }] :=
  search_good (good_life hj (dbGood_init True js o interrupted dims) hr).1 n x embed k w he r hs

/-! ## C34: restarts -/

/-- two states of a collection that no call can tell apart: the same distance function, the same objects, size and searches. -/
structure SameColl (js : Json V) (o : FloatOps) (oc oc' : OpenColl) (L : Lib V F32) : Prop where
  lib : oc.config.lib js o = some L
  lib' : oc'.config.lib js o = some L
  id : oc'.id = oc.id
  reads : ∀ ids, oc'.coll.get L ids = oc.coll.get L ids
  size : oc'.coll.getSize = oc.coll.getSize
  search : ∀ x embed k, oc'.coll.semanticSearch L x embed k = oc.coll.semanticSearch L x embed k

/-- opening a collection's files again. -/
theorem same_open {js : Json V} {o : FloatOps} {W : Prop} {dims : Nat → Nat} {db db1 db' : Db} (g : DbGood True js o W dims db)
    (hrows : db1.rows = db.rows) (hre : db1.reopen = .ok db') {n : String} {oc : OpenColl} (hg : db.colls.get? n = some oc)
    (hfile : (db1.contents n).getD {} = oc.coll.disk) (hb : oc.coll.index.wal.batch = []) :
    ∃ oc' L, db'.get n = .ok oc' ∧ oc'.coll.closed = false ∧ oc'.coll.index.cfg = oc.coll.index.cfg ∧
      (oc.coll.closed = false → SameColl js o oc oc' L) := by
  obtain ⟨h1, h2, h3, _⟩ := reopen_spec_db hre
  rw [hrows] at h1
  obtain ⟨r, hrow, rfl, L, k⟩ := g.held n oc hg
  obtain ⟨c, hc, hget⟩ := (initColls_spec _ _ _ _ h1 g.inv.nd).2 r hrow
  rw [hfile] at hc
  have hopen := (k.opened hc).1
  obtain ⟨f, _, hre2, _⟩ := coll_reopen_exact k.inv hb (fun _ => False)
  have hre3 : oc.coll.reopen = .ok { c with mappings := oc.coll.mappings, hasEmbedder := oc.coll.hasEmbedder } := hopen
  rw [hre3] at hre2
  have e := Except.ok.inj hre2
  have he : c.hasEmbedder = oc.coll.hasEmbedder := by rw [← k.emb]; exact (newCollection_ok hc).2.2.1
  have hcc := (newCollection_ok hc).2.2.2.1
  refine ⟨⟨r.id, r.config, c⟩, L, by unfold Db.get; rw [h3, hget]; rfl, hcc, by dsimp only; rw [openColl_cfg hopen], fun ho => ?_⟩
  have hcl : c.closed = oc.coll.closed := by rw [ho]; exact hcc
  have hst : c.stores = oc.coll.stores := by have := congrArg Coll.stores e; exact this
  have hix : c.index = (reopened oc.coll f).index := by have := congrArg Coll.index e; exact this
  refine ⟨k.lib, k.rlib, k.id, ?_, ?_, ?_⟩
  · intro ids; unfold Coll.get; dsimp only; rw [hst, hcl]
  · unfold Coll.getSize; dsimp only; rw [hst, hcl]
  · intro x embed kk
    unfold Coll.semanticSearch embedObjectsIfNeeded
    dsimp only
    rw [hst, hcl, hix, he]
    rfl

/-- C34 in a database: a restart with nothing waiting for a flush keeps every collection: the same objects are read, `GetSize` is the
same, and every search that was possible before gives the same answer (collections that were closed are open again). -/
theorem C34_database (js : Json V) (o : FloatOps) (hj : JsonOK js) (dims : Nat → Nat) (h : List (DbEv V)) (db db' : Db)
    (hr : DbLife js o False dims {} h db) (hb : db.flushed)
    (hre : DbStep js o db .restart (.done none) db') (n : String) (oc : OpenColl) (hg : db.colls.get? n = some oc)
    (ho : oc.coll.closed = false) : ∃ oc' L, db'.get n = .ok oc' ∧ SameColl js o oc oc' L := by
  have g := (good_life hj (dbGood_init True js o False dims) hr).1
  cases hre with
  | restart hre =>
    obtain ⟨oc', L, h1, _, _, h2⟩ := same_open g rfl hre hg (contents_open hg) (hb n oc hg)
    exact ⟨oc', L, h1, h2 ho⟩

end Vectory
