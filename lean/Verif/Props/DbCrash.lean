import Verif.Props.DbLife
/-!
# C67, C68: processes that stop inside CreateCollection or DeleteCollection

`DbEv.crashCreate cfg p`: the process stops at point `p` of `CreateCollection(cfg)` and the database is opened again; likewise
`DbEv.crashDrop`. The events are also part of the histories of C65, C66, C04 and C18 (`Props/DbLife.lean`).
-/
namespace Vectory
variable {V : Type}

theorem reopen_has {db db' : Db} (h : db.reopen = .ok db') (n : String) : db'.colls.has n = true ↔ n ∈ db.rows.map Row.name := by
  obtain ⟨h1, _⟩ := reopen_spec_db h
  rw [initColls_has _ _ _ _ h1 n]
  simp [AMap.has]

theorem has_eq {α β : Type} {m : AMap String α} {m' : AMap String β} {n : String} (h : m.has n = true ↔ m'.has n = true) : m.has n = m'.has n := by
  cases h1 : m.has n <;> cases h2 : m'.has n <;> simp_all

theorem new_get (L : Lib V F32) (m : Cfg) (ms : List String) (he : Bool) (ids : List UInt64) : (Coll.new m ms he).get L ids = .ok [] := by
  have : ∀ ids, getObjects L.json (Coll.new m ms he).stores ids = .ok [] := by
    intro ids
    induction ids with
    | nil => rfl
    | cons id ids ih =>
      unfold getObjects
      rw [ih]
      rfl
  exact this ids

/-- a database opened again: every collection that was there before is there, and no call can tell it from before. -/
def SameElse (js : Json V) (o : FloatOps) (db db' : Db) (n0 : String) : Prop :=
  ∀ n, n ≠ n0 → db'.colls.has n = db.colls.has n ∧
    ∀ oc, db.colls.get? n = some oc → oc.coll.closed = false → ∃ oc' L, db'.get n = .ok oc' ∧ SameColl js o oc oc' L

/-- **C67.** In every database reached by legal calls and restarts (and crashes inside CreateCollection or DeleteCollection), when the
process stops at any point of CreateCollection with nothing waiting for a flush: the database opens again, every other collection is
exactly as before, and the collection itself is either as before — absent, or still there if the name was taken — or present, empty,
with the configured index parameters and distance function. -/
theorem C67_create_atomic (js : Json V) (o : FloatOps) (hj : JsonOK js) (dims : Nat → Nat) (h : List (DbEv V)) (db : Db)
    (hr : DbLife js o False dims {} h db) (cfg : Config) (p : CreateCrash)
    (hl : (DbEv.crashCreate cfg p : DbEv V).Legal js o False dims db) :
    ∃ db', (DbEv.crashCreate cfg p).Step js o db db' ∧ (∀ db2, (DbEv.crashCreate cfg p).Step js o db db2 → db2 = db') ∧
      db'.closed = false ∧ SameElse js o db db' cfg.name ∧
      ((db'.colls.has cfg.name = db.colls.has cfg.name ∧
          ∀ oc, db.colls.get? cfg.name = some oc → oc.coll.closed = false → ∃ oc' L, db'.get cfg.name = .ok oc' ∧ SameColl js o oc oc' L) ∨
        (db.colls.has cfg.name = false ∧ Documented cfg ∧ ∃ oc' L, db'.get cfg.name = .ok oc' ∧ oc'.config.lib js o = some L ∧
          cfg.lib js o = some L ∧ oc'.coll.index.cfg = cfg.cfg ∧ oc'.coll.getSize = .ok 0 ∧ ∀ ids, oc'.coll.get L ids = .ok [])) := by
  have g := (good_life hj (dbGood_init True js o False dims) hr).1
  obtain ⟨hf, hl, hcl⟩ := hl
  have hf : db.flushed := hf.elim False.elim (fun h => h)
  have uniq : ∀ db', (db.crashCreate cfg p).reopen = .ok db' → ∀ db2, (DbEv.crashCreate cfg p : DbEv V).Step js o db db2 → db2 = db' := by
    intro db' h1 db2 h2
    cases h2 with
    | crashCreate h2 => rw [h1] at h2; exact (Except.ok.inj h2).symm
  rcases crashCreate_cases g (p := p) hl hcl with ⟨e, _⟩ | ⟨_, hc, hd, hn, dbc, m, ms, he, hcr, hrows, hcolls, _, hnew, hold⟩
  · obtain ⟨db', hre⟩ := restart_total (db1 := db) g rfl (fun n oc hoc => contents_open hoc) hf
    rw [← e] at hre
    refine ⟨db', .crashCreate hre, uniq db' hre, ?_, ?_⟩
    · exact (reopen_spec_db hre).2.2.1
    rw [e] at hre
    have sm : ∀ n, db'.colls.has n = db.colls.has n ∧
        ∀ oc, db.colls.get? n = some oc → oc.coll.closed = false → ∃ oc' L, db'.get n = .ok oc' ∧ SameColl js o oc oc' L := by
      intro n
      refine ⟨has_eq ((reopen_has hre n).trans (g.inv.rows n)), fun oc hoc ho => ?_⟩
      obtain ⟨oc', L, h1, _, _, h2⟩ := same_open g rfl hre hoc (contents_open hoc) (hf n oc hoc)
      exact ⟨oc', L, h1, h2 ho⟩
    exact ⟨fun n _ => sm n, Or.inl (sm _)⟩
  · have gc := (good_call hj g hl hcl (.create hcr)).1
    have hfile : ∀ n oc, dbc.colls.get? n = some oc → ((db.crashCreate cfg p).contents n).getD {} = oc.coll.disk ∧ oc.coll.index.wal.batch = [] := by
      intro n oc hoc
      rw [hcolls] at hoc
      by_cases hnn : n = cfg.name
      · subst hnn
        rw [AMap.get?_set_self] at hoc; cases hoc
        exact ⟨hnew, rfl⟩
      · rw [AMap.get?_set_ne _ _ _ _ (Ne.symm hnn)] at hoc
        rw [hold n hnn, contents_open hoc]
        exact ⟨rfl, hf n oc hoc⟩
    obtain ⟨db', hre⟩ := restart_total gc hrows (fun n oc hoc => (hfile n oc hoc).1) (fun n oc hoc => (hfile n oc hoc).2)
    refine ⟨db', .crashCreate hre, uniq db' hre, (reopen_spec_db hre).2.2.1, fun n hne => ⟨?_, fun oc hoc ho => ?_⟩, Or.inr ⟨hn, hd, ?_⟩⟩
    · have h1 : db'.colls.has n = true ↔ dbc.colls.has n = true := (reopen_has hre n).trans (by rw [hrows]; exact gc.inv.rows n)
      rw [has_eq h1, hcolls]
      unfold AMap.has
      rw [AMap.get?_set_ne _ _ _ _ (Ne.symm hne)]
    · have hoc' : dbc.colls.get? n = some oc := by rw [hcolls, AMap.get?_set_ne _ _ _ _ (Ne.symm hne)]; exact hoc
      obtain ⟨oc', L, h1, _, _, h2⟩ := same_open gc hrows hre hoc' (hfile n oc hoc').1 (hfile n oc hoc').2
      exact ⟨oc', L, h1, h2 ho⟩
    · have hoc' : dbc.colls.get? cfg.name = some ⟨db.nextId, cfg, Coll.new m ms he⟩ := by rw [hcolls, AMap.get?_set_self]
      obtain ⟨oc', L, h1, _, h3, h2⟩ := same_open gc hrows hre hoc' (hfile _ _ hoc').1 (hfile _ _ hoc').2
      have s := h2 rfl
      refine ⟨oc', L, h1, s.lib', s.lib, ?_, by rw [s.size]; rfl, fun ids => by rw [s.reads]; exact new_get L m ms he ids⟩
      rw [h3]
      obtain ⟨hh, ec, em, hec, hem⟩ := hcl.2.2 hd
      obtain ⟨ip, params, q, hip, hvp, hdec, hcr2⟩ := create_fresh g.inv (hl hd).2 hc hd hh hec hem hn
      rw [hcr] at hcr2
      have e1 := congrArg (fun (r : Db × Option Err) => r.1.colls.get? cfg.name) (Except.ok.inj hcr2)
      dsimp only at e1
      rw [hoc', AMap.get?_set_self] at e1
      have e2 : Coll.new m ms he = Coll.new q.toCfg cfg.mappings cfg.hasEmbedder := congrArg OpenColl.coll (Option.some.inj e1)
      dsimp only
      rw [e2]
      show q.toCfg = cfg.cfg
      unfold Config.cfg; rw [hip, Option.bind_some, hdec]; rfl

/-- a flushed database is one where each collection's log batch is empty, checked. -/
def flushedB (db : Db) : Bool := db.colls.all (fun x => x.2.coll.index.wal.batch.isEmpty)

theorem flushedB_sound {db : Db} (h : flushedB db = true) : db.flushed := fun n oc hoc =>
  List.isEmpty_iff.mp (List.all_eq_true.mp h (n, oc) (mem_of_get hoc))

/-- the hypotheses of `C67_create_atomic` are met by a database with two collections and an object, at every crash point, and
interrupted after the row was saved the new collection is there. -/
example : ∃ db hs, DbLife demoJson intOps False (fun _ => 1) {} hs db ∧
    (∀ p, (DbEv.crashCreate (demoConfig "c") p : DbEv UInt8).Legal demoJson intOps False (fun _ => 1) db) ∧
    (match (db.crashCreate (demoConfig "c") .saved).reopen with
      | .ok db' => db'.colls.has "c" && db'.colls.has "a" && db'.colls.has "b" &&
          (db'.colls.get? "a").any (fun (oc : OpenColl) => decide (List.length oc.coll.stores.objects = 1))
      | .error _ => false) = true := by
  obtain ⟨db, hs, h1, h2, _⟩ := life_of (js := demoJson) (o := intOps) (dims := fun _ => 1) (db := {}) (ops := beforeOps) False
    (fun (db : Db) _ => flushedB db && dbLegalB (fun _ => 1) db (.create (demoConfig "c") {} : DbOp UInt8) &&
      cleanB ((DbOp.create (demoConfig "c") {} : DbOp UInt8), .done none) &&
      (match (db.crashCreate (demoConfig "c") .saved).reopen with
        | .ok db' => db'.colls.has "c" && db'.colls.has "a" && db'.colls.has "b" &&
            (db'.colls.get? "a").any (fun (oc : OpenColl) => decide (List.length oc.coll.stores.objects = 1))
        | .error _ => false)) (by decide +kernel)
  obtain ⟨h2, h3⟩ := Bool.and_eq_true_iff.mp h2
  obtain ⟨h2, h4⟩ := Bool.and_eq_true_iff.mp h2
  obtain ⟨h2, h5⟩ := Bool.and_eq_true_iff.mp h2
  exact ⟨db, hs, h1, fun p => ⟨Or.inr (flushedB_sound h2), dbLegalB_sound h5, cleanB_sound h4⟩, h3⟩

/-- **C68, the part that holds.** In every database reached by legal calls and restarts, when the process stops at any point of
DeleteCollection — also in the middle of removing its files — with nothing waiting for a flush: the database opens again, every other
collection is exactly as before, and the collection itself is either exactly as before or gone. Excluded: that a collection created later
with the same name is new (`C68_resurrects`). -/
theorem C68_drop_atomic (js : Json V) (o : FloatOps) (hj : JsonOK js) (dims : Nat → Nat) (h : List (DbEv V)) (db : Db)
    (hr : DbLife js o False dims {} h db) (name : String) (p : DropCrash) (hl : (DbEv.crashDrop name p : DbEv V).Legal js o False dims db) :
    ∃ db', (DbEv.crashDrop name p).Step js o db db' ∧ (∀ db2, (DbEv.crashDrop name p).Step js o db db2 → db2 = db') ∧
      db'.closed = false ∧ SameElse js o db db' name ∧
      ((db'.colls.has name = db.colls.has name ∧
          ∀ oc, db.colls.get? name = some oc → oc.coll.closed = false → ∃ oc' L, db'.get name = .ok oc' ∧ SameColl js o oc oc' L) ∨
        db'.get name = .error (.validationFailed "collection does not exist")) := by
  have g := (good_life hj (dbGood_init True js o False dims) hr).1
  have hf : db.flushed := (show False ∨ db.flushed from hl).elim False.elim (fun h => h)
  have uniq : ∀ db', (db.crashDrop name p).reopen = .ok db' → ∀ db2, (DbEv.crashDrop name p : DbEv V).Step js o db db2 → db2 = db' := by
    intro db' h1 db2 h2
    cases h2 with
    | crashDrop h2 => rw [h1] at h2; exact (Except.ok.inj h2).symm
  rcases crashDrop_cases g name p with ⟨e, _⟩ | ⟨hp, hc, hhas, _, hrows, hcolls, _, hold⟩
  · obtain ⟨db', hre⟩ := restart_total (db1 := db) g rfl (fun n oc hoc => contents_open hoc) hf
    rw [← e] at hre
    refine ⟨db', .crashDrop hre, uniq db' hre, (reopen_spec_db hre).2.2.1, ?_⟩
    rw [e] at hre
    have sm : ∀ n, db'.colls.has n = db.colls.has n ∧
        ∀ oc, db.colls.get? n = some oc → oc.coll.closed = false → ∃ oc' L, db'.get n = .ok oc' ∧ SameColl js o oc oc' L := by
      intro n
      refine ⟨has_eq ((reopen_has hre n).trans (g.inv.rows n)), fun oc hoc ho => ?_⟩
      obtain ⟨oc', L, h1, _, _, h2⟩ := same_open g rfl hre hoc (contents_open hoc) (hf n oc hoc)
      exact ⟨oc', L, h1, h2 ho⟩
    exact ⟨fun n _ => sm n, Or.inl (sm _)⟩
  · have gc := (good_call (V := V) hj g (op := .delete name false false) (out := .done (db.delete name false false).2) trivial ⟨rfl, rfl⟩ .delete).1
    have hfile : ∀ n oc, (db.delete name false false).1.colls.get? n = some oc →
        ((db.crashDrop name p).contents n).getD {} = oc.coll.disk ∧ oc.coll.index.wal.batch = [] := by
      intro n oc hoc
      rw [hcolls] at hoc
      by_cases hnn : n = name
      · subst hnn; rw [AMap.get?_erase_self] at hoc; cases hoc
      · rw [AMap.get?_erase_ne _ _ _ (Ne.symm hnn)] at hoc
        rw [hold n hnn, contents_open hoc]
        exact ⟨rfl, hf n oc hoc⟩
    obtain ⟨db', hre⟩ := restart_total gc hrows (fun n oc hoc => (hfile n oc hoc).1) (fun n oc hoc => (hfile n oc hoc).2)
    have hh : ∀ n, db'.colls.has n = (db.delete name false false).1.colls.has n :=
      fun n => has_eq ((reopen_has hre n).trans (by rw [hrows]; exact gc.inv.rows n))
    refine ⟨db', .crashDrop hre, uniq db' hre, (reopen_spec_db hre).2.2.1, fun n hne => ⟨?_, fun oc hoc ho => ?_⟩, Or.inr ?_⟩
    · rw [hh n, hcolls]
      unfold AMap.has
      rw [AMap.get?_erase_ne _ _ _ (Ne.symm hne)]
    · have hoc' : (db.delete name false false).1.colls.get? n = some oc := by
        rw [hcolls, AMap.get?_erase_ne _ _ _ (Ne.symm hne)]; exact hoc
      obtain ⟨oc', L, h1, _, _, h2⟩ := same_open gc hrows hre hoc' (hfile n oc hoc').1 (hfile n oc hoc').2
      exact ⟨oc', L, h1, h2 ho⟩
    · have h1 := hh name
      rw [hcolls] at h1
      have h2 : db'.colls.get? name = none := by
        unfold AMap.has at h1
        rw [AMap.get?_erase_self] at h1
        simpa using h1
      unfold Db.get
      rw [(reopen_spec_db hre).2.2.1, h2]; rfl

/-- is this event a call of CreateCollection for the name `n`, complete or interrupted? -/
def DbEv.makes (n : String) : DbEv V → Prop
  | .call (.create cfg _) _ => cfg.name = n
  | .crashCreate cfg _ => cfg.name = n
  | _ => False

theorem has_false_of_rows {js : Json V} {o : FloatOps} {S W : Prop} {dims : Nat → Nat} {db db' : Db} {n : String}
    (g : DbGood S js o W dims db) (g' : DbGood S js o W dims db') (h : n ∈ db'.rows.map Row.name → n ∈ db.rows.map Row.name)
    (hn : db.colls.has n = false) : db'.colls.has n = false := by
  cases hb : db'.colls.has n with
  | false => rfl
  | true =>
    have := (g.inv.rows n).mp (h ((g'.inv.rows n).mpr hb))
    rw [hn] at this; cases this

theorem rows_create {js : Json V} {o : FloatOps} {S W : Prop} {dims : Nat → Nat} {db : Db} {cfg : Config} {p : CreateCrash} {n : String}
    (g : DbGood S js o W dims db) (hl : (DbOp.create cfg {} : DbOp V).Legal W dims db)
    (hcl : CleanOp ((DbOp.create cfg {} : DbOp V), .done none)) (hm : cfg.name ≠ n)
    (h : n ∈ (db.crashCreate cfg p).rows.map Row.name) : n ∈ db.rows.map Row.name := by
  rcases crashCreate_cases g (p := p) hl hcl with ⟨e, _⟩ | ⟨_, hc, hd, hn, dbc, m, ms, he, hcr, hrows, _⟩
  · rw [e] at h; exact h
  · rw [hrows] at h
    obtain ⟨hh, ec, em, hec, hem⟩ := hcl.2.2 hd
    obtain ⟨ip, params, p, hip, hvp, hdec, hcr2⟩ := create_fresh g.inv (hl hd).2 hc hd hh hec hem hn
    rw [hcr] at hcr2; cases hcr2
    simp only [List.map_append, List.map_cons, List.map_nil, List.mem_append, List.mem_singleton] at h
    exact h.resolve_right (fun h => hm h.symm)

theorem rows_drop {db : Db} {name : String} {p : DropCrash} {n : String} (h : n ∈ (db.crashDrop name p).rows.map Row.name) :
    n ∈ db.rows.map Row.name := by
  unfold Db.crashDrop at h
  split at h
  · exact h
  · split at h
    · exact h
    · dsimp only at h
      obtain ⟨r, hr, hrn⟩ := List.mem_map.mp h
      exact List.mem_map.mpr ⟨r, (List.mem_filter.mp hr).1, hrn⟩

theorem rows_step {js : Json V} {o : FloatOps} {S W : Prop} {dims : Nat → Nat} {db db' : Db} {e : DbEv V} {n : String}
    (g : DbGood S js o W dims db) (hl : e.Legal js o W dims db) (hs : e.Step js o db db') (hm : ¬ e.makes n)
    (h : n ∈ db'.rows.map Row.name) : n ∈ db.rows.map Row.name := by
  cases hs with
  | call hs =>
    cases hs with
    | @create _ cfg env e h1 =>
      rcases create_rejected h1 with ⟨rfl, _⟩ | ⟨hc, hd, hn⟩
      · exact h
      · obtain ⟨he, _, hacc⟩ := hl.2
        subst he
        obtain ⟨hh, ec, em, hec, hem⟩ := hacc hd
        obtain ⟨ip, params, p, hip, hvp, hdec, hcr⟩ := create_fresh g.inv (hl.1 hd).2 hc hd hh hec hem hn
        rw [h1] at hcr; cases hcr
        simp only [List.map_append, List.map_cons, List.map_nil, List.mem_append, List.mem_singleton] at h
        exact h.resolve_right (fun h => hm h.symm)
    | get => exact h
    | @delete name ef rf =>
      unfold Db.delete at h
      repeat' split at h
      all_goals first
        | exact h
        | (dsimp only at h
           obtain ⟨r, hr, hrn⟩ := List.mem_map.mp h
           exact List.mem_map.mpr ⟨r, (List.mem_filter.mp hr).1, hrn⟩)
    | on => exact h
    | onMissing => exact h
    | @close mf sf => rw [close_rows] at h; exact h
    | restart hre => rw [(reopen_spec_db hre).2.1] at h; exact h
  | crashInsert _ _ _ _ hre => rw [(reopen_spec_db hre).2.1] at h; exact h
  | crashDelete _ hre => rw [(reopen_spec_db hre).2.1] at h; exact h
  | @crashCreate cfg p _ hre =>
    rw [(reopen_spec_db hre).2.1] at h
    exact rows_create g hl.2.1 hl.2.2 hm h
  | @crashDrop name p _ hre =>
    rw [(reopen_spec_db hre).2.1] at h
    exact rows_drop h

/-- C68: a collection that is gone — after a completed or an interrupted DeleteCollection — stays gone through every later call, restart
and crash until CreateCollection is called with its name. -/
theorem C68_stays_gone (js : Json V) (o : FloatOps) (hj : JsonOK js) (interrupted : Prop) (dims : Nat → Nat) (h : List (DbEv V)) (db : Db)
    (hr : DbLife js o interrupted dims {} h db) (n : String) (hn : db.colls.has n = false) (later : List (DbEv V)) (db2 : Db)
    (hr2 : DbLife js o interrupted dims db later db2) (hm : ∀ e ∈ later, ¬ e.makes n) :
    db2.colls.has n = false ∧ ∀ oc, db2.get n ≠ .ok oc := by
  have g := (good_life hj (dbGood_init True js o interrupted dims) hr).1
  clear hr
  have key : db2.colls.has n = false := by
    induction hr2 with
    | nil => exact hn
    | @cons db db1 db2 e t hl hs _ ih =>
      have g1 := (good_step hj g hl hs).1
      exact ih (has_false_of_rows g g1 (rows_step g hl hs (hm e (by simp))) hn) (fun e' he' => hm e' (by simp [he'])) g1
  refine ⟨key, fun oc hoc => ?_⟩
  rw [has_of_get (get_ok hoc).2] at key; cases key

/-- **C68 fails when the name is used again**: the process stops in DeleteCollection after the collection's row is deleted and before its
files are; the database opens, without the collection. CreateCollection for the same name then returns the "exists" error — and yet,
after the next restart, the collection is there, with every object of the deleted one. -/
theorem C68_resurrects (js : Json V) (o : FloatOps) (hj : JsonOK js) (dims : Nat → Nat) (h : List (DbEv V)) (db : Db)
    (hr : DbLife js o False dims {} h db) (ho : db.closed = false) (hf : db.flushed) (name : String) (oc : OpenColl) (hoc : db.get name = .ok oc)
    (hopen : oc.coll.closed = false) (cfg : Config) (hname : cfg.name = name) (hd : Documented cfg)
    (hcl : CleanOp ((DbOp.create cfg {} : DbOp V), .done none)) :
    ∃ db1 db2, (DbEv.crashDrop name (.row (some oc.coll.disk)) : DbEv V).Step js o db db1 ∧
      db1.get name = .error (.validationFailed "collection does not exist") ∧
      db1.create cfg {} = .ok (db2, some .dirExists) ∧
      ∀ db3, db2.reopen = .ok db3 → ∃ oc', db3.get name = .ok oc' ∧ ∀ (L : Lib V F32) ids, oc'.coll.get L ids = oc.coll.get L ids := by
  subst hname
  have g := (good_life hj (dbGood_init True js o False dims) hr).1
  have hhas := has_of_get (get_ok hoc).2
  obtain ⟨db1, hstep, _, hc1, _, hor⟩ := C68_drop_atomic js o hj dims h db hr cfg.name (.row (some oc.coll.disk)) (Or.inr hf)
  have hl : (DbEv.crashDrop cfg.name (.row (some oc.coll.disk)) : DbEv V).Legal js o False dims db := Or.inr hf
  have g1 := (good_step hj g hl hstep).1
  cases hstep with
  | crashDrop hre =>
    have e : db.crashDrop cfg.name (.row (some oc.coll.disk)) = { db with
        rows := db.rows.filter (fun r => decide (r.name ≠ cfg.name)), colls := db.colls.erase cfg.name,
        dirs := db.dirs.set cfg.name oc.coll.disk } := by
      unfold Db.crashDrop; rw [ho, hhas]; rfl
    rw [e] at hre
    obtain ⟨h1, h2, h3, h4, h5, h6⟩ := reopen_spec_db hre
    dsimp only at h2 h5 h6
    have hrow : cfg.name ∉ db1.rows.map Row.name := by
      rw [h2]
      intro hin
      obtain ⟨r, hr, hrn⟩ := List.mem_map.mp hin
      have := (List.mem_filter.mp hr).2
      simp [hrn] at this
    have hno : db1.colls.has cfg.name = false := by
      cases hb : db1.colls.has cfg.name with
      | false => rfl
      | true => exact absurd ((g1.inv.rows _).mpr hb) hrow
    have hget : db1.get cfg.name = .error (.validationFailed "collection does not exist") := by
      have : db1.colls.get? cfg.name = none := by simpa [AMap.has] using hno
      unfold Db.get; rw [hc1, this]; rfl
    have hfold : ∀ (l : AMap String OpenColl) (d : AMap String Disk), (∀ x ∈ l, x.1 ≠ cfg.name) →
        AMap.get? (l.foldl (fun d x => AMap.set d x.1 x.2.coll.disk) d) cfg.name = d.get? cfg.name := by
      intro l
      induction l with
      | nil => intro d _; rfl
      | cons x l ih =>
        intro d hx
        rw [List.foldl_cons, ih _ (fun y hy => hx y (by simp [hy])), AMap.get?_set_ne _ _ _ _ (hx x (by simp))]
    have htouch : ∀ (f : String → Option Disk) (l : List Row) (d : AMap String Disk), cfg.name ∉ l.map Row.name →
        AMap.get? (touchDirs f l d) cfg.name = d.get? cfg.name := by
      intro f l
      induction l with
      | nil => intro d _; rfl
      | cons r l ih =>
        intro d hx
        simp only [List.map_cons, List.mem_cons, not_or] at hx
        unfold touchDirs
        rw [ih _ hx.2, AMap.get?_set_ne _ _ _ _ (Ne.symm hx.1)]
    have hdir : db1.dirs.get? cfg.name = some oc.coll.disk := by
      rw [h6, htouch _ _ _ (by rw [← h2]; exact hrow), hfold, AMap.get?_set_self]
      intro x hx hxn
      have : (db.colls.erase cfg.name).get? cfg.name ≠ none := by
        intro hnone
        exact (AMap.get?_none_iff _ _).mp hnone (List.mem_map.mpr ⟨x, hx, hxn⟩)
      exact this (AMap.get?_erase_self _ _)
    have hdirh : db1.dirs.has cfg.name = true := has_of_get hdir
    obtain ⟨_, _, hacc⟩ := hcl
    obtain ⟨hh, ec, em, hec, hem⟩ := hacc hd
    obtain ⟨_, ⟨_, j, q, hj2, hdec, hq1, _⟩ | hbad, _⟩ := id hd
    · obtain ⟨kvs, rfl⟩ := decode_obj hdec hq1
      have hany : db1.rows.any (fun r => decide (r.name = cfg.name)) = false := by
        cases hb : db1.rows.any (fun r => decide (r.name = cfg.name)) with
        | false => rfl
        | true => exact absurd ((hasRow_iff db1 cfg.name).mp hb) hrow
      obtain ⟨params, hvp⟩ : ∃ params, viaMap (.obj kvs) = some params := ⟨_, rfl⟩
      have hmeta : db1.metaCreate cfg {} = ({ db1 with
          rows := db1.rows ++ [Row.mk db1.nextId cfg.name cfg.indexType cfg.dataType cfg.embedderType params em cfg.mappings],
          nextId := db1.nextId + 1 }, .error .dirExists) := by
        unfold Db.metaCreate
        rw [hj2]; dsimp only
        rw [hvp]; dsimp only
        rw [hec]; dsimp only
        rw [hem]; dsimp only
        rw [h4, hany, hdirh]
        simp
      have hcr := create_reduce {} hc1 hd hno
      rw [hmeta] at hcr
      refine ⟨db1, _, .crashDrop (by rw [e]; exact hre), hget, hcr, fun db3 hre3 => ?_⟩
      obtain ⟨k1, _, k3, _⟩ := reopen_spec_db hre3
      obtain ⟨c, hc, hget3⟩ := (initColls_spec _ _ _ _ k1 (by
        dsimp only
        rw [List.map_append]
        refine List.nodup_append.mpr ⟨g1.inv.nd, by simp, fun a ha b hb => ?_⟩
        simp only [List.map_cons, List.map_nil, List.mem_singleton] at hb
        subst hb
        exact fun hab => hrow (hab ▸ ha))).2 _ (List.mem_append_right _ (List.mem_singleton.mpr rfl))
      have hcont : Db.contents { db1 with
          rows := db1.rows ++ [Row.mk db1.nextId cfg.name cfg.indexType cfg.dataType cfg.embedderType params em cfg.mappings],
          nextId := db1.nextId + 1 } cfg.name = some oc.coll.disk := by
        have : db1.colls.get? cfg.name = none := by simpa [AMap.has] using hno
        unfold Db.contents
        dsimp only
        rw [this]; exact hdir
      dsimp only at hc hget3
      rw [hcont] at hc
      obtain ⟨n1, _, _, n2, _⟩ := newCollection_ok hc
      refine ⟨_, by unfold Db.get; rw [k3, hget3]; rfl, fun L ids => ?_⟩
      unfold Coll.get
      dsimp only
      rw [n1, n2, hopen]
      rfl
    · rw [hh] at hbad; exact absurd hbad (by decide)

/-- the hypotheses of `C68_drop_atomic` and `C68_resurrects` are met, and the deleted collection comes back with its object. -/
theorem C68_resurrects_witness : ∃ db hs, DbLife demoJson intOps False (fun _ => 1) {} hs db ∧ db.flushed ∧ db.closed = false ∧
    ∃ oc, db.get "a" = .ok oc ∧ oc.coll.closed = false ∧ Documented (demoConfig "a") ∧
      CleanOp ((DbOp.create (demoConfig "a") {} : DbOp UInt8), .done none) ∧
      ∃ db1 db2 db3 oc3, (DbEv.crashDrop "a" (.row (some oc.coll.disk)) : DbEv UInt8).Step demoJson intOps db db1 ∧
        db1.create (demoConfig "a") {} = .ok (db2, some .dirExists) ∧ db2.reopen = .ok db3 ∧ db3.get "a" = .ok oc3 ∧
        oc3.coll.getSize = .ok 1 := by
  obtain ⟨db, hs, h1, h2, _⟩ := life_of (js := demoJson) (o := intOps) (dims := fun _ => 1) (db := {}) (ops := beforeOps) False
    (fun (db : Db) _ => flushedB db && !db.closed && cleanB ((DbOp.create (demoConfig "a") {} : DbOp UInt8), .done none) &&
      (match db.get "a" with
        | .ok oc => !oc.coll.closed &&
          (match (db.crashDrop "a" (.row (some oc.coll.disk))).reopen with
            | .ok db1 => (match db1.create (demoConfig "a") {} with
              | .ok (db2, some .dirExists) => (match db2.reopen with
                | .ok db3 => (match db3.get "a" with
                  | .ok oc3 => (match oc3.coll.getSize with | .ok n => decide (n = 1) | .error _ => false)
                  | .error _ => false)
                | .error _ => false)
              | _ => false)
            | .error _ => false)
        | .error _ => false)) (by decide +kernel)
  simp only [Bool.and_eq_true, Bool.not_eq_true'] at h2
  obtain ⟨⟨⟨h3, h4⟩, h5⟩, h6⟩ := h2
  have hd : Documented (demoConfig "a") := (validate_iff _).mp (by decide +kernel)
  split at h6
  · rename_i oc hoc
    simp only [Bool.and_eq_true, Bool.not_eq_true'] at h6
    obtain ⟨h7, h8⟩ := h6
    split at h8
    · rename_i db1 hdb1
      split at h8
      · rename_i db2 hdb2
        split at h8
        · rename_i db3 hdb3
          split at h8
          · rename_i oc3 hoc3
            split at h8
            · rename_i n hn
              refine ⟨db, hs, h1, flushedB_sound h3, h4, oc, hoc, h7, hd, cleanB_sound h5, db1, db2, db3, oc3, .crashDrop hdb1, hdb2, hdb3, hoc3, ?_⟩
              rw [hn, of_decide_eq_true h8]
            · cases h8
          · cases h8
        · cases h8
      · cases h8
    · cases h8
  · cases h6

end Vectory
