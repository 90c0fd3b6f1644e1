import Verif.Lemmas.Crash
import Verif.Lemmas.CollMore
import Verif.Spec.Demo
/-! # Objects: C01, C02, C03, C06, C07, C09, C34 -/
namespace Vectory
variable {V D : Type}

/-! ## C01 -/

/-- C01: decoding what was encoded gives the same bit patterns, for every vector of fewer than `2^32` components. -/
theorem C01_vector_codec (v : Vec) (h : v.length < 4294967296) : deserializeVector (serializeVector v) = .ok v :=
  deserialize_serializeVector v h

/-- C01: whatever the store contained, a vector that was put is read back bit for bit. -/
theorem C01_vector_store (js : Json V) (s s' : Stores) (o : Object V) (v : Vec) (hv : o.vec = some v)
    (h : v.length < 4294967296) (hp : putObject js s o .none = (s', none)) : getVector s' o.id = .ok (some v) := by
  unfold putObject at hp
  cases hs : serializeProperties js o with
  | error e => rw [hs] at hp; cases hp
  | ok b =>
    rw [hs, hv] at hp
    simp only [reduceCtorEq, if_false, Option.getD_some] at hp
    cases hp
    unfold getVector
    simp [AMap.get?_set_self, C01_vector_codec v h]

-- a NaN, a negative zero and an infinity
example : ([0x7fc00001, 0x80000000, 0x7f800000] : Vec).length < 4294967296 ∧
    (putObject demoJson {} { id := 3, props := [], vec := some [0x7fc00001, 0x80000000, 0x7f800000] } .none).2 = none := by
  decide

/-! ## C02 -/

/-- C02, single insert: after `Insert(o)` returned no error and whatever followed - calls, crashes inside calls, reopens - other than a delete of that id,
`Get([id])` returns exactly one object: that id, the vector the caller's object has after the call (the caller's own one if
there was one), and the properties as JSON reads them again. -/
theorem C02_insert_readable (L : Lib V D) (dim : Nat) (c c1 c2 : Coll) (o o1 : Object V) (embed : Embed V) (env : InsEnv)
    (ff : Bool) (hr : ReachAny L dim c) (hl : Legal dim c (.insert o embed env ff))
    (h1 : c.insert L o embed env ff = .ok (c1, o1, none)) (later : List (Ev V D)) (h2 : EventRuns L dim c1 later c2)
    (hd : ∀ e ∈ later, ¬ e.touches o1.id) (ho : c2.closed = false) :
    (∃ text props, L.json.marshal o.props = some text ∧ L.json.unmarshal text = some props ∧
      c2.get L [o1.id] = .ok [{ id := o1.id, props := props, vec := some (o1.vec.getD []) }]) ∧
    (∀ v, o.vec = some v → o1.vec = some v) := by
  have i := hr.weak.1
  obtain ⟨i1, _⟩ := insert_inv i hl h1 (fun _ => False)
  have d1 := apply_dinv i hr.weak.2 (op := .insert o embed env ff) (out := .inserted o1 none) (c' := c1) hl (by simp [Coll.apply, h1, liftPanic])
  have hst : Stored L c1 o1 ∧ o1.props = o.props ∧ (∀ v, o.vec = some v → o1.vec = some v) := by
    obtain ⟨⟨r, hr, hd⟩, hlev, hcnt⟩ := hl
    generalize he : (none : Option Err) = e at h1
    cases insert_res h1 with
    | closed => cases he
    | invalid => cases he
    | embed => cases he
    | storage => cases he
    | done o2 _ c3 _ _ hem hin =>
      have hk := embed_keep hem 0 o o2 rfl rfl
      rw [hr] at hem; cases hem
      obtain ⟨c4, o3, e2, h2, i2, f2⟩ := insertOne_spec i (env := env) (hd [o2] rfl o2 (by simp)) hlev hcnt
      rw [hin] at h2; cases h2
      exact ⟨(f2.stored).evo i2 (flush_evo L c3 ff (fun _ => False)) (by simp), f2.props.trans hk.1,
        fun v hv => by rw [f2.vec]; exact hk.2.2 v hv⟩
  refine ⟨?_, hst.2.2⟩
  have ev := events_evoS i1 d1 h2 (T := fun x => x = o1.id → False) (fun p hp x hx he => by subst he; exact hd p hp hx)
  obtain ⟨b, p, s1, s2, s3⟩ := hst.1.evoS i1 ev (by simp)
  exact ⟨b, p, by rw [← hst.2.1]; exact s1, s2, (get_single_some ho).mpr s3⟩

/-- C02, batches: after `InsertBatch(os)` (workers one after the other; `C14` treats every schedule) returned no error and
whatever calls followed, other than a delete of the id, every object of the batch is read back. -/
theorem C02_batch_readable (L : Lib V D) (dim : Nat) (c c1 c2 : Coll) (os os1 : List (Object V)) (embed : Embed V)
    (envs : Nat → InsEnv) (ff : Bool) (hr : ReachAny L dim c) (hl : Legal dim c (.insertBatch os embed envs ff))
    (h1 : c.insertBatch L os embed envs ff = .ok (c1, os1, none)) (later : List (Ev V D))
    (h2 : EventRuns L dim c1 later c2) (n : Nat) (o o1 : Object V) (hn : os[n]? = some o) (hn1 : os1[n]? = some o1)
    (hd : ∀ e ∈ later, ¬ e.touches o1.id) (ho : c2.closed = false) :
    (∃ text props, L.json.marshal o.props = some text ∧ L.json.unmarshal text = some props ∧
      c2.get L [o1.id] = .ok [{ id := o1.id, props := props, vec := some (o1.vec.getD []) }]) ∧
    (∀ v, o.vec = some v → o1.vec = some v) := by
  have i := hr.weak.1
  obtain ⟨i1, _⟩ := batch_inv i hl h1 (fun _ => False)
  have d1 := apply_dinv i hr.weak.2 (op := .insertBatch os embed envs ff) (out := .insertedBatch os1 none) (c' := c1) hl (by simp [Coll.apply, h1, liftPanic])
  have hst : Stored L c1 o1 ∧ o1.props = o.props ∧ (∀ v, o.vec = some v → o1.vec = some v) := by
    obtain ⟨⟨r, hr, hd⟩, hlev, hcnt⟩ := hl
    generalize he : (none : Option Err) = e at h1
    cases batch_res h1 with
    | closed => cases he
    | invalid => cases he
    | embed => cases he
    | storage => cases he
    | done os2 _ c3 _ _ hem hin =>
      have hlen := embed_length hem
      have hk := embed_keep hem n o
      rw [hr] at hem; cases hem
      obtain ⟨hz1, hz2⟩ := zipIdx_dim (envs := envs) (hd os2 rfl) hlev
      obtain ⟨r1, _, r3, _⟩ := insertAll_done _ c c3 os1 i hz1 hz2 (by simp; omega) hin
      obtain ⟨c4, os4, e4, h4, i4, _⟩ := insertAll_spec (fun _ => False) _ c i hz1 hz2 (by simp; omega)
      rw [hin] at h4; cases h4
      have hm : os1.map (fun o => (o.props, o.vec)) = os2.map (fun o => (o.props, o.vec)) := by
        rw [r3, List.map_map]
        show os2.zipIdx.map ((fun o : Object V => (o.props, o.vec)) ∘ Prod.fst) = _
        rw [← List.map_map, List.zipIdx_map_fst]
      have hnm := congrArg (fun l => l[n]?) hm
      simp only [List.getElem?_map, hn1, Option.map_some] at hnm
      cases h2n : os2[n]? with
      | none => rw [h2n] at hnm; cases hnm
      | some o2 =>
        rw [h2n] at hnm
        simp only [Option.map_some, Option.some.injEq, Prod.mk.injEq] at hnm
        obtain ⟨k1, _, k3⟩ := hk o2 hn h2n
        refine ⟨(r1 o1 (List.mem_of_getElem? hn1)).evo i4 (flush_evo L c3 ff (fun _ => False)) (by simp), hnm.1.trans k1, ?_⟩
        intro v hv; rw [hnm.2]; exact k3 v hv
  refine ⟨?_, hst.2.2⟩
  have ev := events_evoS i1 d1 h2 (T := fun x => x = o1.id → False) (fun p hp x hx he => by subst he; exact hd p hp hx)
  obtain ⟨b, p, s1, s2, s3⟩ := hst.1.evoS i1 ev (by simp)
  exact ⟨b, p, by rw [← hst.2.1]; exact s1, s2, (get_single_some ho).mpr s3⟩

/-- three inserts before, an insert, then a delete of another id, a clean close, a reopen and another insert. -/
def c02Before : List (Op UInt8) := [demoInsert 1, demoInsert 5 1, demoInsert 3]
def c02Later : List (Op UInt8) := [.delete 1 false false, .close false, .reopen, demoInsert 9]

/-- ... and then a crash inside another insert and a crash inside a delete of another id. -/
example : ∃ c1 o1 c4 later, Legal 1 (demoState demoCfg c02Before) (demoInsert 8) ∧
    (demoState demoCfg c02Before).insert demoLib (demoObj 8) noEmbed {} false = .ok (c1, o1, none) ∧
    EventRuns demoLib 1 c1 later c4 ∧ later.length = 6 ∧ (∀ e ∈ later, ¬ e.touches o1.id) ∧ c4.closed = false ∧ o1.id = 3 := by
  have h1 : ∃ c1 o1, (demoState demoCfg c02Before).insert demoLib (demoObj 8) noEmbed {} false = .ok (c1, o1, none) ∧
      o1.id = 3 ∧ ∃ c2 later, playLegal demoLib 1 c1 c02Later = some (c2, later) ∧ later.map Prod.fst = c02Later ∧
      c2.closed = false ∧ c2.counter.closed = false ∧ c2.counter.count.toNat = 5 ∧
      ∃ d c3, c2.crashInsert demoLib (demoObj 4) 0 .object = .ok d ∧ openColl c2.index.cfg c2.mappings c2.hasEmbedder d = .ok c3 ∧
      c3.closed = false ∧ (∃ x, c3.get demoLib [2] = .ok [x]) ∧
      ∃ c4, openColl c3.index.cfg c3.mappings c3.hasEmbedder (c3.crashDelete 2 .erased) = .ok c4 ∧ c4.closed = false :=
    ⟨_, _, rfl, rfl, _, _, rfl, rfl, rfl, rfl, rfl, _, _, rfl, rfl, rfl, ⟨_, rfl⟩, _, rfl, rfl⟩
  obtain ⟨c1, o1, h1, hid, c2, later, h2, h3, h4, h5, h6, d, c3, h7, h8, h9, h10, c4, h11, h12⟩ := h1
  have l1 : (Ev.crashInsert [] (demoObj 4) 0 .object : Ev UInt8 Nat).Legal demoLib 1 c2 :=
    ⟨h4, h5, by simp, rfl, by decide, rfl, by rw [h6]; decide, trivial⟩
  have l2 : (Ev.crashDelete 2 .erased : Ev UInt8 Nat).Legal demoLib 1 c3 := ⟨h9, h10⟩
  refine ⟨c1, o1, c4, later.map (fun p => Ev.call p.1 p.2) ++ [.crashInsert [] (demoObj 4) 0 .object, .crashDelete 2 .erased],
    legalB_sound (by decide), h1, (playLegal_runs _ _ _ _ h2).events.append
      (.cons l1 (.crashInsert (os := []) (c1 := c2) rfl h7 h8)
        (.cons l2 (.crashDelete h11) (.nil _))), ?_, ?_, h12, hid⟩
  · have := congrArg List.length h3
    simp [c02Later] at this
    simp [this]
  · intro e he
    rw [hid]
    rcases List.mem_append.mp he with he | he
    · obtain ⟨p, hp, rfl⟩ := List.mem_map.mp he
      have : p.1 ∈ c02Later := by rw [← h3]; exact List.mem_map_of_mem hp
      simp only [c02Later, List.mem_cons, List.not_mem_nil, or_false] at this
      rcases this with h | h | h | h <;> simp [Ev.touches, h, Op.touches, demoInsert]
    · simp only [List.mem_cons, List.not_mem_nil, or_false] at he
      rcases he with rfl | rfl <;> simp [Ev.touches]

/-! ## C03 -/

theorem w03_get_filters (L : Lib V D) (dim : Nat) (c : Coll) {S : Prop} {X : UInt64 → Prop} (i : WInv S L dim X c) (ho : c.closed = false) :
    ∃ m : UInt64 → Option (Object V), (∀ id o, m id = some o → o.id = id) ∧
      (∀ id, c.get L [id] = .ok (m id).toList) ∧ ∀ ids, c.get L ids = .ok (ids.filterMap m) := by
  refine ⟨fun id => match getObject L.json c.stores id with | .ok r => r | .error _ => none, ?_, ?_, ?_⟩
  · intro id o h
    obtain ⟨r, hr, _, h3⟩ := getObject_eq i id
    simp only [hr] at h
    exact (h3 o h).1
  · intro id
    obtain ⟨r, hr, _⟩ := getObject_eq i id
    rw [get_single L c ho]
    simp only [hr]
    cases r <;> rfl
  · intro ids
    unfold Coll.get
    rw [ho]
    simp only [Bool.false_eq_true, if_false]
    induction ids with
    | nil => rfl
    | cons id ids ih =>
      obtain ⟨r, hr, _⟩ := getObject_eq i id
      unfold getObjects
      rw [hr, ih]
      rw [List.filterMap_cons, hr]
      cases r <;> rfl


/-- C03: in every reachable open collection there is a partial map from ids to objects (with that id) such that `Get` of one
id looks it up and `Get` of a list is the list of what the map has for the ids, in order, with repetitions, never an error. -/
theorem C03_get_filters (L : Lib V D) (dim : Nat) (c : Coll) (hr : ReachAny L dim c) (ho : c.closed = false) :
    ∃ m : UInt64 → Option (Object V), (∀ id o, m id = some o → o.id = id) ∧
      (∀ id, c.get L [id] = .ok (m id).toList) ∧ ∀ ids, c.get L ids = .ok (ids.filterMap m) :=
  w03_get_filters L dim c hr.weak.1 ho

example : Reach demoLib 1 (demoState demoCfg c02Before) ∧ (demoState demoCfg c02Before).closed = false ∧
    ((demoState demoCfg c02Before).get demoLib [2, 99, 0, 2]).toOption.map (List.map Object.id) = some [2, 0, 2] :=
  ⟨demo_reach _, by decide, by decide⟩

/-! ## C06 -/

/-- C06: once `Delete(id)` of an id that some caller had received returned without an error, `Get` never returns an object
for that id and no search lists it, whatever follows: calls, crashes inside calls, reopens. -/
theorem C06_deleted_stays_deleted (L : Lib V D) (dim : Nat) (cfg : Cfg) (ms : List String) (he : Bool)
    (hs : Setup L dim cfg) (h : List (Ev V D)) (c c1 c2 : Coll) (hr : EventRuns L dim (Coll.new cfg ms he) h c)
    (id : UInt64) (hid : id ∈ h.flatMap Ev.received) (df ff : Bool) (hdel : c.delete L id df ff = .ok (c1, none))
    (later : List (Ev V D)) (h2 : EventRuns L dim c1 later c2) :
    (c2.closed = false → c2.get L [id] = .ok []) ∧
    ∀ q embed k r, c2.semanticSearch L q embed k = .ok r → ∀ hit ∈ r.objects, hit.id ≠ id := by
  have i0 := new_inv (S := True) (X := fun _ => True) L dim cfg ms he hs.json hs.metric hs.dim32 hs.cfg
  obtain ⟨i, dv⟩ := eventRuns_weak i0 (DInv.synced i0.idx rfl) hr
  have hused := (eventRuns_ids hr i0.file_le).2.2 id hid
  have d1 := apply_dinv i dv (op := .delete id df ff) (out := .deleted none) (c' := c1) trivial (by simp [Coll.apply, hdel, liftPanic])
  obtain ⟨c1', e, h3, hres⟩ := delete_res i id df ff
  rw [hdel] at h3; cases h3
  obtain ⟨i1, ev1⟩ := delete_inv i hres
  have hnone : getObject L.json c1.stores id = .ok none := by
    generalize hee : (none : Option Err) = e at hres
    cases hres with
    | closed => cases hee
    | absent h => exact h
    | failed => cases hee
    | done o hc hg _ => exact getObject_delete_self L.json c.stores id
  have ev := events_evoS i1 d1 h2 (T := fun _ => True) (fun _ _ _ _ => trivial)
  have hn2 := ev.gone id (Nat.lt_of_lt_of_le hused ev1.file) hnone
  refine ⟨fun ho => (get_single_none ho).mpr hn2, ?_⟩
  intro q embed k r hsr hit hh he
  obtain ⟨x, hx⟩ := semanticSearch_stored hsr hit hh
  rw [he, hn2] at hx
  cases hx

/-- the restriction to ids that were handed out is needed: an id that is deleted before it exists is handed out later. -/
theorem C06_future_id_not_reserved : ∃ c1 c2 : Coll, ∃ o : Object UInt8,
    (Coll.new demoCfg ["a"] false).delete demoLib 0 false false = .ok (c1, none) ∧
    c1.insert demoLib (demoObj 1) noEmbed {} false = .ok (c2, o, none) ∧ (c2.get demoLib [0]).toOption.map List.length = some 1 :=
  ⟨_, _, _, rfl, rfl, by decide⟩

example : ∃ h c c1 c2 later, EventRuns demoLib 1 (Coll.new demoCfg ["a"] false) h c ∧ 1 ∈ h.flatMap Ev.received ∧
    c.delete demoLib 1 false false = .ok (c1, none) ∧ EventRuns demoLib 1 c1 later c2 ∧ later.length = 4 ∧ c2.closed = false := by
  have h1 : ∃ c h, playLegal demoLib 1 (Coll.new demoCfg ["a"] false) c02Before = some (c, h) ∧ h.flatMap received = [0, 1, 2] ∧
      ∃ c1, c.delete demoLib 1 false false = .ok (c1, none) ∧
      ∃ c2 later, playLegal demoLib 1 c1 c02Later = some (c2, later) ∧ later.length = 4 ∧ c2.closed = false :=
    ⟨_, _, rfl, rfl, _, rfl, _, _, rfl, rfl, rfl⟩
  obtain ⟨c, h, h1, h2, c1, h3, c2, later, h4, h5, h6⟩ := h1
  refine ⟨_, c, c1, c2, _, (playLegal_runs _ _ _ _ h1).events, ?_, h3, (playLegal_runs _ _ _ _ h4).events, by simpa using h5, h6⟩
  rw [List.flatMap_map]
  show 1 ∈ h.flatMap received
  rw [h2]; decide

/-! ## C07 -/

theorem w07_delete_frame (L : Lib V D) (dim : Nat) (c : Coll) {S : Prop} {X : UInt64 → Prop} (i : WInv S L dim X c) (id : UInt64) (df ff : Bool) :
    ∃ c1 e, c.delete L id df ff = .ok (c1, e) ∧ (∀ x, x ≠ id → c1.get L [x] = c.get L [x]) ∧
      c1.index.nodes = c.index.nodes ∧ c1.index.entry = c.index.entry ∧ c1.index.maxLayer = c.index.maxLayer ∧
      (∀ x, x ≠ id → (x ∈ c1.index.deleted ↔ x ∈ c.index.deleted)) := by
  obtain ⟨c1, e, h, hres⟩ := delete_res i id df ff
  refine ⟨c1, e, h, ?_⟩
  cases hres with
  | closed => exact ⟨fun _ _ => rfl, rfl, rfl, rfl, fun _ _ => Iff.rfl⟩
  | absent => exact ⟨fun _ _ => rfl, rfl, rfl, rfl, fun _ _ => Iff.rfl⟩
  | failed => exact ⟨fun _ _ => rfl, rfl, rfl, rfl, fun _ _ => Iff.rfl⟩
  | done o hc hg _ =>
    refine ⟨?_, rfl, rfl, rfl, ?_⟩
    · intro x hx
      rw [get_single L c hc, get_single L _ (by exact hc)]
      have : getObject L.json (Coll.flush { c with stores := deleteObject c.stores id, index := c.index.delete id } ff).1.stores x =
          getObject L.json c.stores x := getObject_delete_ne _ _ _ _ hx
      rw [this]
    · intro x hx
      show x ∈ (c.index.delete id).deleted ↔ _
      rw [delete_deleted]
      constructor
      · rintro (h | h)
        · exact absurd h hx
        · exact h
      · exact Or.inr


/-- C07: `Delete(id)` always returns; every other object reads the same; the indexed vectors and their links are the same,
and no other id changes its deleted mark. -/
theorem C07_delete_frame (L : Lib V D) (dim : Nat) (c : Coll) (hr : ReachAny L dim c) (id : UInt64) (df ff : Bool) :
    ∃ c1 e, c.delete L id df ff = .ok (c1, e) ∧ (∀ x, x ≠ id → c1.get L [x] = c.get L [x]) ∧
      c1.index.nodes = c.index.nodes ∧ c1.index.entry = c.index.entry ∧ c1.index.maxLayer = c.index.maxLayer ∧
      (∀ x, x ≠ id → (x ∈ c1.index.deleted ↔ x ∈ c.index.deleted)) :=
  w07_delete_frame L dim c hr.weak.1 id df ff

/-- C07: deleting an id for which `Get` finds nothing changes nothing and reports no error. -/
theorem C07_delete_unknown (L : Lib V D) (dim : Nat) (c : Coll) (hr : ReachAny L dim c) (ho : c.closed = false) (id : UInt64)
    (df ff : Bool) (hn : c.get L [id] = .ok []) : c.delete L id df ff = .ok (c, none) := by
  have hn := (get_single_none ho).mp hn
  unfold Coll.delete
  rw [ho, hn]
  rfl

theorem w07_delete_twice (L : Lib V D) (dim : Nat) (c c1 : Coll) {S : Prop} {X : UInt64 → Prop} (i : WInv S L dim X c) (ho : c.closed = false) (id : UInt64)
    (df ff df' ff' : Bool) (h : c.delete L id df ff = .ok (c1, none)) : c1.delete L id df' ff' = .ok (c1, none) := by
  obtain ⟨c1', e, h3, hres⟩ := delete_res i id df ff
  rw [h] at h3; cases h3
  have hh : getObject L.json c1.stores id = .ok none ∧ c1.closed = false := by
    generalize hee : (none : Option Err) = e at hres
    cases hres with
    | closed => cases hee
    | absent hn => exact ⟨hn, ho⟩
    | failed => cases hee
    | done o hc hg _ => exact ⟨getObject_delete_self L.json c.stores id, hc⟩
  unfold Coll.delete
  rw [hh.2, hh.1]
  rfl


/-- C07: deleting the same id a second time changes nothing and reports no error. -/
theorem C07_delete_twice (L : Lib V D) (dim : Nat) (c c1 : Coll) (hr : ReachAny L dim c) (ho : c.closed = false) (id : UInt64)
    (df ff df' ff' : Bool) (h : c.delete L id df ff = .ok (c1, none)) : c1.delete L id df' ff' = .ok (c1, none) :=
  w07_delete_twice L dim c c1 hr.weak.1 ho id df ff df' ff' h

theorem w07_delete_search (L : Lib V D) (dim : Nat) (c c1 : Coll) {S : Prop} (i : WInv S L dim (fun _ => False) c) (ho : c.closed = false) (id : UInt64)
    (h : c.delete L id false false = .ok (c1, none)) (q q1 : Object V) (embed : Embed V)
    (he : embedObjectsIfNeeded c embed [q] = .ok (.ok [q1])) (hd : (q1.vec.getD []).length = dim)
    (hne : c.index.nodes ≠ []) (k : Int) (hk : c.index.cfg.ef ≤ k) :
    ∃ r r1, c.semanticSearch L q embed k = .ok r ∧ c1.semanticSearch L q embed k = .ok r1 ∧
      r1.objects = r.objects.filter (fun hit => decide (hit.id ≠ id)) := by
  obtain ⟨c1', e, h3, hres⟩ := delete_res i id false false
  rw [h] at h3; cases h3
  obtain ⟨i1, ev1⟩ := delete_inv i hres
  have hk0 : 0 ≤ k := by omega
  obtain ⟨es, r, s1, s2, s3, s4, s5, s6⟩ := coll_search i ho hne he hd hk0
  have hr_eq := hits_eq (L := L) (c := c) es r.objects s4 s5 (fun h hh => by obtain ⟨x, v, a, _, b, _⟩ := s6 h hh; exact ⟨x, a, b⟩)
  generalize hee : (none : Option Err) = e at hres
  cases hres with
  | closed => cases hee
  | failed => cases hee
  | absent hn =>
    refine ⟨r, r, s2, s2, ?_⟩
    symm
    rw [List.filter_eq_self]
    intro hit hh
    obtain ⟨x, _, hx, _⟩ := s6 hit hh
    simp only [ne_eq, decide_eq_true_eq]
    intro heq
    rw [heq, hn] at hx
    cases hx
  | done o hc hg _ =>
    have he1 : embedObjectsIfNeeded (Coll.flush { c with stores := deleteObject c.stores id, index := c.index.delete id } false).1
        embed [q] = .ok (.ok [q1]) := he
    obtain ⟨es1, r1, t1, t2, t3, t4, t5, t6⟩ := coll_search i1 (by exact hc) (by exact hne) he1 hd hk0
    have hr1_eq := hits_eq (L := L) es1 r1.objects t4 t5 (fun h hh => by obtain ⟨x, v, a, _, b, _⟩ := t6 h hh; exact ⟨x, a, b⟩)
    refine ⟨r, r1, s2, t2, ?_⟩
    obtain ⟨es2, u1, u2⟩ := search_filter i.dimM (h1 := c.index.delete id) i.idx i.cfg i.vecs hne hd hk id rfl rfl rfl rfl
      (fun x => delete_deleted _ _ _)
    rw [s1] at u1; cases u1
    have t1' : (c.index.delete id).search L.metric (q1.vec.getD []) k = .ok es1 := t1
    rw [u2] at t1'; cases t1'
    rw [hr_eq, hr1_eq, List.filter_map]
    have : ((fun hit : Hit V D => decide (hit.id ≠ id)) ∘ fun e : Elem D =>
        ({ id := e.id, props := storedProps L c e.id, dist := e.dist } : Hit V D)) = fun e => decide (e.id ≠ id) := rfl
    rw [this]
    apply List.map_congr_left
    intro e hee
    have hne : e.id ≠ id := by simpa using (List.mem_filter.mp hee).2
    have hsp : storedProps L (Coll.flush { c with stores := deleteObject c.stores id, index := c.index.delete id } false).1 e.id =
        storedProps L c e.id := by
      unfold storedProps
      have : getObject L.json (Coll.flush { c with stores := deleteObject c.stores id, index := c.index.delete id } false).1.stores e.id =
          getObject L.json c.stores e.id := getObject_delete_ne _ _ _ _ hne
      rw [this]
    rw [hsp]


/-- C07, seen by searches: when the search asks for everything the index considers (`k ≥ ef`), the answer after the delete
is the answer before it without the deleted object. -/
theorem C07_delete_search (L : Lib V D) (dim : Nat) (c c1 : Coll) (hr : Reach L dim c) (ho : c.closed = false) (id : UInt64)
    (h : c.delete L id false false = .ok (c1, none)) (q q1 : Object V) (embed : Embed V)
    (he : embedObjectsIfNeeded c embed [q] = .ok (.ok [q1])) (hd : (q1.vec.getD []).length = dim)
    (hne : c.index.nodes ≠ []) (k : Int) (hk : c.index.cfg.ef ≤ k) :
    ∃ r r1, c.semanticSearch L q embed k = .ok r ∧ c1.semanticSearch L q embed k = .ok r1 ∧
      r1.objects = r.objects.filter (fun hit => decide (hit.id ≠ id)) :=
  w07_delete_search L dim c c1 hr.inv ho id h q q1 embed he hd hne k hk

-- deleting the nearest of three objects: the other two hits stay
example : ∃ c1, (demoState demoCfg c02Before).delete demoLib 0 false false = .ok (c1, none) ∧
    embedObjectsIfNeeded (demoState demoCfg c02Before) noEmbed [demoObj 2] = .ok (.ok [demoObj 2]) ∧
    (demoState demoCfg c02Before).index.nodes ≠ [] ∧
    (((demoState demoCfg c02Before).semanticSearch demoLib (demoObj 2) noEmbed 4).toOption.map
      (fun r => r.objects.map Hit.id)) = some [0, 2, 1] ∧
    ((c1.semanticSearch demoLib (demoObj 2) noEmbed 4).toOption.map (fun r => r.objects.map Hit.id)) = some [2, 1] ∧
    c1.delete demoLib 0 false false = .ok (c1, none) ∧ c1.get demoLib [0] = .ok [] ∧
    c1.get demoLib [1] = (demoState demoCfg c02Before).get demoLib [1] :=
  ⟨_, rfl, rfl, by decide, by decide, by decide, rfl, rfl, rfl⟩

/-! ## C09 -/

/-- C09: a call of `Insert`, whatever it returns, leaves every object that could be read before as it is. -/
theorem C09_insert_frame (L : Lib V D) (dim : Nat) (c c1 : Coll) (o o1 x : Object V) (embed : Embed V) (env : InsEnv)
    (ff : Bool) (e : Option Err) (hr : ReachAny L dim c) (hl : Legal dim c (.insert o embed env ff))
    (h1 : c.insert L o embed env ff = .ok (c1, o1, e)) (id : UInt64) (hx : c.get L [id] = .ok [x]) :
    c1.get L [id] = .ok [x] := by
  have i := hr.weak.1
  have ho : c.closed = false := by
    cases h : c.closed with
    | false => rfl
    | true => unfold Coll.get at hx; rw [h] at hx; cases hx
  have hx' := (get_single_some ho).mp hx
  obtain ⟨i1, ev⟩ := insert_inv i hl h1 (fun _ => False)
  have ho1 : c1.closed = false := by rw [insert_closed i hl h1]; exact ho
  exact (get_single_some ho1).mpr (by rw [ev.keep id (getObject_used i hx') (by simp)]; exact hx')

/-- C09: so does `InsertBatch`, also when it stops in the middle. -/
theorem C09_batch_frame (L : Lib V D) (dim : Nat) (c c1 : Coll) (os os1 : List (Object V)) (x : Object V) (embed : Embed V)
    (envs : Nat → InsEnv) (ff : Bool) (e : Option Err) (hr : ReachAny L dim c) (hl : Legal dim c (.insertBatch os embed envs ff))
    (h1 : c.insertBatch L os embed envs ff = .ok (c1, os1, e)) (id : UInt64) (hx : c.get L [id] = .ok [x]) :
    c1.get L [id] = .ok [x] := by
  have i := hr.weak.1
  have ho : c.closed = false := by
    cases h : c.closed with
    | false => rfl
    | true => unfold Coll.get at hx; rw [h] at hx; cases hx
  have hx' := (get_single_some ho).mp hx
  obtain ⟨i1, ev⟩ := batch_inv i hl h1 (fun _ => False)
  have ho1 : c1.closed = false := by rw [batch_closed i hl h1]; exact ho
  exact (get_single_some ho1).mpr (by rw [ev.keep id (getObject_used i hx') (by simp)]; exact hx')

-- a batch of three whose second object cannot be stored; object 1 from before stays
example : ∃ c1 os1 x, Legal 1 (demoState demoCfg c02Before)
      (.insertBatch [demoObj 6, demoObj 7, demoObj 8] noEmbed (fun n => { put := if n = 1 then .vectors else .none }) false) ∧
    (demoState demoCfg c02Before).insertBatch demoLib [demoObj 6, demoObj 7, demoObj 8] noEmbed
      (fun n => { put := if n = 1 then .vectors else .none }) false = .ok (c1, os1, some .io) ∧
    (demoState demoCfg c02Before).get demoLib [1] = .ok [x] ∧ c1.get demoLib [1] = .ok [x] := by
  refine ⟨_, _, _, ⟨⟨_, rfl, ?_⟩, fun _ => by show 0 < _; decide, by decide⟩, rfl, rfl, rfl⟩
  intro os h o ho
  cases h
  simp only [List.mem_cons, List.not_mem_nil, or_false] at ho
  rcases ho with rfl | rfl | rfl <;> rfl

end Vectory
