import Verif.Lemmas.DbConc
import Verif.Props.DbLife
import Verif.Props.DbCrash
/-!
# C84: a database whose batches are run by several workers

The life of a database (`DbLifeC`): everything of `DbLife`, batches run by several workers under any schedule without the race of C14,
and processes that stop while several collections are in the middle of a call each.
-/
namespace Vectory
open Conc
variable {V : Type}

/-- a read at two moments of such a life. -/
theorem readsC_keep {fixed : Bool} {js : Json V} {o : FloatOps} {W : Prop} {dims : Nat → Nat} (hj : JsonOK js) {db1 db2 : Db}
    {h : List (DbEvC V)} (g : DbGood False js o W dims db1) (hr : DbLifeC fixed js o W dims db1 h db2) {n : String}
    (hd : ∀ e ∈ h, ¬ e.drops n) {oc1 : OpenColl} {L : Lib V F32} (hg : db1.colls.get? n = some oc1) (hL : oc1.config.lib js o = some L)
    {T : UInt64 → Prop} (ht : ∀ e ∈ h, ∀ id, e.touches n id → T id) (ho : db2.closed = false) :
    ∃ oc2, db2.get n = .ok oc2 ∧ oc2.config.lib js o = some L ∧ Keeps L oc1.coll oc2.coll T := by
  obtain ⟨oc2, h1, _, h2, kp⟩ := (good_lifeC hj g hr).2 n hd T ht oc1 L hg hL
  exact ⟨oc2, by unfold Db.get; rw [ho, h1]; rfl, h2, kp⟩

theorem lib_json {cfg : Config} {js : Json V} {o : FloatOps} {L : Lib V F32} (h : cfg.lib js o = some L) : L.json = js := by
  unfold Config.lib at h
  split at h <;> cases h
  rfl

/-- an object that is stored now is read at every later moment. -/
theorem stored_later {fixed : Bool} {js : Json V} {o : FloatOps} {W : Prop} {dims : Nat → Nat} (hj : JsonOK js) {db1 db2 : Db}
    {h : List (DbEvC V)} (g : DbGood False js o W dims db1) (hr : DbLifeC fixed js o W dims db1 h db2) {n : String}
    {oc1 : OpenColl} {L : Lib V F32} (hg : db1.colls.get? n = some oc1) (hL : oc1.config.lib js o = some L) {x1 : Object V}
    (hst : Stored L oc1.coll x1) (hd : ∀ e ∈ h, ¬ e.drops n) (ht : ∀ e ∈ h, ¬ e.touches n x1.id) (ho : db2.closed = false)
    (hoc : ∀ oc, db2.get n = .ok oc → oc.coll.closed = false) :
    ∃ text props, js.marshal x1.props = some text ∧ js.unmarshal text = some props ∧
      db2.Reads js o n x1.id [{ id := x1.id, props := props, vec := some (x1.vec.getD []) }] := by
  obtain ⟨r, _, _, L', k⟩ := g.held n oc1 hg
  rw [k.lib] at hL; cases hL
  obtain ⟨oc2, hg2, hL2, kp⟩ := readsC_keep hj g hr hd hg k.lib (T := fun y => y ≠ x1.id) (fun e he id hid h => ht e he (h ▸ hid)) ho
  obtain ⟨b, p, s1, s2, s3⟩ := Stored.keeps k.inv hst kp (by simp)
  rw [lib_json k.lib] at s1 s2
  exact ⟨b, p, s1, s2, (reads_iff hg2 hL2).mpr ((get_single_some (hoc oc2 hg2)).mpr s3)⟩

/-- **C84, inserts.** Once `Insert` into a collection returned no error, the object is read back at every later moment of the life of the
database, until it or its collection is deleted — through concurrent batches on this and other collections and through stops of the
process at any moment of them. -/
theorem C84_insert_survives (fixed : Bool) (js : Json V) (o : FloatOps) (hj : JsonOK js) (interrupted : Prop) (dims : Nat → Nat)
    (before : List (DbEvC V)) (db db1 : Db) (hr : DbLifeC fixed js o interrupted dims {} before db) (n : String) (x x1 : Object V)
    (embed : Embed V) (env : InsEnv) (ff : Bool) (hl : (DbOp.on n (.insert x embed env ff)).Legal interrupted dims db)
    (hs : DbStep js o db (.on n (.insert x embed env ff)) (.called (.inserted x1 none)) db1)
    (later : List (DbEvC V)) (db2 : Db) (hr2 : DbLifeC fixed js o interrupted dims db1 later db2) (hd : ∀ e ∈ later, ¬ e.drops n)
    (ht : ∀ e ∈ later, ¬ e.touches n x1.id) (ho : db2.closed = false) (hoc : ∀ oc, db2.get n = .ok oc → oc.coll.closed = false) :
    (∃ text props, js.marshal x.props = some text ∧ js.unmarshal text = some props ∧
      db2.Reads js o n x1.id [{ id := x1.id, props := props, vec := some (x1.vec.getD []) }]) ∧
    (∀ v, x.vec = some v → x1.vec = some v) := by
  have g := (good_lifeC hj (dbGood_init False js o interrupted dims) hr).1
  have g1 := (good_step hj g (e := .call (.on n (.insert x embed env ff)) (.called (.inserted x1 none))) ⟨hl, trivial⟩ (.call hs)).1
  obtain ⟨oc, L, c1, hget, hL, happ, rfl, _⟩ := step_on hs
  obtain ⟨r, _, _, L', k⟩ := g.held n oc (get_ok hget).2
  rw [k.lib] at hL; cases hL
  have hleg := hl.2 oc hget
  have hins : oc.coll.insert L x embed env ff = .ok (c1, x1, none) := by
    simp only [Coll.apply] at happ
    obtain ⟨⟨a, b, c⟩, h1, h2⟩ := (bind_ok_iff _ _ _).mp happ
    cases h2
    cases hh : oc.coll.insert L x embed env ff with
    | error p => rw [hh] at h1; cases h1
    | ok r => rw [hh] at h1; cases h1; rfl
  obtain ⟨hst, hp, hv⟩ := insert_stored k.inv hleg hins
  refine ⟨?_, hv⟩
  rw [← hp]
  exact stored_later hj g1 hr2 (AMap.get?_set_self _ _ _) k.lib hst hd ht ho hoc

/-- **C84, batches.** Once `InsertBatch` (or `InsertBatch2`) run by any number of workers returned nil and its context was not cancelled,
every object of the batch is read back at every later moment of the life of the database, until it or its collection is deleted. -/
theorem C84_batch_survives (fixed : Bool) (js : Json V) (o : FloatOps) (hj : JsonOK js) (interrupted : Prop) (dims : Nat → Nat)
    (before : List (DbEvC V)) (db db1 : Db) (hr : DbLifeC fixed js o interrupted dims {} before db) (n : String) (os : List (Object V))
    (b : Batch V F32) (hs : (DbEvC.batch n os b).Step fixed js o interrupted dims db db1) (hret : b.returned none)
    (hcan : b.cancelled = false) (k : Nat) (x x1 : Object V) (hk : os[k]? = some x) (hk1 : b.objs[k]? = some x1)
    (later : List (DbEvC V)) (db2 : Db) (hr2 : DbLifeC fixed js o interrupted dims db1 later db2) (hd : ∀ e ∈ later, ¬ e.drops n)
    (ht : ∀ e ∈ later, ¬ e.touches n x1.id) (ho : db2.closed = false) (hoc : ∀ oc, db2.get n = .ok oc → oc.coll.closed = false) :
    (∃ text props, js.marshal x.props = some text ∧ js.unmarshal text = some props ∧
      db2.Reads js o n x1.id [{ id := x1.id, props := props, vec := some (x1.vec.getD []) }]) ∧
    (∀ v, x.vec = some v → x1.vec = some v) := by
  have g := (good_lifeC hj (dbGood_init False js o interrupted dims) hr).1
  have g1 := (good_stepC hj g hs).1
  cases hs with
  | @batch _ two workers _ embed acts _ oc L hget hLib hb hn _ hover =>
    obtain ⟨r, _, _, L', kk⟩ := g.held n oc (get_ok hget).2
    rw [kk.lib] at hLib; cases hLib
    have st := allStored_of kk.inv hb hcan (raceFree_noPanic kk.inv hb hn) hret
    obtain ⟨hp, hv⟩ := st.same k x x1 hk hk1
    obtain ⟨text, props, a1, a2, a3⟩ := st.read x1 (List.mem_of_getElem? hk1)
    have hcl : b.c.closed = false := by
      cases hc : b.c.closed with
      | false => rfl
      | true => unfold Coll.get at a3; rw [if_pos hc] at a3; cases a3
    refine ⟨?_, hv⟩
    rw [← hp]
    exact stored_later hj g1 hr2 (oc1 := { oc with coll := b.c }) (AMap.get?_set_self _ _ _) kk.lib
      ⟨text, props, a1, a2, (get_single_some hcl).mp a3⟩ hd ht ho hoc

/-- **C84, reads.** Whatever a collection answers for the id of a stored object, it answers at every later moment until that object or its
collection is deleted. -/
theorem C84_read_survives (fixed : Bool) (js : Json V) (o : FloatOps) (hj : JsonOK js) (interrupted : Prop) (dims : Nat → Nat)
    (before : List (DbEvC V)) (db : Db) (hr : DbLifeC fixed js o interrupted dims {} before db) (n : String) (id : UInt64) (x : Object V)
    (hx : db.Reads js o n id [x]) (later : List (DbEvC V)) (db2 : Db) (hr2 : DbLifeC fixed js o interrupted dims db later db2)
    (hd : ∀ e ∈ later, ¬ e.drops n) (ht : ∀ e ∈ later, ¬ e.touches n id) (ho : db2.closed = false)
    (hoc : ∀ oc, db2.get n = .ok oc → oc.coll.closed = false) : db2.Reads js o n id [x] := by
  have g := (good_lifeC hj (dbGood_init False js o interrupted dims) hr).1
  obtain ⟨oc, L, h1, h2, h3, h4⟩ := reads_open hx
  obtain ⟨r, _, _, L', k⟩ := g.held n oc (get_ok h1).2
  rw [k.lib] at h2; cases h2
  obtain ⟨oc2, hg2, hL2, kp⟩ := readsC_keep hj g hr2 hd (get_ok h1).2 k.lib (T := fun y => y ≠ id) (fun e he y hy h => ht e he (h ▸ hy)) ho
  have h5 := (get_single_some h3).mp h4
  refine (reads_iff hg2 hL2).mpr ((get_single_some (hoc oc2 hg2)).mpr ?_)
  rw [kp.keep id (getObject_used k.inv h5) (by simp), h5]

/-- **C84, deletions.** An object that was there and is gone stays gone until its collection is deleted. -/
theorem C84_gone_stays_gone (fixed : Bool) (js : Json V) (o : FloatOps) (hj : JsonOK js) (interrupted : Prop) (dims : Nat → Nat)
    (before : List (DbEvC V)) (db : Db) (hr : DbLifeC fixed js o interrupted dims {} before db) (n : String) (id : UInt64) (x : Object V)
    (hx : db.Reads js o n id [x]) (mid : List (DbEvC V)) (db1 : Db) (hr1 : DbLifeC fixed js o interrupted dims db mid db1)
    (hd1 : ∀ e ∈ mid, ¬ e.drops n) (hgone : db1.Reads js o n id []) (later : List (DbEvC V)) (db2 : Db)
    (hr2 : DbLifeC fixed js o interrupted dims db1 later db2) (hd : ∀ e ∈ later, ¬ e.drops n) (ho : db2.closed = false)
    (hoc : ∀ oc, db2.get n = .ok oc → oc.coll.closed = false) : db2.Reads js o n id [] := by
  have g := (good_lifeC hj (dbGood_init False js o interrupted dims) hr).1
  have g1 := (good_lifeC hj g hr1).1
  obtain ⟨oc, L, h1, h2, h3, h4⟩ := reads_open hx
  obtain ⟨r, _, _, L', k⟩ := g.held n oc (get_ok h1).2
  rw [k.lib] at h2; cases h2
  obtain ⟨oc1, L1, q1, q2, q3, q4⟩ := reads_open hgone
  obtain ⟨oc1', hg1, hL1, kp1⟩ := readsC_keep hj g hr1 hd1 (get_ok h1).2 k.lib (T := fun _ => True) (fun _ _ _ _ => trivial) (get_ok q1).1
  rw [q1] at hg1; cases hg1
  rw [q2] at hL1; cases hL1
  obtain ⟨oc2, hg2, hL2, kp2⟩ := readsC_keep hj g1 hr2 hd (get_ok q1).2 q2 (T := fun _ => True) (fun _ _ _ _ => trivial) ho
  have h5 := getObject_used k.inv ((get_single_some h3).mp h4)
  refine (reads_iff hg2 hL2).mpr ((get_single_none (hoc oc2 hg2)).mpr ?_)
  exact kp2.gone id (Nat.lt_of_lt_of_le h5 kp1.file) ((get_single_none q3).mp q4)

/-! ## Ids -/

/-- the ids that callers of collection `n` received in an event. -/
def DbEvC.received (n : String) : DbEvC V → List UInt64
  | .ev e => e.received n
  | .batch m os b => if m = n then b.received os else []
  | .crash _ _ => []

theorem received_step {js : Json V} {o : FloatOps} {S W : Prop} {dims : Nat → Nat} {db db1 : Db} {e : DbEv V} {n : String}
    {r : Row} {oc oc1 : OpenColl} {L : Lib V F32} (k : HeldBy S js o W dims r oc L) (hl : e.Legal js o W dims db) (hs : e.Step js o db db1)
    (hg : db.colls.get? n = some oc) (hg1 : db1.colls.get? n = some oc1) :
    (DbEv.received n e).Pairwise (fun a b => a.toNat < b.toNat) ∧
      ∀ x ∈ DbEv.received n e, fileCount oc.coll ≤ x.toNat ∧ x.toNat < fileCount oc1.coll := by
  cases hs with
  | @call op out _ hs =>
    cases op with
    | on m op =>
      cases out with
      | done e => simp [DbEv.received]
      | called out =>
        by_cases hm : m = n
        · subst hm
          obtain ⟨oc', L', c', h1, h2, h3, rfl, hre⟩ := step_on hs
          rw [(get_ok h1).2] at hg; cases hg
          rw [k.lib] at h2; cases h2
          rw [AMap.get?_set_self] at hg1; cases hg1
          have hleg := hl.1.2 oc h1
          have hlegal : (Ev.call op out : Ev V F32).Legal L (dims oc.id) oc.coll := by
            cases op <;> first | exact hleg | trivial
          have hb := legalEv_bound hlegal
          have s := event_ids (.call h3) hb.2 k.inv.file_le hb.1
          have e : DbEv.received m (.call (.on m op) (.called out)) = (Ev.call op out : Ev V F32).received := by
            simp [DbEv.received, Ev.received]
          rw [e]
          exact ⟨s.inc, fun x hx => s.fresh x hx⟩
        · simp [DbEv.received, hm]
    | _ => simp [DbEv.received]
  | crashInsert => simp [DbEv.received]
  | crashDelete => simp [DbEv.received]
  | crashCreate => simp [DbEv.received]
  | crashDrop => simp [DbEv.received]

/-- **C84, ids.** From the creation of a collection until its deletion no id is received twice by its callers, by batches run by several
workers or otherwise, across restarts and crashes. -/
theorem C84_ids (fixed : Bool) (js : Json V) (o : FloatOps) (hj : JsonOK js) (interrupted : Prop) (dims : Nat → Nat)
    (before : List (DbEvC V)) (db : Db) (hr : DbLifeC fixed js o interrupted dims {} before db) (n : String) (oc : OpenColl)
    (hg : db.colls.get? n = some oc) (later : List (DbEvC V)) (db2 : Db) (hr2 : DbLifeC fixed js o interrupted dims db later db2)
    (hd : ∀ e ∈ later, ¬ e.drops n) : (later.flatMap (DbEvC.received n)).Nodup := by
  have g := (good_lifeC hj (dbGood_init False js o interrupted dims) hr).1
  clear hr
  suffices H : ∀ oc, db.colls.get? n = some oc → (later.flatMap (DbEvC.received n)).Nodup ∧
      ∀ x ∈ later.flatMap (DbEvC.received n), fileCount oc.coll ≤ x.toNat from (H oc hg).1
  clear hg oc
  induction hr2 with
  | nil => intro oc _; simp
  | @cons db db1 db2 e t hs _ ih =>
    intro oc hg
    obtain ⟨r, _, _, L, k⟩ := g.held n oc hg
    obtain ⟨g1, sv⟩ := good_stepC hj g hs
    obtain ⟨oc1, hg1, _, hL1, kp⟩ := sv n (hd e (by simp)) oc L hg k.lib
    obtain ⟨p1, p2⟩ := ih (fun e' he' => hd e' (by simp [he'])) g1 oc1 hg1
    have key : (DbEvC.received n e).Nodup ∧ ∀ x ∈ DbEvC.received n e, fileCount oc.coll ≤ x.toNat ∧ x.toNat < fileCount oc1.coll := by
      cases hs with
      | ev hl hs =>
        obtain ⟨q1, q2⟩ := received_step k hl hs hg hg1
        refine ⟨q1.imp (fun h he => ?_), q2⟩
        rw [he] at h; omega
      | @batch name two workers os embed acts b oc' L' hget hLib hb hn hret hover =>
        by_cases hm : name = n
        · subst hm
          rw [(get_ok hget).2] at hg; cases hg
          rw [k.lib] at hLib; cases hLib
          rw [AMap.get?_set_self] at hg1; cases hg1
          have e : DbEvC.received name (.batch name os b) = b.received os := by simp [DbEvC.received]
          rw [e]
          exact batch_received k.inv hb hn hover
        · simp [DbEvC.received, hm]
      | crash => simp [DbEvC.received]
    rw [List.flatMap_cons]
    refine ⟨List.nodup_append.mpr ⟨key.1, p1, fun a ha b hb he => ?_⟩, fun x hx => ?_⟩
    · subst he
      have := (key.2 a ha).2
      have := p2 a hb
      omega
    · rcases List.mem_append.mp hx with hx | hx
      · exact (key.2 x hx).1
      · have := p2 x hx
        have := kp.file
        omega

/-! ## Calls, reads and searches -/

/-- **C84, searches.** A search on any collection at any moment of such a life returns at most `k` (and at most `ef`) hits with different
ids, sorted by distance, each an object that `Get` returns with the same properties, at its true distance from the query vector. -/
theorem C84_search (fixed : Bool) (js : Json V) (o : FloatOps) (hj : JsonOK js) (interrupted : Prop) (dims : Nat → Nat)
    (h : List (DbEvC V)) (db db' : Db) (hr : DbLifeC fixed js o interrupted dims {} h db) (n : String) (x : Object V) (embed : Embed V) (k : Int)
    (w : ∀ oc L q, db.get n = .ok oc → oc.config.lib js o = some L → queryVector embed x = some q → Ranks L oc.coll q)
    (he : ∀ oc, db.get n = .ok oc → EmbedOK oc.coll embed (dims oc.id) [x]) (r : SearchResult V F32)
    (hs : DbStep js o db (.on n (.search x embed k)) (.called (.found (.ok r))) db') :
    ∃ oc L q, db.get n = .ok oc ∧ oc.config.lib js o = some L ∧ queryVector embed x = some q ∧
      (r.objects.length : Int) ≤ k ∧ r.objects.length ≤ oc.coll.index.cfg.ef ∧ r.hits = r.objects.length ∧
      (r.objects.map Hit.id).Nodup ∧ r.objects.Pairwise (fun a b => o.lt b.dist a.dist = false) ∧
      ∀ hit ∈ r.objects, ∃ v, L.metric.dist v q = .ok hit.dist ∧
        db.Reads js o n hit.id [{ id := hit.id, props := hit.props, vec := some v }] :=
  search_good (good_lifeC hj (dbGood_init False js o interrupted dims) hr).1 n x embed k w he r hs

/-- **C84, calls.** If no process was stopped inside a call, the next legal call returns: no panic, and `Open` does not fail. -/
theorem C84_calls_return (fixed : Bool) (js : Json V) (o : FloatOps) (hj : JsonOK js) (dims : Nat → Nat) (h : List (DbEvC V)) (db : Db)
    (hr : DbLifeC fixed js o False dims {} h db) (op : DbOp V) (hl : op.Legal False dims db)
    (hcl : CleanOp (op, (DbOut.done none : DbOut V))) : ∃ out db', DbStep js o db op out db' :=
  calls_return (good_lifeC hj (dbGood_init False js o False dims) hr).1 op hl hcl

/-- **C84, read calls** (their results carry a panic as a value): if no process was stopped inside a call, `Get` never panics, and a search
for `k ≥ 0` neighbours never does on a collection that something was inserted into. -/
theorem C84_reads_return (fixed : Bool) (js : Json V) (o : FloatOps) (hj : JsonOK js) (dims : Nat → Nat) (h : List (DbEvC V)) (db : Db)
    (hr : DbLifeC fixed js o False dims {} h db) (n : String) (oc : OpenColl) (hg : db.get n = .ok oc) :
    ∃ L, oc.config.lib js o = some L ∧
      (∀ (ids : List UInt64) (p : Panic), oc.coll.get L ids ≠ .error (.panic p)) ∧
      (∀ (x : Object V) (embed : Embed V) (k : Int) (p : Panic), EmbedOK oc.coll embed (dims oc.id) [x] → 0 ≤ k →
        oc.coll.index.nodes ≠ [] → oc.coll.semanticSearch L x embed k ≠ .error (.panic p)) :=
  reads_return (good_lifeC hj (dbGood_init False js o False dims) hr).1 hg

/-! ## Collections -/

/-- is this event a call of CreateCollection for `n` (complete or interrupted)? -/
def DbEvC.makes (n : String) : DbEvC V → Prop
  | .ev e => e.makes n
  | .crash (.create cfg _) _ => cfg.name = n
  | _ => False

/-- **C84, deleted collections.** A collection that is gone stays gone until CreateCollection is called with its name. -/
theorem C84_dropped_stays_gone (fixed : Bool) (js : Json V) (o : FloatOps) (hj : JsonOK js) (interrupted : Prop) (dims : Nat → Nat)
    (h : List (DbEvC V)) (db : Db) (hr : DbLifeC fixed js o interrupted dims {} h db) (n : String) (hn : db.colls.has n = false)
    (later : List (DbEvC V)) (db2 : Db) (hr2 : DbLifeC fixed js o interrupted dims db later db2) (hm : ∀ e ∈ later, ¬ e.makes n) :
    db2.colls.has n = false ∧ ∀ oc, db2.get n ≠ .ok oc := by
  have g := (good_lifeC hj (dbGood_init False js o interrupted dims) hr).1
  clear hr
  have key : db2.colls.has n = false := by
    induction hr2 with
    | nil => exact hn
    | @cons db db1 db2 e t hs _ ih =>
      have g1 := (good_stepC hj g hs).1
      refine ih ?_ (fun e' he' => hm e' (by simp [he'])) g1
      have hme := hm e (by simp)
      refine has_false_of_rows g g1 ?_ hn
      cases hs with
      | ev hl hs => exact rows_step g hl hs hme
      | batch => exact fun h => h
      | @crash half _ _ _ hW hhalf _ _ hre =>
        intro h
        rw [(reopen_spec_db hre).2.1] at h
        have h : n ∈ (db.cutOff half).rows.map Row.name := h
        cases half with
        | nothing => exact h
        | create cfg p => exact rows_create g hhalf.1 hhalf.2 hme h
        | drop name p => exact rows_drop h
  refine ⟨key, fun oc hoc => ?_⟩
  rw [has_of_get (get_ok hoc).2] at key; cases key

/-- **C84, other collections.** A collection that exists, exists at every later moment until DeleteCollection is called for it: no batch and
no crash of the process loses a collection, with the distance function it was created with. -/
theorem C84_collection_stays (fixed : Bool) (js : Json V) (o : FloatOps) (hj : JsonOK js) (interrupted : Prop) (dims : Nat → Nat)
    (h : List (DbEvC V)) (db : Db) (hr : DbLifeC fixed js o interrupted dims {} h db) (n : String) (oc : OpenColl)
    (hn : db.colls.get? n = some oc) (later : List (DbEvC V)) (db2 : Db) (hr2 : DbLifeC fixed js o interrupted dims db later db2)
    (hd : ∀ e ∈ later, ¬ e.drops n) (ho : db2.closed = false) :
    ∃ oc2, db2.get n = .ok oc2 ∧ oc2.id = oc.id ∧ oc2.config.lib js o = oc.config.lib js o := by
  have g := (good_lifeC hj (dbGood_init False js o interrupted dims) hr).1
  obtain ⟨r, _, _, L, k⟩ := g.held n oc hn
  obtain ⟨oc2, h1, h3, h2, kp⟩ := (good_lifeC hj g hr2).2 n hd (fun _ => True) (fun _ _ _ _ => trivial) oc L hn k.lib
  exact ⟨oc2, by unfold Db.get; rw [ho, h1]; rfl, h3, by rw [h2, k.lib]⟩

/-- **C84, opening.** Whatever the process left (`files`), also when a collection was being created or dropped, `Open` succeeds exactly if
the files of every collection can be opened: one collection that cannot be opened (C31, C53 say when) keeps the whole database from being
opened; a collection that was being created never does. -/
theorem C84_opens_iff (fixed : Bool) (js : Json V) (o : FloatOps) (hj : JsonOK js) (interrupted : Prop) (dims : Nat → Nat)
    (h : List (DbEvC V)) (db : Db) (hr : DbLifeC fixed js o interrupted dims {} h db) (half : CutOff) (hl : half.Legal V interrupted dims db)
    (files : AMap String Disk) (hf : ∀ n oc, (db.cutOff half).colls.get? n = some oc → ∃ d, files.get? n = some d)
    (hd : ∀ n, (db.cutOff half).colls.has n = false → files.get? n = (db.cutOff half).dirs.get? n) :
    (∃ db', ((db.cutOff half).left files).reopen = .ok db') ↔
      ∀ n oc d, (db.cutOff half).colls.get? n = some oc → files.get? n = some d →
        ∃ c, openColl oc.coll.index.cfg oc.coll.mappings oc.coll.hasEmbedder d = .ok c := by
  obtain ⟨dbc, ⟨g, _⟩, hrows, hto, hfrom⟩ := cutOff_done hj (good_lifeC hj (dbGood_init False js o interrupted dims) hr).1 hl
  constructor
  · rintro ⟨db', hre⟩ n oc d hoc hd
    obtain ⟨r, hr, rfl, L, k⟩ := g.held n oc (hto n oc hoc)
    have hi := (reopen_spec_db hre).1
    rw [show ((db.cutOff half).left files).rows = dbc.rows from hrows] at hi
    obtain ⟨c, hc, _⟩ := (initColls_spec _ _ _ _ hi g.inv.nd).2 r hr
    rw [left_contents, hd] at hc
    exact ⟨_, (k.opened hc).1⟩
  · intro hall
    obtain ⟨colls, hc⟩ := initColls_total ((db.cutOff half).left files).contents ((db.cutOff half).left files).rows [] (fun r hr' => by
      have hr' : r ∈ (db.cutOff half).rows := hr'
      rw [hrows] at hr'
      obtain ⟨oc, hoc⟩ := get_of_has ((g.inv.rows r.name).mp (List.mem_map.mpr ⟨r, hr', rfl⟩))
      obtain ⟨r', hr'', hn, L, k⟩ := g.held r.name oc hoc
      have hrr : r' = r := by
        have nd := g.inv.nd
        obtain ⟨i, hi, rfl⟩ := List.mem_iff_getElem.mp hr'
        obtain ⟨j, hj', rfl⟩ := List.mem_iff_getElem.mp hr''
        have := (List.getElem_inj (xs := dbc.rows.map Row.name) (h₀ := by simpa using hj') (h₁ := by simpa using hi) nd).mp (by simpa using hn)
        subst this; rfl
      subst hrr
      have hop : ∃ c, openColl oc.coll.index.cfg oc.coll.mappings oc.coll.hasEmbedder ((files.get? r'.name).getD {}) = .ok c := by
        rcases hfrom _ oc hoc with h1 | ⟨h1, h2, _⟩
        · obtain ⟨d, hd⟩ := hf _ oc h1
          rw [hd]
          exact hall _ oc d h1 hd
        · rw [hd _ h1, h2]
          exact ⟨_, openColl_empty _ _ _⟩
      obtain ⟨c, hc⟩ := hop
      rw [left_contents, newCollection_hnsw (by exact k.hnsw), k.cfg]
      exact ⟨_, openColl_swap hc⟩)
    exact ⟨_, by unfold Db.reopen; rw [hc]; rfl⟩


/-! ## A concrete life -/

/-- a schedule found by a round robin of the tasks, for any library. -/
def robinF (L : Lib UInt8 F32) : Nat → Nat → Batch UInt8 F32 → List BAct
  | 0, _, _ => []
  | n + 1, i, b =>
    if b.tasks.all (fun t => t.pc.over) then []
    else
      match b.work false L (i % b.tasks.length) {} with
      | none => robinF L n (i + 1) b
      | some b' => .work (i % b.tasks.length) {} :: robinF L n (i + 1) b'

/-- a batch on a collection under a schedule, checked. -/
def batchAtB (L : Lib UInt8 F32) (workers : Nat) (c : Coll) (os : List (Object UInt8)) (acts : List BAct) : Option (Batch UInt8 F32) :=
  if decide (0 < workers) && decide (c.counter.count.toNat + os.length < 18446744073709551616) &&
    acts.all (fun a => match a with | .work _ env => decide (env.level = 0) | _ => true) then
    match prepare c os noEmbed with
    | .ok (.ok objs) =>
      if objs.all (fun o => (o.vec.getD []).length == 1) then
        match (startBatch c objs workers : Option (Batch UInt8 F32)) with
        | some b0 => b0.run false L acts
        | none => none
      else none
    | _ => none
  else none

theorem batchAtB_sound {L : Lib UInt8 F32} {workers : Nat} {c : Coll} {os : List (Object UInt8)} {acts : List BAct} {b : Batch UInt8 F32}
    (h : batchAtB L workers c os acts = some b) : BatchAt false false L 1 workers c os noEmbed acts b ∧ Low false workers acts := by
  unfold batchAtB at h
  split at h
  · rename_i h0
    simp only [Bool.and_eq_true, decide_eq_true_eq] at h0
    obtain ⟨⟨h1, h2⟩, h3⟩ := h0
    have hlev : ∀ i env, BAct.work i env ∈ acts → env.level = 0 := fun i env hm => by simpa using List.all_eq_true.mp h3 _ hm
    split at h
    · rename_i objs hp
      split at h
      · rename_i h4
        split at h
        · rename_i b0 hb0
          refine ⟨⟨h1, ⟨.ok objs, ?_, ?_⟩, h2, ?_, objs, b0, hp, hb0, h⟩, Or.inr (Or.inr hlev)⟩
          · unfold prepare at hp
            split at hp
            · cases hp
            · split at hp
              · cases hp
              · exact hp
          · intro os' e; cases e
            intro o ho
            simpa using List.all_eq_true.mp h4 o ho
          · intro i env hm
            rw [hlev i env hm]; decide
        · cases h
      · cases h
    · cases h
  · cases h

/-- calls without concurrency are such lives. -/
theorem DbLife.conc {fixed : Bool} {js : Json V} {o : FloatOps} {W : Prop} {dims : Nat → Nat} {db db' : Db} {h : List (DbEv V)}
    (r : DbLife js o W dims db h db') : DbLifeC fixed js o W dims db (h.map DbEvC.ev) db' := by
  induction r with
  | nil => exact .nil _
  | cons hl hs _ ih => exact .cons (.ev hl hs) ih

/-- the calls before the batch: two collections, "b" with two objects. -/
def c84Ops : List (DbOp UInt8) :=
  [.create (demoConfig "a") {}, .create (demoConfig "b") {}, .on "b" (demoInsert 5), .on "b" (demoInsert 9 1), .on "a" (demoInsert 7)]

/-- the schedule of a batch by two workers. -/
def c84Acts (L : Lib UInt8 F32) (c : Coll) (os : List (Object UInt8)) : List BAct :=
  match (startBatch c os 2 : Option (Batch UInt8 F32)) with
  | some b => robinF L 400 0 b
  | none => []

/-- the whole story, checked: a batch of four objects by two workers on "a"; then the process stops while another batch on "a" has
given an id to an object but stored nothing, a delete on "b" has written half of what it writes, and the creation of "c" has saved its row. -/
def c84B (db : Db) : Bool :=
  match db.get "a" with
  | .ok oc =>
    match oc.config.lib demoJson intOps with
    | some L =>
      match batchAtB L 2 oc.coll c14Objs (c84Acts L oc.coll c14Objs ++ [.finish false]) with
      | some b =>
        decide (b.ret = some none) && !b.cancelled && b.tasks.all (fun t => t.pc.over) &&
        decide (b.objs.map Object.id = [1, 3, 2, 4]) &&
        (match batchAtB L 2 b.c c14Objs (works 0 1) with
        | some b1 =>
          match db.get "b" with
          | .ok oc2 =>
            match oc2.config.lib demoJson intOps with
            | some L2 =>
              !oc2.coll.closed && (match oc2.coll.get L2 [0] with | .ok [_] => true | _ => false) &&
              dbLegalB (V := UInt8) (fun _ => 1) { db with colls := db.colls.set "a" { oc with coll := b.c } } (.create (demoConfig "c") {}) &&
              decide (db.colls.map Prod.fst = ["a", "b"]) && db.dirs.all (fun x => decide (x.1 = "a" ∨ x.1 = "b")) &&
              (match (Db.left (Db.cutOff { db with colls := db.colls.set "a" { oc with coll := b.c } } (.create (demoConfig "c") .saved))
                  [("a", b1.c.disk), ("b", oc2.coll.crashDelete 0 .erased)]).reopen with
              | .ok db' => !db'.closed && ["a", "b", "c"].all (fun n => match db'.get n with | .ok oc => !oc.coll.closed | .error _ => false)
              | .error _ => false)
            | none => false
          | .error _ => false
        | none => false)
      | none => false
    | none => false
  | .error _ => false

theorem crashCreate_saved (db : Db) (cfg : Config) : (db.crashCreate cfg .saved).colls = db.colls ∧ (db.crashCreate cfg .saved).dirs = db.dirs := by
  unfold Db.crashCreate
  split
  · exact ⟨rfl, rfl⟩
  · dsimp only
    unfold Db.metaCreate
    repeat' split
    all_goals first | exact ⟨rfl, rfl⟩ | (simp_all; done)

/-- the hypotheses of the theorems above are met: a batch of four by two workers returns nil; later the process stops inside another batch
on "a", inside a delete on "b" and inside the creation of "c", and the database opens again. -/
theorem c84_life : ∃ (before later : List (DbEvC UInt8)) (db db1 db2 : Db) (b : Batch UInt8 F32),
    DbLifeC false demoJson intOps True (fun _ => 1) {} before db ∧ before.length = 5 ∧
    (DbEvC.batch "a" c14Objs b).Step false demoJson intOps True (fun _ => 1) db db1 ∧ b.returned none ∧ b.cancelled = false ∧
    b.objs.map Object.id = [1, 3, 2, 4] ∧ DbLifeC false demoJson intOps True (fun _ => 1) db1 later db2 ∧
    later = [.crash (.create (demoConfig "c") .saved) (fun n => if n = "b" then some 0 else none)] ∧ db2.closed = false ∧
    (∀ n ∈ ["a", "b", "c"], ∃ oc, db2.get n = .ok oc ∧ oc.coll.closed = false) := by
  obtain ⟨db, hs, hlife, hp, _⟩ := life_of (js := demoJson) (o := intOps) (dims := fun _ => 1) (db := {}) (ops := c84Ops) True
    (fun db hs => decide (hs.length = 5) && c84B db) (by decide +kernel)
  simp only [Bool.and_eq_true, decide_eq_true_eq] at hp
  obtain ⟨hlen, hp⟩ := hp
  have hlifeC := hlife.conc (fixed := false)
  have g := (good_lifeC demoJson_ok (dbGood_init False demoJson intOps True (fun _ => 1)) hlifeC).1
  unfold c84B at hp
  split at hp
  · rename_i oc hoc
    split at hp
    · rename_i L hL
      split at hp
      · rename_i b hb
        simp only [Bool.and_eq_true, decide_eq_true_eq, Bool.not_eq_true'] at hp
        obtain ⟨⟨⟨⟨hret, hcan⟩, hover⟩, hids⟩, hp⟩ := hp
        split at hp
        · rename_i b1 hb1
          split at hp
          · rename_i oc2 hoc2
            split at hp
            · rename_i L2 hL2
              simp only [Bool.and_eq_true, decide_eq_true_eq, Bool.not_eq_true'] at hp
              obtain ⟨⟨⟨⟨⟨hcl2, hrd⟩, hleg⟩, hkeys⟩, hdirs⟩, hp⟩ := hp
              split at hp
              · rename_i db2 hre
                simp only [Bool.and_eq_true, Bool.not_eq_true', List.all_eq_true] at hp
                obtain ⟨hc, hall⟩ := hp
                obtain ⟨ba, blow⟩ := batchAtB_sound hb
                obtain ⟨ba1, blow1⟩ := batchAtB_sound hb1
                obtain ⟨r, _, _, L', k⟩ := g.held "a" oc (get_ok hoc).2
                rw [k.lib] at hL; cases hL
                have hstep : (DbEvC.batch "a" c14Objs b).Step false demoJson intOps True (fun _ => 1) db
                    { db with colls := db.colls.set "a" { oc with coll := b.c } } :=
                  .batch hoc k.lib ba (blow.noRace k.inv) (by rw [hret]; simp) (List.all_eq_true.mp hover)
                have g1 := (good_stepC demoJson_ok g hstep).1
                obtain ⟨r1, _, _, L1, k1⟩ := g1.held "a" { oc with coll := b.c } (AMap.get?_set_self _ _ _)
                have hL1 : L1 = L := by have := k1.lib; have h2 := k.lib; dsimp only at this; rw [h2] at this; cases this; rfl
                subst hL1
                refine ⟨_, _, db, _, db2, b, hlifeC, by simpa using hlen, hstep, hret, hcan, hids,
                  .cons (.crash (half := .create (demoConfig "c") .saved) (deleting := fun n => if n = "b" then some 0 else none)
                    (files := [("a", b1.c.disk), ("b", oc2.coll.crashDelete 0 .erased)]) trivial ⟨dbLegalB_sound hleg, rfl, by unfold PlainName; decide +kernel, fun _ => ⟨rfl, _, _, rfl, rfl⟩⟩ ?_ ?_ hre) (.nil _), rfl, hc, ?_⟩
                · intro n oc' hoc'
                  have hoc' : AMap.get? (Db.crashCreate { db with colls := db.colls.set "a" { oc with coll := b.c } } (demoConfig "c") .saved).colls n = some oc' := hoc'
                  rw [(crashCreate_saved _ _).1] at hoc'
                  dsimp only at hoc'
                  by_cases hn : n = "a"
                  · subst hn
                    rw [AMap.get?_set_self] at hoc'; cases hoc'
                    exact ⟨L1, _, k.lib, rfl, .batch ba1 (blow1.noRace k1.inv)⟩
                  · rw [AMap.get?_set_ne _ _ _ _ (Ne.symm hn)] at hoc'
                    have hmem : n ∈ db.colls.map Prod.fst := List.mem_map.mpr ⟨_, mem_of_get hoc', rfl⟩
                    rw [hkeys] at hmem
                    have hnb : n = "b" := by simpa [hn] using hmem
                    subst hnb
                    rw [(get_ok hoc2).2] at hoc'; cases hoc'
                    refine ⟨L2, _, hL2, rfl, ?_⟩
                    have hd : (Ev.crashDelete 0 .erased : Ev UInt8 F32).Legal L2 1 oc2.coll := by
                      split at hrd
                      · rename_i x hx; exact ⟨hcl2, x, hx⟩
                      · cases hrd
                    exact .delete hd
                · intro n hn
                  have hn : AMap.has (Db.crashCreate { db with colls := db.colls.set "a" { oc with coll := b.c } } (demoConfig "c") .saved).colls n = false := hn
                  show _ = AMap.get? (Db.crashCreate { db with colls := db.colls.set "a" { oc with coll := b.c } } (demoConfig "c") .saved).dirs n
                  rw [(crashCreate_saved _ _).1] at hn
                  rw [(crashCreate_saved _ _).2]
                  have hna : n ≠ "a" := by
                    rintro rfl
                    rw [has_of_get (AMap.get?_set_self _ _ _)] at hn; cases hn
                  have hnb : n ≠ "b" := by
                    rintro rfl
                    rw [has_of_get (by rw [AMap.get?_set_ne _ _ _ _ (by decide)]; exact (get_ok hoc2).2)] at hn; cases hn
                  have h1 : AMap.get? [("a", b1.c.disk), ("b", oc2.coll.crashDelete 0 .erased)] n = none := by
                    simp [AMap.get?, Ne.symm hna, Ne.symm hnb]
                  rw [h1]
                  cases hd : db.dirs.get? n with
                  | none => rfl
                  | some d =>
                    have := List.all_eq_true.mp hdirs _ (mem_of_get hd)
                    simp [hna, hnb] at this
                · intro n hn
                  have := hall n hn
                  split at this
                  · rename_i oc3 h3; exact ⟨oc3, h3, by simpa using this⟩
                  · cases this
              · cases hp
            · cases hp
          · cases hp
        · cases hp
      · cases hp
    · cases hp
  · cases hp

/-- lives without a crash, with such a batch (`C84_calls_return`): the next calls are legal. -/
example : ∃ (h : List (DbEvC UInt8)) (db : Db), DbLifeC false demoJson intOps False (fun _ => 1) {} h db ∧ h.length = 6 ∧
    (DbOp.create (demoConfig "c") {} : DbOp UInt8).Legal False (fun _ => 1) db ∧ (DbOp.restart : DbOp UInt8).Legal False (fun _ => 1) db := by
  obtain ⟨db, hs, hlife, hp, _⟩ := life_of (js := demoJson) (o := intOps) (dims := fun _ => 1) (db := {}) (ops := c84Ops) False
    (fun db hs => decide (hs.length = 5) && (match db.get "a" with
      | .ok oc =>
        match oc.config.lib demoJson intOps with
        | some L =>
          match batchAtB L 2 oc.coll c14Objs (c84Acts L oc.coll c14Objs ++ [.finish false]) with
          | some b => decide (b.ret ≠ none) && b.tasks.all (fun t => t.pc.over) &&
            dbLegalB (V := UInt8) (fun _ => 1) { db with colls := db.colls.set "a" { oc with coll := b.c } } (.create (demoConfig "c") {}) &&
            dbLegalB (V := UInt8) (fun _ => 1) { db with colls := db.colls.set "a" { oc with coll := b.c } } .restart
          | none => false
        | none => false
      | .error _ => false)) (by decide +kernel)
  simp only [Bool.and_eq_true, decide_eq_true_eq] at hp
  obtain ⟨hlen, hp⟩ := hp
  have hlifeC := hlife.conc (fixed := false)
  have g := (good_lifeC demoJson_ok (dbGood_init False demoJson intOps False (fun _ => 1)) hlifeC).1
  split at hp
  · rename_i oc hoc
    split at hp
    · rename_i L hL
      split at hp
      · rename_i b hb
        simp only [Bool.and_eq_true, decide_eq_true_eq] at hp
        obtain ⟨⟨⟨hret, hover⟩, l1⟩, l2⟩ := hp
        obtain ⟨ba, blow⟩ := batchAtB_sound hb
        obtain ⟨r, _, _, L', k⟩ := g.held "a" oc (get_ok hoc).2
        rw [k.lib] at hL; cases hL
        have hstep : (DbEvC.batch "a" c14Objs b).Step false demoJson intOps False (fun _ => 1) db
            { db with colls := db.colls.set "a" { oc with coll := b.c } } :=
          .batch hoc k.lib ba (blow.noRace k.inv) hret (List.all_eq_true.mp hover)
        have snoc : ∀ {x y z : Db} {h : List (DbEvC UInt8)} {e : DbEvC UInt8}, DbLifeC false demoJson intOps False (fun _ => 1) x h y →
            e.Step false demoJson intOps False (fun _ => 1) y z → DbLifeC false demoJson intOps False (fun _ => 1) x (h ++ [e]) z := by
          intro x y z h e r hs
          induction r with
          | nil => exact .cons hs (.nil _)
          | cons h1 _ ih => exact .cons h1 (ih hs)
        exact ⟨_, _, snoc hlifeC hstep, by simp [hlen], dbLegalB_sound l1, dbLegalB_sound l2⟩
      · cases hp
    · cases hp
  · cases hp

end Vectory
