import Verif.Lemmas.LocksOpen
/-!
# C85: one data directory opened several times
-/
namespace Vectory

/-- **C85**: at any moment a collection is usable through at most one `DB` value, of one process. -/
theorem C85_exclusive {w : World} (h : WReach w) {i j : Nat} {n : String} {a b : OpenColl} (hi : w.Uses i n a) (hj : w.Uses j n b) : i = j :=
  h.inv.excl hi hj

/-- **C85**: whatever another `DB` value or another process does (opening the directory, failing to, creating, deleting, closing, ending,
panicking), a collection in use keeps its state in memory, its files and its row. The files are those its own calls have left. -/
theorem C85_undisturbed {w w' : World} {a : WAct} {o : Outcome} (h : WReach w) (ht : w.Tidy a) (hs : w.step a = some (w', o))
    {i : Nat} {x : Inst} {n : String} {oc : OpenColl} (hx : w.insts i = some x) (hn : x.colls.get? n = some oc) (hu : oc.Usable)
    (hby : ¬ a.by w i) (hp : (∀ q, o ≠ .panicked q) ∨ ¬ a.inProc w x.proc) :
    w'.insts i = some x ∧ w.dirs.get? n = some oc.coll.disk ∧ w'.dirs.get? n = some oc.coll.disk ∧
    ∀ r ∈ w.rows, r.name = n → r ∈ w'.rows := by
  have I := h.inv
  have F := I.step ht hs
  have hx' := F.insts i x hx hby hp
  refine ⟨hx', (I.hold i x n oc hx hn hu).2.2, (F.inv.hold i x n oc hx' hn hu).2.2, fun r hr hrn => ?_⟩
  by_cases hmem : r ∈ w'.rows
  · exact hmem
  · exfalso
    obtain ⟨j, ef, rf, oc', he, hu'⟩ := F.rows r hr hmem
    subst hrn
    have := I.excl ⟨x, hx, hn, hu⟩ hu'
    subst this
    subst he
    exact hby rfl

/-- **C85**: while a collection that has a row is in use, `Open` of the same directory, by whatever process and whatever else happens, does not
succeed; it changes no row and no file of an existing directory. -/
theorem C85_second_open {w : World} (h : WReach w) {i : Nat} {n : String} {oc : OpenColl} (hu : w.Uses i n oc) (hr : ∃ r ∈ w.rows, r.name = n)
    (proc : Nat) (f : String → OpenFaults) :
    (w.open proc f).2 ≠ .ok ∧ (w.open proc f).1.rows = w.rows ∧
    ∀ m d, w.dirs.get? m = some d → (w.open proc f).1.dirs.get? m = some d := by
  obtain ⟨_, a2, a3, _, _, a6, _⟩ := h.inv.open proc f
  refine ⟨fun hok => ?_, a2, a3⟩
  obtain ⟨x, h1, h2, h3⟩ := hu
  obtain ⟨r, hr, rfl⟩ := hr
  have := a6 hok r hr
  rw [(h.inv.hold i x _ oc h1 h2 h3).1] at this
  cases this

/-- **C85**: an `Open` that meets a collection in use returns an error, but the collections it had opened before stay locked, by a `DB` that
nobody has. -/
theorem C85_failed_open_leaks {w : World} (h : WReach w) {pre post : List Row} {r : Row} (hrows : w.rows = pre ++ r :: post)
    {f : String → OpenFaults} (hpre : w.Openable f pre) (hr : w.objLocks r.name ≠ none) (proc : Nat) :
    (w.open proc f).2 = .err .io ∧ ∀ q ∈ pre, (w.open proc f).1.Leaked q.name proc := by
  have hnd : (pre.map Row.name).Nodup ∧ r.name ∉ pre.map Row.name := by
    have := h.inv.rowsNd
    rw [hrows, List.map_append, List.nodup_append] at this
    exact ⟨this.1, fun hm => this.2.2 _ hm r.name (by simp) rfl⟩
  obtain ⟨w1, colls1, e1, g, e3, e4⟩ := openRows_prefix ⟨proc, w.nextInst⟩ f (r :: post) pre { w with nextInst := w.nextInst + 1 } [] hnd.1 hpre
  have hfail : (World.openRows ⟨proc, w.nextInst⟩ f (r :: post) w1 colls1).2 = .error (.error .io) ∧
      Grow ⟨proc, w.nextInst⟩ w1 (World.openRows ⟨proc, w.nextInst⟩ f (r :: post) w1 colls1).1 := by
    refine ⟨?_, (openRows_spec _ f (r :: post) w1 colls1).1⟩
    have hl : (w1.objLocks r.config.name).isSome = true := by
      show (w1.objLocks r.name).isSome = true
      rw [(e4 _ hnd.2).1]
      cases hh : w.objLocks r.name with
      | none => exact absurd hh hr
      | some o => rfl
    rw [World.openRows]
    unfold World.openOne
    dsimp only
    rw [hl, Bool.or_true, if_pos rfl]
  rw [← e1, ← hrows] at hfail
  have g := g.trans hfail.2
  have hobj : ∀ q ∈ pre, (World.openRows ⟨proc, w.nextInst⟩ f w.rows { w with nextInst := w.nextInst + 1 } []).1.objLocks q.name =
      some ⟨proc, w.nextInst⟩ := fun q hq => by
    exact hfail.2.obj _ _ (e3 q hq)
  unfold World.open
  dsimp only
  generalize World.openRows ⟨proc, w.nextInst⟩ f w.rows { w with nextInst := w.nextInst + 1 } [] = res at hfail g hobj ⊢
  obtain ⟨w2, out⟩ := res
  dsimp only at hfail g hobj ⊢
  obtain ⟨rfl, _⟩ := hfail
  refine ⟨rfl, fun q hq => ⟨w.nextInst, hobj q hq, ?_⟩⟩
  rintro oc ⟨x, h1, _⟩
  rw [g.insts] at h1
  exact absurd (h.inv.fresh _ _ h1) (Nat.lt_irrefl _)

/-- the metadata and the directories after `metadataManager.CreateCollection`. -/
def World.withMeta (w : World) (db : Db) : World := { w with rows := db.rows, nextId := db.nextId, dirs := db.dirs }

/-- **C85**: a `CreateCollection` that fails after the stores were opened (the counter or the log cannot be opened, the index type is one that
is only accepted) leaves them locked, and the collection cannot be used. -/
theorem C85_failed_create_leaks {w : World} (h : WReach w) {i : Nat} {x : Inst} (hx : w.insts i = some x) {cfg : Config} {env : CreateEnv}
    {f : OpenFaults} {id : Nat} (hopen : x.closed = false) (hval : validateConfig cfg = none) (hnew : x.colls.has cfg.name = false)
    (hm : ((w.view x).metaCreate cfg env).2 = .ok id) (hl : w.objLocks cfg.name = none) (hf : f.objects = false) {e : Err}
    (he : (w.create i x cfg env f).2 = .err e) : (w.create i x cfg env f).1.Leaked cfg.name x.proc := by
  refine ⟨i, ?_⟩
  have hcr : w.create i x cfg env f = match World.openOne (w.withMeta ((w.view x).metaCreate cfg env).1) ⟨x.proc, i⟩ cfg f with
      | (w, .error (.error e)) => (w, .err e)
      | (w, .error (.panic p)) => (w.exit x.proc, .panicked p)
      | (w, .ok c) => ({ w with insts := upd w.insts i (some { x with colls := x.colls.set cfg.name { id := id, config := cfg, coll := c } }) }, .ok) := by
    unfold World.create
    rw [hopen, hval, hnew]
    simp only [Bool.false_eq_true, if_false]
    generalize (w.view x).metaCreate cfg env = m at hm ⊢
    obtain ⟨db, out⟩ := m
    dsimp only at hm
    subst hm
    rfl
  obtain ⟨g, _, hlk⟩ := openOne_spec (w.withMeta ((w.view x).metaCreate cfg env).1) ⟨x.proc, i⟩ cfg f
  have hlk := hlk hl hf
  rw [hcr] at he ⊢
  generalize World.openOne (w.withMeta ((w.view x).metaCreate cfg env).1) ⟨x.proc, i⟩ cfg f = res at he hlk g ⊢
  obtain ⟨w1, out⟩ := res
  cases out with
  | ok c => cases he
  | error a =>
    cases a with
    | panic p => cases he
    | error e' =>
      refine ⟨hlk, ?_⟩
      rintro oc ⟨y, h1, h2, _⟩
      have h1 : w1.insts i = some y := h1
      rw [g.insts] at h1
      have h1 : w.insts i = some y := h1
      rw [hx] at h1
      cases h1
      have hnew : (x.colls.get? cfg.name).isSome = false := hnew
      rw [h2] at hnew; cases hnew

/-- **C85**: once a collection that has a row is locked by a `DB` that cannot use it, nobody can open the directory, in that process or another,
until the process ends or the collection is deleted. -/
theorem C85_blocked {w w' : World} (h : WReach w) {n : String} {p : Nat} (hl : w.Leaked n p) (hr : ∃ r ∈ w.rows, r.name = n)
    (hrun : Blocked n p w w') : w'.Leaked n p ∧ (∃ r ∈ w'.rows, r.name = n) ∧
    ∀ q f, (w'.open q f).2 ≠ .ok := by
  have key : LockInv w' ∧ w'.Leaked n p ∧ ∃ r ∈ w'.rows, r.name = n := by
    induction hrun with
    | refl => exact ⟨h.inv, hl, hr⟩
    | @step w1 w2 a o _ ht hs hne hnp hnd ih =>
      obtain ⟨I, ⟨i, hi, hnu⟩, r, hr1, hrn⟩ := ih
      have F := I.step ht hs
      refine ⟨F.inv, ⟨i, F.locks _ p i hi hne hnp hnd hnu, fun oc hu => ?_⟩, r, ?_, hrn⟩
      · rcases F.uses i _ oc hu with ⟨oc', h1⟩ | h1
        · exact hnu oc' h1
        · rw [hi] at h1; cases h1
      · by_cases hmem : r ∈ w2.rows
        · exact hmem
        · obtain ⟨j, ef, rf, _, he, _⟩ := F.rows r hr1 hmem
          rw [hrn] at he
          exact absurd he (hnd j ef rf)
  obtain ⟨I, hl', hr'⟩ := key
  refine ⟨hl', hr', fun q f hok => ?_⟩
  obtain ⟨_, _, _, _, _, a6, _⟩ := I.open q f
  obtain ⟨r, hr1, hrn⟩ := hr'
  obtain ⟨i, hi, _⟩ := hl'
  have := a6 hok r hr1
  rw [hrn, hi] at this; cases this

/-- **C85**: the error of opening the vectors is not looked at: if the objects of a collection can be opened and its vectors cannot (another `DB`
holds them, or I/O fails), `Open` panics, and with it everything else the process has open is lost. -/
theorem C85_vectors_panic {w : World} (h : WReach w) {pre post : List Row} {r : Row} (hrows : w.rows = pre ++ r :: post)
    {f : String → OpenFaults} (hpre : w.Openable f pre) (ho : w.objLocks r.name = none)
    (hv : (f r.name).vectors = true ∨ w.vecLocks r.name ≠ none) (hf : (f r.name).objects = false ∧ (f r.name).counter = false ∧ (f r.name).log = false)
    (hx : r.indexType = "hnsw") {c : Coll} (hc : newCollection r.config ((w.dirs.get? r.name).getD {}) false = .ok c) (proc : Nat) :
    (w.open proc f).2 = .panicked .nilDeref ∧ ∀ i x, (w.open proc f).1.insts i = some x → x.proc ≠ proc := by
  have hnd : (pre.map Row.name).Nodup ∧ r.name ∉ pre.map Row.name := by
    have := h.inv.rowsNd
    rw [hrows, List.map_append, List.nodup_append] at this
    exact ⟨this.1, fun hm => this.2.2 _ hm r.name (by simp) rfl⟩
  obtain ⟨w1, colls1, e1, g, e3, e4⟩ := openRows_prefix ⟨proc, w.nextInst⟩ f (r :: post) pre { w with nextInst := w.nextInst + 1 } [] hnd.1 hpre
  obtain ⟨k1, k2, k3⟩ := e4 _ hnd.2
  have hone := openOne_half (w := w1) (own := ⟨proc, w.nextInst⟩) (cfg := r.config) (f := f r.name) (k1.trans ho)
    (hv.imp (fun h => h) (fun h hh => h (k2.symm.trans hh))) hf.1 hf.2.1 hf.2.2 hx (c := c) (by
      show newCollection r.config ((w1.dirs.get? r.name).getD {}) false = .ok c
      rw [k3]; exact hc)
  have hfail : (World.openRows ⟨proc, w.nextInst⟩ f (r :: post) w1 colls1).2 = .error (.panic .nilDeref) := by
    rw [World.openRows]
    generalize w1.openOne ⟨proc, w.nextInst⟩ r.config (f r.name) = res at hone ⊢
    obtain ⟨w2, out⟩ := res
    dsimp only at hone
    subst hone
    rfl
  rw [← e1, ← hrows] at hfail
  unfold World.open
  dsimp only
  generalize World.openRows ⟨proc, w.nextInst⟩ f w.rows { w with nextInst := w.nextInst + 1 } [] = res at hfail ⊢
  obtain ⟨w2, out⟩ := res
  dsimp only at hfail ⊢
  subst hfail
  refine ⟨rfl, fun i x hi => ?_⟩
  have := (filter_some.mp hi).2
  simpa using this

/-- **C85**: when nobody holds a lock and nothing fails, `Open` does exactly what it does for a single user of the directory. -/
theorem C85_alone {w : World} (h : WReach w) (hl : ∀ n, w.objLocks n = none ∧ w.vecLocks n = none) (hx : ∀ r ∈ w.rows, r.indexType = "hnsw")
    (proc : Nat) :
    (∀ db, w.alone.reopen = .ok db → (w.open proc (fun _ => {})).2 = .ok ∧ (w.open proc (fun _ => {})).1.dirs = db.dirs ∧
      (w.open proc (fun _ => {})).1.insts w.nextInst = some { proc := proc, colls := db.colls }) ∧
    (∀ e, w.alone.reopen = .error (.error e) → (w.open proc (fun _ => {})).2 = .err e) ∧
    (∀ p, w.alone.reopen = .error (.panic p) → (w.open proc (fun _ => {})).2 = .panicked p) := by
  have hfree := openRows_free ⟨proc, w.nextInst⟩ (fun _ => {}) w.alone.contents w.rows { w with nextInst := w.nextInst + 1 } [] h.inv.rowsNd
    (fun r hr => ⟨(hl _).1, (hl _).2, rfl, hx r hr, rfl⟩)
  have hre : w.alone.reopen = (initColls w.alone.contents w.rows [] >>= fun colls =>
      .ok { rows := w.rows, nextId := w.nextId, dirs := touchDirs w.alone.contents w.rows w.dirs, colls := colls }) := rfl
  unfold World.open
  dsimp only
  generalize World.openRows ⟨proc, w.nextInst⟩ (fun _ => {}) w.rows { w with nextInst := w.nextInst + 1 } [] = res at hfree ⊢
  obtain ⟨w2, out⟩ := res
  obtain ⟨h1, h2⟩ := hfree
  dsimp only at h1 h2
  cases hi : initColls w.alone.contents w.rows [] with
  | error a =>
    rw [hi] at h1 hre
    rw [bind_error] at hre
    subst h1
    rw [hre]
    refine ⟨(fun db hdb => by cases hdb), fun e he => ?_, fun p hp => ?_⟩
    · cases he; rfl
    · cases hp; rfl
  | ok colls =>
    rw [hi] at h1 hre
    rw [bind_ok'] at hre
    subst h1
    rw [hre]
    refine ⟨fun db hdb => ?_, (fun e he => by cases he), (fun e he => by cases he)⟩
    cases hdb
    exact ⟨rfl, h2 colls hi, upd_self _ _ _⟩

/-- **C85**: when the only `DB` is closed without an error and nobody had leaked a lock, no lock is left and no file has changed, so the next
`Open`, in whatever process, is that of a single user (`C85_alone`). -/
theorem C85_close_frees {w w' : World} (h : WReach w) {i : Nat} (hone : ∀ j, j ≠ i → w.insts j = none) (hnl : w.NoLeak) {mf : Bool}
    {f : String → CloseFault} (hs : w.step (.close i mf f) = some (w', .ok)) :
    (∀ n, w'.objLocks n = none ∧ w'.vecLocks n = none) ∧ w'.rows = w.rows ∧ w'.dirs = w.dirs ∧ w'.alone = w.alone := by
  simp only [World.step] at hs
  cases hx : w.insts i with
  | none => rw [hx] at hs; cases hs
  | some x =>
    rw [hx] at hs
    have hw : w.close i x mf f = (w', .ok) := Option.some.inj hs
    unfold World.close at hw
    cases mf with
    | true => cases hw
    | false =>
      rw [if_neg (by decide)] at hw
      obtain ⟨a1, a2, a3, a4, a6, a7, a5⟩ := World.closeAll_locks ⟨x.proc, i⟩ f x.colls w (h.inv.nd i x hx)
      generalize World.closeAll ⟨x.proc, i⟩ f x.colls w = res at hw a1 a2 a3 a4 a5 a6 a7
      obtain ⟨w1, colls, e⟩ := res
      dsimp only at hw a1 a2 a3 a4 a5 a6 a7
      cases e with
      | some e => cases hw
      | none =>
        cases hw
        have key : ∀ n o, w.objLocks n = some o ∨ w.vecLocks n = some o → w1.objLocks n = none ∧ w1.vecLocks n = none := by
          intro n o ho
          obtain ⟨oc, y, h1, h2, h3⟩ := hnl n o ho
          have hoi : o.inst = i := by
            by_cases hh : o.inst = i
            · exact hh
            · rw [hone _ hh] at h1; cases h1
          rw [hoi, hx] at h1
          cases h1
          obtain ⟨k1, k2, _⟩ := h.inv.hold i x n oc hx h2 h3
          exact (a5 rfl).2 n oc h2 h3.1 k1 k2
        refine ⟨fun n => ?_, a1.rows, a1.dirs, ?_⟩
        · show w1.objLocks n = none ∧ w1.vecLocks n = none
          cases ho : w.objLocks n with
          | some o => exact key n o (Or.inl ho)
          | none =>
            cases hv : w.vecLocks n with
            | some o => exact key n o (Or.inr hv)
            | none =>
              constructor
              · rcases a1.obj n with k | ⟨_, k⟩
                · rw [k]; exact ho
                · exact k
              · rcases a1.vec n with k | ⟨_, k⟩
                · rw [k]; exact hv
                · exact k
        · show ({ rows := w1.rows, nextId := w1.nextId, dirs := w1.dirs } : Db) = _
          rw [a1.rows, a1.nextId, a1.dirs]; rfl

end Vectory
