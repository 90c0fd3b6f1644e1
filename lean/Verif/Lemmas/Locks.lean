import Verif.Spec.Locks
import Verif.Lemmas.Growth
/-! # Locks: invariants -/
namespace Vectory

theorem upd_self {K A : Type} [DecidableEq K] (m : K → Option A) (k : K) (v : Option A) : upd m k v k = v := by simp [upd]

theorem upd_ne {K A : Type} [DecidableEq K] (m : K → Option A) (k x : K) (v : Option A) (h : x ≠ k) : upd m k v x = m x := by simp [upd, h]

theorem openColl_disk {cfg : Cfg} {ms : List String} {he : Bool} {d : Disk} {c : Coll} (h : openColl cfg ms he d = .ok c) :
    c.disk = d ∧ c.closed = false ∧ c.counter.closed = false := by
  have hw := openColl_wal h
  unfold openColl at h
  obtain ⟨ctr, h0, h⟩ := (bind_ok_iff _ _ _).mp h
  obtain ⟨h1, hl, h⟩ := (bind_ok_iff _ _ _).mp h
  obtain ⟨h2, hp, h⟩ := (bind_ok_iff _ _ _).mp h
  cases h
  have hc : ctr.file = d.counterFile ∧ ctr.closed = false := by
    unfold newIdCounter at h0
    split at h0
    · cases h0; exact ⟨rfl, rfl⟩
    · split at h0
      · cases h0
      · cases h0; exact ⟨rfl, rfl⟩
  refine ⟨?_, rfl, hc.2⟩
  show ({ stores := d.stores, counterFile := ctr.file, log := h2.wal.disk } : Disk) = d
  have : h2.wal = newWal d.log := hw
  rw [this, hc.1]
  rfl

/-- everything locked and every directory stays; new locks belong to `own`. -/
structure Grow (own : Owner) (w w' : World) : Prop where
  rows : w'.rows = w.rows
  nextId : w'.nextId = w.nextId
  insts : w'.insts = w.insts
  nextInst : w'.nextInst = w.nextInst
  obj : ∀ n o, w.objLocks n = some o → w'.objLocks n = some o
  vec : ∀ n o, w.vecLocks n = some o → w'.vecLocks n = some o
  objNew : ∀ n o, w'.objLocks n = some o → w.objLocks n = some o ∨ o = own
  vecNew : ∀ n o, w'.vecLocks n = some o → w.vecLocks n = some o ∨ o = own
  dirs : ∀ n d, w.dirs.get? n = some d → w'.dirs.get? n = some d

theorem Grow.refl (own : Owner) (w : World) : Grow own w w :=
  ⟨rfl, rfl, rfl, rfl, fun _ _ h => h, fun _ _ h => h, fun _ _ h => Or.inl h, fun _ _ h => Or.inl h, fun _ _ h => h⟩

theorem Grow.trans {own : Owner} {w1 w2 w3 : World} (a : Grow own w1 w2) (b : Grow own w2 w3) : Grow own w1 w3 where
  rows := b.rows.trans a.rows
  nextId := b.nextId.trans a.nextId
  insts := b.insts.trans a.insts
  nextInst := b.nextInst.trans a.nextInst
  obj := fun n o h => b.obj n o (a.obj n o h)
  vec := fun n o h => b.vec n o (a.vec n o h)
  objNew := fun n o h => by
    rcases b.objNew n o h with h | h
    · exact a.objNew n o h
    · exact Or.inr h
  vecNew := fun n o h => by
    rcases b.vecNew n o h with h | h
    · exact a.vecNew n o h
    · exact Or.inr h
  dirs := fun n d h => b.dirs n d (a.dirs n d h)

theorem getD_set_keeps {dirs : AMap String Disk} (name : String) : ∀ n d, dirs.get? n = some d →
    (dirs.set name ((dirs.get? name).getD {})).get? n = some d := by
  intro n d h
  by_cases hn : name = n
  · subst hn; rw [AMap.get?_set_self, h]; rfl
  · rw [AMap.get?_set_ne _ _ _ _ hn]; exact h

/-- what `newCollection` does to the locks. -/
theorem openOne_spec (w : World) (own : Owner) (cfg : Config) (f : OpenFaults) :
    Grow own w (w.openOne own cfg f).1 ∧
    (∀ c, (w.openOne own cfg f).2 = .ok c →
      w.objLocks cfg.name = none ∧ w.vecLocks cfg.name = none ∧
      (w.openOne own cfg f).1.objLocks cfg.name = some own ∧ (w.openOne own cfg f).1.vecLocks cfg.name = some own ∧
      (w.openOne own cfg f).1.dirs.get? cfg.name = some c.disk ∧ c.closed = false ∧ c.counter.closed = false ∧
      newCollection cfg ((w.dirs.get? cfg.name).getD {}) false = .ok c) ∧
    (w.objLocks cfg.name = none → f.objects = false → (w.openOne own cfg f).1.objLocks cfg.name = some own) := by
  have g0 : Grow own w { w with dirs := w.dirs.set cfg.name ((w.dirs.get? cfg.name).getD {}) } :=
    ⟨rfl, rfl, rfl, rfl, fun _ _ h => h, fun _ _ h => h, fun _ _ h => Or.inl h, fun _ _ h => Or.inl h, getD_set_keeps cfg.name⟩
  unfold World.openOne
  dsimp only
  generalize hd : (w.dirs.get? cfg.name).getD {} = d at g0 ⊢
  by_cases hobj : (f.objects || (w.objLocks cfg.name).isSome) = true
  · rw [if_pos hobj]
    refine ⟨g0, (fun c h => by cases h), fun h1 h2 => ?_⟩
    rw [h1, h2] at hobj; cases hobj
  · rw [if_neg hobj]
    simp only [Bool.or_eq_true, not_or, Bool.not_eq_true, Option.isSome_eq_false_iff, Option.isNone_iff_eq_none] at hobj
    have g1 : Grow own w { w with dirs := w.dirs.set cfg.name d, objLocks := upd w.objLocks cfg.name (some own) } := by
      refine ⟨rfl, rfl, rfl, rfl, fun n o h => ?_, fun _ _ h => h, fun n o h => ?_, fun _ _ h => Or.inl h, g0.dirs⟩
      · have : n ≠ cfg.name := by rintro rfl; rw [hobj.2] at h; cases h
        show upd _ _ _ n = _
        rw [upd_ne _ _ _ _ this]; exact h
      · have h : upd w.objLocks cfg.name (some own) n = some o := h
        by_cases hn : n = cfg.name
        · subst hn
          rw [upd_self] at h
          cases h; exact Or.inr rfl
        · rw [upd_ne _ _ _ _ hn] at h
          exact Or.inl h
    by_cases hvec : (f.vectors || (w.vecLocks cfg.name).isSome) = true
    · rw [hvec]
      simp only [if_true]
      have hl : (upd w.objLocks cfg.name (some own)) cfg.name = some own := upd_self _ _ _
      repeat' split
      all_goals first
        | exact ⟨g1, (fun c h => by cases h), fun _ _ => hl⟩
    · have hv : (f.vectors || (w.vecLocks cfg.name).isSome) = false := by simpa using hvec
      rw [hv]
      simp only [Bool.false_eq_true, if_false]
      simp only [Bool.or_eq_false_iff, Option.isSome_eq_false_iff, Option.isNone_iff_eq_none] at hv
      have g2 : Grow own w { w with dirs := w.dirs.set cfg.name d, objLocks := upd w.objLocks cfg.name (some own), vecLocks := upd w.vecLocks cfg.name (some own) } := by
        refine ⟨rfl, rfl, rfl, rfl, g1.obj, fun n o h => ?_, g1.objNew, fun n o h => ?_, g0.dirs⟩
        · have : n ≠ cfg.name := by rintro rfl; rw [hv.2] at h; cases h
          show upd _ _ _ n = _
          rw [upd_ne _ _ _ _ this]; exact h
        · have h : upd w.vecLocks cfg.name (some own) n = some o := h
          by_cases hn : n = cfg.name
          · subst hn
            rw [upd_self] at h
            cases h; exact Or.inr rfl
          · rw [upd_ne _ _ _ _ hn] at h
            exact Or.inl h
      have hl : (upd w.objLocks cfg.name (some own)) cfg.name = some own := upd_self _ _ _
      have hl2 : (upd w.vecLocks cfg.name (some own)) cfg.name = some own := upd_self _ _ _
      split
      · exact ⟨g2, (fun c h => by cases h), fun _ _ => hl⟩
      · split
        · exact ⟨g2, (fun c h => by cases h), fun _ _ => hl⟩
        · split
          · rename_i hix
            split
            · exact ⟨g2, (fun c h => by cases h), fun _ _ => hl⟩
            · refine ⟨g2, fun c h => ?_, fun _ _ => hl⟩
              have h' : newCollection cfg d false = .ok c := h
              have h2 := h'
              unfold newCollection at h2
              rw [if_neg (by decide), if_pos hix] at h2
              obtain ⟨q1, q2, q3⟩ := openColl_disk h2
              refine ⟨hobj.2, hv.2, hl, hl2, ?_, q2, q3, h'⟩
              show (w.dirs.set cfg.name d).get? cfg.name = _
              rw [AMap.get?_set_self, q1]
          · exact ⟨g2, (fun c h => by cases h), fun _ _ => hl⟩

/-- what `Open` did before it stopped. -/
theorem openRows_spec (own : Owner) (f : String → OpenFaults) : ∀ (rows : List Row) (w : World) (colls : AMap String OpenColl),
    Grow own w (World.openRows own f rows w colls).1 ∧
    (∀ colls', (World.openRows own f rows w colls).2 = .ok colls' →
      (∀ n oc, colls'.get? n = some oc → colls.get? n = some oc ∨ (w.objLocks n = none ∧
        (World.openRows own f rows w colls).1.objLocks n = some own ∧ (World.openRows own f rows w colls).1.vecLocks n = some own ∧
        (World.openRows own f rows w colls).1.dirs.get? n = some oc.coll.disk ∧ oc.coll.closed = false)) ∧
      (colls.keys.Nodup → colls'.keys.Nodup) ∧ ∀ r ∈ rows, w.objLocks r.name = none) := by
  intro rows
  induction rows with
  | nil =>
    intro w colls
    refine ⟨Grow.refl _ _, fun colls' h => ?_⟩
    cases h
    exact ⟨fun n oc h => Or.inl h, id, (fun r hr => by cases hr)⟩
  | cons r rest ih =>
    intro w colls
    obtain ⟨g, hok, _⟩ := openOne_spec w own r.config (f r.name)
    rw [World.openRows]
    generalize hone : w.openOne own r.config (f r.name) = res at g hok ⊢
    obtain ⟨w1, c⟩ := res
    cases c with
    | error a => exact ⟨g, fun colls' h => by cases h⟩
    | ok c =>
      dsimp only at g hok ⊢
      obtain ⟨k1, k2, k3, k4, k5, k6, k7, _⟩ := hok c rfl
      have hname : r.config.name = r.name := rfl
      rw [hname] at k1 k2 k3 k4 k5
      obtain ⟨g2, ok2⟩ := ih w1 (colls.set r.name { id := r.id, config := r.config, coll := c })
      refine ⟨g.trans g2, fun colls' h => ?_⟩
      obtain ⟨p1, p2, p3⟩ := ok2 colls' h
      refine ⟨fun n oc hn => ?_, fun hnd => p2 (AMap.keys_set_nodup hnd _ _), fun r' hr' => ?_⟩
      · rcases p1 n oc hn with h1 | ⟨h1, h2, h3, h4⟩
        · by_cases hrn : r.name = n
          · subst hrn
            rw [AMap.get?_set_self] at h1
            cases h1
            exact Or.inr ⟨k1, g2.obj _ _ k3, g2.vec _ _ k4, g2.dirs _ _ k5, k6⟩
          · rw [AMap.get?_set_ne _ _ _ _ hrn] at h1
            exact Or.inl h1
        · refine Or.inr ⟨?_, h2, h3, h4⟩
          cases ho : w.objLocks n with
          | none => rfl
          | some o => rw [g.obj n o ho] at h1; cases h1
      · rcases List.mem_cons.mp hr' with rfl | hr'
        · exact k1
        · have := p3 r' hr'
          cases ho : w.objLocks r'.name with
          | none => rfl
          | some o => rw [g.obj _ o ho] at this; cases this

/-- what holds in every state of the data directory and its users. -/
structure LockInv (w : World) : Prop where
  fresh : ∀ i x, w.insts i = some x → i < w.nextInst
  freshO : ∀ n o, w.objLocks n = some o → o.inst < w.nextInst
  freshV : ∀ n o, w.vecLocks n = some o → o.inst < w.nextInst
  nd : ∀ i x, w.insts i = some x → x.colls.keys.Nodup
  hold : ∀ i x n oc, w.insts i = some x → x.colls.get? n = some oc → oc.Usable →
    w.objLocks n = some ⟨x.proc, i⟩ ∧ w.vecLocks n = some ⟨x.proc, i⟩ ∧ w.dirs.get? n = some oc.coll.disk
  rowsNd : (w.rows.map Row.name).Nodup
  cc : ∀ i x n oc, w.insts i = some x → x.colls.get? n = some oc → oc.coll.closed = true → oc.coll.counter.closed = true

theorem filter_some {A : Type} {x : Option A} {p : A → Bool} {a : A} : x.filter p = some a ↔ x = some a ∧ p a = true := by
  cases x with
  | none => simp
  | some b => simp [Option.filter]; constructor <;> (rintro ⟨h1, h2⟩ ; subst_vars; simp_all)

theorem LockInv.exit {w : World} (i : LockInv w) (p : Nat) : LockInv (w.exit p) where
  fresh := fun j x h => i.fresh j x (filter_some.mp h).1
  freshO := fun n o h => i.freshO n o (filter_some.mp h).1
  freshV := fun n o h => i.freshV n o (filter_some.mp h).1
  nd := fun j x h => i.nd j x (filter_some.mp h).1
  hold := by
    intro j x n oc h h1 h2
    obtain ⟨h3, h4⟩ := filter_some.mp h
    obtain ⟨k1, k2, k3⟩ := i.hold j x n oc h3 h1 h2
    exact ⟨filter_some.mpr ⟨k1, h4⟩, filter_some.mpr ⟨k2, h4⟩, k3⟩
  rowsNd := i.rowsNd
  cc := fun j x n oc h => i.cc j x n oc (filter_some.mp h).1

/-- while nothing is given up, everybody keeps what they have. -/
theorem LockInv.grow {w w' : World} {own : Owner} (i : LockInv w) (g : Grow own w w') (ho : own.inst < w.nextInst) : LockInv w' where
  fresh := fun j x h => by rw [g.insts] at h; rw [g.nextInst]; exact i.fresh j x h
  freshO := fun n o h => by
    rw [g.nextInst]
    rcases g.objNew n o h with h | rfl
    · exact i.freshO n o h
    · exact ho
  freshV := fun n o h => by
    rw [g.nextInst]
    rcases g.vecNew n o h with h | rfl
    · exact i.freshV n o h
    · exact ho
  nd := fun j x h => by rw [g.insts] at h; exact i.nd j x h
  hold := by
    intro j x n oc h h1 h2
    rw [g.insts] at h
    obtain ⟨k1, k2, k3⟩ := i.hold j x n oc h h1 h2
    exact ⟨g.obj _ _ k1, g.vec _ _ k2, g.dirs _ _ k3⟩
  rowsNd := by rw [g.rows]; exact i.rowsNd
  cc := fun j x n oc h => by rw [g.insts] at h; exact i.cc j x n oc h

theorem LockInv.new_inst {w : World} (i : LockInv w) : LockInv { w with nextInst := w.nextInst + 1 } where
  fresh := fun j x h => Nat.lt_succ_of_lt (i.fresh j x h)
  freshO := fun n o h => Nat.lt_succ_of_lt (i.freshO n o h)
  freshV := fun n o h => Nat.lt_succ_of_lt (i.freshV n o h)
  nd := i.nd
  hold := i.hold
  rowsNd := i.rowsNd
  cc := i.cc

end Vectory
