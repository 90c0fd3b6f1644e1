import Verif.Lemmas.Locks
import Verif.Lemmas.DbMore
/-! # Locks: every step keeps the invariant and leaves the others alone -/
namespace Vectory

theorem metaCreate_nodup {db : Db} {cfg : Config} {env : CreateEnv} (h : (db.rows.map Row.name).Nodup) :
    (((db.metaCreate cfg env).1).rows.map Row.name).Nodup := by
  have key : ∀ (r : Row), r.name = cfg.name → ¬ (db.rows.any (fun r => decide (r.name = cfg.name)) = true) →
      ((db.rows ++ [r]).map Row.name).Nodup := by
    intro r hr hn
    rw [List.map_append, List.nodup_append]
    refine ⟨h, by simp, fun a ha b hb => ?_⟩
    simp only [List.map_cons, List.map_nil, List.mem_singleton] at hb
    subst hb
    rintro rfl
    obtain ⟨r', hr', he⟩ := List.mem_map.mp ha
    exact hn (List.any_eq_true.mpr ⟨r', hr', by simp [he, hr]⟩)
  unfold Db.metaCreate
  dsimp only
  repeat' split
  all_goals first
    | exact h
    | exact key (Row.mk db.nextId cfg.name cfg.indexType cfg.dataType cfg.embedderType _ _ cfg.mappings) rfl (by assumption)

theorem metaCreate_rows {db : Db} {cfg : Config} {env : CreateEnv} : ∀ r ∈ db.rows, r ∈ (db.metaCreate cfg env).1.rows := by
  intro r hr
  rcases metaCreate_cases db cfg env with ⟨e, h1⟩ | ⟨h1, _⟩ | ⟨_, _, _, _, _, _, _, _, _, _, _, h1, _⟩ |
      ⟨_, _, _, _, _, _, _, _, _, _, h1, _⟩ <;> rw [h1]
  · exact hr
  · exact hr
  · exact List.mem_append_left _ hr
  · exact List.mem_append_left _ hr

theorem metaCreate_dirs {db : Db} {cfg : Config} {env : CreateEnv} : ∀ n d, db.dirs.get? n = some d →
    (db.metaCreate cfg env).1.dirs.get? n = some d := by
  intro n d hd
  rcases metaCreate_cases db cfg env with ⟨e, h1⟩ | ⟨h1, _⟩ | ⟨_, _, _, _, _, _, _, _, _, _, _, h1, _⟩ |
      ⟨_, _, _, _, _, _, _, _, _, _, h1, h2, _⟩ <;> rw [h1]
  · exact hd
  · exact hd
  · exact hd
  · have : cfg.name ≠ n := by
      rintro rfl
      have h2 : (db.dirs.get? cfg.name).isSome = false := h2
      rw [hd] at h2; cases h2
    show (db.dirs.set cfg.name {}).get? n = _
    rw [AMap.get?_set_ne _ _ _ _ this]; exact hd

/-- a new state of one `DB`. -/
theorem LockInv.set_inst {w w' : World} {i : Nat} {x x' : Inst} (I : LockInv w) (hx : w.insts i = some x)
    (hi : w'.insts = upd w.insts i (some x')) (hn : w'.nextInst = w.nextInst) (hr : (w'.rows.map Row.name).Nodup)
    (ho : ∀ n o, w'.objLocks n = some o → w.objLocks n = some o) (hv : ∀ n o, w'.vecLocks n = some o → w.vecLocks n = some o)
    (hnd : x'.colls.keys.Nodup)
    (hcc : ∀ n oc, x'.colls.get? n = some oc → oc.coll.closed = true → oc.coll.counter.closed = true)
    (hown : ∀ n oc, x'.colls.get? n = some oc → oc.Usable →
      w'.objLocks n = some ⟨x'.proc, i⟩ ∧ w'.vecLocks n = some ⟨x'.proc, i⟩ ∧ w'.dirs.get? n = some oc.coll.disk)
    (hoth : ∀ j y n oc, j ≠ i → w.insts j = some y → y.colls.get? n = some oc → oc.Usable →
      w'.objLocks n = w.objLocks n ∧ w'.vecLocks n = w.vecLocks n ∧ w'.dirs.get? n = w.dirs.get? n) : LockInv w' where
  fresh := by
    intro j y h
    rw [hn]
    rw [hi] at h
    by_cases hj : j = i
    · subst hj; exact I.fresh _ _ hx
    · rw [upd_ne _ _ _ _ hj] at h; exact I.fresh _ _ h
  freshO := fun n o h => by rw [hn]; exact I.freshO n o (ho n o h)
  freshV := fun n o h => by rw [hn]; exact I.freshV n o (hv n o h)
  nd := by
    intro j y h
    rw [hi] at h
    by_cases hj : j = i
    · subst hj; rw [upd_self] at h; cases h; exact hnd
    · rw [upd_ne _ _ _ _ hj] at h; exact I.nd _ _ h
  hold := by
    intro j y n oc h h1 h2
    rw [hi] at h
    by_cases hj : j = i
    · subst hj; rw [upd_self] at h; cases h; exact hown n oc h1 h2
    · rw [upd_ne _ _ _ _ hj] at h
      obtain ⟨k1, k2, k3⟩ := hoth j y n oc hj h h1 h2
      rw [k1, k2, k3]
      exact I.hold j y n oc h h1 h2
  rowsNd := hr
  cc := by
    intro j y n oc h h1 h2
    rw [hi] at h
    by_cases hj : j = i
    · subst hj; rw [upd_self] at h; cases h; exact hcc n oc h1 h2
    · rw [upd_ne _ _ _ _ hj] at h
      exact I.cc j y n oc h h1 h2

/-- the collections of a `DB` after one of them changed. -/
theorem LockInv.cc_set {w : World} (I : LockInv w) {i : Nat} {x : Inst} (hx : w.insts i = some x) (name : String) (oc' : OpenColl)
    (h : oc'.coll.closed = true → oc'.coll.counter.closed = true) :
    ∀ n oc, (x.colls.set name oc').get? n = some oc → oc.coll.closed = true → oc.coll.counter.closed = true := by
  intro n oc h1 h2
  by_cases hn : name = n
  · subst hn; rw [AMap.get?_set_self] at h1; cases h1; exact h h2
  · rw [AMap.get?_set_ne _ _ _ _ hn] at h1; exact I.cc i x n oc hx h1 h2

/-- two `DB` values never use one collection. -/
theorem LockInv.excl {w : World} (I : LockInv w) {i j : Nat} {n : String} {a b : OpenColl} (hi : w.Uses i n a) (hj : w.Uses j n b) : i = j := by
  obtain ⟨x, h1, h2, h3⟩ := hi
  obtain ⟨y, k1, k2, k3⟩ := hj
  have := (I.hold i x n a h1 h2 h3).1.symm.trans (I.hold j y n b k1 k2 k3).1
  simpa using (congrArg (Option.map Owner.inst) this)

/-- only locks of `own` are given up, nothing else changes. -/
structure Shrink (own : Owner) (w w' : World) : Prop where
  rows : w'.rows = w.rows
  nextId : w'.nextId = w.nextId
  insts : w'.insts = w.insts
  nextInst : w'.nextInst = w.nextInst
  dirs : w'.dirs = w.dirs
  obj : ∀ n, w'.objLocks n = w.objLocks n ∨ (w.objLocks n = some own ∧ w'.objLocks n = none)
  vec : ∀ n, w'.vecLocks n = w.vecLocks n ∨ (w.vecLocks n = some own ∧ w'.vecLocks n = none)

theorem Shrink.refl (own : Owner) (w : World) : Shrink own w w :=
  ⟨rfl, rfl, rfl, rfl, rfl, fun _ => Or.inl rfl, fun _ => Or.inl rfl⟩

theorem Shrink.trans {own : Owner} {w1 w2 w3 : World} (a : Shrink own w1 w2) (b : Shrink own w2 w3) : Shrink own w1 w3 where
  rows := b.rows.trans a.rows
  nextId := b.nextId.trans a.nextId
  insts := b.insts.trans a.insts
  nextInst := b.nextInst.trans a.nextInst
  dirs := b.dirs.trans a.dirs
  obj := fun n => by
    rcases b.obj n with h | ⟨h1, h2⟩
    · rw [h]; exact a.obj n
    · refine Or.inr ⟨?_, h2⟩
      rcases a.obj n with h | ⟨h, h3⟩
      · rw [← h]; exact h1
      · rw [h3] at h1; cases h1
  vec := fun n => by
    rcases b.vec n with h | ⟨h1, h2⟩
    · rw [h]; exact a.vec n
    · refine Or.inr ⟨?_, h2⟩
      rcases a.vec n with h | ⟨h, h3⟩
      · rw [← h]; exact h1
      · rw [h3] at h1; cases h1

theorem unlock_cases (locks : String → Option Owner) (name : String) (own : Owner) (n : String) :
    unlock locks name own n = locks n ∨ (n = name ∧ locks n = some own ∧ unlock locks name own n = none) := by
  unfold unlock
  split
  · by_cases hn : n = name
    · subst hn; exact Or.inr ⟨rfl, by assumption, upd_self _ _ _⟩
    · exact Or.inl (upd_ne _ _ _ _ hn)
  · exact Or.inl rfl

theorem unlock_own (locks : String → Option Owner) (name : String) (own : Owner) (h : locks name = some own) :
    unlock locks name own name = none := by
  unfold unlock; rw [if_pos h]; exact upd_self _ _ _

theorem unlock_ne (locks : String → Option Owner) (name : String) (own : Owner) (n : String) (h : n ≠ name) :
    unlock locks name own n = locks n := by
  rcases unlock_cases locks name own n with h1 | ⟨h1, _⟩
  · exact h1
  · exact absurd h1 h

theorem close_counter (c : Coll) (b : Bool) : (c.close b).1.counter.closed = true ∧ (c.close b).1.disk = c.disk ∧
    (c.closed = true → (c.close b).1.closed = true) := by
  unfold Coll.close IdCounter.close
  cases hc : c.counter.closed <;> cases b <;> simp [hc, Coll.disk]

theorem closeOne_spec (w : World) (own : Owner) (name : String) (c : Coll) (f : CloseFault) :
    Shrink own w (w.closeOne own name c f).1 ∧
    (∀ n, n ≠ name → (w.closeOne own name c f).1.objLocks n = w.objLocks n ∧ (w.closeOne own name c f).1.vecLocks n = w.vecLocks n) ∧
    (w.closeOne own name c f).2.1.counter.closed = true ∧ (w.closeOne own name c f).2.1.disk = c.disk ∧
    (c.counter.closed = false → (w.closeOne own name c f).2.2 = none → w.objLocks name = some own → w.vecLocks name = some own →
      (w.closeOne own name c f).1.objLocks name = none ∧ (w.closeOne own name c f).1.vecLocks name = none) ∧
    ((w.closeOne own name c f).2.2 = none → (w.closeOne own name c f).2.1.closed = true ∧ c.counter.closed = false) := by
  have hcc := close_counter c (decide (f ≠ .none))
  unfold World.closeOne
  have hnone : (c.close (decide (f ≠ .none))).2 = none → f = .none ∧ (c.close (decide (f ≠ .none))).1.closed = true ∧ c.counter.closed = false := by
    unfold Coll.close IdCounter.close
    cases hc : c.counter.closed <;> cases f <;> simp [hc]
  dsimp only
  have sh1 : Shrink own w { w with objLocks := unlock w.objLocks name own } := by
    refine ⟨rfl, rfl, rfl, rfl, rfl, fun n => ?_, fun _ => Or.inl rfl⟩
    rcases unlock_cases w.objLocks name own n with h | ⟨_, h1, h2⟩
    · exact Or.inl h
    · exact Or.inr ⟨h1, h2⟩
  have sh2 : Shrink own w { w with objLocks := unlock w.objLocks name own, vecLocks := unlock w.vecLocks name own } := by
    refine ⟨rfl, rfl, rfl, rfl, rfl, sh1.obj, fun n => ?_⟩
    rcases unlock_cases w.vecLocks name own n with h | ⟨_, h1, h2⟩
    · exact Or.inl h
    · exact Or.inr ⟨h1, h2⟩
  cases hclosed : c.counter.closed with
  | true =>
    refine ⟨Shrink.refl _ _, fun _ _ => ⟨rfl, rfl⟩, hcc.1, hcc.2.1, (fun h => nomatch h), fun h => ?_⟩
    have := (hnone h).2.2
    rw [hclosed] at this; cases this
  | false =>
    rw [if_neg (by decide)]
    split
    · rename_i hf
      refine ⟨sh1, fun n hn => ⟨unlock_ne _ _ _ _ hn, rfl⟩, hcc.1, hcc.2.1, fun _ h => ?_, fun h => ?_⟩
      · have := (hnone h).1
        rw [hf] at this; cases this
      · exact ⟨(hnone h).2.1, rfl⟩
    · refine ⟨sh2, fun n hn => ⟨unlock_ne _ _ _ _ hn, unlock_ne _ _ _ _ hn⟩, hcc.1, hcc.2.1, fun _ h k1 k2 => ?_, fun h => ?_⟩
      · exact ⟨unlock_own _ _ _ k1, unlock_own _ _ _ k2⟩
      · exact ⟨(hnone h).2.1, rfl⟩

theorem World.closeAll_locks (own : Owner) (f : String → CloseFault) : ∀ (colls : AMap String OpenColl) (w : World), colls.keys.Nodup →
    Shrink own w (World.closeAll own f colls w).1 ∧
    (World.closeAll own f colls w).2.1.keys = colls.keys ∧
    (∀ n, n ∉ colls.keys → (World.closeAll own f colls w).1.objLocks n = w.objLocks n ∧ (World.closeAll own f colls w).1.vecLocks n = w.vecLocks n) ∧
    (∀ n oc, (World.closeAll own f colls w).2.1.get? n = some oc → oc.Usable → colls.get? n = some oc ∧
      (World.closeAll own f colls w).1.objLocks n = w.objLocks n ∧ (World.closeAll own f colls w).1.vecLocks n = w.vecLocks n) ∧
    (∀ n oc, (World.closeAll own f colls w).2.1.get? n = some oc → colls.get? n = some oc ∨ oc.coll.counter.closed = true) ∧
    (∀ n, w.objLocks n = some own → (∀ oc, colls.get? n = some oc → oc.coll.counter.closed = true) →
      (World.closeAll own f colls w).1.objLocks n = some own) ∧
    ((World.closeAll own f colls w).2.2 = none →
      (∀ n oc, (World.closeAll own f colls w).2.1.get? n = some oc → oc.coll.closed = true) ∧
      ∀ n oc, colls.get? n = some oc → oc.coll.closed = false → w.objLocks n = some own → w.vecLocks n = some own →
        (World.closeAll own f colls w).1.objLocks n = none ∧ (World.closeAll own f colls w).1.vecLocks n = none) := by
  intro colls
  induction colls with
  | nil =>
    intro w _
    exact ⟨Shrink.refl _ _, rfl, fun _ _ => ⟨rfl, rfl⟩, (fun n oc h => nomatch h), (fun n oc h => nomatch h), fun _ h _ => h, fun _ => ⟨(fun n oc h => nomatch h), (fun n oc h => nomatch h)⟩⟩
  | cons p rest ih =>
    intro w hnd
    obtain ⟨n0, oc0⟩ := p
    have hnd' := (List.nodup_cons.mp (show (n0 :: AMap.keys rest).Nodup from hnd))
    have hget : ∀ (oc1 : OpenColl) (r : AMap String OpenColl) n, AMap.get? ((n0, oc1) :: r) n = if n0 = n then some oc1 else AMap.get? r n :=
      fun _ _ _ => rfl
    have hkeys : ∀ (oc1 : OpenColl) (r : AMap String OpenColl), AMap.keys ((n0, oc1) :: r) = n0 :: AMap.keys r := fun _ _ => rfl
    have hno : ∀ (r : AMap String OpenColl) (n : String) oc, AMap.keys r = AMap.keys rest → r.get? n = some oc → n ≠ n0 := by
      rintro r n oc hk hg rfl
      apply hnd'.1
      rw [← hk, ← AMap.get?_isSome_iff, hg]; rfl
    rw [World.closeAll]
    by_cases hcl : oc0.coll.closed = true
    · rw [if_pos hcl]
      obtain ⟨a1, a2, a3, a4, a6, a7, a5⟩ := ih w hnd'.2
      generalize World.closeAll own f rest w = res at a1 a2 a3 a4 a5 a6 a7 ⊢
      obtain ⟨w1, rest1, e⟩ := res
      dsimp only at a1 a2 a3 a4 a5 a6 a7 ⊢
      refine ⟨a1, by rw [hkeys, hkeys, a2], fun n hn => ?_, fun n oc hg hu => ?_, fun n oc hg => ?_, fun n h1 h2 => ?_, fun he => ⟨fun n oc hg => ?_, fun n oc hg h1 h2 h3 => ?_⟩⟩
      · rw [hkeys, List.mem_cons, not_or] at hn
        exact a3 n hn.2
      · rw [hget] at hg ⊢
        by_cases h0 : n0 = n
        · rw [if_pos h0] at hg
          cases hg
          rw [hu.1] at hcl; cases hcl
        · rw [if_neg h0] at hg ⊢
          exact a4 n oc hg hu
      · rw [hget] at hg ⊢
        by_cases h0 : n0 = n
        · rw [if_pos h0] at hg ⊢; exact Or.inl hg
        · rw [if_neg h0] at hg ⊢; exact a6 n oc hg
      · by_cases h0 : n0 = n
        · subst h0; rw [(a3 n0 hnd'.1).1]; exact h1
        · refine a7 n h1 (fun oc hg => h2 oc ?_)
          rw [hget, if_neg h0]; exact hg
      · rw [hget] at hg
        by_cases h0 : n0 = n
        · rw [if_pos h0] at hg; cases hg; exact hcl
        · rw [if_neg h0] at hg; exact (a5 he).1 n oc hg
      · rw [hget] at hg
        by_cases h0 : n0 = n
        · rw [if_pos h0] at hg; cases hg; rw [h1] at hcl; cases hcl
        · rw [if_neg h0] at hg; exact (a5 he).2 n oc hg h1 h2 h3
    · rw [if_neg hcl]
      obtain ⟨b1, b2, b3, b4, b5, b6⟩ := closeOne_spec w own n0 oc0.coll (f n0)
      have hfirst : oc0.coll.counter.closed = true → (w.closeOne own n0 oc0.coll (f n0)).1 = w := by
        intro hc; unfold World.closeOne; dsimp only; rw [if_pos hc]
      generalize w.closeOne own n0 oc0.coll (f n0) = res at b1 b2 b3 b4 b5 b6 hfirst ⊢
      obtain ⟨w1, c1, e1⟩ := res
      dsimp only at b1 b2 b3 b4 b5 b6 hfirst
      have hkeep : ∀ n, w.objLocks n = some own → (n0 = n → oc0.coll.counter.closed = true) → w1.objLocks n = some own := by
        intro n h1 h2
        by_cases h0 : n0 = n
        · rw [hfirst (h2 h0)]; exact h1
        · rw [(b2 n (Ne.symm h0)).1]; exact h1
      have hunus : ¬ OpenColl.Usable { oc0 with coll := c1 } := fun h => by
        have := h.2; dsimp only at this; rw [b3] at this; cases this
      cases e1 with
      | some e =>
        dsimp only
        refine ⟨b1, rfl, fun n hn => ?_, fun n oc hg hu => ?_, fun n oc hg => ?_, fun n h1 h2 => ?_, (fun h => nomatch h)⟩
        · rw [hkeys, List.mem_cons, not_or] at hn
          exact b2 n hn.1
        · rw [hget] at hg ⊢
          by_cases h0 : n0 = n
          · rw [if_pos h0] at hg; cases hg; exact absurd hu hunus
          · rw [if_neg h0] at hg ⊢
            exact ⟨hg, b2 n (Ne.symm h0)⟩
        · rw [hget] at hg ⊢
          by_cases h0 : n0 = n
          · rw [if_pos h0] at hg; cases hg; exact Or.inr b3
          · rw [if_neg h0] at hg ⊢; exact Or.inl hg
        · exact hkeep n h1 (fun h0 => h2 oc0 (by rw [hget, if_pos h0]))
      | none =>
        dsimp only
        obtain ⟨a1, a2, a3, a4, a6, a7, a5⟩ := ih w1 hnd'.2
        generalize World.closeAll own f rest w1 = res at a1 a2 a3 a4 a5 a6 a7 ⊢
        obtain ⟨w2, rest1, e⟩ := res
        dsimp only at a1 a2 a3 a4 a5 a6 a7 ⊢
        refine ⟨b1.trans a1, by rw [hkeys, hkeys, a2], fun n hn => ?_, fun n oc hg hu => ?_, fun n oc hg => ?_, fun n h1 h2 => ?_, fun he => ⟨fun n oc hg => ?_, fun n oc hg h1 h2 h3 => ?_⟩⟩
        · rw [hkeys, List.mem_cons, not_or] at hn
          obtain ⟨k1, k2⟩ := a3 n hn.2
          obtain ⟨k3, k4⟩ := b2 n hn.1
          exact ⟨k1.trans k3, k2.trans k4⟩
        · rw [hget] at hg ⊢
          by_cases h0 : n0 = n
          · rw [if_pos h0] at hg; cases hg; exact absurd hu hunus
          · rw [if_neg h0] at hg ⊢
            obtain ⟨k0, k1, k2⟩ := a4 n oc hg hu
            obtain ⟨k3, k4⟩ := b2 n (Ne.symm h0)
            exact ⟨k0, k1.trans k3, k2.trans k4⟩
        · rw [hget] at hg ⊢
          by_cases h0 : n0 = n
          · rw [if_pos h0] at hg; cases hg; exact Or.inr b3
          · rw [if_neg h0] at hg ⊢; exact a6 n oc hg
        · have k := hkeep n h1 (fun h0 => h2 oc0 (by rw [hget, if_pos h0]))
          by_cases h0 : n0 = n
          · subst h0; rw [(a3 n0 hnd'.1).1]; exact k
          · refine a7 n k (fun oc hg => h2 oc ?_)
            rw [hget, if_neg h0]; exact hg
        · rw [hget] at hg
          by_cases h0 : n0 = n
          · rw [if_pos h0] at hg; cases hg; exact (b6 rfl).1
          · rw [if_neg h0] at hg; exact (a5 he).1 n oc hg
        · rw [hget] at hg
          by_cases h0 : n0 = n
          · rw [if_pos h0] at hg; cases hg
            subst h0
            obtain ⟨k1, k2⟩ := b5 (b6 rfl).2 rfl h2 h3
            obtain ⟨k3, k4⟩ := a3 n0 hnd'.1
            exact ⟨k3.trans k1, k4.trans k2⟩
          · rw [if_neg h0] at hg
            obtain ⟨k3, k4⟩ := b2 n (Ne.symm h0)
            exact (a5 he).2 n oc hg h1 (k3.trans h2) (k4.trans h3)

end Vectory
