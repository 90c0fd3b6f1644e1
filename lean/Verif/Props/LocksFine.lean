import Verif.Props.LocksDemo
/-!
# C85: when nothing goes wrong, no lock is leaked
-/
namespace Vectory

theorem WFine.reach {w : World} (h : WFine w) : WReach w := by
  induction h with
  | new => exact .new
  | step _ ht hs _ ih => exact .step ih ht hs

theorem openOne_ne (w : World) (own : Owner) (cfg : Config) (f : OpenFaults) (n : String) (h : n ≠ cfg.name) :
    (w.openOne own cfg f).1.objLocks n = w.objLocks n ∧ (w.openOne own cfg f).1.vecLocks n = w.vecLocks n := by
  have h1 : upd w.objLocks cfg.name (some own) n = w.objLocks n := upd_ne _ _ _ _ h
  have h2 : upd w.vecLocks cfg.name (some own) n = w.vecLocks n := upd_ne _ _ _ _ h
  unfold World.openOne
  dsimp only
  repeat' split
  all_goals first
    | exact ⟨rfl, rfl⟩
    | exact ⟨h1, rfl⟩
    | exact ⟨h1, h2⟩

theorem openRows_locks (own : Owner) (f : String → OpenFaults) : ∀ (rows : List Row) (w : World) (colls colls' : AMap String OpenColl),
    (World.openRows own f rows w colls).2 = .ok colls' → ∀ n,
    ((∃ oc, colls.get? n = some oc ∧ oc.Usable) → ∃ oc, colls'.get? n = some oc ∧ oc.Usable) ∧
    (((World.openRows own f rows w colls).1.objLocks n = w.objLocks n ∧ (World.openRows own f rows w colls).1.vecLocks n = w.vecLocks n) ∨
      ∃ oc, colls'.get? n = some oc ∧ oc.Usable) := by
  intro rows
  induction rows with
  | nil => intro w colls colls' h n; cases h; exact ⟨fun h => h, Or.inl ⟨rfl, rfl⟩⟩
  | cons r rest ih =>
    intro w colls colls' h n
    obtain ⟨_, hok, _⟩ := openOne_spec w own r.config (f r.name)
    have hne := openOne_ne w own r.config (f r.name)
    rw [World.openRows] at h ⊢
    generalize w.openOne own r.config (f r.name) = res at hok hne h ⊢
    obtain ⟨w1, out⟩ := res
    cases out with
    | error a => cases h
    | ok c =>
      dsimp only at hok hne h ⊢
      obtain ⟨_, _, _, _, _, k6, k7, _⟩ := hok c rfl
      have hu : OpenColl.Usable { id := r.id, config := r.config, coll := c } := ⟨k6, k7⟩
      obtain ⟨q1, q2⟩ := ih w1 _ colls' h n
      by_cases hn : r.name = n
      · subst hn
        have := q1 ⟨_, AMap.get?_set_self _ _ _, hu⟩
        exact ⟨fun _ => this, Or.inr this⟩
      · refine ⟨fun ⟨oc, h1, h2⟩ => q1 ⟨oc, by rw [AMap.get?_set_ne _ _ _ _ hn]; exact h1, h2⟩, ?_⟩
        obtain ⟨e1, e2⟩ := hne n (Ne.symm hn)
        rcases q2 with ⟨q3, q4⟩ | q
        · exact Or.inl ⟨q3.trans e1, q4.trans e2⟩
        · exact Or.inr q

/-- when no store fails to close, a usable collection is either closed and its locks are given up, or untouched. -/
theorem World.closeAll_keeps (own : Owner) (f : String → CloseFault) (hf : ∀ n, f n = .none) : ∀ (colls : AMap String OpenColl) (w : World),
    colls.keys.Nodup → (∀ n oc, colls.get? n = some oc → oc.Usable → w.objLocks n = some own ∧ w.vecLocks n = some own) →
    ∀ n oc, colls.get? n = some oc → oc.Usable →
      ((World.closeAll own f colls w).1.objLocks n = none ∧ (World.closeAll own f colls w).1.vecLocks n = none) ∨
      (World.closeAll own f colls w).2.1.get? n = some oc := by
  intro colls
  induction colls with
  | nil => intro w _ _ n oc h; cases h
  | cons p rest ih =>
    intro w hnd hh n oc hg hu
    obtain ⟨n0, oc0⟩ := p
    have hnd' := (List.nodup_cons.mp (show (n0 :: AMap.keys rest).Nodup from hnd))
    have hget : ∀ (oc1 : OpenColl) (r : AMap String OpenColl) n, AMap.get? ((n0, oc1) :: r) n = if n0 = n then some oc1 else AMap.get? r n :=
      fun _ _ _ => rfl
    have hrest : ∀ m oc', AMap.get? rest m = some oc' → m ≠ n0 := by
      rintro m oc' h rfl
      apply hnd'.1
      rw [← AMap.get?_isSome_iff, h]; rfl
    rw [World.closeAll]
    by_cases hcl : oc0.coll.closed = true
    · rw [if_pos hcl]
      have h0 : n0 ≠ n := by
        rintro rfl
        rw [hget, if_pos rfl] at hg
        cases hg
        rw [hu.1] at hcl; cases hcl
      rw [hget, if_neg h0] at hg
      have hh' : ∀ m oc', AMap.get? rest m = some oc' → oc'.Usable → w.objLocks m = some own ∧ w.vecLocks m = some own :=
        fun m oc' h1 h2 => hh m oc' (by rw [hget, if_neg (Ne.symm (hrest m oc' h1))]; exact h1) h2
      have := ih w hnd'.2 hh' n oc hg hu
      generalize World.closeAll own f rest w = res at this ⊢
      obtain ⟨w1, r1, e⟩ := res
      dsimp only at this ⊢
      rw [hget, if_neg h0]
      exact this
    · rw [if_neg hcl]
      obtain ⟨b1, b2, _⟩ := closeOne_spec w own n0 oc0.coll (f n0)
      have hfree : oc0.Usable → (w.closeOne own n0 oc0.coll (f n0)).1.objLocks n0 = none ∧ (w.closeOne own n0 oc0.coll (f n0)).1.vecLocks n0 = none := by
        intro h3
        obtain ⟨h1, h2⟩ := hh n0 oc0 (by rw [hget, if_pos rfl]) h3
        refine (closeOne_spec w own n0 oc0.coll (f n0)).2.2.2.2.1 h3.2 ?_ h1 h2
        rw [hf]
        unfold World.closeOne Coll.close IdCounter.close
        dsimp only
        rw [h3.2]
        rfl
      generalize w.closeOne own n0 oc0.coll (f n0) = res at b1 b2 hfree ⊢
      obtain ⟨w1, c1, e1⟩ := res
      dsimp only at b1 b2 hfree
      have hw1 : ∀ m oc', AMap.get? rest m = some oc' → oc'.Usable → w1.objLocks m = some own ∧ w1.vecLocks m = some own := by
        intro m oc' h1 h2
        obtain ⟨k1, k2⟩ := b2 m (hrest m oc' h1)
        rw [k1, k2]
        exact hh m oc' (by rw [hget, if_neg (Ne.symm (hrest m oc' h1))]; exact h1) h2
      cases e1 with
      | some e =>
        dsimp only
        by_cases h0 : n0 = n
        · subst h0
          rw [hget, if_pos rfl] at hg
          cases hg
          exact Or.inl (hfree hu)
        · rw [hget, if_neg h0] at hg ⊢
          exact Or.inr hg
      | none =>
        dsimp only
        have hnone := (World.closeAll_locks own f rest w1 hnd'.2).2.2.1 n0 hnd'.1
        have hih := ih w1 hnd'.2 hw1 n oc
        generalize World.closeAll own f rest w1 = res at hnone hih ⊢
        obtain ⟨w2, r2, e2⟩ := res
        dsimp only at hnone hih ⊢
        by_cases h0 : n0 = n
        · subst h0
          rw [hget, if_pos rfl] at hg
          cases hg
          obtain ⟨k1, k2⟩ := hfree hu
          exact Or.inl ⟨hnone.1.trans k1, hnone.2.trans k2⟩
        · rw [hget, if_neg h0] at hg ⊢
          exact hih hg hu

theorem WFine.noLeak {w : World} (h : WFine w) : w.NoLeak := by
  induction h with
  | new => intro n o h; rcases h with h | h <;> cases h
  | @step w w' a o hw ht hs hf ih =>
    have I := hw.reach.inv
    cases a with
    | «open» proc f =>
      have hw' : w.open proc f = (w', o) := Option.some.inj hs
      have hok : o = .ok := hf
      subst hok
      obtain ⟨g, _⟩ := openRows_spec ⟨proc, w.nextInst⟩ f w.rows { w with nextInst := w.nextInst + 1 } []
      have hlocks := openRows_locks ⟨proc, w.nextInst⟩ f w.rows { w with nextInst := w.nextInst + 1 } []
      unfold World.open at hw'
      dsimp only at hw'
      generalize World.openRows ⟨proc, w.nextInst⟩ f w.rows { w with nextInst := w.nextInst + 1 } [] = res at g hw' hlocks
      obtain ⟨w1, out⟩ := res
      dsimp only at g hw' hlocks
      cases out with
      | error a => cases a <;> cases hw'
      | ok colls =>
        cases hw'
        intro n o ho
        have hold : ∀ o, (w.objLocks n = some o ∨ w.vecLocks n = some o) →
            ∃ oc, World.Uses { w1 with insts := upd w1.insts w.nextInst (some { proc := proc, colls := colls }) } o.inst n oc := by
          intro o ho
          obtain ⟨oc, x, h1, h2, h3⟩ := ih n o ho
          refine ⟨oc, x, ?_, h2, h3⟩
          show upd w1.insts w.nextInst _ o.inst = some x
          have : o.inst ≠ w.nextInst := fun hh => absurd (hh ▸ I.fresh _ _ h1) (Nat.lt_irrefl _)
          rw [upd_ne _ _ _ _ this, g.insts]; exact h1
        have hnew : (∃ oc, colls.get? n = some oc ∧ oc.Usable) →
            ∃ oc, World.Uses { w1 with insts := upd w1.insts w.nextInst (some { proc := proc, colls := colls }) } w.nextInst n oc :=
          fun ⟨oc, h1, h2⟩ => ⟨oc, _, upd_self _ _ _, h1, h2⟩
        have ho : w1.objLocks n = some o ∨ w1.vecLocks n = some o := ho
        have hcase : (w.objLocks n = some o ∨ w.vecLocks n = some o) ∨ o = ⟨proc, w.nextInst⟩ := by
          rcases ho with h | h
          · exact (g.objNew n o h).imp Or.inl (fun h => h)
          · exact (g.vecNew n o h).imp Or.inr (fun h => h)
        rcases hcase with h | rfl
        · exact hold o h
        · rcases (hlocks colls rfl n).2 with ⟨e1, e2⟩ | h
          · have e1 : w1.objLocks n = w.objLocks n := e1
            have e2 : w1.vecLocks n = w.vecLocks n := e2
            rw [e1, e2] at ho
            exact hold _ ho
          · exact hnew h
    | create i cfg env f =>
      simp only [World.step] at hs
      cases hx : w.insts i with
      | none => rw [hx] at hs; cases hs
      | some x =>
        rw [hx] at hs
        have hw' : w.create i x cfg env f = (w', o) := Option.some.inj hs
        have hok : o = .ok := hf
        subst hok
        unfold World.create at hw'
        split at hw'
        · cases hw'
        · split at hw'
          · cases hw'
          · split at hw'
            · cases hw'
            · dsimp only at hw'
              generalize (w.view x).metaCreate cfg env = m at hw'
              obtain ⟨db, r⟩ := m
              cases r with
              | error e => cases hw'
              | ok id =>
                dsimp only at hw'
                obtain ⟨g, hok, _⟩ := openOne_spec { w with rows := db.rows, nextId := db.nextId, dirs := db.dirs } ⟨x.proc, i⟩ cfg f
                have hne := openOne_ne { w with rows := db.rows, nextId := db.nextId, dirs := db.dirs } ⟨x.proc, i⟩ cfg f
                generalize World.openOne { w with rows := db.rows, nextId := db.nextId, dirs := db.dirs } ⟨x.proc, i⟩ cfg f = res at g hok hw' hne
                obtain ⟨w1, out⟩ := res
                dsimp only at g hok hw' hne
                cases out with
                | error a => cases a <;> cases hw'
                | ok c =>
                  cases hw'
                  obtain ⟨k1, k2, k3, k4, k5, k6, k7, _⟩ := hok c rfl
                  intro n o ho
                  have ho : w1.objLocks n = some o ∨ w1.vecLocks n = some o := ho
                  by_cases hn : n = cfg.name
                  · subst hn
                    rw [k3, k4] at ho
                    have : o = ⟨x.proc, i⟩ := by
                      rcases ho with h | h <;> exact (Option.some.inj h).symm
                    subst this
                    exact ⟨_, _, upd_self _ _ _, AMap.get?_set_self _ _ _, k6, k7⟩
                  · obtain ⟨e1, e2⟩ := hne n hn
                    rw [e1, e2] at ho
                    obtain ⟨oc, y, h1, h2, h3⟩ := ih n o ho
                    by_cases hi : o.inst = i
                    · rw [hi, hx] at h1
                      cases h1
                      rw [hi]
                      exact ⟨oc, _, upd_self _ _ _, (AMap.get?_set_ne _ _ _ _ (Ne.symm hn)).trans h2, h3⟩
                    · refine ⟨oc, y, ?_, h2, h3⟩
                      show upd w1.insts i _ o.inst = some y
                      rw [upd_ne _ _ _ _ hi, g.insts]; exact h1
    | drop i name ef rf =>
      simp only [World.step] at hs
      cases hx : w.insts i with
      | none => rw [hx] at hs; cases hs
      | some x =>
        rw [hx] at hs
        have hw' : w.drop i x name ef rf = (w', o) := Option.some.inj hs
        unfold World.drop Db.delete at hw'
        have hsame : ∀ rows, World.NoLeak { w with rows := rows } := fun rows n o ho => ih n o ho
        by_cases h1 : (w.view x).closed = true
        · rw [if_pos h1] at hw'; cases hw'; exact hsame _
        rw [if_neg h1] at hw'
        by_cases h2 : (w.view x).colls.has name = false
        · rw [if_pos h2] at hw'; cases hw'; exact hsame _
        rw [if_neg h2] at hw'
        by_cases h3 : (ef || (w.view x).metaClosed) = true
        · rw [if_pos h3] at hw'; cases hw'; exact hsame _
        rw [if_neg h3] at hw'
        by_cases h4 : ((w.view x).rows.any (fun r => decide (r.name = name))) = false
        · rw [if_pos h4] at hw'; cases hw'; exact hsame _
        rw [if_neg h4] at hw'
        dsimp only at hw'
        cases rf with
        | true => cases hw'; exact hsame _
        | false =>
          cases hw'
          intro n o ho
          have ho : upd w.objLocks name none n = some o ∨ upd w.vecLocks name none n = some o := ho
          have hn : n ≠ name := by
            rintro rfl
            rw [upd_self, upd_self] at ho
            rcases ho with h | h <;> cases h
          rw [upd_ne _ _ _ _ hn, upd_ne _ _ _ _ hn] at ho
          obtain ⟨oc, y, h1, h2, h3⟩ := ih n o ho
          by_cases hi : o.inst = i
          · rw [hi, hx] at h1
            cases h1
            rw [hi]
            exact ⟨oc, _, upd_self _ _ _, (AMap.get?_erase_ne _ _ _ (Ne.symm hn)).trans h2, h3⟩
          · exact ⟨oc, y, (upd_ne _ _ _ _ hi).trans h1, h2, h3⟩
    | call i name c =>
      simp only [World.step] at hs
      cases hx : w.insts i with
      | none => rw [hx] at hs; cases hs
      | some x =>
        rw [hx] at hs
        dsimp only at hs
        cases hg : x.colls.get? name with
        | none => rw [hg] at hs; cases hs
        | some oc =>
          rw [hg] at hs
          dsimp only at hs
          split at hs
          · cases hs
          · rename_i hcl
            cases hs
            simp only [Bool.or_eq_true, not_or, Bool.not_eq_true] at hcl
            intro n o ho
            obtain ⟨oc', y, h1, h2, h3⟩ := ih n o ho
            by_cases hi : o.inst = i
            · rw [hi, hx] at h1
              cases h1
              rw [hi]
              by_cases hn : name = n
              · subst hn
                exact ⟨_, _, upd_self _ _ _, AMap.get?_set_self _ _ _, hcl.1.2, hcl.2⟩
              · exact ⟨oc', _, upd_self _ _ _, (AMap.get?_set_ne _ _ _ _ hn).trans h2, h3⟩
            · exact ⟨oc', y, (upd_ne _ _ _ _ hi).trans h1, h2, h3⟩
    | closeColl i name f =>
      have hf : f = .none := hf
      subst hf
      simp only [World.step] at hs
      cases hx : w.insts i with
      | none => rw [hx] at hs; cases hs
      | some x =>
        rw [hx] at hs
        dsimp only at hs
        cases hg : x.colls.get? name with
        | none => rw [hg] at hs; cases hs
        | some oc =>
          rw [hg] at hs
          dsimp only at hs
          obtain ⟨b1, b2, _⟩ := closeOne_spec w ⟨x.proc, i⟩ name oc.coll .none
          have hfree : w.objLocks name = some ⟨x.proc, i⟩ → w.vecLocks name = some ⟨x.proc, i⟩ → oc.Usable →
              (w.closeOne ⟨x.proc, i⟩ name oc.coll .none).1.objLocks name = none ∧
              (w.closeOne ⟨x.proc, i⟩ name oc.coll .none).1.vecLocks name = none := by
            intro h1 h2 h3
            have := (closeOne_spec w ⟨x.proc, i⟩ name oc.coll .none).2.2.2.2.1 h3.2 ?_ h1 h2
            · exact this
            · unfold World.closeOne Coll.close IdCounter.close
              dsimp only
              rw [h3.2]
              rfl
          generalize w.closeOne ⟨x.proc, i⟩ name oc.coll .none = res at hs b1 b2 hfree
          obtain ⟨w1, c1, e1⟩ := res
          dsimp only at hs b1 b2 hfree
          cases hs
          intro n o ho
          have ho : w1.objLocks n = some o ∨ w1.vecLocks n = some o := ho
          have ho' : w.objLocks n = some o ∨ w.vecLocks n = some o := by
            rcases ho with h | h
            · rcases b1.obj n with k | ⟨_, k⟩
              · exact Or.inl (k ▸ h)
              · rw [k] at h; cases h
            · rcases b1.vec n with k | ⟨_, k⟩
              · exact Or.inr (k ▸ h)
              · rw [k] at h; cases h
          obtain ⟨oc', y, h1, h2, h3⟩ := ih n o ho'
          by_cases hi : o.inst = i
          · rw [hi, hx] at h1
            cases h1
            by_cases hn : name = n
            · subst hn
              rw [hg] at h2
              cases h2
              obtain ⟨k1, k2, _⟩ := I.hold i x name oc hx hg h3
              obtain ⟨f1, f2⟩ := hfree k1 k2 h3
              rw [f1, f2] at ho
              rcases ho with h | h <;> cases h
            · rw [hi]
              exact ⟨oc', _, upd_self _ _ _, (AMap.get?_set_ne _ _ _ _ hn).trans h2, h3⟩
          · refine ⟨oc', y, ?_, h2, h3⟩
            show upd w1.insts i _ o.inst = some y
            rw [upd_ne _ _ _ _ hi, b1.insts]; exact h1
    | close i mf f =>
      have hf : ∀ n, f n = .none := hf
      simp only [World.step] at hs
      cases hx : w.insts i with
      | none => rw [hx] at hs; cases hs
      | some x =>
        rw [hx] at hs
        have hw' : w.close i x mf f = (w', o) := Option.some.inj hs
        unfold World.close at hw'
        cases mf with
        | true => cases hw'; exact ih
        | false =>
          rw [if_neg (by decide)] at hw'
          have key := World.closeAll_keeps ⟨x.proc, i⟩ f hf x.colls w (I.nd i x hx)
            (fun n oc hg hu => ⟨(I.hold i x n oc hx hg hu).1, (I.hold i x n oc hx hg hu).2.1⟩)
          obtain ⟨a1, _⟩ := World.closeAll_locks ⟨x.proc, i⟩ f x.colls w (I.nd i x hx)
          generalize World.closeAll ⟨x.proc, i⟩ f x.colls w = res at hw' a1 key
          obtain ⟨w1, colls, e⟩ := res
          dsimp only at hw' a1 key
          have main : ∀ x' : Inst, x'.colls = colls → World.NoLeak { w1 with insts := upd w1.insts i (some x') } := by
            intro x' hc n o ho
            have ho : w1.objLocks n = some o ∨ w1.vecLocks n = some o := ho
            have ho' : w.objLocks n = some o ∨ w.vecLocks n = some o := by
              rcases ho with h | h
              · rcases a1.obj n with k | ⟨_, k⟩
                · exact Or.inl (k ▸ h)
                · rw [k] at h; cases h
              · rcases a1.vec n with k | ⟨_, k⟩
                · exact Or.inr (k ▸ h)
                · rw [k] at h; cases h
            obtain ⟨oc, y, h1, h2, h3⟩ := ih n o ho'
            by_cases hi : o.inst = i
            · rw [hi, hx] at h1
              cases h1
              rw [hi]
              rcases key n oc h2 h3 with ⟨k1, k2⟩ | k
              · rw [k1, k2] at ho
                rcases ho with h | h <;> cases h
              · exact ⟨oc, x', upd_self _ _ _, by rw [hc]; exact k, h3⟩
            · refine ⟨oc, y, ?_, h2, h3⟩
              show upd w1.insts i _ o.inst = some y
              rw [upd_ne _ _ _ _ hi, a1.insts]; exact h1
          cases e with
          | some e => cases hw'; exact main _ rfl
          | none => cases hw'; exact main _ rfl
    | exit p =>
      cases hs
      intro n o ho
      have hp : (w.objLocks n = some o ∨ w.vecLocks n = some o) ∧ o.proc ≠ p := by
        rcases ho with h | h
        · have := filter_some.mp h
          exact ⟨Or.inl this.1, by simpa using this.2⟩
        · have := filter_some.mp h
          exact ⟨Or.inr this.1, by simpa using this.2⟩
      obtain ⟨oc, y, h1, h2, h3⟩ := ih n o hp.1
      obtain ⟨k1, k2, _⟩ := I.hold _ y n oc h1 h2 h3
      have ho : o = ⟨y.proc, o.inst⟩ := by
        rcases hp.1 with h | h
        · rw [k1] at h; exact (Option.some.inj h).symm
        · rw [k2] at h; exact (Option.some.inj h).symm
      refine ⟨oc, y, filter_some.mpr ⟨h1, ?_⟩, h2, h3⟩
      have : y.proc = o.proc := by rw [ho]
      simpa [this] using hp.2

/-- **C85**: in runs in which no `Open` or `CreateCollection` fails and every store closes without an error, a lock is only ever held for a `DB`
that has the collection open. -/
theorem C85_no_leak {w : World} (h : WFine w) : w.NoLeak := h.noLeak

/-- **C85**: in such runs, when the only `DB` is closed without an error, the next `Open` (in whatever process) does what `Open` does for a single
user of the directory, on the rows and the files as they were. -/
theorem C85_close_then_open {w w' : World} (h : WFine w) {i : Nat} (hone : ∀ j, j ≠ i → w.insts j = none) {mf : Bool}
    {f : String → CloseFault} (hf : ∀ n, f n = .none) (hs : w.step (.close i mf f) = some (w', .ok)) (hx : ∀ r ∈ w.rows, r.indexType = "hnsw") (proc : Nat) :
    (∀ db, w.alone.reopen = .ok db → (w'.open proc (fun _ => {})).2 = .ok ∧ (w'.open proc (fun _ => {})).1.dirs = db.dirs ∧
      (w'.open proc (fun _ => {})).1.insts w'.nextInst = some { proc := proc, colls := db.colls }) ∧
    (∀ e, w.alone.reopen = .error (.error e) → (w'.open proc (fun _ => {})).2 = .err e) ∧
    (∀ p, w.alone.reopen = .error (.panic p) → (w'.open proc (fun _ => {})).2 = .panicked p) := by
  obtain ⟨k1, k2, _, k4⟩ := C85_close_frees h.reach hone h.noLeak hs
  have := C85_alone (WFine.step (a := .close i mf f) h trivial hs hf).reach k1 (by rw [k2]; exact hx) proc
  rw [k4] at this
  exact this

/-- **C85**: when a process ends, at whatever moment, its locks are gone: if no other process has a `DB` open, the next `Open` is that of a single
user, however much was leaked. -/
theorem C85_exit_then_open {w : World} (h : WReach w) {p : Nat} (hone : ∀ n o, w.objLocks n = some o ∨ w.vecLocks n = some o → o.proc = p)
    (hx : ∀ r ∈ w.rows, r.indexType = "hnsw") (proc : Nat) :
    (∀ db, w.alone.reopen = .ok db → ((w.exit p).open proc (fun _ => {})).2 = .ok ∧ ((w.exit p).open proc (fun _ => {})).1.dirs = db.dirs ∧
      ((w.exit p).open proc (fun _ => {})).1.insts w.nextInst = some { proc := proc, colls := db.colls }) ∧
    (∀ e, w.alone.reopen = .error (.error e) → ((w.exit p).open proc (fun _ => {})).2 = .err e) ∧
    (∀ q, w.alone.reopen = .error (.panic q) → ((w.exit p).open proc (fun _ => {})).2 = .panicked q) := by
  refine C85_alone (w := w.exit p) (.step (a := .exit p) (o := .ok) h trivial rfl) (fun n => ⟨?_, ?_⟩) hx proc
  · show (w.objLocks n).filter _ = none
    cases ho : w.objLocks n with
    | none => rfl
    | some o => simp [Option.filter, hone n o (Or.inl ho)]
  · show (w.vecLocks n).filter _ = none
    cases ho : w.vecLocks n with
    | none => rfl
    | some o => simp [Option.filter, hone n o (Or.inr ho)]

/-- a run of the kind of `C85_close_then_open`: nothing fails, the second `Open` succeeds. -/
theorem C85_run_fine : World.outcomes true (lockRun ++ [wClose 0, wOpen 2, wClose 1, wOpen 1]) = some [.ok, .ok, .ok, .ok, .ok, .ok, .ok, .ok] := by
  decide +kernel

/-- the state after one more step. -/
def World.next (w : World) (a : WAct) : World := ((w.step a).map (·.1)).getD w

theorem WFine.next {w : World} (h : WFine w) (a : WAct) (ht : w.tidyB a = true) (hs : (w.step a).map (·.2) = some .ok) (hf : a.Fine .ok) :
    WFine (w.next a) := by
  unfold World.next
  cases hh : w.step a with
  | none => rw [hh] at hs; cases hs
  | some p =>
    obtain ⟨w1, o⟩ := p
    rw [hh] at hs
    cases hs
    exact .step h (World.tidyB_sound ht) hh hf

/-- the hypotheses of `C85_close_then_open` are met: one `DB` with a collection, closed. -/
example : WFine ((World.next {} (wOpen 1)).next (wCreate 0 "x")) ∧
    (∀ j, j ≠ 0 → ((World.next {} (wOpen 1)).next (wCreate 0 "x")).insts j = none) ∧
    (((World.next {} (wOpen 1)).next (wCreate 0 "x")).step (wClose 0)).map (·.2) = some .ok := by
  have hf : WFine ((World.next {} (wOpen 1)).next (wCreate 0 "x")) :=
    (WFine.new.next (wOpen 1) (by decide +kernel) (by decide +kernel) rfl).next (wCreate 0 "x") (by decide +kernel) (by decide +kernel) rfl
  refine ⟨hf, fun j hj => ?_, by decide +kernel⟩
  have hn : ((World.next {} (wOpen 1)).next (wCreate 0 "x")).nextInst = 1 := by decide +kernel
  cases hx : ((World.next {} (wOpen 1)).next (wCreate 0 "x")).insts j with
  | none => rfl
  | some x =>
    have := hf.reach.inv.fresh j x hx
    rw [hn] at this
    exact absurd (Nat.lt_one_iff.mp this) hj

end Vectory
