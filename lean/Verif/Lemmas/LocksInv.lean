import Verif.Lemmas.LocksStep
/-! # Locks: the invariant in every reachable state -/
namespace Vectory

theorem LockInv.open {w : World} (I : LockInv w) (proc : Nat) (f : String → OpenFaults) :
    LockInv (w.open proc f).1 ∧ (w.open proc f).1.rows = w.rows ∧
    (∀ n d, w.dirs.get? n = some d → (w.open proc f).1.dirs.get? n = some d) ∧
    (∀ j x, w.insts j = some x → ((∀ q, (w.open proc f).2 ≠ .panicked q) ∨ x.proc ≠ proc) → (w.open proc f).1.insts j = some x) ∧
    (∀ n o, w.objLocks n = some o → ((∀ q, (w.open proc f).2 ≠ .panicked q) ∨ o.proc ≠ proc) → (w.open proc f).1.objLocks n = some o) ∧
    ((w.open proc f).2 = .ok → ∀ r ∈ w.rows, w.objLocks r.name = none) ∧
    (∀ j n oc, (w.open proc f).1.Uses j n oc → w.Uses j n oc ∨ w.objLocks n = none) := by
  obtain ⟨g, hok⟩ := openRows_spec ⟨proc, w.nextInst⟩ f w.rows { w with nextInst := w.nextInst + 1 } []
  have I1 := I.new_inst
  have I2 := I1.grow g (Nat.lt_succ_self _)
  unfold World.open
  dsimp only
  generalize World.openRows ⟨proc, w.nextInst⟩ f w.rows { w with nextInst := w.nextInst + 1 } [] = res at g hok I2 ⊢
  obtain ⟨w', r⟩ := res
  dsimp only at g hok I2 ⊢
  cases r with
  | error a =>
    cases a with
    | error e =>
      refine ⟨I2, g.rows, g.dirs, fun j x h _ => by rw [g.insts]; exact h, fun n o h _ => g.obj n o h, (fun h => nomatch h), ?_⟩
      rintro j n oc ⟨x, h1, h2, h3⟩
      rw [g.insts] at h1
      exact Or.inl ⟨x, h1, h2, h3⟩
    | panic p =>
      refine ⟨I2.exit proc, g.rows, g.dirs, fun j x h hp => ?_, fun n o h hp => ?_, (fun h => nomatch h), ?_⟩
      rotate_left 2
      · rintro j n oc ⟨x, h1, h2, h3⟩
        have h1 := (filter_some.mp h1).1
        rw [g.insts] at h1
        exact Or.inl ⟨x, h1, h2, h3⟩
      · rcases hp with hp | hp
        · exact absurd rfl (hp p)
        · exact filter_some.mpr ⟨by rw [g.insts]; exact h, by simpa using hp⟩
      · rcases hp with hp | hp
        · exact absurd rfl (hp p)
        · exact filter_some.mpr ⟨g.obj n o h, by simpa using hp⟩
  | ok colls =>
    obtain ⟨h1, h2, h3⟩ := hok colls rfl
    have hnew : w'.insts w.nextInst = none := by
      rw [g.insts]
      show w.insts w.nextInst = none
      cases hx : w.insts w.nextInst with
      | none => rfl
      | some x => exact absurd (I.fresh _ _ hx) (Nat.lt_irrefl _)
    refine ⟨⟨?_, I2.freshO, I2.freshV, ?_, ?_, I2.rowsNd, ?_⟩, g.rows, g.dirs, fun j x h _ => ?_, fun n o h _ => g.obj n o h, fun _ => h3, ?_⟩
    rotate_left 5
    · rintro j n oc ⟨x, k1, k2, k3⟩
      have k1 : upd w'.insts w.nextInst (some { proc := proc, colls := colls }) j = some x := k1
      by_cases hj : j = w.nextInst
      · subst hj; rw [upd_self] at k1; cases k1
        rcases h1 n oc k2 with h1 | ⟨h1, _⟩
        · cases h1
        · exact Or.inr h1
      · rw [upd_ne _ _ _ _ hj, g.insts] at k1
        exact Or.inl ⟨x, k1, k2, k3⟩
    · intro j x h
      have h : upd w'.insts w.nextInst (some { proc := proc, colls := colls }) j = some x := h
      show j < w'.nextInst
      by_cases hj : j = w.nextInst
      · subst hj; rw [g.nextInst]; exact Nat.lt_succ_self _
      · rw [upd_ne _ _ _ _ hj] at h; exact I2.fresh j x h
    · intro j x h
      have h : upd w'.insts w.nextInst (some { proc := proc, colls := colls }) j = some x := h
      by_cases hj : j = w.nextInst
      · subst hj; rw [upd_self] at h; cases h; exact h2 List.nodup_nil
      · rw [upd_ne _ _ _ _ hj] at h; exact I2.nd j x h
    · intro j x n oc h k1 k2
      have h : upd w'.insts w.nextInst (some { proc := proc, colls := colls }) j = some x := h
      by_cases hj : j = w.nextInst
      · subst hj; rw [upd_self] at h; cases h
        rcases h1 n oc k1 with h1 | ⟨_, h1⟩
        · cases h1
        · exact ⟨h1.1, h1.2.1, h1.2.2.1⟩
      · rw [upd_ne _ _ _ _ hj] at h; exact I2.hold j x n oc h k1 k2
    · intro j x n oc h k1 k2
      have h : upd w'.insts w.nextInst (some { proc := proc, colls := colls }) j = some x := h
      by_cases hj : j = w.nextInst
      · subst hj; rw [upd_self] at h; cases h
        rcases h1 n oc k1 with h1 | ⟨_, h1⟩
        · cases h1
        · rw [h1.2.2.2] at k2; cases k2
      · rw [upd_ne _ _ _ _ hj] at h; exact I2.cc j x n oc h k1 k2
    · show upd w'.insts w.nextInst _ j = some x
      have : j ≠ w.nextInst := by rintro rfl; exact absurd (I.fresh _ _ h) (Nat.lt_irrefl _)
      rw [upd_ne _ _ _ _ this, g.insts]; exact h

theorem LockInv.meta {w : World} (I : LockInv w) (x : Inst) (cfg : Config) (env : CreateEnv) :
    LockInv { w with rows := ((w.view x).metaCreate cfg env).1.rows, nextId := ((w.view x).metaCreate cfg env).1.nextId,
                     dirs := ((w.view x).metaCreate cfg env).1.dirs } where
  fresh := I.fresh
  freshO := I.freshO
  freshV := I.freshV
  nd := I.nd
  hold := by
    intro j y n oc h1 h2 h3
    obtain ⟨k1, k2, k3⟩ := I.hold j y n oc h1 h2 h3
    exact ⟨k1, k2, metaCreate_dirs (db := w.view x) n _ k3⟩
  rowsNd := metaCreate_nodup (db := w.view x) I.rowsNd
  cc := I.cc

theorem LockInv.create {w : World} (I : LockInv w) {i : Nat} {x : Inst} (hx : w.insts i = some x) (cfg : Config) (env : CreateEnv) (f : OpenFaults) :
    LockInv (w.create i x cfg env f).1 ∧ (∀ r ∈ w.rows, r ∈ (w.create i x cfg env f).1.rows) ∧
    (∀ n d, w.dirs.get? n = some d → (w.create i x cfg env f).1.dirs.get? n = some d) ∧
    (∀ j y, w.insts j = some y → j ≠ i → ((∀ q, (w.create i x cfg env f).2 ≠ .panicked q) ∨ y.proc ≠ x.proc) →
      (w.create i x cfg env f).1.insts j = some y) ∧
    (∀ n o, w.objLocks n = some o → ((∀ q, (w.create i x cfg env f).2 ≠ .panicked q) ∨ o.proc ≠ x.proc) →
      (w.create i x cfg env f).1.objLocks n = some o) ∧
    (∀ j n oc, (w.create i x cfg env f).1.Uses j n oc → w.Uses j n oc ∨ w.objLocks n = none) := by
  have I1 := I.meta x cfg env
  have hr := metaCreate_rows (db := w.view x) (cfg := cfg) (env := env)
  have hdir := metaCreate_dirs (db := w.view x) (cfg := cfg) (env := env)
  have triv : LockInv w ∧ (∀ r ∈ w.rows, r ∈ w.rows) ∧ (∀ n d, w.dirs.get? n = some d → w.dirs.get? n = some d) := ⟨I, fun _ h => h, fun _ _ h => h⟩
  unfold World.create
  split
  · exact ⟨I, fun _ h => h, fun _ _ h => h, fun _ _ h _ _ => h, fun _ _ h _ => h, fun _ _ _ h => Or.inl h⟩
  · split
    · exact ⟨I, fun _ h => h, fun _ _ h => h, fun _ _ h _ _ => h, fun _ _ h _ => h, fun _ _ _ h => Or.inl h⟩
    · split
      · exact ⟨I, fun _ h => h, fun _ _ h => h, fun _ _ h _ _ => h, fun _ _ h _ => h, fun _ _ _ h => Or.inl h⟩
      · dsimp only
        generalize (w.view x).metaCreate cfg env = m at I1 hr hdir ⊢
        obtain ⟨db, r⟩ := m
        dsimp only at I1 hr hdir ⊢
        cases r with
        | error e => exact ⟨I1, hr, hdir, fun _ _ h _ _ => h, fun _ _ h _ => h, fun _ _ _ h => Or.inl h⟩
        | ok id =>
          dsimp only
          obtain ⟨g, hok, _⟩ := openOne_spec { w with rows := db.rows, nextId := db.nextId, dirs := db.dirs } ⟨x.proc, i⟩ cfg f
          have I2 := I1.grow g (I.fresh i x hx)
          generalize World.openOne { w with rows := db.rows, nextId := db.nextId, dirs := db.dirs } ⟨x.proc, i⟩ cfg f = res at g hok I2 ⊢
          obtain ⟨w', c⟩ := res
          dsimp only at g hok I2 ⊢
          have hr' : ∀ r ∈ w.rows, r ∈ w'.rows := fun r h => by rw [g.rows]; exact hr r h
          have hd' : ∀ n d, w.dirs.get? n = some d → w'.dirs.get? n = some d := fun n d h => g.dirs n d (hdir n d h)
          cases c with
          | error a =>
            cases a with
            | error e =>
              refine ⟨I2, hr', hd', fun j y h _ _ => by rw [g.insts]; exact h, fun n o h _ => g.obj n o h, ?_⟩
              rintro j n oc ⟨y, h1, h2, h3⟩
              rw [g.insts] at h1
              exact Or.inl ⟨y, h1, h2, h3⟩
            | panic p =>
              refine ⟨I2.exit x.proc, hr', hd', fun j y h _ hp => ?_, fun n o h hp => ?_, ?_⟩
              rotate_left 2
              · rintro j n oc ⟨y, h1, h2, h3⟩
                have h1 := (filter_some.mp h1).1
                rw [g.insts] at h1
                exact Or.inl ⟨y, h1, h2, h3⟩
              · rcases hp with hp | hp
                · exact absurd rfl (hp p)
                · exact filter_some.mpr ⟨by rw [g.insts]; exact h, by simpa using hp⟩
              · rcases hp with hp | hp
                · exact absurd rfl (hp p)
                · exact filter_some.mpr ⟨g.obj n o h, by simpa using hp⟩
          | ok c =>
            obtain ⟨k1, k2, k3, k4, k5, k6, k7, _⟩ := hok c rfl
            have hx' : w'.insts i = some x := by rw [g.insts]; exact hx
            refine ⟨I2.set_inst (x' := { x with colls := x.colls.set cfg.name { id := id, config := cfg, coll := c } }) hx' rfl rfl I2.rowsNd
              (fun _ _ h => h) (fun _ _ h => h) (AMap.keys_set_nodup (I.nd i x hx) _ _)
              (I.cc_set hx _ _ (fun h => by rw [k6] at h; cases h)) ?_ (fun _ _ _ _ _ _ _ _ => ⟨rfl, rfl, rfl⟩),
              hr', hd', fun j y h hj _ => ?_, fun n o h _ => g.obj n o h, ?_⟩
            rotate_left 2
            · rintro j n oc ⟨y, h1, h2, h3⟩
              have h1 : upd w'.insts i (some { x with colls := x.colls.set cfg.name { id := id, config := cfg, coll := c } }) j = some y := h1
              by_cases hj : j = i
              · subst hj; rw [upd_self] at h1; cases h1
                by_cases hn : cfg.name = n
                · subst hn; exact Or.inr k1
                · rw [AMap.get?_set_ne _ _ _ _ hn] at h2
                  exact Or.inl ⟨x, hx, h2, h3⟩
              · rw [upd_ne _ _ _ _ hj, g.insts] at h1
                exact Or.inl ⟨y, h1, h2, h3⟩
            · intro n oc h1 h2
              by_cases hn : cfg.name = n
              · subst hn
                rw [AMap.get?_set_self] at h1
                cases h1
                exact ⟨k3, k4, k5⟩
              · rw [AMap.get?_set_ne _ _ _ _ hn] at h1
                exact I2.hold i x n oc hx' h1 h2
            · show upd w'.insts i _ j = some y
              rw [upd_ne _ _ _ _ hj, g.insts]; exact h

theorem LockInv.drop {w : World} (I : LockInv w) {i : Nat} {x : Inst} (hx : w.insts i = some x) (name : String) (ef rf : Bool)
    (ht : ∀ oc, x.metaClosed = false → x.colls.get? name = some oc → oc.Usable) :
    LockInv (w.drop i x name ef rf).1 ∧
    (∀ r ∈ w.rows, r ∉ (w.drop i x name ef rf).1.rows → r.name = name ∧ ∃ oc, w.Uses i name oc) ∧
    (∀ n d, n ≠ name → w.dirs.get? n = some d → (w.drop i x name ef rf).1.dirs.get? n = some d) ∧
    (∀ j y, w.insts j = some y → j ≠ i → (w.drop i x name ef rf).1.insts j = some y) ∧
    (∀ n o, n ≠ name → w.objLocks n = some o → (w.drop i x name ef rf).1.objLocks n = some o) ∧
    (∀ q, (w.drop i x name ef rf).2 ≠ .panicked q) ∧
    (∀ j n oc, (w.drop i x name ef rf).1.Uses j n oc → w.Uses j n oc) := by
  unfold World.drop Db.delete
  have same : ∀ e, LockInv (({ w with rows := w.rows } : World), Outcome.err e).1 ∧
      (∀ r ∈ w.rows, r ∉ (({ w with rows := w.rows } : World), Outcome.err e).1.rows → r.name = name ∧ ∃ oc, w.Uses i name oc) ∧
      (∀ n d, n ≠ name → w.dirs.get? n = some d → (({ w with rows := w.rows } : World), Outcome.err e).1.dirs.get? n = some d) ∧
      (∀ j y, w.insts j = some y → j ≠ i → (({ w with rows := w.rows } : World), Outcome.err e).1.insts j = some y) ∧
      (∀ n o, n ≠ name → w.objLocks n = some o → (({ w with rows := w.rows } : World), Outcome.err e).1.objLocks n = some o) ∧
      (∀ q, (({ w with rows := w.rows } : World), Outcome.err e).2 ≠ .panicked q) ∧
      (∀ j n oc, (({ w with rows := w.rows } : World), Outcome.err e).1.Uses j n oc → w.Uses j n oc) := fun e =>
    ⟨I, fun _ h h' => absurd h h', fun _ _ _ h => h, fun _ _ h _ => h, fun _ _ _ h => h, fun _ => (fun h => nomatch h), fun _ _ _ h => h⟩
  by_cases h1 : (w.view x).closed = true
  · rw [if_pos h1]; exact same _
  rw [if_neg h1]
  by_cases h2 : (w.view x).colls.has name = false
  · rw [if_pos h2]; exact same _
  rw [if_neg h2]
  by_cases h3 : (ef || (w.view x).metaClosed) = true
  · rw [if_pos h3]; exact same _
  rw [if_neg h3]
  by_cases h4 : ((w.view x).rows.any (fun r => decide (r.name = name))) = false
  · rw [if_pos h4]; exact same _
  rw [if_neg h4]
  have hm : x.metaClosed = false := by
    cases hh : x.metaClosed with
    | false => rfl
    | true =>
      have h3 : ¬ (ef || x.metaClosed) = true := h3
      rw [hh] at h3; simp at h3
  have h2' : (x.colls.get? name).isSome = true := by
    cases hh : (x.colls.get? name).isSome with
    | true => rfl
    | false => exact absurd hh h2
  obtain ⟨oc, hoc⟩ := Option.isSome_iff_exists.mp h2'
  have hu := ht oc hm hoc
  have huses : w.Uses i name oc := ⟨x, hx, hoc, hu⟩
  have hrows : ∀ r ∈ w.rows, r ∉ w.rows.filter (fun r => decide (r.name ≠ name)) → r.name = name ∧ ∃ oc, w.Uses i name oc := by
    intro r hr hn
    refine ⟨?_, oc, huses⟩
    by_cases hrn : r.name = name
    · exact hrn
    · exact absurd (List.mem_filter.mpr ⟨hr, by simpa using hrn⟩) hn
  have hnd : ((w.rows.filter (fun r => decide (r.name ≠ name))).map Row.name).Nodup :=
    I.rowsNd.sublist (List.Sublist.map _ List.filter_sublist)
  cases rf with
  | true =>
    exact ⟨⟨I.fresh, I.freshO, I.freshV, I.nd, I.hold, hnd, I.cc⟩, hrows, fun _ _ _ h => h, fun _ _ h _ => h, fun _ _ _ h => h,
      fun _ => (fun h => nomatch h), fun _ _ _ h => h⟩
  | false =>
    have hne : ∀ n, n ≠ name → upd w.objLocks name none n = w.objLocks n ∧ upd w.vecLocks name none n = w.vecLocks n ∧
        (w.dirs.erase name).get? n = w.dirs.get? n := fun n hn =>
      ⟨upd_ne _ _ _ _ hn, upd_ne _ _ _ _ hn, AMap.get?_erase_ne _ _ _ (Ne.symm hn)⟩
    have hsub : ∀ (m : String → Option Owner) n o, upd m name none n = some o → m n = some o := by
      intro m n o h
      by_cases hn : n = name
      · subst hn; rw [upd_self] at h; cases h
      · rw [upd_ne _ _ _ _ hn] at h; exact h
    refine ⟨I.set_inst (x' := { x with colls := x.colls.erase name }) hx rfl rfl hnd (hsub _) (hsub _)
      (AMap.keys_erase_nodup (I.nd i x hx) _) ?_ ?_ ?_, hrows, fun n d hn h => ?_, fun j y h hj => ?_, fun n o hn h => ?_, fun _ => (fun h => nomatch h), ?_⟩
    rotate_left 6
    · rintro j n oc' ⟨y, g0, g1, g2⟩
      have g0 : upd w.insts i (some { x with colls := x.colls.erase name }) j = some y := g0
      by_cases hj : j = i
      · subst hj; rw [upd_self] at g0; cases g0
        have hn : n ≠ name := by rintro rfl; rw [AMap.get?_erase_self] at g1; cases g1
        rw [AMap.get?_erase_ne _ _ _ (Ne.symm hn)] at g1
        exact ⟨x, hx, g1, g2⟩
      · rw [upd_ne _ _ _ _ hj] at g0; exact ⟨y, g0, g1, g2⟩
    · intro n oc' g1 g2
      have hn : n ≠ name := by rintro rfl; rw [AMap.get?_erase_self] at g1; cases g1
      rw [AMap.get?_erase_ne _ _ _ (Ne.symm hn)] at g1
      exact I.cc i x n oc' hx g1 g2
    · intro n oc' g1 g2
      have hn : n ≠ name := by rintro rfl; rw [AMap.get?_erase_self] at g1; cases g1
      rw [AMap.get?_erase_ne _ _ _ (Ne.symm hn)] at g1
      obtain ⟨k1, k2, k3⟩ := I.hold i x n oc' hx g1 g2
      obtain ⟨e1, e2, e3⟩ := hne n hn
      exact ⟨e1.trans k1, e2.trans k2, e3.trans k3⟩
    · intro j y n oc' hj g0 g1 g2
      apply hne
      rintro rfl
      exact hj (I.excl ⟨y, g0, g1, g2⟩ huses)
    · exact (hne n hn).2.2.trans h
    · show upd w.insts i _ j = some y
      rw [upd_ne _ _ _ _ hj]; exact h
    · exact (hne n hn).1.trans h

/-- what one step of somebody does to everybody. -/
structure StepFrame (w : World) (a : WAct) (w' : World) (o : Outcome) : Prop where
  inv : LockInv w'
  rows : ∀ r ∈ w.rows, r ∉ w'.rows → ∃ i ef rf oc, a = .drop i r.name ef rf ∧ w.Uses i r.name oc
  insts : ∀ j x, w.insts j = some x → ¬ a.by w j → ((∀ q, o ≠ .panicked q) ∨ ¬ a.inProc w x.proc) → w'.insts j = some x
  locks : ∀ n p i, w.objLocks n = some ⟨p, i⟩ → a ≠ .exit p → (∀ q, o ≠ .panicked q) → (∀ j ef rf, a ≠ .drop j n ef rf) →
    (∀ oc, ¬ w.Uses i n oc) → w'.objLocks n = some ⟨p, i⟩
  uses : ∀ j n oc, w'.Uses j n oc → (∃ oc', w.Uses j n oc') ∨ w.objLocks n = none

theorem LockInv.step {w w' : World} {a : WAct} {o : Outcome} (I : LockInv w) (ht : w.Tidy a) (h : w.step a = some (w', o)) :
    StepFrame w a w' o := by
  cases a with
  | «open» proc f =>
    have hw : w.open proc f = (w', o) := Option.some.inj h
    obtain ⟨a1, a2, a3, a4, a5, _, a7⟩ := I.open proc f
    rw [hw] at a1 a2 a3 a4 a5 a7
    refine ⟨a1, fun r h1 h2 => absurd (a2 ▸ h1) h2, fun j x h1 _ h2 => a4 j x h1 ?_, fun n p i h1 _ h2 _ _ => a5 n _ h1 (Or.inl h2),
      fun j n oc h => (a7 j n oc h).imp (fun h => ⟨oc, h⟩) (fun h => h)⟩
    rcases h2 with h2 | h2
    · exact Or.inl h2
    · exact Or.inr (fun hh => h2 (Eq.symm hh))
  | create i cfg env f =>
    simp only [World.step] at h
    cases hx : w.insts i with
    | none => rw [hx] at h; cases h
    | some x =>
      rw [hx] at h
      have hw : w.create i x cfg env f = (w', o) := Option.some.inj h
      obtain ⟨a1, a2, a3, a4, a5, a7⟩ := I.create hx cfg env f
      rw [hw] at a1 a2 a3 a4 a5 a7
      refine ⟨a1, fun r h1 h2 => absurd (a2 r h1) h2, fun j y h1 hb h2 => a4 j y h1 (fun hj => hb hj.symm) ?_,
        fun n p i h1 _ h2 _ _ => a5 n _ h1 (Or.inl h2), fun j n oc h => (a7 j n oc h).imp (fun h => ⟨oc, h⟩) (fun h => h)⟩
      rcases h2 with h2 | h2
      · exact Or.inl h2
      · exact Or.inr (fun hh => h2 ⟨x, hx, hh.symm⟩)
  | drop i name ef rf =>
    simp only [World.step] at h
    cases hx : w.insts i with
    | none => rw [hx] at h; cases h
    | some x =>
      rw [hx] at h
      have hw : w.drop i x name ef rf = (w', o) := Option.some.inj h
      obtain ⟨a1, a2, a3, a4, a5, a6, a7⟩ := I.drop hx name ef rf (fun oc h1 h2 => ht x oc hx h1 h2)
      rw [hw] at a1 a2 a3 a4 a5 a6 a7
      refine ⟨a1, fun r h1 h2 => ?_, fun j y h1 hb _ => a4 j y h1 (fun hj => hb hj.symm), fun n p i' h1 _ _ h3 _ => ?_,
        fun j n oc h => Or.inl ⟨oc, a7 j n oc h⟩⟩
      · obtain ⟨b1, oc, b2⟩ := a2 r h1 h2
        subst b1
        exact ⟨i, ef, rf, oc, rfl, b2⟩
      · refine a5 n _ ?_ h1
        rintro rfl
        exact h3 i ef rf rfl
  | call i name c =>
    simp only [World.step] at h
    cases hx : w.insts i with
    | none => rw [hx] at h; cases h
    | some x =>
      rw [hx] at h
      dsimp only at h
      cases hg : x.colls.get? name with
      | none => rw [hg] at h; cases h
      | some oc =>
        rw [hg] at h
        dsimp only at h
        split at h
        · cases h
        · rename_i hcl
          cases h
          simp only [Bool.or_eq_true, not_or, Bool.not_eq_true] at hcl
          have hu : oc.Usable := ⟨hcl.1.1.1, hcl.1.1.2⟩
          have huse : w.Uses i name oc := ⟨x, hx, hg, hu⟩
          refine ⟨I.set_inst (x' := { x with colls := x.colls.set name { oc with coll := c } }) hx rfl rfl I.rowsNd (fun _ _ h => h)
            (fun _ _ h => h) (AMap.keys_set_nodup (I.nd i x hx) _ _) (I.cc_set hx _ _ (fun h => by rw [hcl.1.2] at h; cases h)) ?_ ?_, fun r h1 h2 => absurd h1 h2, fun j y h1 hb _ => ?_,
            fun n p i' h1 _ _ _ _ => h1, ?_⟩
          rotate_left 3
          · rintro j n oc' ⟨y, g0, g1, g2⟩
            have g0 : upd w.insts i (some { x with colls := x.colls.set name { oc with coll := c } }) j = some y := g0
            by_cases hj : j = i
            · subst hj; rw [upd_self] at g0; cases g0
              by_cases hn : name = n
              · subst hn; exact Or.inl ⟨oc, huse⟩
              · rw [AMap.get?_set_ne _ _ _ _ hn] at g1
                exact Or.inl ⟨oc', x, hx, g1, g2⟩
            · rw [upd_ne _ _ _ _ hj] at g0; exact Or.inl ⟨oc', y, g0, g1, g2⟩
          · intro n oc' h1 h2
            by_cases hn : name = n
            · subst hn
              rw [AMap.get?_set_self] at h1
              cases h1
              obtain ⟨k1, k2, _⟩ := I.hold i x name oc hx hg hu
              exact ⟨k1, k2, AMap.get?_set_self _ _ _⟩
            · rw [AMap.get?_set_ne _ _ _ _ hn] at h1
              obtain ⟨k1, k2, k3⟩ := I.hold i x n oc' hx h1 h2
              exact ⟨k1, k2, (AMap.get?_set_ne _ _ _ _ hn).trans k3⟩
          · intro j y n oc' hj h1 h2 h3
            refine ⟨rfl, rfl, AMap.get?_set_ne _ _ _ _ ?_⟩
            rintro rfl
            exact hj (I.excl ⟨y, h1, h2, h3⟩ huse)
          · show upd w.insts i _ j = some y
            rw [upd_ne _ _ _ _ (fun hj => hb hj.symm)]; exact h1
  | closeColl i name f =>
    simp only [World.step] at h
    cases hx : w.insts i with
    | none => rw [hx] at h; cases h
    | some x =>
      rw [hx] at h
      dsimp only at h
      cases hg : x.colls.get? name with
      | none => rw [hg] at h; cases h
      | some oc =>
        rw [hg] at h
        dsimp only at h
        obtain ⟨b1, b2, b3, b4, b5, b6⟩ := closeOne_spec w ⟨x.proc, i⟩ name oc.coll f
        have hfirst : oc.coll.counter.closed = true → (w.closeOne ⟨x.proc, i⟩ name oc.coll f).1 = w := by
          intro hc; unfold World.closeOne; dsimp only; rw [if_pos hc]
        generalize w.closeOne ⟨x.proc, i⟩ name oc.coll f = res at h b1 b2 b3 b4 b5 b6 hfirst
        obtain ⟨w1, c1, e1⟩ := res
        dsimp only at h b1 b2 b3 b4 b5 b6 hfirst
        cases h
        refine ⟨I.set_inst (x' := { x with colls := x.colls.set name { oc with coll := c1 } }) hx
          (by show upd w1.insts i _ = _; rw [b1.insts]) b1.nextInst (by show (w1.rows.map Row.name).Nodup; rw [b1.rows]; exact I.rowsNd)
          (fun n o h => ?_) (fun n o h => ?_) (AMap.keys_set_nodup (I.nd i x hx) _ _) (I.cc_set hx _ _ (fun _ => b3)) ?_ ?_, fun r h1 h2 => ?_, fun j y h1 hb _ => ?_,
          fun n p i' h1 _ _ _ hnu => ?_, ?_⟩
        rotate_left 7
        · rintro j n oc' ⟨y, g0, g1, g2⟩
          have g0 : upd w1.insts i (some { x with colls := x.colls.set name { oc with coll := c1 } }) j = some y := g0
          by_cases hj : j = i
          · subst hj; rw [upd_self] at g0; cases g0
            by_cases hn : name = n
            · subst hn
              rw [AMap.get?_set_self] at g1
              cases g1
              have := g2.2; dsimp only at this; rw [b3] at this; cases this
            · rw [AMap.get?_set_ne _ _ _ _ hn] at g1
              exact Or.inl ⟨oc', x, hx, g1, g2⟩
          · rw [upd_ne _ _ _ _ hj, b1.insts] at g0; exact Or.inl ⟨oc', y, g0, g1, g2⟩
        · have h : w1.objLocks n = some o := h
          rcases b1.obj n with k | ⟨_, k⟩
          · rw [← k]; exact h
          · rw [k] at h; cases h
        · have h : w1.vecLocks n = some o := h
          rcases b1.vec n with k | ⟨_, k⟩
          · rw [← k]; exact h
          · rw [k] at h; cases h
        · intro n oc' h1 h2
          by_cases hn : name = n
          · subst hn
            rw [AMap.get?_set_self] at h1
            cases h1
            have := h2.2; dsimp only at this; rw [b3] at this; cases this
          · rw [AMap.get?_set_ne _ _ _ _ hn] at h1
            obtain ⟨k1, k2, k3⟩ := I.hold i x n oc' hx h1 h2
            obtain ⟨e1, e2⟩ := b2 n (Ne.symm hn)
            exact ⟨e1.trans k1, e2.trans k2, (congrArg (AMap.get? · n) b1.dirs).trans k3⟩
        · intro j y n oc' hj h1 h2 h3
          have hj' : ∀ (l : Option Owner), l = some ⟨y.proc, j⟩ → l ≠ some ⟨x.proc, i⟩ := by
            rintro l rfl h
            exact hj (by simpa using (congrArg (Option.map Owner.inst) h))
          obtain ⟨k1, k2, k3⟩ := I.hold j y n oc' h1 h2 h3
          refine ⟨?_, ?_, congrArg (AMap.get? · n) b1.dirs⟩
          · rcases b1.obj n with k | ⟨k, _⟩
            · exact k
            · exact absurd k (hj' _ k1)
          · rcases b1.vec n with k | ⟨k, _⟩
            · exact k
            · exact absurd k (hj' _ k2)
        · exact absurd (by show r ∈ w1.rows; rw [b1.rows]; exact h1) h2
        · show upd w1.insts i _ j = some y
          rw [upd_ne _ _ _ _ (fun hj => hb hj.symm), b1.insts]; exact h1
        · show w1.objLocks n = _
          rcases b1.obj n with k | ⟨k, k'⟩
          · rw [k]; exact h1
          · rw [h1] at k
            by_cases hn : n = name
            · subst hn
              cases hc : oc.coll.counter.closed with
              | true => rw [hfirst hc]; exact h1
              | false =>
                have hi' : i' = i := by simpa using (congrArg (Option.map Owner.inst) k)
                subst hi'
                refine absurd ⟨x, hx, hg, ?_, hc⟩ (hnu oc)
                cases hcl : oc.coll.closed with
                | false => rfl
                | true => rw [I.cc i' x n oc hx hg hcl] at hc; cases hc
            · rw [(b2 n hn).1]; exact h1
  | close i mf f =>
    simp only [World.step] at h
    cases hx : w.insts i with
    | none => rw [hx] at h; cases h
    | some x =>
      rw [hx] at h
      have hw : w.close i x mf f = (w', o) := Option.some.inj h
      unfold World.close at hw
      cases mf with
      | true =>
        cases hw
        exact ⟨I, fun r h1 h2 => absurd h1 h2, fun _ _ h _ _ => h, fun _ _ _ h _ _ _ _ => h, fun _ _ oc h => Or.inl ⟨oc, h⟩⟩
      | false =>
        rw [if_neg (by decide)] at hw
        obtain ⟨a1, a2, a3, a4, a6, a7, a5⟩ := World.closeAll_locks ⟨x.proc, i⟩ f x.colls w (I.nd i x hx)
        generalize World.closeAll ⟨x.proc, i⟩ f x.colls w = res at hw a1 a2 a3 a4 a5 a6 a7
        obtain ⟨w1, colls, e⟩ := res
        dsimp only at hw a1 a2 a3 a4 a5 a6 a7
        have main : ∀ x' : Inst, x'.proc = x.proc → x'.colls = colls → ∀ o', (∀ q, o' ≠ Outcome.panicked q) →
            StepFrame w (.close i false f) { w1 with insts := upd w1.insts i (some x') } o' := by
          intro x' hp hc o' _
          refine ⟨I.set_inst (x' := x') hx (by show upd w1.insts i _ = _; rw [a1.insts]) a1.nextInst
            (by show (w1.rows.map Row.name).Nodup; rw [a1.rows]; exact I.rowsNd) (fun n o h => ?_) (fun n o h => ?_)
            (by rw [hc, a2]; exact I.nd i x hx) ?_ ?_ ?_, fun r h1 h2 => ?_, fun j y h1 hb _ => ?_, fun n p i' h1 _ _ _ hnu => ?_, ?_⟩
          rotate_left 8
          · rintro j n oc' ⟨y, g0, g1, g2⟩
            have g0 : upd w1.insts i (some x') j = some y := g0
            by_cases hj : j = i
            · subst hj; rw [upd_self] at g0; cases g0
              rw [hc] at g1
              exact Or.inl ⟨oc', x, hx, (a4 n oc' g1 g2).1, g2⟩
            · rw [upd_ne _ _ _ _ hj, a1.insts] at g0; exact Or.inl ⟨oc', y, g0, g1, g2⟩
          · have h : w1.objLocks n = some o := h
            rcases a1.obj n with k | ⟨_, k⟩
            · rw [← k]; exact h
            · rw [k] at h; cases h
          · have h : w1.vecLocks n = some o := h
            rcases a1.vec n with k | ⟨_, k⟩
            · rw [← k]; exact h
            · rw [k] at h; cases h
          · intro n oc h1 h2
            rw [hc] at h1
            rcases a6 n oc h1 with k | k
            · exact I.cc i x n oc hx k h2
            · exact k
          · intro n oc h1 h2
            rw [hc] at h1
            obtain ⟨e0, e1, e2⟩ := a4 n oc h1 h2
            obtain ⟨k1, k2, k3⟩ := I.hold i x n oc hx e0 h2
            rw [hp]
            exact ⟨e1.trans k1, e2.trans k2, (congrArg (AMap.get? · n) a1.dirs).trans k3⟩
          · intro j y n oc' hj h1 h2 h3
            have hj' : ∀ (l : Option Owner), l = some ⟨y.proc, j⟩ → l ≠ some ⟨x.proc, i⟩ := by
              rintro l rfl h
              exact hj (by simpa using (congrArg (Option.map Owner.inst) h))
            obtain ⟨k1, k2, k3⟩ := I.hold j y n oc' h1 h2 h3
            refine ⟨?_, ?_, congrArg (AMap.get? · n) a1.dirs⟩
            · rcases a1.obj n with k | ⟨k, _⟩
              · exact k
              · exact absurd k (hj' _ k1)
            · rcases a1.vec n with k | ⟨k, _⟩
              · exact k
              · exact absurd k (hj' _ k2)
          · exact absurd (by show r ∈ w1.rows; rw [a1.rows]; exact h1) h2
          · show upd w1.insts i _ j = some y
            rw [upd_ne _ _ _ _ (fun hj => hb hj.symm), a1.insts]; exact h1
          · show w1.objLocks n = _
            by_cases hown : (⟨p, i'⟩ : Owner) = ⟨x.proc, i⟩
            · have hi' : i' = i := congrArg Owner.inst hown
              subst hi'
              rw [hown] at h1 ⊢
              refine a7 n h1 (fun oc hg => ?_)
              cases hc : oc.coll.counter.closed with
              | true => rfl
              | false =>
                refine absurd ⟨x, hx, hg, ?_, hc⟩ (hnu oc)
                cases hcl : oc.coll.closed with
                | false => rfl
                | true => rw [I.cc i' x n oc hx hg hcl] at hc; cases hc
            · rcases a1.obj n with k | ⟨k, _⟩
              · rw [k]; exact h1
              · rw [h1] at k; exact absurd (Option.some.inj k) hown
        cases e with
        | some e =>
          cases hw
          exact main { x with colls := colls, metaClosed := true } rfl rfl (.err e) (fun _ => (fun h => by cases h))
        | none =>
          cases hw
          exact main { x with colls := colls, metaClosed := true, closed := true } rfl rfl .ok (fun _ => (fun h => by cases h))
  | exit p =>
    cases h
    refine ⟨I.exit p, fun r h1 h2 => absurd h1 h2, fun j x h hb _ => ?_, fun n p' i h hne _ _ _ => ?_, ?_⟩
    rotate_left 2
    · rintro j n oc ⟨y, g0, g1, g2⟩
      exact Or.inl ⟨oc, y, (filter_some.mp g0).1, g1, g2⟩
    · refine filter_some.mpr ⟨h, ?_⟩
      simp only [decide_eq_true_eq]
      rintro rfl
      exact hb ⟨x, h, rfl⟩
    · refine filter_some.mpr ⟨h, ?_⟩
      simp only [decide_eq_true_eq]
      rintro rfl
      exact hne rfl

theorem LockInv.empty : LockInv {} where
  fresh := fun _ _ h => by cases h
  freshO := fun _ _ h => by cases h
  freshV := fun _ _ h => by cases h
  nd := fun _ _ h => by cases h
  hold := fun _ _ _ _ h => by cases h
  rowsNd := List.nodup_nil
  cc := fun _ _ _ _ h => by cases h

theorem WReach.inv {w : World} (h : WReach w) : LockInv w := by
  induction h with
  | new => exact LockInv.empty
  | step _ ht hs ih => exact (ih.step ht hs).inv

end Vectory
