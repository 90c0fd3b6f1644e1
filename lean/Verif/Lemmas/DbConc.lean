import Verif.Spec.DbConc
import Verif.Lemmas.DbLife
/-! # Lemmas about the life of a database whose batches are run by several workers -/
namespace Vectory
open Conc
variable {V D : Type}

/-- a batch leaves the configuration of the collection alone. -/
theorem BatchAt.conf {fixed two : Bool} {L : Lib V D} {dim workers : Nat} {X : UInt64 → Prop} {c : Coll} {os : List (Object V)}
    {embed : Embed V} {acts : List BAct} {b : Batch V D} (i : WInv False L dim X c)
    (h : BatchAt fixed two L dim workers c os embed acts b) :
    b.c.index.cfg = c.index.cfg ∧ b.c.mappings = c.mappings ∧ b.c.hasEmbedder = c.hasEmbedder := by
  obtain ⟨objs, _, _, _, _, ok, ⟨F, A, B, X0, X1, X2, js, hj, s⟩, _⟩ := h.state i
  rcases s with ⟨v, _⟩ | ⟨c1, ff, v, _, _, hc, _⟩
  · exact ⟨(sched_grow (init_quiet' _ _) v.sched).cfg, v.conf.1, v.conf.2.1⟩
  · rw [hc]
    exact ⟨(sched_grow (init_quiet' _ _) v.sched).cfg, v.conf.1, v.conf.2.1⟩

/-- opening what is left of a collection. -/
theorem Leaves.opened {fixed : Bool} {L : Lib V D} {dim : Nat} {c c' : Coll} {del : Option UInt64} {d : Disk}
    (h : Leaves fixed L dim c del d) (i : WInv False L dim (fun _ => True) c) (dv : DInv False c.index)
    (ho : openColl c.index.cfg c.mappings c.hasEmbedder d = .ok c') :
    WInv False L dim (fun _ => True) c' ∧ DInv False c'.index ∧ Keeps L c c' (fun x => del = some x) := by
  cases h with
  | rest =>
    have hre : c.reopen = .ok c' := ho
    rcases reopen_any i dv with ⟨c2, h2, i2, d2, _⟩ | ⟨h2, _⟩
    · rw [hre] at h2; cases h2
      exact ⟨i2, d2, reopen_keeps hre _⟩
    · rw [hre] at h2; cases h2
  | insert hl h1 h2 =>
    have hstep : Ev.Step L c (.crashInsert _ _ _ _) c' := .crashInsert h1 h2 ho
    obtain ⟨a, b⟩ := step_weak i dv hl hstep
    have ev := step_evoS i dv hl hstep
    exact ⟨a, b, ev.file, fun id h3 _ => ev.keep id h3 (fun h => h), ev.gone⟩
  | @delete id p hl =>
    have hstep : Ev.Step L c (.crashDelete id p) c' := .crashDelete ho
    obtain ⟨a, b⟩ := step_weak i dv hl hstep
    have ev := step_evoS i dv hl hstep
    exact ⟨a, b, ev.file, fun y h3 h4 => ev.keep y h3 (fun h => h4 (by rw [show y = id from h])), ev.gone⟩
  | @batch two workers os embed acts b hb hn =>
    obtain ⟨e1, e2, e3⟩ := BatchAt.conf i hb
    rw [← e1, ← e2, ← e3] at ho
    have hre : b.c.reopen = .ok c' := ho
    obtain ⟨a, b⟩ := crash_weak i dv hb hn hre
    exact ⟨a, b, (batch_keeps i hb _).trans (reopen_keeps hre _)⟩

theorem left_contents (db : Db) (files : AMap String Disk) (n : String) : (db.left files).contents n = files.get? n := rfl

/-- the database in which the call that was cut off has been completed, if it had any lasting effect: the same rows, and no collections but
those of the moment of the stop and the one being created, whose files are empty. -/
theorem cutOff_done {js : Json V} {o : FloatOps} {W : Prop} {dims : Nat → Nat} (hj : JsonOK js) {db : Db} {half : CutOff}
    (g : DbGood False js o W dims db) (hl : half.Legal V W dims db) :
    ∃ dbc, (DbGood False js o W dims dbc ∧ ∀ n, (∀ p, half = .drop n p → p = .start) → Survives js o db dbc n (fun _ => False)) ∧
      (db.cutOff half).rows = dbc.rows ∧
      (∀ n oc, (db.cutOff half).colls.get? n = some oc → dbc.colls.get? n = some oc) ∧
      ∀ n oc, dbc.colls.get? n = some oc → (db.cutOff half).colls.get? n = some oc ∨
        ((db.cutOff half).colls.has n = false ∧ ((db.cutOff half).dirs.get? n).getD {} = {} ∧ oc.coll.disk = {}) := by
  have same : db.cutOff half = db → ∃ dbc, (DbGood False js o W dims dbc ∧
      ∀ n, (∀ p, half = .drop n p → p = .start) → Survives js o db dbc n (fun _ => False)) ∧
      (db.cutOff half).rows = dbc.rows ∧
      (∀ n oc, (db.cutOff half).colls.get? n = some oc → dbc.colls.get? n = some oc) ∧
      ∀ n oc, dbc.colls.get? n = some oc → (db.cutOff half).colls.get? n = some oc ∨
        ((db.cutOff half).colls.has n = false ∧ ((db.cutOff half).dirs.get? n).getD {} = {} ∧ oc.coll.disk = {}) := by
    intro e
    rw [e]
    exact ⟨db, ⟨g, fun n _ => Survives.same _ rfl⟩, rfl, fun n oc h => h, fun n oc h => Or.inl h⟩
  cases half with
  | nothing => exact same rfl
  | create cfg p =>
    obtain ⟨hl, hcl⟩ := hl
    rcases crashCreate_cases g (p := p) hl hcl with ⟨e, _⟩ | ⟨_, _, _, hn, dbc, m, ms, he, hcr, hrows, hcolls, hsame, hnew, hold⟩
    · exact same e
    · obtain ⟨gc, sc⟩ := good_call hj g hl hcl (.create hcr)
      refine ⟨dbc, ⟨gc, fun n _ => sc n (fun h => h)⟩, hrows, fun n oc hoc => ?_, fun n oc hoc => ?_⟩
      · have hoc : (db.crashCreate cfg p).colls.get? n = some oc := hoc
        rw [hsame] at hoc
        have hnn : cfg.name ≠ n := by
          rintro rfl
          rw [has_of_get hoc] at hn; cases hn
        rw [hcolls, AMap.get?_set_ne _ _ _ _ hnn]
        exact hoc
      show (db.crashCreate cfg p).colls.get? n = some oc ∨ _
      rw [show (db.cutOff (.create cfg p)) = db.crashCreate cfg p from rfl, hsame]
      rw [hcolls] at hoc
      by_cases hnn : cfg.name = n
      · subst hnn
        rw [AMap.get?_set_self] at hoc
        cases hoc
        refine Or.inr ⟨hn, ?_, rfl⟩
        unfold Db.contents at hnew
        have hg : db.colls.get? cfg.name = none := by unfold AMap.has at hn; simpa using hn
        rw [hsame, hg] at hnew
        exact hnew
      · rw [AMap.get?_set_ne _ _ _ _ hnn] at hoc
        exact Or.inl hoc
  | drop name p =>
    rcases crashDrop_cases g name p with ⟨e, _⟩ | ⟨hp, hc, hhas, _, hrows, hcolls, hsame, hold⟩
    · exact same e
    · obtain ⟨gc, sc⟩ := good_call hj g (op := .delete name false false) (out := .done (db.delete name false false).2) trivial ⟨rfl, rfl⟩ .delete
      refine ⟨_, ⟨gc, fun n hd => sc n (fun h => hp (hd p (by rw [show name = n from h])))⟩, hrows, fun n oc hoc => ?_, fun n oc hoc => ?_⟩
      · have hoc : (db.crashDrop name p).colls.get? n = some oc := hoc
        rw [hsame, ← hcolls] at hoc; exact hoc
      left
      show (db.crashDrop name p).colls.get? n = some oc
      rw [hsame, ← hcolls]; exact hoc

theorem good_stepC {fixed : Bool} {js : Json V} {o : FloatOps} {W : Prop} {dims : Nat → Nat} (hj : JsonOK js) {db db' : Db} {e : DbEvC V}
    (g : DbGood False js o W dims db) (hs : e.Step fixed js o W dims db db') :
    DbGood False js o W dims db' ∧ ∀ n, ¬ e.drops n → Survives js o db db' n (fun id => e.touches n id) := by
  cases hs with
  | ev hl hs => exact good_step hj g hl hs
  | @batch name two workers os embed acts b oc L hget hLib hb hn hret hover =>
    obtain ⟨hcl, hoc⟩ := get_ok hget
    obtain ⟨r, hr, hrn, L', k⟩ := g.held name oc hoc
    rw [k.lib] at hLib; cases hLib
    obtain ⟨i2, d2⟩ := batch_weak k.inv hb hn hover
    obtain ⟨e1, e2, e3⟩ := BatchAt.conf k.inv hb
    have k' : HeldBy False js o W dims r { oc with coll := b.c } L :=
      ⟨k.lib, k.rlib, k.hnsw, by rw [k.cfg]; exact e1.symm, k.id, by rw [k.emb]; exact e3.symm, i2, d2 k.log⟩
    have i' : DbInv (Db.leftover { db with colls := db.colls.set name { oc with coll := b.c } })
        { db with colls := db.colls.set name { oc with coll := b.c } } := by
      refine DbInv.relax (G := fun n => db.dirs.has n = true) ⟨g.inv.nd, fun n => ?_, fun n hn => Or.inr hn, g.inv.meta⟩
      rw [g.inv.rows n]
      dsimp only
      by_cases hnn : name = n
      · subst hnn
        rw [has_of_get hoc, has_of_get (AMap.get?_set_self _ _ _)]
      · unfold AMap.has
        rw [AMap.get?_set_ne _ _ _ _ hnn]
    constructor
    · refine ⟨i', fun n oc2 hoc2 => ?_⟩
      dsimp only at hoc2 ⊢
      by_cases hnn : name = n
      · subst hnn
        rw [AMap.get?_set_self] at hoc2; cases hoc2
        exact ⟨r, hr, hrn, _, k'⟩
      · rw [AMap.get?_set_ne _ _ _ _ hnn] at hoc2
        exact g.held n oc2 hoc2
    · intro n _ oc2 L2 hoc2 hL2
      by_cases hnn : name = n
      · subst hnn
        rw [hoc] at hoc2; cases hoc2
        rw [k.lib] at hL2; cases hL2
        exact ⟨_, AMap.get?_set_self _ _ _, rfl, k.lib, batch_keeps k.inv hb _⟩
      · exact Survives.same _ (by dsimp only; rw [AMap.get?_set_ne _ _ _ _ hnn]) oc2 L2 hoc2 hL2
  | @crash half deleting files _ hW hhalf hfiles hdirs hre =>
    have hWt : (fun _ : UInt64 => W) = (fun _ => True) := by funext _; simp [hW]
    obtain ⟨dbc, ⟨gc, sc⟩, hrows, _, hcolls⟩ := cutOff_done hj g hhalf
    obtain ⟨g', sv⟩ := reopen_good (db1 := (db.cutOff half).left files) gc (fun n y => deleting n = some y) hrows hre (fun n oc r L hoc hr hrn k c hc => by
      rw [left_contents] at hc
      rcases hcolls n oc hoc with h1 | ⟨h1, h2, h3⟩
      · obtain ⟨L', d, hL, hd, hlv⟩ := hfiles n oc h1
        rw [k.lib] at hL; cases hL
        rw [hd] at hc
        have i := k.inv
        rw [hWt] at i ⊢
        exact hlv.opened i k.log hc
      · rw [hdirs n h1, h2] at hc
        exact k.restart (Or.inl hW) (by rw [h3]; exact hc) _)
    refine ⟨g', fun n hd => (sc n ?_).trans (sv n) (fun _ h => h.elim) (fun _ h => h)⟩
    intro p e
    subst e
    cases p with
    | start => rfl
    | row l => exact absurd rfl hd

theorem good_lifeC {fixed : Bool} {js : Json V} {o : FloatOps} {W : Prop} {dims : Nat → Nat} (hj : JsonOK js) {db db' : Db} {h : List (DbEvC V)}
    (g : DbGood False js o W dims db) (r : DbLifeC fixed js o W dims db h db') :
    DbGood False js o W dims db' ∧ ∀ n, (∀ e ∈ h, ¬ e.drops n) → ∀ T : UInt64 → Prop, (∀ e ∈ h, ∀ id, e.touches n id → T id) →
      Survives js o db db' n T := by
  induction r with
  | nil => exact ⟨g, fun n _ T _ => Survives.same _ rfl⟩
  | @cons db db1 db2 e h hs _ ih =>
    obtain ⟨g1, s1⟩ := good_stepC hj g hs
    obtain ⟨g2, s2⟩ := ih g1
    exact ⟨g2, fun n hn T hT => (s1 n (hn e (by simp))).trans
      (s2 n (fun e' he' => hn e' (by simp [he'])) T (fun e' he' => hT e' (by simp [he']))) (hT e (by simp)) (fun _ h => h)⟩

end Vectory
