import Verif.Spec.DbMap
import Verif.Spec.Demo
/-!
# Concrete database histories, for the non-vacuity examples
-/
namespace Vectory
variable {V : Type}

/-- is this the op `reopen`? -/
def Op.isReopen : Op V → Bool
  | .reopen => true
  | _ => false

/-- one call on a database; `none`: a panic or a failing `Open`. -/
def Db.play1 (js : Json V) (o : FloatOps) (db : Db) : DbOp V → Option (Db × DbOut V)
  | .create cfg env =>
    match db.create cfg env with
    | .ok (db', e) => some (db', .done e)
    | .error _ => none
  | .get n => some (db, .done (db.getErr n))
  | .delete n a b => some ((db.delete n a b).1, .done (db.delete n a b).2)
  | .on n op =>
    match db.get n with
    | .error e => some (db, .done (some e))
    | .ok oc =>
      match oc.config.lib js o with
      | none => none
      | some L =>
        if op.isReopen then none
        else
          match oc.coll.apply L op with
          | .ok (c', out) => some ({ db with colls := db.colls.set n { oc with coll := c' } }, .called out)
          | .error _ => none
  | .close a b => some ((db.close a b).1, .done (db.close a b).2)
  | .restart =>
    match db.reopen with
    | .ok db' => some (db', .done none)
    | .error _ => none

def Db.play (js : Json V) (o : FloatOps) : Db → List (DbOp V) → Option (Db × List (DbOp V × DbOut V))
  | db, [] => some (db, [])
  | db, op :: ops =>
    match db.play1 js o op with
    | none => none
    | some (db1, out) =>
      match db1.play js o ops with
      | none => none
      | some (db2, h) => some (db2, (op, out) :: h)

theorem play1_step {js : Json V} {o : FloatOps} {db db' : Db} {op : DbOp V} {out : DbOut V}
    (h : db.play1 js o op = some (db', out)) : DbStep js o db op out db' := by
  cases op with
  | create cfg env =>
    simp only [Db.play1] at h
    cases hc : db.create cfg env with
    | error p => rw [hc] at h; cases h
    | ok r => obtain ⟨d, e⟩ := r; rw [hc] at h; cases h; exact .create hc
  | get n => cases h; exact .get
  | delete n a b => cases h; exact .delete
  | on n op =>
    simp only [Db.play1] at h
    cases hg : db.get n with
    | error e => rw [hg] at h; cases h; exact .onMissing hg
    | ok oc =>
      rw [hg] at h
      dsimp only at h
      cases hl : oc.config.lib js o with
      | none => rw [hl] at h; cases h
      | some L =>
        rw [hl] at h
        dsimp only at h
        by_cases hr : op.isReopen = true
        · rw [if_pos hr] at h; cases h
        · rw [if_neg hr] at h
          cases ha : oc.coll.apply L op with
          | error a => rw [ha] at h; cases h
          | ok r =>
            obtain ⟨c', x⟩ := r
            rw [ha] at h
            cases h
            exact .on hg hl (by rintro rfl; exact hr rfl) ha
  | close a b => cases h; exact .close
  | restart =>
    simp only [Db.play1] at h
    cases hc : db.reopen with
    | error p => rw [hc] at h; cases h
    | ok d => rw [hc] at h; cases h; exact .restart hc

theorem play_runs {js : Json V} {o : FloatOps} : ∀ (ops : List (DbOp V)) (db db' : Db) (h : List (DbOp V × DbOut V)),
    db.play js o ops = some (db', h) → DbRuns js o db h db' := by
  intro ops
  induction ops with
  | nil => intro db db' h hp; cases hp; exact .nil _
  | cons op ops ih =>
    intro db db' h hp
    unfold Db.play at hp
    cases h1 : db.play1 js o op with
    | none => rw [h1] at hp; cases hp
    | some r =>
      obtain ⟨d, out⟩ := r
      rw [h1] at hp
      dsimp only at hp
      cases h2 : d.play js o ops with
      | none => rw [h2] at hp; cases hp
      | some r =>
        obtain ⟨d2, hh⟩ := r
        rw [h2] at hp
        cases hp
        exact .cons (play1_step h1) (ih _ _ _ h2)

/-- `CleanOp`, checked (for HNSW configurations). -/
def cleanB : DbOp V × DbOut V → Bool
  | (.create cfg env, _) =>
    decide (env = {}) && decide (cfg.name ≠ "" ∧ cfg.name ≠ "." ∧ cfg.name ≠ ".." ∧ cfg.name ≠ "metadata.db" ∧ '/' ∉ cfg.name.toList) &&
    decide (cfg.indexType = "hnsw") && (cfg.embedderConfig.bind viaMap).isSome
  | (.delete _ ef rf, _) => !ef && !rf
  | (.close _ _, .done none) => true
  | (.close _ _, _) => false
  | _ => true

theorem cleanB_sound {x : DbOp V × DbOut V} (h : cleanB x = true) : CleanOp x := by
  obtain ⟨op, out⟩ := x
  cases op with
  | create cfg env =>
    simp only [cleanB, Bool.and_eq_true, decide_eq_true_eq] at h
    obtain ⟨⟨⟨h1, h2⟩, h3⟩, h4⟩ := h
    refine ⟨h1, h2, fun _ => ⟨h3, ?_⟩⟩
    cases he : cfg.embedderConfig with
    | none => rw [he] at h4; cases h4
    | some ec =>
      rw [he] at h4
      obtain ⟨m, hm⟩ := Option.isSome_iff_exists.mp h4
      exact ⟨ec, m, rfl, hm⟩
  | get n => trivial
  | delete n a b => simpa [cleanB, CleanOp] using h
  | on n op => trivial
  | close a b =>
    cases out with
    | called x => cases h
    | done e => cases e with
      | none => rfl
      | some e => cases h
  | restart => trivial

/-- a concrete run with only clean calls. -/
theorem play_clean {js : Json V} {o : FloatOps} {ops : List (DbOp V)}
    (h : (Db.play js o {} ops).any (fun r => r.2.all cleanB) = true) :
    ∃ db hs, DbRuns js o {} hs db ∧ (∀ x ∈ hs, CleanOp x) ∧ Db.play js o {} ops = some (db, hs) := by
  cases hp : Db.play js o {} ops with
  | none => rw [hp] at h; cases h
  | some r =>
    obtain ⟨db, hs⟩ := r
    rw [hp] at h
    exact ⟨db, hs, play_runs _ _ _ _ hp, fun x hx => cleanB_sound ((List.all_eq_true.mp h) x hx), rfl⟩

/-- the answers in a history. -/
def doneOf : DbOut V → Option (Option Err)
  | .done e => some e
  | .called _ => none

end Vectory
