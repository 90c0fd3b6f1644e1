import Verif.Spec.DbLife
import Verif.Spec.DemoDb
import Verif.Lemmas.DbMore
/-!
# Concrete lives of a database, for the non-vacuity examples
-/
namespace Vectory
variable {V : Type}

/-- `ConfigOK` with distinct keys, checked. -/
def configB (dim : Nat) (cfg : Config) : Bool :=
  match cfg.indexParams with
  | some (.obj kvs) =>
    decide (kvs.map (fun kv => kv.1.toLower)).Nodup && decide (dim < 4294967296) &&
    (match decodeHnsw (.obj kvs) with
      | none => true
      | some p => decide (2 ≤ p.m) && decide (p.m ≤ 2 * p.mMax) && decide (2 * p.mMax < 4294967296) &&
          (decide (p.distanceType ≠ "dot_product") || decide (dim % 8 = 0)))
  | _ => false

theorem configB_sound {dim : Nat} {cfg : Config} (h : configB dim cfg = true) : ConfigOK dim cfg := by
  unfold configB at h
  split at h
  · rename_i kvs hk
    simp only [Bool.and_eq_true, decide_eq_true_eq] at h
    obtain ⟨⟨h1, h2⟩, h3⟩ := h
    refine ⟨fun j hj => ?_, fun j p hj hp => ?_, h2⟩
    · rw [hk] at hj; cases hj; exact Or.inl h1
    · rw [hk] at hj; cases hj
      rw [hp] at h3
      simp only [Bool.and_eq_true, Bool.or_eq_true, decide_eq_true_eq] at h3
      exact ⟨h3.1.1.1, h3.1.1.2, h3.1.2, fun h => h3.2.resolve_left (fun hn => hn h)⟩
  · cases h

/-- `DbOp.Legal`, checked. -/
def dbLegalB (dims : Nat → Nat) (db : Db) : DbOp V → Bool
  | .create cfg _ => configB (dims db.nextId) cfg && !(db.dirs.has cfg.name && !db.colls.has cfg.name)
  | .on n op => !op.isReopen && (match db.get n with
      | .ok oc => legalB (dims oc.id) oc.coll op
      | .error _ => true)
  | .restart => db.colls.all (fun x => x.2.coll.index.wal.batch.isEmpty)
  | _ => true

theorem mem_of_get {α : Type} : ∀ {m : AMap String α} {n : String} {v : α}, m.get? n = some v → (n, v) ∈ m := by
  intro m
  induction m with
  | nil => intro n v h; cases h
  | cons x m ih =>
    intro n v h
    obtain ⟨k, w⟩ := x
    by_cases hk : k = n
    · subst hk
      simp only [AMap.get?, if_pos, Option.some.injEq] at h
      subst h; simp
    · simp only [AMap.get?, if_neg hk] at h
      exact List.mem_cons_of_mem _ (ih h)

theorem dbLegalB_sound {W : Prop} {dims : Nat → Nat} {db : Db} {op : DbOp V} (h : dbLegalB dims db op = true) : op.Legal W dims db := by
  cases op with
  | create cfg env =>
    simp only [dbLegalB, Bool.and_eq_true, Bool.not_eq_true', Bool.and_eq_false_iff, Bool.not_eq_false'] at h
    refine fun _ => ⟨configB_sound h.1, fun hl => ?_⟩
    rcases h.2 with h2 | h2
    · rw [hl.1] at h2; cases h2
    · rw [hl.2] at h2; cases h2
  | get n => trivial
  | delete n a b => trivial
  | on n op =>
    simp only [dbLegalB, Bool.and_eq_true, Bool.not_eq_true'] at h
    refine ⟨fun he => (by subst he; exact Bool.noConfusion h.1), fun oc hoc => ?_⟩
    have h2 := h.2
    rw [hoc] at h2
    exact legalB_sound h2
  | close a b => trivial
  | restart =>
    refine Or.inr (fun n oc hoc => ?_)
    have := List.all_eq_true.mp h _ (mem_of_get hoc)
    exact List.isEmpty_iff.mp this

/-- run calls one after the other, checking that each is legal and clean. -/
def Db.live (js : Json V) (o : FloatOps) (dims : Nat → Nat) : Db → List (DbOp V) → Option (Db × List (DbEv V))
  | db, [] => some (db, [])
  | db, op :: ops =>
    if dbLegalB dims db op then
      match db.play1 js o op with
      | none => none
      | some (db1, out) =>
        if cleanB (op, out) then
          match db1.live js o dims ops with
          | none => none
          | some (db2, h) => some (db2, .call op out :: h)
        else none
    else none

theorem live_life {js : Json V} {o : FloatOps} {W : Prop} {dims : Nat → Nat} : ∀ (ops : List (DbOp V)) (db db' : Db) (h : List (DbEv V)),
    db.live js o dims ops = some (db', h) → DbLife js o W dims db h db' := by
  intro ops
  induction ops with
  | nil => intro db db' h hp; cases hp; exact .nil _
  | cons op ops ih =>
    intro db db' h hp
    unfold Db.live at hp
    split at hp
    · rename_i hl
      cases h1 : db.play1 js o op with
      | none => rw [h1] at hp; cases hp
      | some r =>
        obtain ⟨db1, out⟩ := r
        rw [h1] at hp
        dsimp only at hp
        split at hp
        · rename_i hc
          cases h2 : db1.live js o dims ops with
          | none => rw [h2] at hp; cases hp
          | some r2 =>
            rw [h2] at hp
            cases hp
            exact .cons ⟨dbLegalB_sound hl, cleanB_sound hc⟩ (.call (play1_step h1)) (ih _ _ _ h2)
        · cases hp
    · cases hp

/-- a run given by a list of calls exists. -/
theorem life_of {js : Json V} {o : FloatOps} (W : Prop) {dims : Nat → Nat} {db : Db} {ops : List (DbOp V)} (P : Db → List (DbEv V) → Bool)
    (h : (db.live js o dims ops).any (fun r => P r.1 r.2) = true) :
    ∃ db' hs, DbLife js o W dims db hs db' ∧ P db' hs = true ∧ db.live js o dims ops = some (db', hs) := by
  cases hp : db.live js o dims ops with
  | none => rw [hp] at h; cases h
  | some r =>
    rw [hp] at h
    exact ⟨r.1, r.2, live_life _ _ _ _ hp, h, rfl⟩

end Vectory
