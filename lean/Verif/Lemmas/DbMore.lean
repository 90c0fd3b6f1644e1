import Verif.Lemmas.Db
import Verif.Model.Path
/-! # More lemmas about databases: configurations across restarts, rows, paths -/
namespace Vectory
variable {V : Type}

/-! ## JSON objects through a Go map -/

theorem insertSorted_perm (k : String) (v : JScalar) : ∀ (m : List (String × JScalar)), k ∉ m.map Prod.fst →
    (insertSorted k v m).Perm ((k, v) :: m) := by
  intro m
  induction m with
  | nil => intro _; exact .refl _
  | cons x m ih =>
    obtain ⟨k', v'⟩ := x
    intro h
    simp only [List.map_cons, List.mem_cons, not_or] at h
    unfold insertSorted
    rw [if_neg (Ne.symm h.1)]
    split
    · exact .refl _
    · exact ((ih h.2).cons _).trans (List.Perm.swap ..)

theorem viaMap_perm (kvs : List (String × JScalar)) (hn : (kvs.map Prod.fst).Nodup) :
    (kvs.foldl (fun m kv => insertSorted kv.1 kv.2 m) []).Perm kvs := by
  have aux : ∀ (l acc : List (String × JScalar)), ((acc ++ l).map Prod.fst).Nodup →
      (l.foldl (fun m kv => insertSorted kv.1 kv.2 m) acc).Perm (acc ++ l) := by
    intro l
    induction l with
    | nil => intro acc _; simp
    | cons x l ih =>
      intro acc h
      have hx : x.1 ∉ acc.map Prod.fst := by
        rw [List.map_append] at h
        intro hm
        exact (List.nodup_append.mp h).2.2 _ hm _ (by simp) rfl
      have hp := insertSorted_perm x.1 x.2 acc hx
      have hp2 : (insertSorted x.1 x.2 acc ++ l).Perm (acc ++ x :: l) :=
        (hp.append_right l).trans (List.perm_middle.symm)
      rw [List.foldl_cons]
      exact (ih _ ((hp2.map Prod.fst).nodup_iff.mpr h)).trans hp2
  simpa using aux kvs [] (by simpa using hn)

theorem decodeField_perm {α : Type} (conv : JScalar → Option α) (name : String) (zero : α) {l l' : List (String × JScalar)}
    (hp : l.Perm l') (hn : (l.map (fun kv => kv.1.toLower)).Nodup) :
    decodeField conv name zero l = decodeField conv name zero l' := by
  unfold decodeField
  have hn2 : l.Pairwise (fun a b => a.1.toLower ≠ b.1.toLower) := List.pairwise_map.mp hn
  refine hp.foldl_eq' ?_ _
  intro x hx y hy z
  by_cases hxy : x = y
  · subst hxy; rfl
  · have hne : x.1.toLower ≠ y.1.toLower := by
      intro he
      have := (List.nodup_iff_pairwise_ne.mp hn)
      obtain ⟨i, hi, hxi⟩ := List.getElem_of_mem hx
      obtain ⟨j, hj, hyj⟩ := List.getElem_of_mem hy
      rcases Nat.lt_trichotomy i j with hij | hij | hij
      · exact (List.pairwise_iff_getElem.mp hn2 i j hi hj hij) (by rw [hxi, hyj]; exact he)
      · subst hij; exact hxy (by rw [← hxi, ← hyj])
      · exact (List.pairwise_iff_getElem.mp hn2 j i hj hi hij) (by rw [hxi, hyj]; exact he.symm)
    by_cases h1 : x.1.toLower = name
    · have h2 : y.1.toLower ≠ name := fun h => hne (h1.trans h.symm)
      simp only [if_pos h1, if_neg h2]
    · simp only [if_neg h1]

theorem decode_viaMap {j m : JVal} (h : viaMap j = some m) (hd : DistinctKeys j) : decodeHnsw m = decodeHnsw j := by
  cases j with
  | scalar s =>
    cases s <;> simp [viaMap] at h
    subst h; rfl
  | obj kvs =>
    simp only [viaMap, Option.some.injEq] at h
    subst h
    have hk : (kvs.map Prod.fst).Nodup := by
      have : ((kvs.map Prod.fst).map String.toLower).Nodup := by rw [List.map_map]; exact hd
      exact (List.pairwise_map.mp this).imp (fun h e => h (by rw [e]))
    have hp := viaMap_perm kvs hk
    have hn : ((kvs.foldl (fun m kv => insertSorted kv.1 kv.2 m) []).map (fun kv => kv.1.toLower)).Nodup :=
      (hp.map _).nodup_iff.mpr hd
    simp only [decodeHnsw, decodeField_perm _ _ _ hp hn]

/-! ## Rows -/

theorem metaCreate_cases (db : Db) (cfg : Config) (env : CreateEnv) :
    (∃ e, db.metaCreate cfg env = (db, .error e)) ∨
    (db.metaCreate cfg env = (db, .ok 0) ∧ (cfg.indexParams = none ∨ cfg.embedderConfig = none)) ∨
    (∃ ip params ec conf e r, cfg.indexParams = some ip ∧ viaMap ip = some params ∧ cfg.embedderConfig = some ec ∧ viaMap ec = some conf ∧
      r = Row.mk db.nextId cfg.name cfg.indexType cfg.dataType cfg.embedderType params conf cfg.mappings ∧
      db.metaCreate cfg env = ({ db with rows := db.rows ++ [r], nextId := db.nextId + 1 }, .error e) ∧
      (env.mkdirFails = true ∨ db.dirs.has cfg.name = true)) ∨
    (∃ ip params ec conf r, cfg.indexParams = some ip ∧ viaMap ip = some params ∧ cfg.embedderConfig = some ec ∧ viaMap ec = some conf ∧
      r = Row.mk db.nextId cfg.name cfg.indexType cfg.dataType cfg.embedderType params conf cfg.mappings ∧
      db.metaCreate cfg env = ({ db with rows := db.rows ++ [r], nextId := db.nextId + 1, dirs := db.dirs.set cfg.name {} }, .ok db.nextId) ∧
      db.dirs.has cfg.name = false ∧ cfg.name ∉ db.rows.map Row.name) := by
  unfold Db.metaCreate
  cases hi : cfg.indexParams with
  | none => right; left; exact ⟨rfl, Or.inl rfl⟩
  | some ip =>
    dsimp only
    cases hv : viaMap ip with
    | none => left; exact ⟨_, rfl⟩
    | some params =>
      dsimp only
      cases he : cfg.embedderConfig with
      | none => right; left; exact ⟨rfl, Or.inr rfl⟩
      | some ec =>
        dsimp only
        cases hw : viaMap ec with
        | none => left; exact ⟨_, rfl⟩
        | some conf =>
          dsimp only
          by_cases h1 : (env.saveFails || db.metaClosed) = true
          · rw [if_pos h1]; left; exact ⟨_, rfl⟩
          rw [if_neg h1]
          by_cases h2 : db.rows.any (fun r => decide (r.name = cfg.name)) = true
          · rw [if_pos h2]; left; exact ⟨_, rfl⟩
          rw [if_neg h2]
          by_cases h3 : env.mkdirFails = true
          · rw [if_pos h3]; right; right; left
            exact ⟨ip, params, ec, conf, _, _, rfl, hv, rfl, hw, rfl, rfl, Or.inl h3⟩
          rw [if_neg h3]
          by_cases h4 : db.dirs.has cfg.name = true
          · rw [if_pos h4]; right; right; left
            exact ⟨ip, params, ec, conf, _, _, rfl, hv, rfl, hw, rfl, rfl, Or.inr h4⟩
          rw [if_neg h4]; right; right; right
          exact ⟨ip, params, ec, conf, _, rfl, hv, rfl, hw, rfl, rfl, by simpa using h4, fun h => h2 ((hasRow_iff db cfg.name).mpr h)⟩

/-- what `CreateCollection` does when it gets past the checks. -/
theorem create_reduce {db : Db} {cfg : Config} (env : CreateEnv) (hc : db.closed = false) (hd : Documented cfg)
    (hn : db.colls.has cfg.name = false) :
    db.create cfg env =
      match db.metaCreate cfg env with
      | (db1, .error e) => .ok (db1, some e)
      | (db1, .ok id) =>
        match newCollection cfg ((db1.dirs.get? cfg.name).getD {}) env.openFails with
        | .error (.panic p) => .error p
        | .error (.error e) => .ok ({ db1 with dirs := db1.dirs.set cfg.name ((db1.dirs.get? cfg.name).getD {}) }, some e)
        | .ok c => .ok ({ db1 with
            dirs := db1.dirs.set cfg.name ((db1.dirs.get? cfg.name).getD {}),
            colls := db1.colls.set cfg.name { id := id, config := cfg, coll := c } }, none) := by
  unfold Db.create
  rw [if_neg (by simp [hc]), (validate_iff cfg).mpr hd]
  dsimp only
  rw [if_neg (by simp [hn])]
  cases hm : db.metaCreate cfg env with
  | mk db1 r =>
    cases r with
    | error e => rfl
    | ok id =>
      dsimp only
      cases newCollection cfg ((db1.dirs.get? cfg.name).getD {}) env.openFails with
      | ok c => rfl
      | error a => cases a <;> rfl

theorem create_rejected {db db' : Db} {cfg : Config} {env : CreateEnv} {e : Option Err} (h : db.create cfg env = .ok (db', e)) :
    (db' = db ∧ e ≠ none) ∨ (db.closed = false ∧ Documented cfg ∧ db.colls.has cfg.name = false) := by
  by_cases hc : db.closed = true
  · unfold Db.create at h; rw [if_pos hc] at h; cases h; exact Or.inl ⟨rfl, by simp⟩
  by_cases hd : Documented cfg
  · by_cases hn : db.colls.has cfg.name = true
    · unfold Db.create at h
      rw [if_neg hc, (validate_iff cfg).mpr hd] at h
      dsimp only at h
      rw [if_pos hn] at h
      cases h; exact Or.inl ⟨rfl, by simp⟩
    · exact Or.inr ⟨by simpa using hc, hd, by simpa using hn⟩
  · cases hv : validateConfig cfg with
    | none => exact absurd ((validate_iff cfg).mp hv) hd
    | some why =>
      unfold Db.create at h
      rw [if_neg hc, hv] at h
      cases h; exact Or.inl ⟨rfl, by simp⟩

/-- rows are only added by create. -/
theorem create_rows {db db' : Db} {cfg : Config} {env : CreateEnv} {e : Option Err} (h : db.create cfg env = .ok (db', e)) :
    ∀ n, n ∈ db.rows.map Row.name → n ∈ db'.rows.map Row.name := by
  intro n hn
  rcases create_rejected h with ⟨rfl, _⟩ | ⟨hc, hd, hnm⟩
  · exact hn
  rw [create_reduce env hc hd hnm] at h
  have key : ∀ db1 r, db.metaCreate cfg env = (db1, r) → n ∈ db1.rows.map Row.name := by
    intro db1 r hm
    rcases metaCreate_cases db cfg env with ⟨e, h1⟩ | ⟨h1, _⟩ | ⟨_, _, _, _, _, _, _, _, _, _, _, h1, _⟩ |
      ⟨_, _, _, _, _, _, _, _, _, _, h1, _⟩ <;> rw [h1] at hm <;> cases hm
    · exact hn
    · exact hn
    · simp only [List.map_append, List.mem_append]; exact Or.inl hn
    · simp only [List.map_append, List.mem_append]; exact Or.inl hn
  cases hm : db.metaCreate cfg env with
  | mk db1 r =>
    rw [hm] at h
    have := key db1 r hm
    cases r with
    | error e => cases h; exact this
    | ok id =>
      dsimp only at h
      split at h
      · cases h
      · cases h; exact this
      · cases h; exact this

/-- every collection opened at start comes from a row. -/
theorem initColls_all (files : String → Option Disk) (P : String → OpenColl → Prop) : ∀ (rows : List Row) (colls colls' : AMap String OpenColl),
    initColls files rows colls = .ok colls' → (∀ n oc, colls.get? n = some oc → P n oc) →
    (∀ r ∈ rows, ∀ c, newCollection r.config ((files r.name).getD {}) false = .ok c → P r.name { id := r.id, config := r.config, coll := c }) →
    ∀ n oc, colls'.get? n = some oc → P n oc := by
  intro rows
  induction rows with
  | nil => intro colls colls' h h1 _; cases h; exact h1
  | cons r rows ih =>
    intro colls colls' h h1 h2
    unfold initColls at h
    obtain ⟨c, hc, h⟩ := (bind_ok_iff _ _ _).mp h
    refine ih _ _ h ?_ (fun r' hr' => h2 r' (List.mem_cons_of_mem _ hr'))
    intro n oc hg
    by_cases hn : r.name = n
    · subst hn
      rw [AMap.get?_set_self] at hg
      cases hg
      exact h2 r (List.mem_cons_self ..) c hc
    · rw [AMap.get?_set_ne _ _ _ _ hn] at hg
      exact h1 n oc hg

theorem initColls_fail (files : String → Option Disk) : ∀ (rows : List Row) (colls : AMap String OpenColl) (r : Row), r ∈ rows →
    (∀ c, newCollection r.config ((files r.name).getD {}) false ≠ .ok c) → ∃ a, initColls files rows colls = .error a := by
  intro rows colls r hr hf
  cases h : initColls files rows colls with
  | error a => exact ⟨a, rfl⟩
  | ok colls' =>
    obtain ⟨c, hc⟩ := initColls_mem files rows colls colls' h r hr
    exact absurd hc (hf c)

theorem close_rows (db : Db) (mf : Bool) (sf : String → Bool) : (db.close mf sf).1.rows = db.rows := by
  unfold Db.close
  by_cases hm : mf = true
  · rw [if_pos hm]
  · rw [if_neg hm]
    dsimp only
    cases (closeAll sf db.colls).2 <;> rfl

theorem delete_rows (db : Db) (n m : String) (a b : Bool) (h : n ≠ m) (hn : n ∈ db.rows.map Row.name) :
    n ∈ (db.delete m a b).1.rows.map Row.name := by
  unfold Db.delete
  split
  · exact hn
  split
  · exact hn
  split
  · exact hn
  split
  · exact hn
  have hk : n ∈ (db.rows.filter (fun r => decide (r.name ≠ m))).map Row.name := by
    obtain ⟨r, hr, rfl⟩ := List.mem_map.mp hn
    exact List.mem_map.mpr ⟨r, List.mem_filter.mpr ⟨hr, by simpa using h⟩, rfl⟩
  dsimp only
  split <;> exact hk

/-! ## Configurations across restarts -/

/-- the configuration each name was last created with (spec; read off the calls and their results). -/
def trackStep (f : String → Option Config) : DbOp V × DbOut V → String → Option Config
  | (.create cfg _, .done none) => fun k => if k = cfg.name then some cfg else f k
  | (.delete n _ _, .done none) => fun k => if k = n then none else f k
  | _ => f

def createdWith (h : List (DbOp V × DbOut V)) : String → Option Config := h.foldl trackStep (fun _ => none)

/-- the row holds the configuration, up to the way JSON values come back from a Go map. -/
structure RowOf (cfg : Config) (r : Row) : Prop where
  name : r.name = cfg.name
  indexType : r.indexType = cfg.indexType
  dataType : r.dataType = cfg.dataType
  embedderType : r.embedderType = cfg.embedderType
  params : ∃ ip, cfg.indexParams = some ip ∧ viaMap ip = some r.indexParams
  embedder : ∃ ec, cfg.embedderConfig = some ec ∧ viaMap ec = some r.embedderConfig

structure TInv (f : String → Option Config) (db : Db) : Prop where
  inv : DbInv (fun _ => False) db
  names : ∀ n, (f n).isSome = db.colls.has n
  rows : ∀ n cfg, f n = some cfg → cfg.name = n ∧ ∃ r ∈ db.rows, RowOf cfg r
  open_ : ∀ n cfg oc, f n = some cfg → db.colls.get? n = some oc → oc.config = cfg ∨ ∃ r ∈ db.rows, RowOf cfg r ∧ oc.config = r.config

theorem track_step {js : Json V} {o : FloatOps} {db db' : Db} {op : DbOp V} {out : DbOut V} {f : String → Option Config}
    (i : TInv f db) (h : DbStep js o db op out db') (hcl : CleanOp (op, out)) : TInv (trackStep f (op, out)) db' := by
  have i' := (db_step i.inv h hcl (fun _ _ _ _ h => h)).1
  cases h with
  | @create _ cfg env e h =>
    rcases create_rejected h with ⟨rfl, hne⟩ | ⟨hc, hd, hn⟩
    · have : trackStep f (DbOp.create cfg env, (DbOut.done e : DbOut V)) = f := by
        cases e with
        | none => exact absurd rfl hne
        | some e => rfl
      rw [this]; exact i
    · obtain ⟨he, _, hacc⟩ := hcl
      subst he
      obtain ⟨hh, ec, m, hec, hm⟩ := hacc hd
      obtain ⟨ip, params, p, h1, h2, h3, h4⟩ := create_fresh i.inv (fun h => h) hc hd hh hec hm hn
      rw [h4] at h
      cases h
      refine ⟨i', ?_, ?_, ?_⟩
      · intro n
        by_cases hk : n = cfg.name
        · subst hk; simp [trackStep, AMap.has, AMap.get?_set_self]
        · have := i.names n
          simp only [trackStep, if_neg hk, AMap.has, AMap.get?_set_ne _ _ _ _ (Ne.symm hk)]
          exact this
      · intro n cfg' hf
        by_cases hk : n = cfg.name
        · subst hk
          simp only [trackStep, if_true, Option.some.injEq] at hf
          subst hf
          exact ⟨rfl, Row.mk db.nextId cfg.name cfg.indexType cfg.dataType cfg.embedderType params m cfg.mappings,
            List.mem_append_right _ (by simp), ⟨rfl, rfl, rfl, rfl, ⟨ip, h1, h2⟩, ⟨ec, hec, hm⟩⟩⟩
        · simp only [trackStep, if_neg hk] at hf
          obtain ⟨a, r, hr, hro⟩ := i.rows n cfg' hf
          exact ⟨a, r, List.mem_append_left _ hr, hro⟩
      · intro n cfg' oc hf hg
        by_cases hk : n = cfg.name
        · subst hk
          simp only [trackStep, if_true, Option.some.injEq] at hf
          subst hf
          rw [AMap.get?_set_self] at hg
          cases hg
          exact Or.inl rfl
        · simp only [trackStep, if_neg hk] at hf
          rw [AMap.get?_set_ne _ _ _ _ (Ne.symm hk)] at hg
          rcases i.open_ n cfg' oc hf hg with h | ⟨r, hr, h⟩
          · exact Or.inl h
          · exact Or.inr ⟨r, List.mem_append_left _ hr, h⟩
  | @get name => exact i
  | @delete name ef rf =>
    obtain ⟨h1, h2⟩ := hcl
    subst h1; subst h2
    by_cases hout : (db.delete name false false).2 = none
    · have hd : db.delete name false false = ({ db with
          rows := db.rows.filter (fun r => decide (r.name ≠ name)),
          dirs := db.dirs.erase name, colls := db.colls.erase name }, none) := by
        unfold Db.delete at hout ⊢
        split at hout
        · cases hout
        split at hout
        · cases hout
        split at hout
        · cases hout
        split at hout
        · cases hout
        simp only [*]
        simp
      rw [hd] at i' ⊢
      refine ⟨i', ?_, ?_, ?_⟩
      · intro n
        by_cases hk : n = name
        · subst hk; simp [trackStep, AMap.has, AMap.get?_erase_self]
        · have := i.names n
          simp only [trackStep, if_neg hk, AMap.has, AMap.get?_erase_ne _ _ _ (Ne.symm hk)]
          exact this
      · intro n cfg' hf
        by_cases hk : n = name
        · simp [trackStep, hk] at hf
        · simp only [trackStep, if_neg hk] at hf
          obtain ⟨a, r, hr, hro⟩ := i.rows n cfg' hf
          exact ⟨a, r, List.mem_filter.mpr ⟨hr, by simp [hro.name, a, hk]⟩, hro⟩
      · intro n cfg' oc hf hg
        by_cases hk : n = name
        · simp [trackStep, hk] at hf
        · simp only [trackStep, if_neg hk] at hf
          rw [AMap.get?_erase_ne _ _ _ (Ne.symm hk)] at hg
          rcases i.open_ n cfg' oc hf hg with h | ⟨r, hr, hro, h⟩
          · exact Or.inl h
          · exact Or.inr ⟨r, List.mem_filter.mpr ⟨hr, by simp [hro.name, (i.rows n cfg' hf).1, hk]⟩, hro, h⟩
    · have hd : (db.delete name false false).1 = db := by
        unfold Db.delete at hout ⊢
        split
        · rfl
        split
        · rfl
        split
        · rfl
        split
        · rfl
        exfalso
        simp [*] at hout
      rw [hd] at i' ⊢
      have : trackStep f (DbOp.delete name false false, (DbOut.done (db.delete name false false).2 : DbOut V)) = f := by
        cases hq : (db.delete name false false).2 with
        | none => exact absurd hq hout
        | some e => rfl
      rw [this]; exact i
  | @on name op oc L c' out' hg hL hne ha =>
    obtain ⟨hc, hoc⟩ := get_ok hg
    refine ⟨i', ?_, i.rows, ?_⟩
    · intro n
      show (f n).isSome = _
      rw [i.names n]
      by_cases hk : name = n
      · subst hk; simp [AMap.has, AMap.get?_set_self, hoc]
      · simp [AMap.has, AMap.get?_set_ne _ _ _ _ hk]
    · intro n cfg' oc' hf hg'
      by_cases hk : name = n
      · subst hk
        simp only [AMap.get?_set_self] at hg'
        cases hg'
        exact i.open_ name cfg' oc hf hoc
      · simp only [AMap.get?_set_ne _ _ _ _ hk] at hg'
        exact i.open_ n cfg' oc' hf hg'
  | @onMissing name op e hg => exact i
  | @close mf sf =>
    have hout : (db.close mf sf).2 = none := by
      have : (DbOut.done (db.close mf sf).2 : DbOut V) = .done none := hcl
      injection this
    have hcolls : (db.close mf sf).1.colls = (closeAll sf db.colls).1 := by
      unfold Db.close at hout ⊢
      by_cases hm : mf = true
      · rw [if_pos hm] at hout; cases hout
      rw [if_neg hm]
      dsimp only
      cases (closeAll sf db.colls).2 <;> rfl
    have hrows := close_rows db mf sf
    show TInv f _
    refine ⟨i', ?_, ?_, ?_⟩
    · intro n
      rw [i.names n, hcolls]
      rcases closeAll_spec sf db.colls n with ⟨a, b⟩ | ⟨oc, oc', a, b, _⟩
      · simp [AMap.has, a, b]
      · simp [AMap.has, a, b]
    · rw [hrows]; exact i.rows
    · intro n cfg' oc' hf hg'
      rw [hcolls] at hg'
      rw [hrows]
      rcases closeAll_spec sf db.colls n with ⟨a, b⟩ | ⟨oc, oc2, a, b, _, hcf, _⟩
      · rw [a] at hg'; cases hg'
      · rw [b] at hg'; cases hg'
        rw [hcf]
        exact i.open_ n cfg' oc hf a
  | @restart _ h =>
    obtain ⟨h1, h2, h3, h4, h5, h6⟩ := reopen_spec_db h
    obtain ⟨g1, g2⟩ := initColls_spec _ _ _ _ h1 i.inv.nd
    show TInv f db'
    refine ⟨i', ?_, ?_, ?_⟩
    · intro n
      rw [i.names n]
      have := initColls_has _ _ _ _ h1 n
      rw [i.inv.rows n] at this
      have h0 : AMap.has ([] : AMap String OpenColl) n = false := rfl
      rw [h0] at this
      simp only [Bool.false_eq_true, false_or] at this
      cases hb : db'.colls.has n <;> cases hb2 : db.colls.has n <;> simp_all
    · rw [h2]; exact i.rows
    · intro n cfg' oc' hf hg'
      rw [h2]
      obtain ⟨a, r, hr, hro⟩ := i.rows n cfg' hf
      obtain ⟨c, _, hc⟩ := g2 r hr
      rw [hro.name, a, hg'] at hc
      cases hc
      exact Or.inr ⟨r, hr, hro, rfl⟩

theorem track_runs {js : Json V} {o : FloatOps} {db db' : Db} {h : List (DbOp V × DbOut V)} (hr : DbRuns js o db h db') :
    ∀ (f : String → Option Config), TInv f db → (∀ x ∈ h, CleanOp x) → TInv (h.foldl trackStep f) db' := by
  induction hr with
  | nil db => intro f i _; exact i
  | cons hs _ ih =>
    intro f i hcl
    exact ih _ (track_step i hs (hcl _ (by simp))) (fun x hx => hcl x (by simp [hx]))

theorem tinv_init : TInv (fun _ => none) {} :=
  ⟨dbInv_init _, fun _ => rfl, fun _ _ h => (nomatch h), fun _ _ _ h => (nomatch h)⟩

/-! ## Paths -/

theorem splitSlash_plain : ∀ (cs : List Char), '/' ∉ cs → splitSlash cs = [cs] := by
  intro cs
  induction cs with
  | nil => intro _; rfl
  | cons c cs ih =>
    intro h
    simp only [List.mem_cons, not_or] at h
    unfold splitSlash
    rw [ih h.2]
    simp only
    rw [if_neg (Ne.symm h.1)]

/-! ## Opening: the parameters and the possible errors -/

theorem liftPanic_ok {α : Type} {x : Except Panic α} {a : α} (h : liftPanic x = .ok a) : x = .ok a := by
  cases x with
  | ok b => cases h; rfl
  | error p => cases h

theorem restore_cfg {h h' : Hnsw} {b : Bytes} (hr : restore h b = .ok h') : h'.cfg = h.cfg := by
  unfold restore at hr
  split at hr
  · cases hr
  split at hr
  · have := liftPanic_ok hr
    unfold restoreAddVertex at this
    obtain ⟨_, _, this⟩ := (bind_ok_iff _ _ _).mp this
    obtain ⟨_, _, this⟩ := (bind_ok_iff _ _ _).mp this
    cases this; rfl
  split at hr
  · have := liftPanic_ok hr
    unfold restoreSetEntryPoint at this
    obtain ⟨_, _, this⟩ := (bind_ok_iff _ _ _).mp this
    obtain ⟨_, _, this⟩ := (bind_ok_iff _ _ _).mp this
    cases this; rfl
  split at hr
  · have := liftPanic_ok hr
    unfold restoreSetConnections at this
    obtain ⟨_, _, this⟩ := (bind_ok_iff _ _ _).mp this
    obtain ⟨_, _, this⟩ := (bind_ok_iff _ _ _).mp this
    obtain ⟨_, _, this⟩ := (bind_ok_iff _ _ _).mp this
    obtain ⟨_, _, this⟩ := (bind_ok_iff _ _ _).mp this
    obtain ⟨_, _, this⟩ := (bind_ok_iff _ _ _).mp this
    cases this; rfl
  split at hr
  · have := liftPanic_ok hr
    unfold restoreAddConnection at this
    obtain ⟨_, _, this⟩ := (bind_ok_iff _ _ _).mp this
    obtain ⟨_, _, this⟩ := (bind_ok_iff _ _ _).mp this
    obtain ⟨_, _, this⟩ := (bind_ok_iff _ _ _).mp this
    obtain ⟨_, _, this⟩ := (bind_ok_iff _ _ _).mp this
    cases this; rfl
  split at hr
  · have := liftPanic_ok hr
    unfold restoreDeleteVertex at this
    obtain ⟨_, _, this⟩ := (bind_ok_iff _ _ _).mp this
    cases this; rfl
  · cases hr

theorem loadFromWAL_cfg : ∀ (bs : List Bytes) (h h' : Hnsw), loadFromWAL h bs = .ok h' → h'.cfg = h.cfg := by
  intro bs
  induction bs with
  | nil => intro h h' hl; cases hl; rfl
  | cons b bs ih =>
    intro h h' hl
    unfold loadFromWAL at hl
    rw [List.foldlM_cons] at hl
    obtain ⟨h1, hr, hl⟩ := (bind_ok_iff _ _ _).mp hl
    rw [ih h1 h' hl, restore_cfg hr]

theorem populateVectors_cfg (s : Stores) : ∀ (ks : List Bytes) (h h' : Hnsw), populateVectors s h ks = .ok h' → h'.cfg = h.cfg := by
  intro ks
  induction ks with
  | nil => intro h h' hp; cases hp; rfl
  | cons k ks ih =>
    intro h h' hp
    unfold populateVectors at hp
    obtain ⟨_, _, hp⟩ := (bind_ok_iff _ _ _).mp hp
    obtain ⟨_, _, hp⟩ := (bind_ok_iff _ _ _).mp hp
    obtain ⟨h1, h2, hp⟩ := (bind_ok_iff _ _ _).mp hp
    rw [ih _ _ hp]
    unfold populateOne at h2
    obtain ⟨_, _, h2⟩ := (bind_ok_iff _ _ _).mp h2
    cases h2; rfl

theorem openColl_cfg {cfg : Cfg} {ms : List String} {he : Bool} {d : Disk} {c : Coll}
    (h : openColl cfg ms he d = .ok c) : c.index.cfg = cfg := by
  unfold openColl at h
  obtain ⟨ctr, _, h⟩ := (bind_ok_iff _ _ _).mp h
  obtain ⟨h1, hl, h⟩ := (bind_ok_iff _ _ _).mp h
  obtain ⟨h2, hp, h⟩ := (bind_ok_iff _ _ _).mp h
  cases h
  show h2.cfg = cfg
  rw [populateVectors_cfg _ _ _ _ (liftPanic_ok hp), loadFromWAL_cfg _ _ _ hl]
  rfl

theorem newCollection_cfg {cfg : Config} {d : Disk} {f : Bool} {c : Coll} (h : newCollection cfg d f = .ok c) :
    c.index.cfg = ((cfg.indexParams.bind decodeHnsw).getD {}).toCfg := by
  unfold newCollection at h
  split at h
  · cases h
  · split at h
    · exact openColl_cfg h
    · cases h

theorem bind_err {ε α β : Type} {x : Except ε α} {f : α → Except ε β} {e : ε} (h : (x >>= f) = .error e) :
    x = .error e ∨ ∃ a, x = .ok a ∧ f a = .error e := by
  cases x with
  | error e' => left; cases h; rfl
  | ok a => right; exact ⟨a, rfl, h⟩

theorem liftPanic_err {α : Type} {x : Except Panic α} {e : Err} (h : liftPanic x = .error (.error e)) : False := by
  cases x <;> cases h

theorem restore_err {h : Hnsw} {b : Bytes} {e : Err} (hr : restore h b = .error (.error e)) : e.isValidation = false := by
  unfold restore at hr
  repeat' (split at hr)
  all_goals first | exact absurd (liftPanic_err hr) id | (cases hr; rfl) | cases hr

theorem loadFromWAL_err : ∀ (bs : List Bytes) (h : Hnsw) (e : Err), loadFromWAL h bs = .error (.error e) → e.isValidation = false := by
  intro bs
  induction bs with
  | nil => intro h e hl; cases hl
  | cons b bs ih =>
    intro h e hl
    unfold loadFromWAL at hl
    rw [List.foldlM_cons] at hl
    rcases bind_err hl with hl | ⟨h1, _, hl⟩
    · exact restore_err hl
    · exact ih h1 e hl

theorem newCollection_err {cfg : Config} {d : Disk} {f : Bool} {e : Err} (h : newCollection cfg d f = .error (.error e)) :
    e.isValidation = false := by
  unfold newCollection at h
  split at h
  · cases h; rfl
  split at h
  · unfold openColl at h
    rcases bind_err h with h | ⟨_, _, h⟩
    · unfold newIdCounter at h
      repeat' (split at h)
      all_goals first | (cases h; rfl) | cases h
    rcases bind_err h with h | ⟨_, _, h⟩
    · exact loadFromWAL_err _ _ _ h
    rcases bind_err h with h | ⟨_, _, h⟩
    · exact absurd (liftPanic_err h) id
    · cases h
  · cases h; rfl

/-- a validation error comes from the validator. -/
theorem create_validation {db db' : Db} {cfg : Config} {env : CreateEnv} {e : Err} (h : db.create cfg env = .ok (db', some e)) :
    e.isValidation = true ↔ (db.closed = false ∧ ¬ Documented cfg) := by
  by_cases hc : db.closed = true
  · unfold Db.create at h; rw [if_pos hc] at h; cases h; simp [Err.isValidation, hc]
  have hc' : db.closed = false := by simpa using hc
  by_cases hd : Documented cfg
  · have hf : e.isValidation = false := by
      by_cases hn : db.colls.has cfg.name = true
      · unfold Db.create at h
        rw [if_neg hc, (validate_iff cfg).mpr hd] at h
        dsimp only at h
        rw [if_pos hn] at h
        cases h; rfl
      · rw [create_reduce env hc' hd (by simpa using hn)] at h
        cases hm : db.metaCreate cfg env with
        | mk db1 r =>
          rw [hm] at h
          cases r with
          | error e1 =>
            cases h
            unfold Db.metaCreate at hm
            dsimp only at hm
            repeat' (split at hm)
            all_goals first | (cases hm; rfl) | cases hm
          | ok id =>
            dsimp only at h
            cases hw : newCollection cfg ((db1.dirs.get? cfg.name).getD {}) env.openFails with
            | ok c => rw [hw] at h; cases h
            | error a =>
              rw [hw] at h
              cases a with
              | panic p => cases h
              | error e1 => cases h; exact newCollection_err hw
    simp [hf, hd]
  · unfold Db.create at h
    rw [if_neg hc] at h
    cases hv : validateConfig cfg with
    | none => exact absurd ((validate_iff cfg).mp hv) hd
    | some w => rw [hv] at h; cases h; simp [Err.isValidation, hc', hd]

/-! ## Rows are kept -/

theorem create_keeps {db db' : Db} {cfg : Config} {env : CreateEnv} {e : Option Err} (h : db.create cfg env = .ok (db', e))
    {r : Row} (hr : r ∈ db.rows) : r ∈ db'.rows := by
  rcases create_rejected h with ⟨rfl, _⟩ | ⟨hc, hd, hnm⟩
  · exact hr
  rw [create_reduce env hc hd hnm] at h
  have key : ∀ db1 x, db.metaCreate cfg env = (db1, x) → r ∈ db1.rows := by
    intro db1 x hm
    rcases metaCreate_cases db cfg env with ⟨e, h1⟩ | ⟨h1, _⟩ | ⟨_, _, _, _, _, _, _, _, _, _, _, h1, _⟩ |
      ⟨_, _, _, _, _, _, _, _, _, _, h1, _⟩ <;> rw [h1] at hm <;> cases hm
    · exact hr
    · exact hr
    · exact List.mem_append_left _ hr
    · exact List.mem_append_left _ hr
  cases hm : db.metaCreate cfg env with
  | mk db1 x =>
    have k := key db1 x hm
    rw [hm] at h
    cases x with
    | error e => cases h; exact k
    | ok id =>
      dsimp only at h
      cases hw : newCollection cfg ((db1.dirs.get? cfg.name).getD {}) env.openFails with
      | ok c => rw [hw] at h; cases h; exact k
      | error a => rw [hw] at h; cases a <;> cases h; exact k

theorem delete_keeps (db : Db) (m : String) (a b : Bool) {r : Row} (hn : r.name ≠ m) (hr : r ∈ db.rows) :
    r ∈ (db.delete m a b).1.rows := by
  unfold Db.delete
  split
  · exact hr
  split
  · exact hr
  split
  · exact hr
  split
  · exact hr
  have hk : r ∈ db.rows.filter (fun r => decide (r.name ≠ m)) := List.mem_filter.mpr ⟨hr, by simpa using hn⟩
  split
  · exact hk
  · exact hk

/-- a call other than a delete of that name keeps the row. -/
theorem step_keeps {js : Json V} {o : FloatOps} {db db' : Db} {op : DbOp V} {out : DbOut V} (h : DbStep js o db op out db')
    {r : Row} (hr : r ∈ db.rows) (hd : ∀ a b, op ≠ .delete r.name a b) : r ∈ db'.rows := by
  cases h with
  | create h => exact create_keeps h hr
  | get => exact hr
  | @delete n a b =>
    refine delete_keeps db n a b ?_ hr
    intro he; subst he; exact hd a b rfl
  | on _ _ _ _ => exact hr
  | onMissing _ => exact hr
  | close => rw [close_rows]; exact hr
  | restart h => rw [(reopen_spec_db h).2.1]; exact hr

theorem runs_keep {js : Json V} {o : FloatOps} {db db' : Db} {h : List (DbOp V × DbOut V)} (hr : DbRuns js o db h db')
    {r : Row} (hm : r ∈ db.rows) (hd : ∀ x ∈ h, ∀ a b, x.1 ≠ .delete r.name a b) : r ∈ db'.rows := by
  induction hr with
  | nil db => exact hm
  | cons hs _ ih => exact ih (step_keeps hs hm (hd _ (List.mem_cons_self ..))) (fun x hx => hd x (List.mem_cons_of_mem _ hx))

end Vectory
