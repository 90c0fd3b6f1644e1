import Verif.Spec.DbMap
import Verif.Lemmas.Crash
/-! # Lemmas about databases -/
namespace Vectory
variable {V : Type}

theorem validate_iff (cfg : Config) : validateConfig cfg = none ↔ Documented cfg := by
  unfold validateConfig Documented
  by_cases hn : cfg.name = ""
  · simp [hn]
  rw [if_neg hn]
  have ht : validateTypes cfg = none ↔
      cfg.embedderType ∈ ["", "text2vec-huggingface", "fake_embedder"] ∧ cfg.dataType = "text" := by
    unfold validateTypes
    by_cases h1 : cfg.embedderType = "" ∨ cfg.embedderType = "text2vec-huggingface" ∨ cfg.embedderType = "fake_embedder"
    · rw [if_pos h1]
      by_cases h2 : cfg.dataType = "text"
      · simp [h2, h1]
      · simp [h2]
    · rw [if_neg h1]
      simp only [List.mem_cons, List.not_mem_nil, or_false]
      simp [h1]
  by_cases h1 : cfg.indexType = "hnsw"
  · rw [if_pos h1]
    have hd : cfg.indexType ≠ "disk_ann" := by rw [h1]; decide
    cases hp : validateHnswParams cfg.indexParams with
    | some e =>
      simp only [reduceCtorEq, false_iff]
      rintro ⟨_, ⟨_, j, p, hj, hdec, a, b, c, d, e'⟩ | h, _⟩
      · unfold validateHnswParams at hp
        rw [hj] at hp
        dsimp only at hp
        rw [hdec] at hp
        dsimp only at hp
        rw [if_neg (by omega), if_neg (by omega), if_neg (by omega), if_neg (by omega)] at hp
        rcases e' with e' | e'
        · rw [if_pos e'] at hp; cases hp
        · rw [if_neg (by rw [e']; decide), if_pos e'] at hp; cases hp
      · exact hd h
    | none =>
      dsimp only
      rw [ht]
      unfold validateHnswParams at hp
      cases hj : cfg.indexParams with
      | none => rw [hj] at hp; cases hp
      | some j =>
        rw [hj] at hp
        dsimp only at hp
        cases hdec : decodeHnsw j with
        | none => rw [hdec] at hp; cases hp
        | some p =>
          rw [hdec] at hp
          dsimp only at hp
          split at hp
          · cases hp
          split at hp
          · cases hp
          split at hp
          · cases hp
          split at hp
          · cases hp
          constructor
          · rintro ⟨h3, h4⟩
            refine ⟨hn, Or.inl ⟨h1, j, p, rfl, hdec, by omega, by omega, by omega, by omega, ?_⟩, h3, h4⟩
            split at hp
            · left; assumption
            · split at hp
              · right; assumption
              · cases hp
          · rintro ⟨_, _, h3, h4⟩; exact ⟨h3, h4⟩
  · rw [if_neg h1]
    by_cases h2 : cfg.indexType = "disk_ann"
    · rw [if_pos h2, ht]
      constructor
      · rintro ⟨h3, h4⟩; exact ⟨hn, Or.inr h2, h3, h4⟩
      · rintro ⟨_, _, h3, h4⟩; exact ⟨h3, h4⟩
    · rw [if_neg h2]
      simp only [reduceCtorEq, false_iff]
      rintro ⟨_, ⟨h, _⟩ | h, _⟩
      · exact h1 h
      · exact h2 h

theorem openColl_stores {cfg : Cfg} {ms : List String} {he : Bool} {d : Disk} {c : Coll}
    (h : openColl cfg ms he d = .ok c) : c.stores = d.stores ∧ c.mappings = ms ∧ c.hasEmbedder = he ∧ c.closed = false := by
  unfold openColl at h
  obtain ⟨ctr, _, h⟩ := (bind_ok_iff _ _ _).mp h
  obtain ⟨h1, _, h⟩ := (bind_ok_iff _ _ _).mp h
  obtain ⟨h2, _, h⟩ := (bind_ok_iff _ _ _).mp h
  cases h
  exact ⟨rfl, rfl, rfl, rfl⟩

theorem openColl_empty (cfg : Cfg) (ms : List String) (he : Bool) : openColl cfg ms he {} = .ok (Coll.new cfg ms he) := rfl

theorem newCollection_ok {cfg : Config} {d : Disk} {f : Bool} {c : Coll} (h : newCollection cfg d f = .ok c) :
    c.stores = d.stores ∧ c.mappings = cfg.mappings ∧ c.hasEmbedder = cfg.hasEmbedder ∧ c.closed = false ∧ cfg.indexType = "hnsw" := by
  unfold newCollection at h
  split at h
  · cases h
  · split at h
    · obtain ⟨a, b, c', d'⟩ := openColl_stores h
      exact ⟨a, b, c', d', by assumption⟩
    · cases h

/-- the open collections after `init`: one for each row, on the files of that row's name. -/
theorem initColls_spec (files : String → Option Disk) : ∀ (rows : List Row) (colls colls' : AMap String OpenColl),
    initColls files rows colls = .ok colls' → (rows.map Row.name).Nodup →
    (∀ n, n ∉ rows.map Row.name → colls'.get? n = colls.get? n) ∧
    (∀ r ∈ rows, ∃ c, newCollection r.config ((files r.name).getD {}) false = .ok c ∧
      colls'.get? r.name = some { id := r.id, config := r.config, coll := c }) := by
  intro rows
  induction rows with
  | nil => intro colls colls' h _; cases h; exact ⟨fun _ _ => rfl, fun r hr => absurd hr (by simp)⟩
  | cons r rows ih =>
    intro colls colls' h hnd
    unfold initColls at h
    obtain ⟨c, hc, h⟩ := (bind_ok_iff _ _ _).mp h
    obtain ⟨hn1, hn2⟩ := List.nodup_cons.mp hnd
    obtain ⟨h1, h2⟩ := ih _ _ h hn2
    constructor
    · intro n hn
      simp only [List.map_cons, List.mem_cons, not_or] at hn
      rw [h1 n hn.2, AMap.get?_set_ne _ _ _ _ (Ne.symm hn.1)]
    · intro r' hr'
      rcases List.mem_cons.mp hr' with rfl | hr'
      · exact ⟨c, hc, by rw [h1 _ hn1, AMap.get?_set_self]⟩
      · exact h2 r' hr'

theorem initColls_mem (files : String → Option Disk) : ∀ (rows : List Row) (colls colls' : AMap String OpenColl),
    initColls files rows colls = .ok colls' → ∀ r ∈ rows, ∃ c, newCollection r.config ((files r.name).getD {}) false = .ok c := by
  intro rows
  induction rows with
  | nil => intro colls colls' h r hr; simp at hr
  | cons r rows ih =>
    intro colls colls' h r' hr'
    unfold initColls at h
    obtain ⟨c, hc, h⟩ := (bind_ok_iff _ _ _).mp h
    rcases List.mem_cons.mp hr' with rfl | hr'
    · exact ⟨c, hc⟩
    · exact ih _ _ h r' hr'

theorem initColls_has (files : String → Option Disk) : ∀ (rows : List Row) (colls colls' : AMap String OpenColl),
    initColls files rows colls = .ok colls' → ∀ n, colls'.has n = true ↔ (colls.has n = true ∨ n ∈ rows.map Row.name) := by
  intro rows
  induction rows with
  | nil => intro colls colls' h n; cases h; simp
  | cons r rows ih =>
    intro colls colls' h n
    unfold initColls at h
    obtain ⟨c, hc, h⟩ := (bind_ok_iff _ _ _).mp h
    rw [ih _ _ h n]
    by_cases hr : r.name = n
    · subst hr
      simp [AMap.has, AMap.get?_set_self]
    · simp only [AMap.has, AMap.get?_set_ne _ _ _ _ hr, List.map_cons, List.mem_cons]
      constructor
      · rintro (h | h)
        · exact Or.inl h
        · exact Or.inr (Or.inr h)
      · rintro (h | h | h)
        · exact Or.inl h
        · exact absurd h.symm hr
        · exact Or.inr h

theorem touchDirs_has (files : String → Option Disk) : ∀ (rows : List Row) (dirs : AMap String Disk) (n : String),
    (touchDirs files rows dirs).has n = true ↔ (dirs.has n = true ∨ n ∈ rows.map Row.name) := by
  intro rows
  induction rows with
  | nil => intro dirs n; simp [touchDirs]
  | cons r rows ih =>
    intro dirs n
    unfold touchDirs
    rw [ih]
    by_cases hr : r.name = n
    · subst hr
      simp [AMap.has, AMap.get?_set_self]
    · simp only [AMap.has, AMap.get?_set_ne _ _ _ _ hr, List.map_cons, List.mem_cons]
      constructor
      · rintro (h | h)
        · exact Or.inl h
        · exact Or.inr (Or.inr h)
      · rintro (h | h | h)
        · exact Or.inl h
        · exact absurd h.symm hr
        · exact Or.inr h

theorem foldDirs_has : ∀ (colls : AMap String OpenColl) (dirs : AMap String Disk) (n : String),
    (colls.foldl (fun d x => AMap.set d x.1 x.2.coll.disk) dirs).has n = true ↔ (dirs.has n = true ∨ colls.has n = true) := by
  intro colls
  induction colls with
  | nil => intro dirs n; simp [AMap.has]
  | cons x colls ih =>
    intro dirs n
    rw [List.foldl_cons, ih]
    by_cases hr : x.1 = n
    · subst hr
      simp [AMap.has, AMap.get?_set_self, AMap.get?]
    · simp only [AMap.has, AMap.get?_set_ne _ _ _ _ hr, AMap.get?, if_neg hr]

theorem closeAll_spec (sf : String → Bool) : ∀ (colls : AMap String OpenColl) (n : String),
    AMap.get? (closeAll sf colls).1 n = none ∧ AMap.get? colls n = none ∨
    ∃ oc oc', AMap.get? colls n = some oc ∧ AMap.get? (closeAll sf colls).1 n = some oc' ∧ oc'.id = oc.id ∧ oc'.config = oc.config ∧
      oc'.coll.disk = oc.coll.disk ∧ oc'.coll.index = oc.coll.index ∧ oc'.coll.mappings = oc.coll.mappings := by
  intro colls
  induction colls with
  | nil => intro n; left; exact ⟨rfl, rfl⟩
  | cons x colls ih =>
    obtain ⟨m, oc⟩ := x
    intro n
    have hcl : (oc.coll.close (sf m)).1.disk = oc.coll.disk ∧ (oc.coll.close (sf m)).1.index = oc.coll.index ∧
        (oc.coll.close (sf m)).1.mappings = oc.coll.mappings := by
      unfold Coll.close IdCounter.close
      by_cases hb : oc.coll.counter.closed = true
      · simp [hb, Coll.disk]
      · by_cases hs : sf m = true <;> simp [hb, hs, Coll.disk]
    unfold closeAll
    by_cases hc : oc.coll.closed = true
    · rw [if_pos hc]
      by_cases hn : m = n
      · right; exact ⟨oc, oc, by simp [AMap.get?, hn], by simp [AMap.get?, hn], rfl, rfl, rfl, rfl, rfl⟩
      · simpa [AMap.get?, hn] using ih n
    · rw [if_neg hc]
      cases he : (oc.coll.close (sf m)).2 with
      | some e =>
        dsimp only
        rw [he]
        dsimp only
        by_cases hn : m = n
        · right; exact ⟨oc, { oc with coll := (oc.coll.close (sf m)).1 }, by simp [AMap.get?, hn], by simp [AMap.get?, hn], rfl, rfl, hcl⟩
        · simp only [AMap.get?, if_neg hn]
          cases hg : AMap.get? colls n with
          | none => left; exact ⟨rfl, rfl⟩
          | some oc => right; exact ⟨oc, oc, rfl, rfl, rfl, rfl, rfl, rfl, rfl⟩
      | none =>
        dsimp only
        rw [he]
        dsimp only
        by_cases hn : m = n
        · right; exact ⟨oc, { oc with coll := (oc.coll.close (sf m)).1 }, by simp [AMap.get?, hn], by simp [AMap.get?, hn], rfl, rfl, hcl⟩
        · simpa [AMap.get?, hn] using ih n

theorem closeAll_closed (sf : String → Bool) : ∀ (colls : AMap String OpenColl), (closeAll sf colls).2 = none →
    ∀ x ∈ (closeAll sf colls).1, x.2.coll.closed = true := by
  intro colls
  induction colls with
  | nil => intro _ x hx; simp [closeAll] at hx
  | cons x colls ih =>
    obtain ⟨m, oc⟩ := x
    intro h y hy
    unfold closeAll at h hy
    by_cases hc : oc.coll.closed = true
    · rw [if_pos hc] at h hy
      rcases List.mem_cons.mp hy with rfl | hy
      · exact hc
      · exact ih h y hy
    · rw [if_neg hc] at h hy
      dsimp only at h hy
      cases he : (oc.coll.close (sf m)).2 with
      | some e => rw [he] at h; cases h
      | none =>
        rw [he] at h hy
        dsimp only at h hy
        rcases List.mem_cons.mp hy with rfl | hy
        · dsimp only
          unfold Coll.close IdCounter.close at he ⊢
          by_cases hb : oc.coll.counter.closed = true
          · simp [hb] at he
          · by_cases hs : sf m = true
            · simp [hb, hs] at he
            · simp [hb, hs]
        · exact ih h y hy

/-! ## Invariant of histories without failures -/

/-- `G`: names under which a directory may be left although no such collection exists. -/
structure DbInv (G : String → Prop) (db : Db) : Prop where
  nd : (db.rows.map Row.name).Nodup
  rows : ∀ n, n ∈ db.rows.map Row.name ↔ db.colls.has n = true
  dirs : ∀ n, db.dirs.has n = true → db.colls.has n = true ∨ G n
  «meta» : db.metaClosed = true → db.closed = true

theorem dbInv_init (G : String → Prop) : DbInv G {} := ⟨by simp, by simp [AMap.has], by simp [AMap.has], by simp⟩

theorem hasRow_iff (db : Db) (n : String) : db.rows.any (fun r => decide (r.name = n)) = true ↔ n ∈ db.rows.map Row.name := by
  simp [List.any_eq_true]

theorem decode_obj {j : JVal} {p : HnswParams} (h : decodeHnsw j = some p) (hm : 0 < p.m) : ∃ kvs, j = .obj kvs := by
  cases j with
  | obj kvs => exact ⟨kvs, rfl⟩
  | scalar s =>
    cases s <;> simp [decodeHnsw] at h
    subst h; simp at hm

/-- creating a documented HNSW collection under a new name succeeds. -/
theorem create_fresh {G : String → Prop} {db : Db} (i : DbInv G db) {cfg : Config} (hG : ¬ G cfg.name) (hc : db.closed = false) (hd : Documented cfg)
    (hh : cfg.indexType = "hnsw") {ec m : JVal} (he : cfg.embedderConfig = some ec) (hm : viaMap ec = some m)
    (hn : db.colls.has cfg.name = false) :
    ∃ ip params p, cfg.indexParams = some ip ∧ viaMap ip = some params ∧ decodeHnsw ip = some p ∧
    db.create cfg {} = .ok ({ db with
      rows := db.rows ++ [Row.mk db.nextId cfg.name cfg.indexType cfg.dataType cfg.embedderType params m cfg.mappings],
      nextId := db.nextId + 1, dirs := (db.dirs.set cfg.name {}).set cfg.name {},
      colls := db.colls.set cfg.name { id := db.nextId, config := cfg, coll := Coll.new p.toCfg cfg.mappings cfg.hasEmbedder } }, none) := by
  obtain ⟨_, ⟨_, j, p, hj, hdec, h1, _⟩ | h, _⟩ := id hd
  · obtain ⟨kvs, rfl⟩ := decode_obj hdec h1
    refine ⟨_, _, p, hj, rfl, hdec, ?_⟩
    have hnr : db.rows.any (fun r => decide (r.name = cfg.name)) = false := by
      cases hb : db.rows.any (fun r => decide (r.name = cfg.name)) with
      | false => rfl
      | true =>
        have := (i.rows cfg.name).mp ((hasRow_iff db cfg.name).mp hb)
        rw [hn] at this; cases this
    have hnd : db.dirs.has cfg.name = false := by
      cases hb : db.dirs.has cfg.name with
      | false => rfl
      | true =>
        have := (i.dirs cfg.name hb).resolve_right hG
        rw [hn] at this; cases this
    have hmc : db.metaClosed = false := by
      cases hb : db.metaClosed with
      | false => rfl
      | true => have := i.meta hb; rw [hc] at this; cases this
    have hmeta : db.metaCreate cfg {} = ({ db with
        rows := db.rows ++ [Row.mk db.nextId cfg.name cfg.indexType cfg.dataType cfg.embedderType
          (.obj (kvs.foldl (fun m kv => insertSorted kv.1 kv.2 m) [])) m cfg.mappings],
        nextId := db.nextId + 1, dirs := db.dirs.set cfg.name {} }, .ok db.nextId) := by
      have hvm : viaMap (.obj kvs) = some (.obj (kvs.foldl (fun m kv => insertSorted kv.1 kv.2 m) [])) := rfl
      unfold Db.metaCreate
      simp only [hj, he, hm, hvm, hmc, hnr, hnd]
      simp
    unfold Db.create
    rw [hc, (validate_iff cfg).mpr hd]
    have hnew : newCollection cfg {} false = .ok (Coll.new p.toCfg cfg.mappings cfg.hasEmbedder) := by
      unfold newCollection
      rw [if_neg (by decide), if_pos hh, hj, Option.bind_some, hdec]
      rfl
    simp only [hn, hmeta, AMap.get?_set_self, Option.getD_some, hnew]
    simp [hc]
  · rw [hh] at h; exact absurd h (by decide)

theorem has_set {α : Type} (m : AMap String α) (k n : String) (v : α) : (m.set k v).has n = true ↔ (k = n ∨ m.has n = true) := by
  by_cases h : k = n
  · subst h; simp [AMap.has, AMap.get?_set_self]
  · simp [AMap.has, AMap.get?_set_ne _ _ _ _ h, h]

theorem has_erase {α : Type} (m : AMap String α) (k n : String) : (m.erase k).has n = true ↔ (k ≠ n ∧ m.has n = true) := by
  by_cases h : k = n
  · subst h; simp [AMap.has, AMap.get?_erase_self]
  · simp [AMap.has, AMap.get?_erase_ne _ _ _ h, h]

theorem has_of_get {α : Type} {m : AMap String α} {n : String} {v : α} (h : m.get? n = some v) : m.has n = true := by
  simp [AMap.has, h]

theorem get_of_has {α : Type} {m : AMap String α} {n : String} (h : m.has n = true) : ∃ v, m.get? n = some v := by
  unfold AMap.has at h
  exact Option.isSome_iff_exists.mp h

theorem get_ok {db : Db} {name : String} {oc : OpenColl} (h : db.get name = .ok oc) :
    db.closed = false ∧ db.colls.get? name = some oc := by
  unfold Db.get at h
  split at h
  · cases h
  · split at h
    · cases h
    · cases h; exact ⟨by simpa using ‹¬ db.closed = true›, by assumption⟩

theorem reopen_spec_db {db db' : Db} (h : db.reopen = .ok db') :
    initColls db.contents db.rows [] = .ok db'.colls ∧ db'.rows = db.rows ∧ db'.closed = false ∧ db'.metaClosed = false ∧
    db'.nextId = db.nextId ∧
    db'.dirs = touchDirs db.contents db.rows (db.colls.foldl (fun d x => AMap.set d x.1 x.2.coll.disk) db.dirs) := by
  unfold Db.reopen at h
  obtain ⟨colls, hc, h⟩ := (bind_ok_iff _ _ _).mp h
  cases h
  exact ⟨hc, rfl, rfl, rfl, rfl, rfl⟩

/-- one call keeps the invariant and is a step of the map. -/
theorem db_step {js : Json V} {o : FloatOps} {db db' : Db} {op : DbOp V} {out : DbOut V} {G : String → Prop} (i : DbInv G db)
    (h : DbStep js o db op out db') (hcl : CleanOp (op, out)) (hG : ∀ cfg env, op = .create cfg env → Documented cfg → ¬ G cfg.name) :
    DbInv G db' ∧ SpecStep (db.view js) op out (db'.view js) := by
  have hhas : ∀ n, db.colls.has n = ((db.view js).map n).isSome := by
    intro n; simp [Db.view, AMap.has]
  cases h with
  | @create _ cfg env e h =>
    obtain ⟨he, hp, hacc⟩ := hcl
    subst he
    by_cases hc : db.closed = true
    · unfold Db.create at h
      rw [if_pos hc] at h
      cases h
      exact ⟨i, .closedCreate hc⟩
    have hc' : db.closed = false := by simpa using hc
    by_cases hd : Documented cfg
    · obtain ⟨hh, ec, m, he, hm⟩ := hacc hd
      by_cases hn : db.colls.has cfg.name = true
      · unfold Db.create at h
        rw [if_neg hc, (validate_iff cfg).mpr hd] at h
        dsimp only at h
        rw [if_pos hn] at h
        cases h
        exact ⟨i, .exists hc' hd (by rw [← hhas]; exact hn)⟩
      · have hn' : db.colls.has cfg.name = false := by simpa using hn
        obtain ⟨ip, params, p, h1, h2, h3, h4⟩ := create_fresh i (hG cfg _ rfl hd) hc' hd hh he hm hn'
        rw [h4] at h
        cases h
        constructor
        · refine ⟨?_, ?_, ?_, i.meta⟩
          · simp only [List.map_append, List.map_cons, List.map_nil]
            refine List.nodup_append.mpr ⟨i.nd, by simp, ?_⟩
            intro a ha b hb
            simp at hb
            subst hb
            intro hab
            subst hab
            exact hn ((i.rows _).mp ha)
          · intro n
            simp only [List.map_append, List.map_cons, List.map_nil, List.mem_append, List.mem_singleton]
            rw [has_set, i.rows n]
            constructor
            · rintro (h | h)
              · exact Or.inr h
              · exact Or.inl h.symm
            · rintro (h | h)
              · exact Or.inr h.symm
              · exact Or.inl h
          · intro n hn
            rw [has_set]
            rw [has_set, has_set] at hn
            rcases hn with h | h | h
            · exact Or.inl (Or.inl h)
            · exact Or.inl (Or.inl h)
            · exact (i.dirs n h).imp Or.inr id
        · have hv : ({ db with
              rows := db.rows ++ [Row.mk db.nextId cfg.name cfg.indexType cfg.dataType cfg.embedderType params m cfg.mappings],
              nextId := db.nextId + 1, dirs := (db.dirs.set cfg.name {}).set cfg.name {},
              colls := db.colls.set cfg.name { id := db.nextId, config := cfg, coll := Coll.new p.toCfg cfg.mappings cfg.hasEmbedder } } : Db).view js
              = (db.view js).upd cfg.name (some (fun _ => .ok none)) := by
            unfold Db.view SpecDb.upd
            congr 1
            funext n
            by_cases hk : n = cfg.name
            · subst hk
              simp only [AMap.get?_set_self, if_true, Option.map_some]
              rfl
            · rw [if_neg hk]
              simp only [AMap.get?_set_ne _ _ _ _ (Ne.symm hk)]
          rw [hv]
          refine .create hc' hd ?_
          have := hhas cfg.name
          rw [hn'] at this
          cases hq : (db.view js).map cfg.name with
          | none => rfl
          | some x => rw [hq] at this; cases this
    · unfold Db.create at h
      rw [if_neg hc] at h
      cases hv : validateConfig cfg with
      | none => exact absurd ((validate_iff cfg).mp hv) hd
      | some why =>
        rw [hv] at h
        cases h
        exact ⟨i, .invalid hc' hd⟩
  | @get name =>
    refine ⟨i, ?_⟩
    unfold Db.getErr Db.get
    by_cases hc : db.closed = true
    · rw [if_pos hc]; exact .closedGet hc
    · rw [if_neg hc]
      have hc' : db.closed = false := by simpa using hc
      cases hg : db.colls.get? name with
      | none => exact .getMissing hc' (by simp [Db.view, hg])
      | some oc => exact .get hc' (by simp [Db.view, hg])
  | @delete name ef rf =>
    obtain ⟨h1, h2⟩ := hcl
    subst h1; subst h2
    by_cases hc : db.closed = true
    · have : db.delete name false false = (db, some .databaseClosed) := by unfold Db.delete; rw [if_pos hc]
      rw [this]; exact ⟨i, .closedDelete hc⟩
    have hc' : db.closed = false := by simpa using hc
    by_cases hn : db.colls.has name = false
    · have : db.delete name false false = (db, some (.validationFailed "collection does not exist")) := by
        unfold Db.delete; rw [if_neg hc, if_pos hn]
      rw [this]
      refine ⟨i, .deleteMissing hc' ?_⟩
      have := hhas name
      rw [hn] at this
      cases hq : (db.view js).map name with
      | none => rfl
      | some x => rw [hq] at this; cases this
    · have hn' : db.colls.has name = true := by simpa using hn
      have hmc : db.metaClosed = false := by
        cases hb : db.metaClosed with
        | false => rfl
        | true => have := i.meta hb; rw [hc'] at this; cases this
      have hr := (hasRow_iff db name).mpr ((i.rows name).mpr hn')
      have : db.delete name false false = ({ db with
          rows := db.rows.filter (fun r => decide (r.name ≠ name)),
          dirs := db.dirs.erase name, colls := db.colls.erase name }, none) := by
        unfold Db.delete
        rw [if_neg hc, if_neg hn, if_neg (by simp [hmc]), if_neg (by simp [hr])]
        rfl
      rw [this]
      constructor
      · refine ⟨?_, ?_, ?_, i.meta⟩
        · exact List.Nodup.sublist ((List.filter_sublist).map _) i.nd
        · intro n
          rw [has_erase, ← i.rows n]
          simp only [List.mem_map, List.mem_filter, decide_eq_true_eq]
          constructor
          · rintro ⟨r, ⟨hr, hne⟩, rfl⟩; exact ⟨Ne.symm hne, r, hr, rfl⟩
          · rintro ⟨hne, r, hr, rfl⟩; exact ⟨r, ⟨hr, Ne.symm hne⟩, rfl⟩
        · intro n hn
          rw [has_erase] at hn ⊢
          exact (i.dirs n hn.2).imp (fun h => ⟨hn.1, h⟩) id
      · have hv : ({ db with
          rows := db.rows.filter (fun r => decide (r.name ≠ name)),
            dirs := db.dirs.erase name, colls := db.colls.erase name } : Db).view js = (db.view js).upd name none := by
          unfold Db.view SpecDb.upd
          congr 1
          funext n
          by_cases hk : n = name
          · subst hk
            simp [AMap.get?_erase_self]
          · rw [if_neg hk]
            simp only [AMap.get?_erase_ne _ _ _ (Ne.symm hk)]
        rw [hv]
        exact .delete hc' (by rw [← hhas]; exact hn')
  | @on name op oc L c' out' hg hL hne ha =>
    obtain ⟨hc, hoc⟩ := get_ok hg
    constructor
    · refine ⟨i.nd, ?_, ?_, i.meta⟩
      · intro n
        rw [has_set, i.rows n]
        constructor
        · exact Or.inr
        · rintro (h | h)
          · rw [← h]; exact has_of_get hoc
          · exact h
      · intro n hn
        rw [has_set]
        exact (i.dirs n hn).imp Or.inr id
    · have hv : ({ db with colls := db.colls.set name { oc with coll := c' } } : Db).view js
          = (db.view js).upd name (some (fun id => getObject js c'.stores id)) := by
        unfold Db.view SpecDb.upd
        congr 1
        funext n
        by_cases hk : n = name
        · subst hk
          simp [AMap.get?_set_self]
        · rw [if_neg hk]
          simp only [AMap.get?_set_ne _ _ _ _ (Ne.symm hk)]
      rw [hv]
      exact .on hc (by simp [Db.view, hoc])
  | @onMissing name op e hg =>
    refine ⟨i, ?_⟩
    unfold Db.get at hg
    by_cases hc : db.closed = true
    · rw [if_pos hc] at hg; cases hg; exact .closedOn hc
    · rw [if_neg hc] at hg
      have hc' : db.closed = false := by simpa using hc
      cases hq : db.colls.get? name with
      | none => rw [hq] at hg; cases hg; exact .onMissing hc' (by simp [Db.view, hq])
      | some oc => rw [hq] at hg; cases hg
  | @close mf sf =>
    have hout : (db.close mf sf).2 = none := by
      have : (DbOut.done (db.close mf sf).2 : DbOut V) = .done none := hcl
      injection this
    rw [hout]
    unfold Db.close at hout ⊢
    by_cases hm : mf = true
    · rw [if_pos hm] at hout; cases hout
    rw [if_neg hm] at hout ⊢
    dsimp only at hout
    cases he : (closeAll sf db.colls).2 with
    | some e => rw [he] at hout; cases hout
    | none =>
      dsimp only
      rw [he]
      dsimp only
      have hh : ∀ n, (closeAll sf db.colls).1.has n = true ↔ db.colls.has n = true := by
        intro n
        rcases closeAll_spec sf db.colls n with ⟨a, b⟩ | ⟨oc, oc', a, b, _⟩
        · simp [AMap.has, a, b]
        · simp [AMap.has, a, b]
      constructor
      · refine ⟨i.nd, fun n => ?_, fun n hn => ?_, fun _ => rfl⟩
        · exact (i.rows n).trans (hh n).symm
        · exact (i.dirs n hn).imp (hh n).mpr id
      · have hv : ({ db with metaClosed := true, colls := (closeAll sf db.colls).1, closed := true } : Db).view js
            = { db.view js with closed := true } := by
          unfold Db.view
          congr 1
          funext n
          rcases closeAll_spec sf db.colls n with ⟨a, b⟩ | ⟨oc, oc', a, b, _, _, hd, _⟩
          · simp [a, b]
          · have : oc'.coll.stores = oc.coll.stores := congrArg Disk.stores hd
            simp [a, b, this]
        rw [hv]
        exact .close
  | @restart _ h =>
    obtain ⟨h1, h2, h3, h4, h5, h6⟩ := reopen_spec_db h
    obtain ⟨g1, g2⟩ := initColls_spec _ _ _ _ h1 i.nd
    have hh := initColls_has _ _ _ _ h1
    have hh' : ∀ n, db'.colls.has n = true ↔ db.colls.has n = true := by
      intro n
      rw [hh n, i.rows n]
      simp [AMap.has]
    constructor
    · refine ⟨by rw [h2]; exact i.nd, fun n => ?_, fun n hn => ?_, fun hm => ?_⟩
      · rw [h2, hh' n]; exact i.rows n
      · rw [h6, touchDirs_has, foldDirs_has, i.rows n] at hn
        rw [hh' n]
        rcases hn with (h | h) | h
        · exact i.dirs n h
        · exact Or.inl h
        · exact Or.inl h
      · rw [h4] at hm; cases hm
    · have hv : db'.view js = { db.view js with closed := false } := by
        unfold Db.view
        rw [h3]
        congr 1
        funext n
        by_cases hn : db.colls.has n = true
        · obtain ⟨oc, hoc⟩ := get_of_has hn
          obtain ⟨r, hr, rfl⟩ := List.mem_map.mp ((i.rows n).mpr hn)
          obtain ⟨c, hc, hg⟩ := g2 r hr
          have hcont : db.contents r.name = some oc.coll.disk := by unfold Db.contents; rw [hoc]
          rw [hcont] at hc
          have hst := (newCollection_ok hc).1
          simp only [hg, hoc, Option.map_some]
          have : c.stores = oc.coll.stores := hst
          rw [this]
        · have hn' : db'.colls.has n ≠ true := fun h => hn ((hh' n).mp h)
          have e1 : db.colls.get? n = none := by
            cases hq : db.colls.get? n with
            | none => rfl
            | some x => exact absurd (has_of_get hq) hn
          have e2 : db'.colls.get? n = none := by
            cases hq : db'.colls.get? n with
            | none => rfl
            | some x => exact absurd (has_of_get hq) hn'
          simp [e1, e2]
      rw [hv]
      exact .restart

theorem db_runs {js : Json V} {o : FloatOps} {db db' : Db} {h : List (DbOp V × DbOut V)} (i : DbInv (fun _ => False) db)
    (hr : DbRuns js o db h db') (hcl : ∀ x ∈ h, CleanOp x) : DbInv (fun _ => False) db' ∧ SpecRuns (db.view js) h (db'.view js) := by
  induction hr with
  | nil db => exact ⟨i, .nil _⟩
  | cons hs _ ih =>
    obtain ⟨i1, s1⟩ := db_step i hs (hcl _ (by simp)) (fun _ _ _ _ h => h)
    obtain ⟨i2, s2⟩ := ih i1 (fun x hx => hcl x (by simp [hx]))
    exact ⟨i2, .cons s1 s2⟩

end Vectory
