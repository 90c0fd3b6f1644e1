import Verif.Spec.DbLife
import Verif.Lemmas.DbMore
import Verif.Lemmas.Crash
import Verif.Props.ConcLater
import Verif.Props.Distance
/-! # Lemmas about the life of a database -/
namespace Vectory
variable {V D : Type}

theorem openColl_swap {cfg : Cfg} {ms ms' : List String} {he he' : Bool} {d : Disk} {c : Coll} (h : openColl cfg ms he d = .ok c) :
    openColl cfg ms' he' d = .ok { c with mappings := ms', hasEmbedder := he' } := by
  unfold openColl at h ⊢
  obtain ⟨ctr, h1, h⟩ := (bind_ok_iff _ _ _).mp h
  obtain ⟨h2, h3, h⟩ := (bind_ok_iff _ _ _).mp h
  obtain ⟨h4, h5, h⟩ := (bind_ok_iff _ _ _).mp h
  cases h
  simp [h1, h3, h5]

theorem WInv.remap {S : Prop} {X : UInt64 → Prop} {L : Lib V D} {dim : Nat} {c : Coll} (i : WInv S L dim X c) (ms : List String)
    (he : Bool) : WInv S L dim X { c with mappings := ms, hasEmbedder := he } :=
  ⟨i.json, i.dimM, i.dim32, i.idx, i.cfg, i.vecs, i.ond, i.vnd, i.vkeys, i.okeys, i.vstore, i.dec, i.ids, i.del, i.live⟩

/-- the index parameters of a configuration. -/
def Config.cfg (c : Config) : Cfg := ((c.indexParams.bind decodeHnsw).getD {}).toCfg

/-- a row and the open collection it belongs to. -/
structure HeldBy (S : Prop) (js : Json V) (o : FloatOps) (W : Prop) (dims : Nat → Nat) (r : Row) (oc : OpenColl) (L : Lib V F32) : Prop where
  lib : oc.config.lib js o = some L
  rlib : r.config.lib js o = some L
  hnsw : r.indexType = "hnsw"
  cfg : r.config.cfg = oc.coll.index.cfg
  id : r.id = oc.id
  emb : r.config.hasEmbedder = oc.coll.hasEmbedder
  inv : WInv S L (dims oc.id) (fun _ => W) oc.coll
  log : DInv S oc.coll.index

theorem DbInv.relax {G : String → Prop} {db : Db} (i : DbInv G db) : DbInv db.leftover db :=
  ⟨i.nd, i.rows, fun n h => by
    cases hb : db.colls.has n with
    | true => exact Or.inl rfl
    | false => exact Or.inr ⟨h, hb⟩, i.meta⟩

structure DbGood (S : Prop) (js : Json V) (o : FloatOps) (W : Prop) (dims : Nat → Nat) (db : Db) : Prop where
  inv : DbInv db.leftover db
  held : ∀ n oc, db.colls.get? n = some oc → ∃ r ∈ db.rows, r.name = n ∧ ∃ L, HeldBy S js o W dims r oc L

theorem dbGood_init (S : Prop) (js : Json V) (o : FloatOps) (W : Prop) (dims : Nat → Nat) : DbGood S js o W dims {} :=
  ⟨dbInv_init _, fun n oc h => by cases h⟩

theorem newCollection_hnsw {cfg : Config} (h : cfg.indexType = "hnsw") (d : Disk) :
    newCollection cfg d false = openColl cfg.cfg cfg.mappings cfg.hasEmbedder d := by
  unfold newCollection
  rw [if_neg (by decide), if_pos h]
  rfl

/-- the configuration the index needs. -/
theorem ConfigOK.setup {js : Json V} {o : FloatOps} {dim : Nat} {cfg : Config} (hj : JsonOK js) (k : ConfigOK dim cfg)
    (hd : Documented cfg) (hh : cfg.indexType = "hnsw") : ∃ L : Lib V F32, cfg.lib js o = some L ∧ Setup L dim cfg.cfg := by
  obtain ⟨_, ⟨_, j, p, hp, hdec, h1, h2, h3, h4, h5⟩ | h, _⟩ := hd
  · obtain ⟨k1, k2, k3, k4⟩ := k.params j p hp hdec
    have e : (cfg.indexParams.bind decodeHnsw).getD {} = p := by rw [hp, Option.bind_some, hdec]; rfl
    have hc : CfgOK cfg.cfg := by
      unfold Config.cfg
      rw [e]
      constructor
      · show 2 ≤ p.m.toNat; omega
      · show p.m.toNat ≤ 2 * p.mMax.toNat; omega
      · show 1 ≤ p.efConstruction.toNat; omega
      · show 1 ≤ p.ef.toNat; omega
      · show 2 * p.mMax.toNat < 4294967296; omega
    unfold Config.lib
    rw [e]
    rcases h5 with h5 | h5
    · refine ⟨{ json := js, metric := { lt := o.lt, dist := dot o } }, by rw [h5]; rfl, hj, ?_, k.dim, hc⟩
      intro a b ha hb
      exact ⟨_, C44_dot o a b (by omega) (by rw [ha]; exact k4 h5)⟩
    · refine ⟨{ json := js, metric := { lt := o.lt, dist := euclideanDistance o } }, by rw [h5]; rfl, hj, ?_, k.dim, hc⟩
      intro a b ha hb
      exact ⟨_, C44_euclidean o a b (by omega)⟩
  · rw [hh] at h; exact absurd h (by decide)

/-! ## Opening -/

theorem initColls_total (files : String → Option Disk) : ∀ (rows : List Row) (colls : AMap String OpenColl),
    (∀ r ∈ rows, ∃ c, newCollection r.config ((files r.name).getD {}) false = .ok c) → ∃ colls', initColls files rows colls = .ok colls' := by
  intro rows
  induction rows with
  | nil => intro colls _; exact ⟨colls, rfl⟩
  | cons r rows ih =>
    intro colls h
    obtain ⟨c, hc⟩ := h r (by simp)
    obtain ⟨cs, hcs⟩ := ih (colls.set r.name { id := r.id, config := r.config, coll := c }) (fun r' hr' => h r' (by simp [hr']))
    exact ⟨cs, by unfold initColls; rw [hc]; exact hcs⟩

/-- what opening makes of one collection whose files are `d`; `c` is what the collection opened on its own would be. -/
theorem HeldBy.opened {js : Json V} {o : FloatOps} {S W : Prop} {dims : Nat → Nat} {r : Row} {oc : OpenColl} {L : Lib V F32}
    (k : HeldBy S js o W dims r oc L) {d : Disk} {c : Coll}
    (h : newCollection r.config d false = .ok c) :
    openColl oc.coll.index.cfg oc.coll.mappings oc.coll.hasEmbedder d =
        .ok { c with mappings := oc.coll.mappings, hasEmbedder := oc.coll.hasEmbedder } ∧
      (WInv S L (dims oc.id) (fun _ => W) { c with mappings := oc.coll.mappings, hasEmbedder := oc.coll.hasEmbedder } →
        DInv S c.index → HeldBy S js o W dims r ⟨r.id, r.config, c⟩ L) := by
  rw [newCollection_hnsw (by exact k.hnsw), k.cfg] at h
  refine ⟨openColl_swap h, fun i dv => ⟨k.rlib, k.rlib, k.hnsw, ?_, rfl, (openColl_stores h).2.2.1.symm, ?_, dv⟩⟩
  · rw [openColl_cfg h, k.cfg]
  · dsimp only
    rw [k.id]
    exact i.remap c.mappings c.hasEmbedder

/-- a step as one collection sees it. -/
def Survives (js : Json V) (o : FloatOps) (db db' : Db) (n : String) (T : UInt64 → Prop) : Prop :=
  ∀ oc L, db.colls.get? n = some oc → oc.config.lib js o = some L →
    ∃ oc', db'.colls.get? n = some oc' ∧ oc'.id = oc.id ∧ oc'.config.lib js o = some L ∧ Conc.Keeps L oc.coll oc'.coll T

theorem keeps_refl (L : Lib V D) (c : Coll) (T : UInt64 → Prop) : Conc.Keeps L c c T :=
  ⟨Nat.le_refl _, fun _ _ _ => rfl, fun _ _ h => h⟩

theorem Survives.same {js : Json V} {o : FloatOps} {db db' : Db} {n : String} (T : UInt64 → Prop)
    (h : db'.colls.get? n = db.colls.get? n) : Survives js o db db' n T :=
  fun oc L h1 h2 => ⟨oc, by rw [h, h1], rfl, h2, keeps_refl _ _ _⟩

theorem reopen_good {js : Json V} {o : FloatOps} {S W : Prop} {dims : Nat → Nat} {db db1 db' : Db} (g : DbGood S js o W dims db)
    (T : String → UInt64 → Prop) (hrows : db1.rows = db.rows)
    (hre : db1.reopen = .ok db')
    (hfile : ∀ n oc r L, db.colls.get? n = some oc → r ∈ db.rows → r.name = n → HeldBy S js o W dims r oc L →
      ∀ c, openColl oc.coll.index.cfg oc.coll.mappings oc.coll.hasEmbedder ((db1.contents n).getD {}) = .ok c →
        WInv S L (dims oc.id) (fun _ => W) c ∧ DInv S c.index ∧ Conc.Keeps L oc.coll c (T n)) :
    DbGood S js o W dims db' ∧ ∀ n, Survives js o db db' n (T n) := by
  obtain ⟨h1, h2, h3, h4, h5, h6⟩ := reopen_spec_db hre
  rw [hrows] at h1 h2 h6
  obtain ⟨g1, g2⟩ := initColls_spec _ _ _ _ h1 g.inv.nd
  have hh := initColls_has _ _ _ _ h1
  have hh' : ∀ n, db'.colls.has n = true ↔ db.colls.has n = true := by
    intro n
    rw [hh n, g.inv.rows n]
    simp [AMap.has]
  have key : ∀ n oc, db.colls.get? n = some oc → ∃ r ∈ db.rows, r.name = n ∧ ∃ L c, HeldBy S js o W dims r oc L ∧
      db'.colls.get? n = some ⟨r.id, r.config, c⟩ ∧ HeldBy S js o W dims r ⟨r.id, r.config, c⟩ L ∧ Conc.Keeps L oc.coll c (T n) := by
    intro n oc hoc
    obtain ⟨r, hr, rfl, L, k⟩ := g.held n oc hoc
    obtain ⟨c, hc, hget⟩ := g2 r hr
    have hopen := hfile _ oc r L hoc hr rfl k
    obtain ⟨k1, k2⟩ := k.opened hc
    obtain ⟨i, dv, kp⟩ := hopen _ k1
    exact ⟨r, hr, rfl, L, c, k, hget, k2 i dv, kp.file, kp.keep, kp.gone⟩
  refine ⟨⟨DbInv.relax (G := fun n => db'.dirs.has n = true) ⟨by rw [h2]; exact g.inv.nd, fun n => ?_, fun n hn => Or.inr hn, fun hm => ?_⟩, ?_⟩, ?_⟩
  · rw [h2, hh' n]; exact g.inv.rows n
  · rw [h4] at hm; cases hm
  · intro n oc hoc
    obtain ⟨oc0, hoc0⟩ := get_of_has ((hh' n).mp (has_of_get hoc))
    obtain ⟨r, hr, hn, L, c, _, hget, k', _⟩ := key n oc0 hoc0
    rw [hoc] at hget; cases hget
    exact ⟨r, by rw [h2]; exact hr, hn, L, k'⟩
  · intro n oc L hoc hl
    obtain ⟨r, hr, hn, L', c, k, hget, k', kp⟩ := key n oc hoc
    rw [k.lib] at hl; cases hl
    exact ⟨_, hget, k.id, k'.lib, kp⟩

theorem closeAll_get (sf : String → Bool) : ∀ (colls : AMap String OpenColl) (n : String) (oc' : OpenColl),
    AMap.get? (closeAll sf colls).1 n = some oc' →
    ∃ oc, AMap.get? colls n = some oc ∧ (oc' = oc ∨ ∃ b, oc' = { oc with coll := (oc.coll.close b).1 }) := by
  intro colls
  induction colls with
  | nil => intro n oc' h; cases h
  | cons x colls ih =>
    obtain ⟨m, oc⟩ := x
    intro n oc' h
    unfold closeAll at h
    by_cases hc : oc.coll.closed = true
    · rw [if_pos hc] at h
      by_cases hn : m = n
      · simp only [AMap.get?, if_pos hn, Option.some.injEq] at h ⊢
        exact ⟨oc, rfl, Or.inl h.symm⟩
      · simp only [AMap.get?, if_neg hn] at h ⊢
        exact ih n oc' h
    · rw [if_neg hc] at h
      cases he : (oc.coll.close (sf m)).2 with
      | some e =>
        dsimp only at h
        rw [he] at h
        dsimp only at h
        by_cases hn : m = n
        · simp only [AMap.get?, if_pos hn, Option.some.injEq] at h ⊢
          exact ⟨oc, rfl, Or.inr ⟨_, h.symm⟩⟩
        · simp only [AMap.get?, if_neg hn] at h ⊢
          exact ⟨oc', h, Or.inl rfl⟩
      | none =>
        dsimp only at h
        rw [he] at h
        dsimp only at h
        by_cases hn : m = n
        · simp only [AMap.get?, if_pos hn, Option.some.injEq] at h ⊢
          exact ⟨oc, rfl, Or.inr ⟨_, h.symm⟩⟩
        · simp only [AMap.get?, if_neg hn] at h ⊢
          exact ih n oc' h

/-- a call on the collection that keeps its configuration. -/
theorem HeldBy.call {js : Json V} {o : FloatOps} {S W : Prop} {dims : Nat → Nat} {r : Row} {oc : OpenColl} {L : Lib V F32}
    (k : HeldBy S js o W dims r oc L) {op : Op V} (hl : Legal (dims oc.id) oc.coll op) {c : Coll} {out : Out V F32}
    (h : oc.coll.apply L op = .ok (c, out)) :
    HeldBy S js o W dims r { oc with coll := c } L ∧ Conc.Keeps L oc.coll c op.touches := by
  obtain ⟨c2, out2, h2, i2, ev⟩ := apply_spec k.inv op hl
  rw [h] at h2; cases h2
  exact ⟨⟨k.lib, k.rlib, k.hnsw, by rw [k.cfg]; exact ev.cfg.symm, k.id, by rw [k.emb]; exact ev.embedder.symm, i2, apply_dinv k.inv k.log hl h⟩,
    ev.file, ev.keep, ev.gone⟩

theorem HeldBy.restart {js : Json V} {o : FloatOps} {S W : Prop} {dims : Nat → Nat} {r : Row} {oc : OpenColl} {L : Lib V F32}
    (k : HeldBy S js o W dims r oc L) (hb : W ∨ oc.coll.index.wal.batch = []) {c : Coll}
    (h : openColl oc.coll.index.cfg oc.coll.mappings oc.coll.hasEmbedder oc.coll.disk = .ok c) (T : UInt64 → Prop) :
    WInv S L (dims oc.id) (fun _ => W) c ∧ DInv S c.index ∧ Conc.Keeps L oc.coll c T := by
  have hre : oc.coll.reopen = .ok c := h
  refine ⟨?_, ?_, Conc.reopen_keeps hre T⟩
  · rcases hb with hb | hb
    · rcases reopen_any k.inv k.log with ⟨c2, h2, i2, _⟩ | ⟨h2, _⟩
      · rw [hre] at h2; cases h2
        have : (fun _ : UInt64 => W) = (fun _ => True) := by funext _; simp [hb]
        rw [this]; exact i2
      · rw [hre] at h2; cases h2
    · obtain ⟨f, c2, _, h2, _, _, i2, _⟩ := coll_reopen k.inv hb T
      rw [hre] at h2; cases h2; exact i2
  · rcases reopen_any k.inv k.log with ⟨c2, h2, _, d2, _⟩ | ⟨h2, _⟩
    · rw [hre] at h2; cases h2; exact d2
    · rw [hre] at h2; cases h2

theorem HeldBy.restarts {js : Json V} {o : FloatOps} {S W : Prop} {dims : Nat → Nat} {r : Row} {oc : OpenColl} {L : Lib V F32}
    (k : HeldBy S js o W dims r oc L) (hb : oc.coll.index.wal.batch = []) :
    ∃ c, newCollection r.config oc.coll.disk false = .ok c := by
  obtain ⟨f, c2, _, h2, _⟩ := coll_reopen k.inv hb (fun _ => False)
  rw [newCollection_hnsw (by exact k.hnsw), k.cfg]
  exact ⟨_, openColl_swap h2⟩

theorem contents_open {db : Db} {n : String} {oc : OpenColl} (h : db.colls.get? n = some oc) :
    (db.contents n).getD {} = oc.coll.disk := by unfold Db.contents; rw [h]; rfl

theorem contents_stopped (db : Db) (n m : String) (d : Disk) :
    (db.stopped n d).contents m = if m = n then some d else db.contents m := by
  unfold Db.contents Db.stopped
  dsimp only
  by_cases h : m = n
  · subst h; rw [if_pos rfl, AMap.get?_erase_self, AMap.get?_set_self]
  · rw [if_neg h, AMap.get?_erase_ne _ _ _ (Ne.symm h), AMap.get?_set_ne _ _ _ _ (Ne.symm h)]

/-- opening what a flushed database left works. -/
theorem restart_total {js : Json V} {o : FloatOps} {S W : Prop} {dims : Nat → Nat} {db db1 : Db} (g : DbGood S js o W dims db)
    (hrows : db1.rows = db.rows) (hfile : ∀ n oc, db.colls.get? n = some oc → (db1.contents n).getD {} = oc.coll.disk)
    (hf : db.flushed) : ∃ db', db1.reopen = .ok db' := by
  obtain ⟨colls, hc⟩ := initColls_total db1.contents db1.rows [] (fun r hr' => by
    rw [hrows] at hr'
    obtain ⟨oc, hoc⟩ := get_of_has ((g.inv.rows r.name).mp (List.mem_map.mpr ⟨r, hr', rfl⟩))
    obtain ⟨r', hr'', hn, L, k⟩ := g.held r.name oc hoc
    have hrr : r' = r := by
      have nd := g.inv.nd
      obtain ⟨i, hi, rfl⟩ := List.mem_iff_getElem.mp hr'
      obtain ⟨j, hj', rfl⟩ := List.mem_iff_getElem.mp hr''
      have := (List.getElem_inj (xs := db.rows.map Row.name) (h₀ := by simpa using hj') (h₁ := by simpa using hi) nd).mp (by simpa using hn)
      subst this; rfl
    subst hrr
    rw [hfile _ oc hoc]
    exact k.restarts (hf _ oc hoc))
  exact ⟨_, by unfold Db.reopen; rw [hc]; rfl⟩

/-- a call keeps the invariant, and the collections it does not delete. -/
theorem good_call {js : Json V} {o : FloatOps} {S W : Prop} {dims : Nat → Nat} (hj : JsonOK js) {db db' : Db} {op : DbOp V} {out : DbOut V}
    (g : DbGood S js o W dims db) (hl : op.Legal W dims db) (hcl : CleanOp (op, out)) (hs : DbStep js o db op out db') :
    DbGood S js o W dims db' ∧ ∀ n, ¬ (DbEv.call op out).drops n →
      Survives js o db db' n (fun id => (DbEv.call op out).touches n id) := by
    have i' := (db_step g.inv hs hcl (fun cfg env he hd => by subst he; exact (hl hd).2)).1.relax
    cases hs with
    | @create _ cfg env e h =>
      rcases create_rejected h with ⟨rfl, hne⟩ | ⟨hc, hd, hn⟩
      · exact ⟨g, fun n _ => Survives.same _ rfl⟩
      · obtain ⟨he, _, hacc⟩ := hcl
        subst he
        obtain ⟨hh, ec, em, hec, hem⟩ := hacc hd
        obtain ⟨ip, params, p, hip, hvp, hdec, hcr⟩ := create_fresh g.inv (hl hd).2 hc hd hh hec hem hn
        rw [h] at hcr; cases hcr
        have ok := (hl hd).1
        obtain ⟨L, hL, hset⟩ := ok.setup (o := o) hj hd hh
        have hdm : decodeHnsw params = some p := by
          rw [← hdec]
          rcases ok.keys ip hip with k | k
          · exact decode_viaMap hvp k
          · rw [k] at hvp; cases hvp; rfl
        have hp : cfg.cfg = p.toCfg := by unfold Config.cfg; rw [hip, Option.bind_some, hdec]; rfl
        rw [hp] at hset
        have hinv := new_inv (S := S) (X := fun _ => W) L (dims db.nextId) p.toCfg cfg.mappings cfg.hasEmbedder hset.json hset.metric
          hset.dim32 hset.cfg
        constructor
        · refine ⟨i', fun n oc hoc => ?_⟩
          dsimp only at hoc ⊢
          by_cases hnn : cfg.name = n
          · subst hnn
            rw [AMap.get?_set_self] at hoc; cases hoc
            refine ⟨_, List.mem_append_right _ (List.mem_singleton.mpr rfl), rfl, L, hL, ?_, hh, ?_, rfl, rfl, hinv, DInv.synced hinv.idx rfl⟩
            · rw [← hL]; simp only [Config.lib, Row.config, hip, Option.bind_some, hdec, hdm]
            · simp only [Config.cfg, Row.config, Option.bind_some, hdm]; rfl
          · rw [AMap.get?_set_ne _ _ _ _ hnn] at hoc
            obtain ⟨r, hr, k⟩ := g.held n oc hoc
            exact ⟨r, List.mem_append_left _ hr, k⟩
        · intro n _ oc L hoc hLib
          by_cases hnn : cfg.name = n
          · subst hnn
            rw [has_of_get hoc] at hn; cases hn
          · exact Survives.same _ (by dsimp only; rw [AMap.get?_set_ne _ _ _ _ hnn]) oc L hoc hLib
    | get => exact ⟨g, fun n _ => Survives.same _ rfl⟩
    | @delete name ef rf =>
      obtain ⟨rfl, rfl⟩ := hcl
      by_cases hc : db.closed = true
      · have : (db.delete name false false).1 = db := by unfold Db.delete; rw [if_pos hc]
        rw [this]; exact ⟨g, fun n _ => Survives.same _ rfl⟩
      · by_cases hhas : db.colls.has name = true
        · have hmc : db.metaClosed = false := by
            cases hb : db.metaClosed with
            | false => rfl
            | true => exact absurd (g.inv.meta hb) hc
          have hrow : db.rows.any (fun r => decide (r.name = name)) = true := (hasRow_iff db name).mpr ((g.inv.rows name).mpr hhas)
          have hdel : (db.delete name false false).1 = { db with
              rows := db.rows.filter (fun r => decide (r.name ≠ name)), dirs := db.dirs.erase name, colls := db.colls.erase name } := by
            unfold Db.delete
            rw [if_neg hc, hhas, hmc, hrow]
            simp
          rw [hdel] at i' ⊢
          constructor
          · refine ⟨i', fun n oc hoc => ?_⟩
            dsimp only at hoc ⊢
            by_cases hnn : name = n
            · subst hnn; rw [AMap.get?_erase_self] at hoc; cases hoc
            · rw [AMap.get?_erase_ne _ _ _ hnn] at hoc
              obtain ⟨r, hr, hrn, k⟩ := g.held n oc hoc
              refine ⟨r, List.mem_filter.mpr ⟨hr, ?_⟩, hrn, k⟩
              simp only [decide_eq_true_eq]
              intro h; exact hnn (h.symm.trans hrn)
          · intro n hnd
            refine Survives.same _ ?_
            dsimp only
            rw [AMap.get?_erase_ne _ _ _ (fun h => hnd h)]
        · have : (db.delete name false false).1 = db := by
            unfold Db.delete
            rw [if_neg hc, if_pos (by simpa using hhas)]
          rw [this]; exact ⟨g, fun n _ => Survives.same _ rfl⟩
    | @on name op oc L c' out hget hLib hne happ =>
      obtain ⟨_, hoc⟩ := get_ok hget
      obtain ⟨r, hr, hrn, L', k⟩ := g.held name oc hoc
      rw [k.lib] at hLib; cases hLib
      obtain ⟨k', kp⟩ := k.call (hl.2 oc hget) happ
      constructor
      · refine ⟨i', fun n oc2 hoc2 => ?_⟩
        dsimp only at hoc2 ⊢
        by_cases hnn : name = n
        · subst hnn
          rw [AMap.get?_set_self] at hoc2; cases hoc2
          exact ⟨r, hr, hrn, _, k'⟩
        · rw [AMap.get?_set_ne _ _ _ _ hnn] at hoc2
          exact g.held n oc2 hoc2
      · intro n _ oc2 L2 hoc2 hL2
        by_cases hnn : name = n
        · subst hnn
          rw [hoc] at hoc2; cases hoc2
          rw [k.lib] at hL2; cases hL2
          refine ⟨_, AMap.get?_set_self _ _ _, rfl, k'.lib, kp.file, fun id h1 h2 => kp.keep id h1 (fun h => h2 ⟨rfl, h⟩), kp.gone⟩
        · exact Survives.same _ (by dsimp only; rw [AMap.get?_set_ne _ _ _ _ hnn]) oc2 L2 hoc2 hL2
    | onMissing => exact ⟨g, fun n _ => Survives.same _ rfl⟩
    | @close mf sf =>
      have hrows := close_rows db mf sf
      have hget : ∀ n oc', (db.close mf sf).1.colls.get? n = some oc' → ∃ oc, db.colls.get? n = some oc ∧
          (oc' = oc ∨ ∃ b, oc' = { oc with coll := (oc.coll.close b).1 }) := by
        intro n oc' h
        unfold Db.close at h
        by_cases hm : mf = true
        · rw [if_pos hm] at h; exact ⟨oc', h, Or.inl rfl⟩
        · rw [if_neg hm] at h
          dsimp only at h
          refine closeAll_get sf db.colls n oc' ?_
          split at h <;> exact h
      have hk : ∀ (oc : OpenColl) (oc' : OpenColl) (r : Row) (L : Lib V F32), HeldBy S js o W dims r oc L →
          (oc' = oc ∨ ∃ b, oc' = { oc with coll := (oc.coll.close b).1 }) →
          HeldBy S js o W dims r oc' L ∧ Conc.Keeps L oc.coll oc'.coll (fun _ => False) ∧ oc'.id = oc.id ∧ oc'.config = oc.config := by
        intro oc oc' r L k h
        rcases h with rfl | ⟨b, rfl⟩
        · exact ⟨k, keeps_refl _ _ _, rfl, rfl⟩
        · obtain ⟨k', kp⟩ := k.call (op := .close b) trivial rfl
          exact ⟨k', ⟨kp.file, fun id h1 _ => kp.keep id h1 (fun h => h), kp.gone⟩, rfl, rfl⟩
      constructor
      · refine ⟨i', fun n oc' hoc' => ?_⟩
        obtain ⟨oc, hoc, hd⟩ := hget n oc' hoc'
        obtain ⟨r, hr, hrn, L, k⟩ := g.held n oc hoc
        exact ⟨r, by rw [hrows]; exact hr, hrn, L, (hk oc oc' r L k hd).1⟩
      · intro n _ oc L hoc hL
        obtain ⟨oc', hoc'⟩ := get_of_has ((i'.rows n).mp (by rw [hrows]; exact (g.inv.rows n).mpr (has_of_get hoc)))
        obtain ⟨oc2, hoc2, hd⟩ := hget n oc' hoc'
        rw [hoc] at hoc2; cases hoc2
        obtain ⟨r, hr, hrn, L', k⟩ := g.held n oc hoc
        obtain ⟨_, kp, hid, hcf⟩ := hk oc oc' r L' k hd
        rw [k.lib] at hL; cases hL
        exact ⟨oc', hoc', hid, by rw [hcf]; exact k.lib, kp.file, fun id h1 _ => kp.keep id h1 (fun h => h), kp.gone⟩
    | restart h =>
      obtain ⟨g', sv⟩ := reopen_good g (fun _ _ => False) rfl h (fun n oc r L hoc hr hrn k c hc => by
        rw [contents_open hoc] at hc
        exact k.restart (hl.imp id (fun h => h n oc hoc)) hc _)
      exact ⟨g', fun n _ => sv n⟩

/-- `CreateCollection` interrupted before its first write, or refused, is nothing; otherwise the restart cannot tell it from a
completed call. -/
theorem crashCreate_cases {js : Json V} {o : FloatOps} {S W : Prop} {dims : Nat → Nat} {db : Db} (g : DbGood S js o W dims db) {cfg : Config}
    {p : CreateCrash} (hl : (DbOp.create cfg {} : DbOp V).Legal W dims db)
    (hcl : CleanOp ((DbOp.create cfg {} : DbOp V), .done none)) :
    (db.crashCreate cfg p = db ∧ (p = .start ∨ db.closed = true ∨ ¬ Documented cfg ∨ db.colls.has cfg.name = true)) ∨
    (p ≠ .start ∧ db.closed = false ∧ Documented cfg ∧ db.colls.has cfg.name = false ∧
      ∃ dbc m ms he, db.create cfg {} = .ok (dbc, none) ∧ (db.crashCreate cfg p).rows = dbc.rows ∧
      dbc.colls = db.colls.set cfg.name { id := db.nextId, config := cfg, coll := Coll.new m ms he } ∧
      (db.crashCreate cfg p).colls = db.colls ∧
      ((db.crashCreate cfg p).contents cfg.name).getD {} = {} ∧
      ∀ n, n ≠ cfg.name → (db.crashCreate cfg p).contents n = db.contents n) := by
  by_cases hc : db.closed = true
  · left; exact ⟨by unfold Db.crashCreate; rw [hc]; rfl, Or.inr (Or.inl hc)⟩
  have hc' : db.closed = false := by simpa using hc
  by_cases hd : Documented cfg
  · by_cases hn : db.colls.has cfg.name = true
    · left; exact ⟨by unfold Db.crashCreate; rw [hn]; simp, Or.inr (Or.inr (Or.inr hn))⟩
    have hn' : db.colls.has cfg.name = false := by simpa using hn
    obtain ⟨_, _, hacc⟩ := hcl
    obtain ⟨hh, ec, em, hec, hem⟩ := hacc hd
    obtain ⟨ip, params, q, hip, hvp, hdec, hcr⟩ := create_fresh g.inv (hl hd).2 hc' hd hh hec hem hn'
    have hcond : (db.closed || (validateConfig cfg).isSome || db.colls.has cfg.name) = false := by
      rw [hc', hn', (validate_iff cfg).mpr hd]; rfl
    have hnd : db.dirs.has cfg.name = false := by
      cases hb : db.dirs.has cfg.name with
      | false => rfl
      | true => exact absurd ⟨hb, hn'⟩ (hl hd).2
    have hnr : db.rows.any (fun r => decide (r.name = cfg.name)) = false := by
      cases hb : db.rows.any (fun r => decide (r.name = cfg.name)) with
      | false => rfl
      | true =>
        have := (g.inv.rows cfg.name).mp ((hasRow_iff db cfg.name).mp hb)
        rw [hn'] at this; cases this
    have hmc : db.metaClosed = false := by
      cases hb : db.metaClosed with
      | false => rfl
      | true => have := g.inv.meta hb; rw [hc'] at this; cases this
    have hnc : db.colls.get? cfg.name = none := by
      cases hq : db.colls.get? cfg.name with
      | none => rfl
      | some x => rw [has_of_get hq] at hn'; cases hn'
    have hndg : db.dirs.get? cfg.name = none := by
      cases hq : db.dirs.get? cfg.name with
      | none => rfl
      | some x => rw [has_of_get hq] at hnd; cases hnd
    cases p with
    | start => left; exact ⟨by unfold Db.crashCreate; rw [hcond]; rfl, Or.inl rfl⟩
    | saved =>
      right
      have e : db.crashCreate cfg .saved = { db with
          rows := db.rows ++ [Row.mk db.nextId cfg.name cfg.indexType cfg.dataType cfg.embedderType params em cfg.mappings],
          nextId := db.nextId + 1 } := by
        unfold Db.crashCreate; rw [hcond]
        unfold Db.metaCreate
        simp only [hip, hec, hem, hvp, hmc, hnr]
        simp
      refine ⟨by simp, hc', hd, hn', _, _, _, _, hcr, by rw [e], rfl, by rw [e], ?_, fun n hne => ?_⟩
      · rw [e]; unfold Db.contents; dsimp only; rw [hnc]; dsimp only; rw [hndg]; rfl
      · rw [e]; rfl
    | made =>
      right
      have e : db.crashCreate cfg .made = { db with
          rows := db.rows ++ [Row.mk db.nextId cfg.name cfg.indexType cfg.dataType cfg.embedderType params em cfg.mappings],
          nextId := db.nextId + 1, dirs := db.dirs.set cfg.name {} } := by
        unfold Db.crashCreate; rw [hcond]
        unfold Db.metaCreate
        simp only [hip, hec, hem, hvp, hmc, hnr, hnd]
        simp
      refine ⟨by simp, hc', hd, hn', _, _, _, _, hcr, by rw [e], rfl, by rw [e], ?_, fun n hne => ?_⟩
      · rw [e]; unfold Db.contents; dsimp only; rw [hnc]; dsimp only; rw [AMap.get?_set_self]; rfl
      · rw [e]; unfold Db.contents; dsimp only; rw [AMap.get?_set_ne _ _ _ _ (Ne.symm hne)]
  · left
    refine ⟨?_, Or.inr (Or.inr (Or.inl hd))⟩
    cases hv : validateConfig cfg with
    | none => exact absurd ((validate_iff cfg).mp hv) hd
    | some why => unfold Db.crashCreate; rw [hv]; simp

/-- the same for `DeleteCollection`. -/
theorem crashDrop_cases {js : Json V} {o : FloatOps} {S W : Prop} {dims : Nat → Nat} {db : Db} (g : DbGood S js o W dims db) (name : String)
    (p : DropCrash) :
    (db.crashDrop name p = db ∧ (p = .start ∨ db.closed = true ∨ db.colls.has name = false)) ∨
    (p ≠ .start ∧ db.closed = false ∧ db.colls.has name = true ∧ (db.delete name false false).2 = none ∧
      (db.crashDrop name p).rows = (db.delete name false false).1.rows ∧
      (db.delete name false false).1.colls = db.colls.erase name ∧ (db.crashDrop name p).colls = db.colls.erase name ∧
      ∀ n, n ≠ name → (db.crashDrop name p).contents n = db.contents n) := by
  by_cases hc : db.closed = true
  · left; exact ⟨by unfold Db.crashDrop; rw [hc]; rfl, Or.inr (Or.inl hc)⟩
  have hc' : db.closed = false := by simpa using hc
  by_cases hn : db.colls.has name = true
  · cases p with
    | start => left; exact ⟨by unfold Db.crashDrop; rw [hc', hn]; rfl, Or.inl rfl⟩
    | row left =>
      right
      have hmc : db.metaClosed = false := by
        cases hb : db.metaClosed with
        | false => rfl
        | true => exact absurd (g.inv.meta hb) hc
      have hrow : db.rows.any (fun r => decide (r.name = name)) = true := (hasRow_iff db name).mpr ((g.inv.rows name).mpr hn)
      have hdel : db.delete name false false = ({ db with
          rows := db.rows.filter (fun r => decide (r.name ≠ name)), dirs := db.dirs.erase name, colls := db.colls.erase name }, none) := by
        unfold Db.delete
        rw [if_neg hc, hn, hmc, hrow]
        simp
      have e : db.crashDrop name (.row left) = { db with
          rows := db.rows.filter (fun r => decide (r.name ≠ name)), colls := db.colls.erase name,
          dirs := match left with
            | some d => db.dirs.set name d
            | none => db.dirs.erase name } := by
        unfold Db.crashDrop; rw [hc', hn]; rfl
      rw [hdel, e]
      refine ⟨by simp, hc', hn, rfl, rfl, rfl, rfl, fun n hne => ?_⟩
      unfold Db.contents
      dsimp only
      rw [AMap.get?_erase_ne _ _ _ (Ne.symm hne)]
      cases left with
      | none => dsimp only; rw [AMap.get?_erase_ne _ _ _ (Ne.symm hne)]
      | some d => dsimp only; rw [AMap.get?_set_ne _ _ _ _ (Ne.symm hne)]
  · left
    exact ⟨by unfold Db.crashDrop; simp [hn], Or.inr (Or.inr (by simpa using hn))⟩

theorem Survives.trans {js : Json V} {o : FloatOps} {db db1 db2 : Db} {n : String} {T1 T2 T : UInt64 → Prop}
    (s1 : Survives js o db db1 n T1) (s2 : Survives js o db1 db2 n T2) (h1 : ∀ x, T1 x → T x) (h2 : ∀ x, T2 x → T x) :
    Survives js o db db2 n T := by
  intro oc L hoc hL
  obtain ⟨oc1, hoc1, hid1, hL1, kp1⟩ := s1 oc L hoc hL
  obtain ⟨oc2, hoc2, hid2, hL2, kp2⟩ := s2 oc1 L hoc1 hL1
  exact ⟨oc2, hoc2, hid2.trans hid1, hL2, Conc.Keeps.trans ⟨kp1.file, fun id h3 h4 => kp1.keep id h3 (fun h => h4 (h1 id h)), kp1.gone⟩
    ⟨kp2.file, fun id h3 h4 => kp2.keep id h3 (fun h => h4 (h2 id h)), kp2.gone⟩⟩

/-- every event keeps the invariant, and the collections it does not delete. -/
theorem good_step {js : Json V} {o : FloatOps} {S W : Prop} {dims : Nat → Nat} (hj : JsonOK js) {db db' : Db} {e : DbEv V}
    (g : DbGood S js o W dims db) (hl : e.Legal js o W dims db) (hs : e.Step js o db db') :
    DbGood S js o W dims db' ∧ ∀ n, ¬ e.drops n → Survives js o db db' n (fun id => e.touches n id) := by
  cases hs with
  | call hs => exact good_call hj g hl.1 hl.2 hs
  | @crashInsert name pre x level p oc L c1 os d _ hget hLib h1 h2 hre =>
    obtain ⟨hW, hev⟩ := hl
    obtain ⟨hcl, hoc⟩ := get_ok hget
    have hWt : (fun _ : UInt64 => W) = (fun _ => True) := by funext _; simp [hW]
    have hhas := has_of_get hoc
    obtain ⟨g', sv⟩ := reopen_good (db1 := db.stopped name d) g (fun _ _ => False) rfl hre (fun n oc2 r L2 hoc2 hr hrn k c hc => by
      rw [contents_stopped] at hc
      by_cases hnn : n = name
      · subst hnn
        rw [hoc] at hoc2; cases hoc2
        rw [k.lib] at hLib; cases hLib
        rw [if_pos rfl] at hc
        have i := k.inv
        rw [hWt] at i ⊢
        have hstep : Ev.Step L oc.coll (.crashInsert pre x level p) c := .crashInsert h1 h2 hc
        have hlegal := hev oc L hget k.lib
        obtain ⟨a, b⟩ := step_weak i k.log hlegal hstep
        have ev := step_evoS i k.log hlegal hstep
        exact ⟨a, b, ev.file, fun id h3 _ => ev.keep id h3 (fun h => h), ev.gone⟩
      · rw [if_neg hnn, contents_open hoc2] at hc
        exact k.restart (Or.inl hW) hc _)
    exact ⟨g', fun n _ => sv n⟩
  | @crashDelete name id p oc _ hget hre =>
    obtain ⟨hW, hev⟩ := hl
    obtain ⟨hcl, hoc⟩ := get_ok hget
    have hWt : (fun _ : UInt64 => W) = (fun _ => True) := by funext _; simp [hW]
    have hhas := has_of_get hoc
    obtain ⟨g', sv⟩ := reopen_good (db1 := db.stopped name (oc.coll.crashDelete id p)) g (fun n y => name = n ∧ y = id) rfl hre (fun n oc2 r L2 hoc2 hr hrn k c hc => by
      rw [contents_stopped] at hc
      by_cases hnn : n = name
      · subst hnn
        rw [hoc] at hoc2; cases hoc2
        rw [if_pos rfl] at hc
        have i := k.inv
        rw [hWt] at i ⊢
        have hstep : Ev.Step L2 oc.coll (.crashDelete id p) c := .crashDelete hc
        have hlegal := hev oc L2 hget k.lib
        obtain ⟨a, b⟩ := step_weak i k.log hlegal hstep
        have ev := step_evoS i k.log hlegal hstep
        exact ⟨a, b, ev.file, fun y h3 h4 => ev.keep y h3 (fun h => h4 ⟨rfl, h⟩), ev.gone⟩
      · rw [if_neg hnn, contents_open hoc2] at hc
        exact k.restart (Or.inl hW) hc _)
    exact ⟨g', fun n _ => sv n⟩
  | @crashCreate cfg p _ hre =>
    obtain ⟨hW, hl, hcl⟩ := hl
    rcases crashCreate_cases g (p := p) hl hcl with ⟨e, _⟩ | ⟨_, _, _, hn, dbc, m, ms, he, hcr, hrows, hcolls, _, hnew, hold⟩
    · rw [e] at hre
      obtain ⟨g', sv⟩ := good_call hj g (op := .restart) (out := .done none) hW trivial (.restart hre)
      exact ⟨g', fun n _ => sv n (fun h => h)⟩
    · obtain ⟨gc, sc⟩ := good_call hj g hl hcl (.create hcr)
      obtain ⟨g', sv⟩ := reopen_good gc (fun _ _ => False) hrows hre (fun n oc r L hoc hr hrn k c hc => by
        by_cases hnn : n = cfg.name
        · subst hnn
          rw [hcolls, AMap.get?_set_self] at hoc
          cases hoc
          rw [hnew] at hc
          exact k.restart (Or.inr rfl) hc _
        · rw [hcolls, AMap.get?_set_ne _ _ _ _ (Ne.symm hnn)] at hoc
          rw [hold n hnn, contents_open hoc] at hc
          exact k.restart (hW.imp id (fun h => h n oc hoc)) hc _)
      exact ⟨g', fun n _ => (sc n (fun h => h)).trans (sv n) (fun _ h => h) (fun _ h => h.elim)⟩
  | @crashDrop name p _ hre =>
    rcases crashDrop_cases g name p with ⟨e, _⟩ | ⟨hp, hc, hhas, _, hrows, hcolls, _, hold⟩
    · rw [e] at hre
      obtain ⟨g', sv⟩ := good_call hj g (op := .restart) (out := .done none) hl trivial (.restart hre)
      exact ⟨g', fun n _ => sv n (fun h => h)⟩
    · obtain ⟨gc, sc⟩ := good_call hj g (op := .delete name false false) (out := .done (db.delete name false false).2) trivial ⟨rfl, rfl⟩ .delete
      obtain ⟨g', sv⟩ := reopen_good gc (fun _ _ => False) hrows hre (fun n oc r L hoc hr hrn k c hc => by
        rw [hcolls] at hoc
        by_cases hnn : n = name
        · subst hnn; rw [AMap.get?_erase_self] at hoc; cases hoc
        · rw [AMap.get?_erase_ne _ _ _ (Ne.symm hnn)] at hoc
          rw [hold n hnn, contents_open hoc] at hc
          exact k.restart (hl.imp id (fun h => h n oc hoc)) hc _)
      refine ⟨g', fun n hd => (sc n (fun h => hd ?_)).trans (sv n) (fun _ h => h) (fun _ h => h.elim)⟩
      cases p with
      | start => exact absurd rfl hp
      | row left => exact h

theorem good_life {js : Json V} {o : FloatOps} {S W : Prop} {dims : Nat → Nat} (hj : JsonOK js) {db db' : Db} {h : List (DbEv V)}
    (g : DbGood S js o W dims db) (r : DbLife js o W dims db h db') :
    DbGood S js o W dims db' ∧ ∀ n, (∀ e ∈ h, ¬ e.drops n) → ∀ T : UInt64 → Prop, (∀ e ∈ h, ∀ id, e.touches n id → T id) →
      Survives js o db db' n T := by
  induction r with
  | nil => exact ⟨g, fun n _ T _ => Survives.same _ rfl⟩
  | @cons db db1 db2 e h hl hs _ ih =>
    obtain ⟨g1, s1⟩ := good_step hj g hl hs
    obtain ⟨g2, s2⟩ := ih g1
    refine ⟨g2, fun n hn T hT => ?_⟩
    intro oc L hoc hL
    obtain ⟨oc1, hoc1, hid1, hL1, kp1⟩ := s1 n (hn e (by simp)) oc L hoc hL
    obtain ⟨oc2, hoc2, hid2, hL2, kp2⟩ := s2 n (fun e' he' => hn e' (by simp [he'])) T (fun e' he' => hT e' (by simp [he'])) oc1 L hoc1 hL1
    exact ⟨oc2, hoc2, hid2.trans hid1, hL2, Conc.Keeps.trans ⟨kp1.file, fun id h1 h2 => kp1.keep id h1 (fun h => h2 (hT e (by simp) id h)), kp1.gone⟩ kp2⟩

end Vectory
