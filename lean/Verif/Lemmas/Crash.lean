import Verif.Lemmas.CollMore
/-! What is on disk compared with what is in memory: reopening after lost log records, crashes inside calls. -/
namespace Vectory
variable {V D : Type} {S : Prop} {X : UInt64 → Prop}

/-- the log on disk gives the index in memory, or it lacks a vertex, or it lacks only deletions. -/
structure DInv (S : Prop) (h : Hnsw) : Prop where
  ex : ∃ s, loadLog h.cfg h.wal.disk = .ok s ∧ (∀ x ∈ s.nodes.keys, x ∈ h.nodes.keys) ∧ (∀ x ∈ s.deleted, x ∈ h.deleted) ∧
    ((∀ x ∈ h.nodes.keys, x ∈ s.nodes.keys) → SameMap s.nodes (h.nodes.mapVals Vertex.strip) ∧
      (S → s.nodes = h.nodes.mapVals Vertex.strip) ∧ s.entry = h.entry ∧ s.maxLayer = h.maxLayer) ∧
    s.cfg = h.cfg ∧ s.once = false ∧ s.wal = {}

theorem DInv.synced {h : Hnsw} (i : Inv S h) (hb : h.wal.batch = []) : DInv S h := by
  have h2 : h.wal.records = h.wal.disk := by simp [Wal.records, hb]
  obtain ⟨s, h1, hr⟩ := i.m.log.load
  have e := hr.rest
  refine ⟨s, by rw [← h2]; exact h1, ?_, by rw [e]; exact fun _ h => h, fun _ => ⟨hr.nodes, fun hS => by rw [hr.exact hS]; rfl, by rw [e]; rfl, by rw [e]; rfl⟩,
    by rw [e]; rfl, by rw [e]; rfl, by rw [e]; rfl⟩
  intro x hx
  rw [hr.nodes.mem] at hx
  have : h.strip.nodes.keys = h.nodes.keys := keys_strip _
  rw [← this]; exact hx

theorem DInv.inserted {h h' : Hnsw} {vec : Vec} {id : UInt64} (d : DInv S h) (i : Inserted h h' vec id) (hid : id ∉ h.nodes.keys) :
    DInv S h' := by
  obtain ⟨s, h1, h2, h3, _, h5⟩ := d.ex
  refine ⟨s, by rw [i.cfg, i.disk]; exact h1, ?_, by rw [i.deleted]; exact h3, ?_, by rw [i.cfg]; exact h5⟩
  · rw [i.keys]; exact fun x hx => List.mem_append_left _ (h2 x hx)
  · intro hk
    refine absurd (h2 id (hk id ?_)) hid
    rw [i.keys]; simp

theorem DInv.delete {h : Hnsw} (d : DInv S h) (id : UInt64) : DInv S (h.delete id) := by
  obtain ⟨s, h1, h2, h3, h4⟩ := d.ex
  refine ⟨s, h1, h2, fun x hx => ?_, h4⟩
  unfold Hnsw.delete Hnsw.log
  dsimp only
  split
  · exact h3 x hx
  · exact List.mem_cons_of_mem _ (h3 x hx)

theorem DInv.flush {h : Hnsw} (i : Inv S h) (d : DInv S h) (b : Bool) : DInv S (h.flush b).1 := by
  cases b with
  | true => exact d
  | false =>
    have hf := flush_ok i
    have i' := flush_spec i false
    rw [hf] at i' ⊢
    exact DInv.synced i' rfl

theorem DInv.coll_flush {L : Lib V D} {dim : Nat} {c : Coll} (i : WInv S L dim X c) (d : DInv S c.index) (b : Bool) :
    DInv S (c.flush b).1.index := d.flush i.idx b

theorem insertOne_dinv {L : Lib V D} {dim : Nat} {c c' : Coll} {o o' : Object V} {e : Option Err} (i : WInv S L dim X c)
    (d : DInv S c.index) (h : InsEff L c c' o o' e) : DInv S c'.index := by
  cases e with
  | some x => rw [(h.bad x rfl).2]; exact d
  | none =>
    refine d.inserted (h.ok rfl).2.2.2.1 ?_
    rw [← vkey_iff i]; exact (fresh_of i).2.1

theorem insertAll_dinv {L : Lib V D} {dim : Nat} : ∀ (os : List (Object V × InsEnv)) (c c' : Coll) (os' : List (Object V)) (e : Option Err),
    WInv S L dim X c → DInv S c.index → (∀ p ∈ os, (p.1.vec.getD []).length = dim) → (∀ p ∈ os, p.2.level < 4294967296) →
    c.counter.count.toNat + os.length < 18446744073709551616 → c.insertAll L os = .ok (c', os', e) →
    DInv S c'.index := by
  intro os
  induction os with
  | nil => intro c c' os' e _ d _ _ _ h; cases h; exact d
  | cons p os ih =>
    intro c c' os' e i d hd hl hc h
    obtain ⟨o, env⟩ := p
    simp only [List.length_cons] at hc
    obtain ⟨c1, o1, e1, h1, i1, f1⟩ := insertOne_spec (env := env) i (hd _ (List.mem_cons_self ..)) (hl _ (List.mem_cons_self ..)) (by omega)
    have d1 := insertOne_dinv i d f1
    unfold Coll.insertAll at h
    rw [h1, ok_bind] at h
    dsimp only at h
    cases e1 with
    | some x => cases h; exact d1
    | none =>
      dsimp only at h
      obtain ⟨r, h2, h3⟩ := (bind_ok_iff _ _ _).mp h
      obtain ⟨c2, os2, e2⟩ := r
      cases h3
      have hcount := f1.count
      have : c1.counter.count.toNat = c.counter.count.toNat + 1 := by
        rw [hcount, UInt64.toNat_add]
        have : (1 : UInt64).toNat = 1 := rfl
        omega
      exact ih c1 c2 os2 e2 i1 d1 (fun p hp => hd p (List.mem_cons_of_mem _ hp)) (fun p hp => hl p (List.mem_cons_of_mem _ hp))
        (by omega) h2

theorem apply_dinv {L : Lib V D} {dim : Nat} {c c' : Coll} (i : WInv S L dim X c) (d : DInv S c.index) {op : Op V} {out : Out V D}
    (hl : Legal dim c op) (h : c.apply L op = .ok (c', out)) : DInv S c'.index := by
  cases op with
  | insert o embed env ff =>
    simp only [Coll.apply] at h
    obtain ⟨r, h1, h2⟩ := (bind_ok_iff _ _ _).mp h
    obtain ⟨c1, o1, e⟩ := r
    cases h2
    have h1 : c.insert L o embed env ff = .ok (c1, o1, e) := by
      cases hh : c.insert L o embed env ff with
      | error p => rw [hh] at h1; cases h1
      | ok r => rw [hh] at h1; cases h1; rfl
    obtain ⟨⟨r0, he, hdim⟩, hlev, hcnt⟩ := hl
    cases insert_res h1 with
    | closed => exact d
    | invalid => exact d
    | embed => exact d
    | storage o1 o2 c1 e _ _ hemb hins =>
      rw [he] at hemb; cases hemb
      obtain ⟨c2, o3, e3, g1, g2, g3⟩ := insertOne_spec (env := env) i (hdim _ rfl o1 (by simp)) hlev hcnt
      rw [hins] at g1; cases g1
      exact insertOne_dinv i d g3
    | done o1 o2 c1 _ _ hemb hins =>
      rw [he] at hemb; cases hemb
      obtain ⟨c2, o3, e3, g1, g2, g3⟩ := insertOne_spec (env := env) i (hdim _ rfl o1 (by simp)) hlev hcnt
      rw [hins] at g1; cases g1
      exact (insertOne_dinv i d g3).coll_flush g2 ff
  | insertBatch os embed envs ff =>
    simp only [Coll.apply] at h
    obtain ⟨r, h1, h2⟩ := (bind_ok_iff _ _ _).mp h
    obtain ⟨c1, o1, e⟩ := r
    cases h2
    have h1 : c.insertBatch L os embed envs ff = .ok (c1, o1, e) := by
      cases hh : c.insertBatch L os embed envs ff with
      | error p => rw [hh] at h1; cases h1
      | ok r => rw [hh] at h1; cases h1; rfl
    obtain ⟨⟨r0, he, hdim⟩, hlev, hcnt⟩ := hl
    cases batch_res h1 with
    | closed => exact d
    | invalid => exact d
    | embed => exact d
    | storage os1 os2 c1 e _ _ hemb hins =>
      have hlen := embed_length hemb
      rw [he] at hemb; cases hemb
      obtain ⟨z1, z2⟩ := zipIdx_dim (envs := envs) (hdim _ rfl) hlev
      exact insertAll_dinv _ _ _ _ _ i d z1 z2 (by simpa [hlen] using hcnt) hins
    | done os1 os2 c1 _ _ hemb hins =>
      have hlen := embed_length hemb
      rw [he] at hemb; cases hemb
      obtain ⟨z1, z2⟩ := zipIdx_dim (envs := envs) (hdim _ rfl) hlev
      obtain ⟨c2, os3, e3, g1, g2, _⟩ := insertAll_spec (fun _ => False) _ c i z1 z2 (by simpa [hlen] using hcnt)
      rw [hins] at g1; cases g1
      exact (insertAll_dinv _ _ _ _ _ i d z1 z2 (by simpa [hlen] using hcnt) hins).coll_flush g2 ff
  | delete id df ff =>
    obtain ⟨c2, e, h2, hr⟩ := delete_res i id df ff
    simp only [Coll.apply, h2, liftPanic, ok_bind] at h
    cases h
    cases hr with
    | closed => exact d
    | absent => exact d
    | failed => exact d
    | done => exact (d.delete id).flush (delete_spec i.idx id) ff
  | get ids => cases h; exact d
  | search o embed k => cases h; exact d
  | size => cases h; exact d
  | update o => cases h; exact d
  | close sf =>
    simp only [Coll.apply, Coll.close] at h
    split at h <;> (try split at h) <;> (cases h; exact d)
  | reopen =>
    obtain ⟨f, c2, _, h2, _, hro, i', _⟩ := coll_reopen i hl (fun _ => False)
    simp only [Coll.apply, h2, ok_bind] at h
    cases h
    exact DInv.synced i'.idx (by rw [hro.wal]; rfl)

/-- if the log on disk has all vertices, the disk is that of a collection that has lost only deletions. -/
theorem lost_deletions {L : Lib V D} {dim : Nat} {c : Coll} (i : WInv S L dim X c) (s : Hnsw)
    (h1 : loadLog c.index.cfg c.index.wal.disk = .ok s) (h3 : ∀ x ∈ s.deleted, x ∈ c.index.deleted)
    (h4 : SameMap s.nodes (c.index.nodes.mapVals Vertex.strip) ∧
      (S → s.nodes = c.index.nodes.mapVals Vertex.strip) ∧ s.entry = c.index.entry ∧ s.maxLayer = c.index.maxLayer)
    (hx : s.cfg = c.index.cfg ∧ s.once = false ∧ s.wal = {}) :
    ∃ c' : Coll, c'.disk = c.disk ∧ c'.index.wal.batch = [] ∧ WInv S L dim (fun _ => True) c' ∧ c'.index.cfg = c.index.cfg ∧
      c'.mappings = c.mappings ∧ c'.hasEmbedder = c.hasEmbedder ∧ c'.stores = c.stores ∧ c'.index.nodes = c.index.nodes ∧
      c'.counter = c.counter := by
  obtain ⟨h5, h5', h6, h7⟩ := h4
  have hs : Restores S s ({ c.index with deleted := s.deleted, wal := newWal c.index.wal.disk } : Hnsw).strip := by
    obtain ⟨g1, g2, g3⟩ := hx
    refine ⟨?_, h5, fun hS => ?_⟩
    · cases s
      simp only at *
      subst g1 g2 g3 h6 h7
      rfl
    · have h8 := h5' hS
      cases s
      simp only at *
      subst g1 g2 g3 h8 h6 h7
      rfl
  refine ⟨{ c with index := { c.index with deleted := s.deleted, wal := newWal c.index.wal.disk } }, rfl, rfl, ?_, rfl, rfl, rfl, rfl, rfl, rfl⟩
  have h3' : (newWal c.index.wal.disk).records = c.index.wal.disk := by simp [newWal, Wal.records]
  have hpre : ∀ p, p <+: c.index.wal.disk → p <+: c.index.wal.records := by
    intro p hp; unfold Wal.records; exact hp.trans (List.prefix_append ..)
  refine ⟨i.json, i.dimM, i.dim32, ⟨⟨⟨i.idx.m.good.graph, i.idx.m.good.entry⟩, ⟨?_, ?_⟩, WalOK.new _⟩, i.idx.top, i.idx.once, i.idx.top32⟩,
    i.cfg, i.vecs, i.ond, i.vnd, i.vkeys, i.okeys, i.vstore, i.dec, ?_, ?_, fun _ _ _ h => absurd trivial h⟩
  · show ∃ s, loadLog c.index.cfg (newWal c.index.wal.disk).records = .ok s ∧ _
    rw [h3']; exact ⟨s, h1, hs⟩
  · show ∀ p, p <+: (newWal c.index.wal.disk).records → _
    rw [h3']
    exact fun p hp => i.idx.m.log.pre p (hpre p hp)
  · obtain ⟨f, hf, hu⟩ := i.ids
    refine ⟨f, hf, fun id hid => hu id ?_⟩
    rcases hid with h | h | h
    · exact Or.inl h
    · exact Or.inr (Or.inl h)
    · exact Or.inr (Or.inr (h3 id h))
  · exact fun id hid => i.del id (h3 id hid)

theorem WInv.weaken {L : Lib V D} {dim : Nat} {c : Coll} {Y : UInt64 → Prop} (i : WInv S L dim X c) (h : ∀ x, X x → Y x) :
    WInv S L dim Y c :=
  ⟨i.json, i.dimM, i.dim32, i.idx, i.cfg, i.vecs, i.ond, i.vnd, i.vkeys, i.okeys, i.vstore, i.dec, i.ids, i.del,
    fun id h1 h2 h3 => i.live id h1 h2 (fun hx => h3 (h id hx))⟩

theorem WInv.weak {L : Lib V D} {dim : Nat} {c : Coll} (i : WInv S L dim X c) : WInv S L dim (fun _ => True) c :=
  i.weaken (fun _ _ => trivial)

theorem populate_missing : ∀ (pairs : List (UInt64 × Vec)) (h : Hnsw) (x : UInt64), x ∈ pairs.map Prod.fst → x ∉ h.nodes.keys →
    populate h pairs = .error .nilDeref := by
  intro pairs
  induction pairs with
  | nil => intro h x hx; simp at hx
  | cons p pairs ih =>
    intro h x hx hn
    obtain ⟨id, vec⟩ := p
    unfold populate
    rw [List.foldlM_cons]
    by_cases hid : id ∈ h.nodes.keys
    · obtain ⟨v, hv⟩ := Option.isSome_iff_exists.mp ((AMap.get?_isSome_iff _ _).mpr hid)
      simp only [populateOne, nodeAt_of hv, ok_bind]
      refine ih { h with nodes := h.nodes.set id { v with vec := vec } } x ?_ ?_
      · rcases List.mem_cons.mp hx with h | h
        · exact absurd (h ▸ hid) hn
        · exact h
      · show x ∉ (h.nodes.set id _).keys
        rw [AMap.keys_set, if_pos hid]; exact hn
    · have : h.nodes.get? id = none := (AMap.get?_none_iff _ _).mpr hid
      simp only [populateOne, nodeAt, this]
      rfl

/-- what an open finds: a log with all vertices, or the open panics. -/
theorem reopen_any {L : Lib V D} {dim : Nat} {c : Coll} (i : WInv S L dim X c) (d : DInv S c.index) :
    (∃ c' : Coll, c.reopen = .ok c' ∧ WInv S L dim (fun _ => True) c' ∧ DInv S c'.index ∧ c'.stores = c.stores ∧
      SameMap c'.index.nodes c.index.nodes ∧ c'.index.cfg = c.index.cfg ∧ c'.mappings = c.mappings ∧
      c'.hasEmbedder = c.hasEmbedder ∧ c'.closed = false ∧ c'.counter.closed = false ∧ c'.counter.file = c.counter.file ∧
      c'.index.wal.batch = [] ∧ c'.index.wal.disk = c.index.wal.disk ∧ (S → c'.index.nodes = c.index.nodes)) ∨
    (c.reopen = .error (.panic .nilDeref) ∧
      ∃ s x, loadLog c.index.cfg c.index.wal.disk = .ok s ∧ x ∈ c.index.nodes.keys ∧ x ∉ s.nodes.keys) := by
  obtain ⟨s, h1, h2, h3, h4, hx⟩ := d.ex
  by_cases hk : ∀ x ∈ c.index.nodes.keys, x ∈ s.nodes.keys
  · left
    obtain ⟨c1, hd, hb, i1, hcfg, hm, he, hst, hn, hctr⟩ := lost_deletions i s h1 h3 (h4 hk) hx
    obtain ⟨f, c2, _, h5, h6, hro, i2, _⟩ := coll_reopen i1 hb (fun _ => False)
    have hre : c.reopen = c1.reopen := by unfold Coll.reopen; rw [hd, hcfg, hm, he]
    have hdisk : c1.index.wal.disk = c.index.wal.disk := congrArg Disk.log hd
    refine ⟨c2, by rw [hre, h5], i2, DInv.synced i2.idx (by rw [hro.wal]; rfl), by rw [h6]; exact hst, by rw [← hn]; exact hro.nodes, by rw [hro.cfg, hcfg],
      by rw [h6]; exact hm, by rw [h6]; exact he, by rw [h6]; rfl, by rw [h6]; rfl, ?_, by rw [hro.wal]; rfl, by rw [hro.wal]; exact hdisk,
      fun hS => by rw [hro.exact hS]; exact hn⟩
    rw [h6]
    show c1.counter.file = _
    rw [hctr]
  · right
    have hmiss : ∃ x ∈ c.index.nodes.keys, x ∉ s.nodes.keys := by simpa using hk
    obtain ⟨x, hxm, hxn⟩ := hmiss
    refine ⟨?_, s, x, h1, hxm, hxn⟩
    obtain ⟨f, hf, hu⟩ := i.ids
    obtain ⟨ids, hids⟩ := keys_as_ids i.vkeys
    have hctr : newIdCounter c.counter.file = .ok { count := f, file := c.counter.file } := by
      rcases hf.1 with ⟨h0, h1⟩ | h0
      · rw [h0, h1]; rfl
      · rw [h0]; simpa using newIdCounter_put f []
    have hxi : x ∈ ids := by
      rw [← vkey_iff i, hids] at hxm
      obtain ⟨y, hy, he⟩ := List.mem_map.mp hxm
      rw [← keyOf_inj he]; exact hy
    have hload : loadFromWAL (Hnsw.empty c.index.cfg c.index.wal.disk) c.index.wal.disk =
        .ok { s with wal := newWal c.index.wal.disk } := by
      have h3 := loadFromWAL_wal (newWal c.index.wal.disk) c.index.wal.disk { cfg := c.index.cfg }
      unfold loadLog at h1
      rw [h1] at h3
      exact h3
    unfold Coll.reopen openColl
    simp only [Coll.disk]
    rw [hctr]
    simp only [liftErr, ok_bind]
    rw [hload, ok_bind, hids, populateVectors_eq c.stores (vecOf c.index.nodes) ids _ (fun x _ => i.vstore x),
      populate_missing (ids.map (fun id => (id, (vecOf c.index.nodes id).getD []))) { s with wal := newWal c.index.wal.disk } x
        (by rw [List.map_map]; exact List.mem_map.mpr ⟨x, hxi, rfl⟩) hxn]
    rfl

theorem reopen_iff {L : Lib V D} {dim : Nat} {c : Coll} (i : WInv S L dim X c) (d : DInv S c.index) :
    (∃ c', c.reopen = .ok c') ↔ ∃ s, loadLog c.index.cfg c.index.wal.disk = .ok s ∧ ∀ x ∈ c.index.nodes.keys, x ∈ s.nodes.keys := by
  rcases reopen_any i d with ⟨c', h1, h2, h3, h4, h5, h6, h7, h8, h9, h10, h11, h12, h13, _⟩ | ⟨h1, s, x, h2, h3, h4⟩
  · refine ⟨fun _ => ?_, fun _ => ⟨c', h1⟩⟩
    obtain ⟨s, hl, hr⟩ := h2.idx.m.log.load
    have : c'.index.wal.records = c.index.wal.disk := by simp [Wal.records, h12, h13]
    rw [this, h6] at hl
    refine ⟨_, hl, ?_⟩
    intro x hx
    rw [hr.nodes.mem]
    have : c'.index.strip.nodes.keys = c'.index.nodes.keys := keys_strip _
    rw [this, h5.mem]; exact hx
  · constructor
    · rintro ⟨c', h⟩; rw [h1] at h; cases h
    · rintro ⟨s', h, hk⟩; rw [h2] at h; cases h; exact absurd (hk x h3) h4

/-! ### Crashes inside Insert -/

theorem overwrite_counter {L : Lib V D} {dim : Nat} {c : Coll} (i : WInv S L dim X c) (n : UInt64) :
    overwrite c.counter.file (putUint64 n) = putUint64 n := by
  obtain ⟨f, hf, _⟩ := i.ids
  unfold overwrite
  rcases hf.1 with ⟨h0, _⟩ | h0 <;> rw [h0] <;> simp [putUint64]

theorem torn_whole (file : Bytes) (n : UInt64) (j : Nat) (h : 8 ≤ j) : tornCounter file n j = overwrite file (putUint64 n) := by
  unfold tornCounter
  rw [List.take_of_length_le (by simpa [putUint64] using h)]

theorem torn_zero (file : Bytes) (n : UInt64) : tornCounter file n 0 = file := by
  simp [tornCounter, overwrite]

/-- the disk of a crash inside an insert is the disk of a collection in memory that satisfies the invariant. -/
theorem crash_insert {L : Lib V D} {dim : Nat} {c : Coll} (i : WInv S L dim X c) (dv : DInv S c.index) {o : Object V} {level : Nat}
    (hcl : c.counter.closed = false) (hd : (o.vec.getD []).length = dim) (hl : level < 4294967296)
    (hj : (L.json.marshal o.props).isSome) (hc : c.counter.count.toNat + 1 < 18446744073709551616) (p : InsertCrash)
    (hu : ∀ j, p = .counter j → j = 0 ∨ 8 ≤ j) :
    ∃ d c2, c.crashInsert L o level p = .ok d ∧ c2.disk = d ∧ WInv S L dim X c2 ∧ DInv S c2.index ∧
      c2.index.cfg = c.index.cfg ∧ c2.mappings = c.mappings ∧ c2.hasEmbedder = c.hasEmbedder ∧
      (p ≠ .vector → p ≠ .flushed → c2.index = c.index ∧ ∀ id, getObject L.json c2.stores id = getObject L.json c.stores id) ∧
      (∀ T, Evo L c c2 T) ∧
      (p = .vector ∨ p = .flushed → ∃ c1 o', InsEff L c c1 o o' none ∧ c2.stores = c1.stores ∧ c2.counter = c1.counter ∧
        (p = .vector → c2 = c1) ∧ (p = .flushed → c2 = (c1.flush false).1 ∧ c2.index.wal.batch = [])) := by
  obtain ⟨jb, hjb⟩ := Option.isSome_iff_exists.mp hj
  have hser : ∀ id, serializeProperties L.json { o with id := id } = .ok (putUint32 (UInt32.ofNat jb.length) ++ jb) := by
    intro id; simp [serializeProperties, hjb]
  have run : ∀ f : PutFault, c.insertOne L o { put := f, level := level } =
      (match (putObject L.json c.stores { o with id := c.counter.count } f).2 with
      | some e => .ok ({ c with counter := { c.counter with count := c.counter.count + 1, file := overwrite c.counter.file (putUint64 (c.counter.count + 1)) }, stores := (putObject L.json c.stores { o with id := c.counter.count } f).1 }, { o with id := c.counter.count }, some e)
      | none => do
        let idx ← c.index.insert L.metric (o.vec.getD []) c.counter.count level
        .ok ({ c with counter := { c.counter with count := c.counter.count + 1, file := overwrite c.counter.file (putUint64 (c.counter.count + 1)) }, stores := (putObject L.json c.stores { o with id := c.counter.count } f).1, index := idx }, { o with id := c.counter.count }, none)) := by
    intro f
    unfold Coll.insertOne fetchAndInc
    rw [hcl]
    simp only [Bool.or_self, Bool.false_eq_true, if_false]
    split <;> rename_i he <;> rw [he] <;> simp only [hcl]
  have errs : ∀ f : PutFault, (putObject L.json c.stores { o with id := c.counter.count } f).2 = (if f = .none then none else some .io) := by
    intro f
    unfold putObject
    rw [hser]
    cases f <;> rfl
  match p, hu with
  | .start, _ => exact ⟨_, c, rfl, rfl, i, dv, rfl, rfl, rfl, fun _ _ => ⟨rfl, fun _ => rfl⟩, fun T => Evo.refl _ _ _, by rintro (h | h) <;> cases h⟩
  | .counter j, hu =>
    rcases hu j rfl with rfl | h8
    · refine ⟨_, c, rfl, ?_, i, dv, rfl, rfl, rfl, fun _ _ => ⟨rfl, fun _ => rfl⟩, fun T => Evo.refl _ _ _, by rintro (h | h) <;> cases h⟩
      rw [torn_zero]; rfl
    · obtain ⟨c2, o2, e2, h1, i2, f2⟩ := insertOne_spec (env := { put := .objects, level := level }) i hd hl hc
      rw [run, errs, if_neg (by decide)] at h1
      cases h1
      refine ⟨_, _, rfl, ?_, i2, insertOne_dinv i dv f2, rfl, rfl, rfl, fun _ _ => ⟨rfl, fun id => ?_⟩, fun T => f2.evo i hc T, by rintro (h | h) <;> cases h⟩
      · rw [torn_whole _ _ _ h8]
        simp [Coll.disk, putObject, hser]
      · simp [putObject, hser]
  | .object, _ =>
    obtain ⟨c2, o2, e2, h1, i2, f2⟩ := insertOne_spec (env := { put := .vectors, level := level }) i hd hl hc
    rw [run, errs, if_neg (by decide)] at h1
    cases h1
    refine ⟨_, _, rfl, rfl, i2, insertOne_dinv i dv f2, rfl, rfl, rfl, fun _ _ => ⟨rfl, fun id => ?_⟩, fun T => f2.evo i hc T, by rintro (h | h) <;> cases h⟩
    by_cases hid : id = c.counter.count
    · rw [hid]; exact (f2.bad _ rfl).1
    · exact f2.frame id hid
  | .vector, _ =>
    obtain ⟨c2, o2, e2, h1, i2, f2⟩ := insertOne_spec (env := { put := .none, level := level }) i hd hl hc
    rw [run, errs, if_pos rfl] at h1
    obtain ⟨idx, h2, h3⟩ := (bind_ok_iff _ _ _).mp h1
    cases h3
    refine ⟨_, _, rfl, ?_, i2, insertOne_dinv i dv f2, f2.cfg, rfl, rfl, fun h => absurd rfl h, fun T => f2.evo i hc T, fun _ => ⟨_, _, f2, rfl, rfl, fun _ => rfl, (fun h => by cases h)⟩⟩
    have := f2.disk
    simp only [Coll.disk]
    simp only at this
    rw [this]
  | .flushed, _ =>
    obtain ⟨c2, o2, e2, h1, i2, f2⟩ := insertOne_spec (env := { put := .none, level := level }) i hd hl hc
    rw [run, errs, if_pos rfl] at h1
    obtain ⟨idx, h2, h3⟩ := (bind_ok_iff _ _ _).mp h1
    cases h3
    refine ⟨{ stores := (putObject L.json c.stores { o with id := c.counter.count } .none).1, counterFile := overwrite c.counter.file (putUint64 (c.counter.count + 1)), log := (idx.flush false).1.wal.disk }, _, ?_, ?_, i2.flush false, (insertOne_dinv i dv f2).coll_flush i2 false, ?_, rfl, rfl, fun _ h => absurd rfl h,
      fun T => (f2.evo i hc T).trans (flush_evo L _ false T), fun _ => ⟨_, _, f2, rfl, rfl, (fun h => by cases h), fun _ => ⟨rfl, flush_batch i2⟩⟩⟩
    · simp only [Coll.crashInsert]
      rw [h2, ok_bind]
    · rfl
    · show (idx.flush false).1.cfg = _
      have hi : Inv S idx := i2.idx
      rw [flush_ok hi]
      exact f2.cfg

/-! ### Crashes inside Delete -/

theorem erased_weak {L : Lib V D} {dim : Nat} {c : Coll} (i : WInv S L dim X c) (id : UInt64) :
    WInv S L dim (fun x => X x ∨ x = id) { c with stores := deleteObject c.stores id } := by
  have hmem : ∀ k, k ∈ (c.stores.objects.erase (keyOf id)).keys ↔ k ∈ c.stores.objects.keys ∧ k ≠ keyOf id := by
    intro k; rw [AMap.keys_erase, List.mem_filter]; simp
  refine ⟨i.json, i.dimM, i.dim32, i.idx, i.cfg, i.vecs, AMap.keys_erase_nodup i.ond _, i.vnd, i.vkeys,
    ?_, i.vstore, ?_, ?_, ?_, ?_⟩
  · intro k hk; exact i.okeys k ((hmem k).mp hk).1
  · intro x b hb
    have hb' : (c.stores.objects.erase (keyOf id)).get? (keyOf x) = some b := hb
    rw [AMap.get?_erase] at hb'
    split at hb'
    · cases hb'
    · exact i.dec x b hb'
  · obtain ⟨f, hf, hu⟩ := i.ids
    refine ⟨f, hf, ?_⟩
    intro x hx
    rcases hx with hx | hx | hx
    · exact hu x (Or.inl ((hmem _).mp hx).1)
    · exact hu x (Or.inr (Or.inl hx))
    · exact hu x (Or.inr (Or.inr hx))
  · intro x hx hk
    obtain ⟨h1, h2⟩ := (hmem _).mp hk
    exact i.del x hx h1
  · intro x hv hk hX
    refine i.live x hv (fun h1 => ?_) (fun h => hX (Or.inl h))
    exact hk ((hmem _).mpr ⟨h1, fun e => hX (Or.inr (keyOf_inj e))⟩)

/-- the disk of a crash inside a delete is the disk of a collection in memory that satisfies the weak invariant. -/
theorem crash_delete {L : Lib V D} {dim : Nat} {c : Coll} (i : WInv S L dim X c) (dv : DInv S c.index) {id : UInt64}
    (ho : keyOf id ∈ c.stores.objects.keys) (p : DeleteCrash) :
    ∃ c2, c2.disk = c.crashDelete id p ∧ WInv S L dim (fun x => X x ∨ x = id) c2 ∧ DInv S c2.index ∧
      c2.index.cfg = c.index.cfg ∧ c2.mappings = c.mappings ∧ c2.hasEmbedder = c.hasEmbedder ∧
      c2.counter = c.counter ∧ c2.closed = c.closed ∧
      (p = .start → c2 = c) ∧ (p ≠ .start → c2.stores = deleteObject c.stores id) ∧
      (p = .erased → c2.index = c.index) ∧ (p = .flushed → c2.index = ((c.index.delete id).flush false).1 ∧ WInv S L dim X c2) := by
  cases p with
  | start => exact ⟨c, rfl, i.weaken (fun _ => Or.inl), dv, rfl, rfl, rfl, rfl, rfl, fun _ => rfl, fun h => absurd rfl h, (fun h => by cases h), (fun h => by cases h)⟩
  | erased => exact ⟨{ c with stores := deleteObject c.stores id }, rfl, erased_weak i id, dv, rfl, rfl, rfl, rfl, rfl,
      (fun h => by cases h), fun _ => rfl, fun _ => rfl, (fun h => by cases h)⟩
  | flushed =>
    have i1 := (erased_inv i ho).flush false
    refine ⟨_, ?_, i1.weaken (fun _ => Or.inl), (dv.delete id).flush (delete_spec i.idx id) false, ?_, rfl, rfl, rfl, rfl,
      (fun h => by cases h), fun _ => rfl, (fun h => by cases h), fun _ => ⟨rfl, i1⟩⟩
    · rfl
    · show ((c.index.delete id).flush false).1.cfg = _
      rw [flush_ok (delete_spec i.idx id)]; rfl

/-! ### Every state reached with crashes -/

theorem insertAll_count {L : Lib V D} {dim : Nat} : ∀ (os : List (Object V × InsEnv)) (c c' : Coll) (os' : List (Object V)) (e : Option Err),
    WInv S L dim X c → (∀ p ∈ os, (p.1.vec.getD []).length = dim) → (∀ p ∈ os, p.2.level < 4294967296) →
    c.counter.count.toNat + os.length < 18446744073709551616 → c.insertAll L os = .ok (c', os', e) →
    c'.counter.count.toNat ≤ c.counter.count.toNat + os.length := by
  intro os
  induction os with
  | nil => intro c c' os' e _ _ _ _ h; cases h; simp
  | cons p os ih =>
    intro c c' os' e i hd hl hc h
    obtain ⟨o, env⟩ := p
    simp only [List.length_cons] at hc ⊢
    obtain ⟨c1, o1, e1, h1, i1, f1⟩ := insertOne_spec (env := env) i (hd _ (List.mem_cons_self ..)) (hl _ (List.mem_cons_self ..)) (by omega)
    have hcount := f1.count
    have : c1.counter.count.toNat = c.counter.count.toNat + 1 := by
      rw [hcount, UInt64.toNat_add]
      have : (1 : UInt64).toNat = 1 := rfl
      omega
    unfold Coll.insertAll at h
    rw [h1, ok_bind] at h
    dsimp only at h
    cases e1 with
    | some x => cases h; omega
    | none =>
      dsimp only at h
      obtain ⟨r, h2, h3⟩ := (bind_ok_iff _ _ _).mp h
      obtain ⟨c2, os2, e2⟩ := r
      cases h3
      have := ih c1 c2 os2 e2 i1 (fun p hp => hd p (List.mem_cons_of_mem _ hp)) (fun p hp => hl p (List.mem_cons_of_mem _ hp))
        (by omega) h2
      (show c2.counter.count.toNat ≤ _); omega

theorem step_weak {L : Lib V D} {dim : Nat} {c c' : Coll} {e : Ev V D} (i : WInv S L dim (fun _ => True) c) (dv : DInv S c.index)
    (hl : e.Legal L dim c) (h : e.Step L c c') : WInv S L dim (fun _ => True) c' ∧ DInv S c'.index := by
  have open_any : ∀ (c2 : Coll) (Y : UInt64 → Prop), WInv S L dim Y c2 → DInv S c2.index → c2.reopen = .ok c' →
      WInv S L dim (fun _ => True) c' ∧ DInv S c'.index := by
    intro c2 Y i2 d2 hr
    rcases reopen_any i2 d2 with ⟨c3, h1, h2, h3, _⟩ | ⟨h1, _⟩
    · rw [hr] at h1; cases h1; exact ⟨h2, h3⟩
    · rw [hr] at h1; cases h1
  cases h with
  | @call op out _ h =>
    by_cases hre : ∃ (_ : op = .reopen), True
    · obtain ⟨rfl, _⟩ := hre
      simp only [Coll.apply] at h
      obtain ⟨c3, h3, h4⟩ := (bind_ok_iff _ _ _).mp h
      cases h4
      exact open_any c _ i dv h3
    · have hl' : Legal dim c op := by
        cases op <;> first | exact hl | exact absurd ⟨rfl, trivial⟩ hre
      obtain ⟨c2, out2, h2, i2, _⟩ := apply_spec i op hl'
      rw [h] at h2; cases h2
      exact ⟨i2, apply_dinv i dv hl' h⟩
  | @crashInsert pre o level p c1 _ os d h1 h2 h3 =>
    obtain ⟨_, hcc, hpre, hd, hlev, hj, hcnt, hu⟩ := hl
    obtain ⟨c1', os', e', g1, i1, ev, _, g5, _⟩ := insertAll_spec (fun _ => False) pre c i (fun p hp => (hpre p hp).1)
      (fun p hp => (hpre p hp).2) (by omega)
    rw [h1] at g1; cases g1
    have d1 := insertAll_dinv _ _ _ _ _ i dv (fun p hp => (hpre p hp).1) (fun p hp => (hpre p hp).2) (by omega) h1
    have hc1 := insertAll_count _ _ _ _ _ i (fun p hp => (hpre p hp).1) (fun p hp => (hpre p hp).2) (by omega) h1
    obtain ⟨d', c2, k1, k2, k3, k4, k5, k6, k7, _⟩ := crash_insert (o := o) (level := level) i1 d1 (by rw [g5, hcc]) hd hlev hj (by omega) p (by
      intro j hj; subst hj; exact hu)
    rw [h2] at k1; cases k1
    refine open_any c2 _ k3 k4 ?_
    unfold Coll.reopen
    rw [k5, k6, k7, k2, ev.cfg, ev.mappings, ev.embedder]
    exact h3
  | @crashDelete id p _ h =>
    obtain ⟨hc, o, ho⟩ := hl
    have hk : keyOf id ∈ c.stores.objects.keys := by
      obtain ⟨r, h1, h2, _⟩ := getObject_eq i id
      rw [get_single_some hc] at ho
      rw [ho] at h1; cases h1
      exact (h2.mp rfl).1
    obtain ⟨c2, k1, k2, k3, k4, k5, k6, _⟩ := crash_delete i dv hk p
    refine open_any c2 _ k2 k3 ?_
    unfold Coll.reopen
    rw [k4, k5, k6, k1]
    exact h

theorem eventRuns_weak {L : Lib V D} {dim : Nat} {c c' : Coll} {h : List (Ev V D)} (i : WInv S L dim (fun _ => True) c)
    (dv : DInv S c.index) (r : EventRuns L dim c h c') : WInv S L dim (fun _ => True) c' ∧ DInv S c'.index := by
  induction r with
  | nil => exact ⟨i, dv⟩
  | cons hl hs _ ih => obtain ⟨i1, d1⟩ := step_weak i dv hl hs; exact ih i1 d1

theorem ReachAny.weak {L : Lib V D} {dim : Nat} {c : Coll} (r : ReachAny L dim c) :
    WInv True L dim (fun _ => True) c ∧ DInv True c.index := by
  obtain ⟨cfg, ms, he, h, hs, r⟩ := r
  have i := new_inv (S := True) (X := fun _ => True) L dim cfg ms he hs.json hs.metric hs.dim32 hs.cfg
  exact eventRuns_weak i (DInv.synced i.idx rfl) r

theorem Runs.events {L : Lib V D} {dim : Nat} {c c' : Coll} {h : List (Op V × Out V D)} (r : Runs L dim c h c') :
    EventRuns L dim c (h.map (fun p => Ev.call p.1 p.2)) c' := by
  induction r with
  | nil => exact .nil _
  | @cons c c1 c2 op out h hl ha _ ih =>
    refine .cons ?_ (.call ha) ih
    cases op <;> first | exact hl | trivial

/-- a history of calls is a history of events. -/
theorem Reach.any {L : Lib V D} {dim : Nat} {c : Coll} (r : Reach L dim c) : ReachAny L dim c := by
  obtain ⟨cfg, ms, he, h, hs, r⟩ := r
  exact ⟨cfg, ms, he, _, hs, r.events⟩

theorem EventRuns.append {L : Lib V D} {dim : Nat} {c c1 c2 : Coll} {h t : List (Ev V D)} (r : EventRuns L dim c h c1)
    (r2 : EventRuns L dim c1 t c2) : EventRuns L dim c (h ++ t) c2 := by
  induction r with
  | nil => exact r2
  | cons hl hs _ ih => exact .cons hl hs (ih r2)

theorem ReachAny.step {L : Lib V D} {dim : Nat} {c c' : Coll} {e : Ev V D} (r : ReachAny L dim c) (hl : e.Legal L dim c)
    (hs : e.Step L c c') : ReachAny L dim c' := by
  obtain ⟨cfg, ms, he, h, hst, r⟩ := r
  exact ⟨cfg, ms, he, _, hst, r.append (.cons hl hs (.nil _))⟩

theorem insertAll_disk {L : Lib V D} {dim : Nat} : ∀ (os : List (Object V × InsEnv)) (c c' : Coll) (os' : List (Object V)) (e : Option Err),
    WInv S L dim X c → (∀ p ∈ os, (p.1.vec.getD []).length = dim) → (∀ p ∈ os, p.2.level < 4294967296) →
    c.counter.count.toNat + os.length < 18446744073709551616 → c.insertAll L os = .ok (c', os', e) →
    c'.index.wal.disk = c.index.wal.disk := by
  intro os
  induction os with
  | nil => intro c c' os' e _ _ _ _ h; cases h; rfl
  | cons p os ih =>
    intro c c' os' e i hd hl hc h
    obtain ⟨o, env⟩ := p
    simp only [List.length_cons] at hc
    obtain ⟨c1, o1, e1, h1, i1, f1⟩ := insertOne_spec (env := env) i (hd _ (List.mem_cons_self ..)) (hl _ (List.mem_cons_self ..)) (by omega)
    have hcount := f1.count
    have : c1.counter.count.toNat = c.counter.count.toNat + 1 := by
      rw [hcount, UInt64.toNat_add]
      have : (1 : UInt64).toNat = 1 := rfl
      omega
    unfold Coll.insertAll at h
    rw [h1, ok_bind] at h
    dsimp only at h
    cases e1 with
    | some x => cases h; exact f1.disk
    | none =>
      dsimp only at h
      obtain ⟨r, h2, h3⟩ := (bind_ok_iff _ _ _).mp h
      obtain ⟨c2, os2, e2⟩ := r
      cases h3
      exact (ih c1 c2 os2 e2 i1 (fun p hp => hd p (List.mem_cons_of_mem _ hp)) (fun p hp => hl p (List.mem_cons_of_mem _ hp))
        (by omega) h2).trans f1.disk

theorem insertAll_keys {L : Lib V D} {dim : Nat} : ∀ (os : List (Object V × InsEnv)) (c c' : Coll) (os' : List (Object V)),
    WInv S L dim X c → (∀ p ∈ os, (p.1.vec.getD []).length = dim) → (∀ p ∈ os, p.2.level < 4294967296) →
    c.counter.count.toNat + os.length < 18446744073709551616 → c.insertAll L os = .ok (c', os', none) →
    c'.index.nodes.keys.length = c.index.nodes.keys.length + os.length := by
  intro os
  induction os with
  | nil => intro c c' os' _ _ _ _ h; cases h; rfl
  | cons p os ih =>
    intro c c' os' i hd hl hc h
    obtain ⟨o, env⟩ := p
    simp only [List.length_cons] at hc ⊢
    obtain ⟨c1, o1, e1, h1, i1, f1⟩ := insertOne_spec (env := env) i (hd _ (List.mem_cons_self ..)) (hl _ (List.mem_cons_self ..)) (by omega)
    have hcount := f1.count
    have : c1.counter.count.toNat = c.counter.count.toNat + 1 := by
      rw [hcount, UInt64.toNat_add]
      have : (1 : UInt64).toNat = 1 := rfl
      omega
    unfold Coll.insertAll at h
    rw [h1, ok_bind] at h
    dsimp only at h
    cases e1 with
    | some x => cases h
    | none =>
      dsimp only at h
      obtain ⟨r, h2, h3⟩ := (bind_ok_iff _ _ _).mp h
      obtain ⟨c2, os2, e2⟩ := r
      cases h3
      have := ih c1 c2 os2 i1 (fun p hp => hd p (List.mem_cons_of_mem _ hp)) (fun p hp => hl p (List.mem_cons_of_mem _ hp))
        (by omega) h2
      have hk := (f1.ok rfl).2.2.2.1.keys
      rw [this, hk, List.length_append, List.length_singleton]; omega

/-! ### What events leave in place -/

/-- stored objects stay, absent objects stay absent, except for `T`. -/
structure EvoS (L : Lib V D) (c c' : Coll) (T : UInt64 → Prop) : Prop where
  mappings : c'.mappings = c.mappings
  embedder : c'.hasEmbedder = c.hasEmbedder
  cfg : c'.index.cfg = c.index.cfg
  file : fileCount c ≤ fileCount c'
  keep : ∀ id, id.toNat < fileCount c → ¬ T id → getObject L.json c'.stores id = getObject L.json c.stores id
  gone : ∀ id, id.toNat < fileCount c → getObject L.json c.stores id = .ok none → getObject L.json c'.stores id = .ok none

theorem Evo.toS {L : Lib V D} {c c' : Coll} {T : UInt64 → Prop} (h : Evo L c c' T) : EvoS L c c' T :=
  ⟨h.mappings, h.embedder, h.cfg, h.file, h.keep, h.gone⟩

theorem EvoS.trans {L : Lib V D} {a b c : Coll} {T : UInt64 → Prop} (h1 : EvoS L a b T) (h2 : EvoS L b c T) : EvoS L a c T :=
  ⟨h2.mappings.trans h1.mappings, h2.embedder.trans h1.embedder, h2.cfg.trans h1.cfg, Nat.le_trans h1.file h2.file,
    fun id h ht => (h2.keep id (Nat.lt_of_lt_of_le h h1.file) ht).trans (h1.keep id h ht),
    fun id h hn => h2.gone id (Nat.lt_of_lt_of_le h h1.file) (h1.gone id h hn)⟩

theorem EvoS.mono {L : Lib V D} {c c' : Coll} {T U : UInt64 → Prop} (h : EvoS L c c' T) (hT : ∀ x, T x → U x) : EvoS L c c' U :=
  ⟨h.mappings, h.embedder, h.cfg, h.file, fun id h1 h2 => h.keep id h1 (fun h3 => h2 (hT id h3)), h.gone⟩

theorem reopen_evoS {L : Lib V D} {dim : Nat} {c c' : Coll} (i : WInv S L dim X c) (dv : DInv S c.index) (h : c.reopen = .ok c')
    (T : UInt64 → Prop) : EvoS L c c' T := by
  rcases reopen_any i dv with ⟨c3, h1, h2, h3, h4, h5, h6, h7, h8, h9, h10, h11, _⟩ | ⟨h1, _⟩
  · rw [h] at h1; cases h1
    refine ⟨h7, h8, h6, ?_, fun id _ _ => by rw [h4], fun id _ hn => by rw [h4]; exact hn⟩
    unfold fileCount; rw [h11]; exact Nat.le_refl _
  · rw [h] at h1; cases h1

theorem step_evoS {L : Lib V D} {dim : Nat} {c c' : Coll} {e : Ev V D} (i : WInv S L dim (fun _ => True) c) (dv : DInv S c.index)
    (hl : e.Legal L dim c) (h : e.Step L c c') : EvoS L c c' e.touches := by
  cases h with
  | @call op out _ h =>
    by_cases hre : ∃ (_ : op = .reopen), True
    · obtain ⟨rfl, _⟩ := hre
      simp only [Coll.apply] at h
      obtain ⟨c3, h3, h4⟩ := (bind_ok_iff _ _ _).mp h
      cases h4
      exact reopen_evoS i dv h3 _
    · have hl' : Legal dim c op := by
        cases op <;> first | exact hl | exact absurd ⟨rfl, trivial⟩ hre
      obtain ⟨c2, out2, h2, i2, ev⟩ := apply_spec i op hl'
      rw [h] at h2; cases h2
      exact ev.toS
  | @crashInsert pre o level p c1 _ os d h1 h2 h3 =>
    obtain ⟨_, hcc, hpre, hd, hlev, hj, hcnt, hu⟩ := hl
    obtain ⟨c1', os', e', g1, i1, ev, _, g5, _⟩ := insertAll_spec (Ev.touches (.crashInsert pre o level p : Ev V D)) pre c i (fun p hp => (hpre p hp).1)
      (fun p hp => (hpre p hp).2) (by omega)
    rw [h1] at g1; cases g1
    have d1 := insertAll_dinv _ _ _ _ _ i dv (fun p hp => (hpre p hp).1) (fun p hp => (hpre p hp).2) (by omega) h1
    have hc1 := insertAll_count _ _ _ _ _ i (fun p hp => (hpre p hp).1) (fun p hp => (hpre p hp).2) (by omega) h1
    obtain ⟨d', c2, k1, k2, k3, k4, k5, k6, k7, _, k9, _⟩ := crash_insert (o := o) (level := level) i1 d1 (by rw [g5, hcc]) hd hlev hj (by omega) p (by
      intro j hj; subst hj; exact hu)
    rw [h2] at k1; cases k1
    refine (ev.trans (k9 _)).toS.trans (reopen_evoS k3 k4 ?_ _)
    unfold Coll.reopen
    rw [k5, k6, k7, k2, ev.cfg, ev.mappings, ev.embedder]
    exact h3
  | @crashDelete id p _ h =>
    obtain ⟨hc, o, ho⟩ := hl
    have hk : keyOf id ∈ c.stores.objects.keys := by
      obtain ⟨r, h1, h2, _⟩ := getObject_eq i id
      rw [get_single_some hc] at ho
      rw [ho] at h1; cases h1
      exact (h2.mp rfl).1
    obtain ⟨c2, k1, k2, k3, k4, k5, k6, k7, k8, k9, k10, _⟩ := crash_delete i dv hk p
    have ev : EvoS L c c2 (Ev.touches (.crashDelete id p : Ev V D)) := by
      by_cases hp : p = .start
      · rw [k9 hp]; exact (Evo.refl _ _ _).toS
      · refine ⟨k5, k6, k4, ?_, ?_, ?_⟩
        · unfold fileCount; rw [k7]; exact Nat.le_refl _
        · intro x _ hx; rw [k10 hp]; exact getObject_delete_ne _ _ _ _ hx
        · intro x _ hn
          rw [k10 hp]
          by_cases hx : x = id
          · rw [hx]; exact getObject_delete_self _ _ _
          · rw [getObject_delete_ne _ _ _ _ hx]; exact hn
    refine ev.trans (reopen_evoS k2 k3 ?_ _)
    unfold Coll.reopen
    rw [k4, k5, k6, k1]
    exact h

theorem events_evoS {L : Lib V D} {dim : Nat} {c c' : Coll} {h : List (Ev V D)} (i : WInv S L dim (fun _ => True) c)
    (dv : DInv S c.index) (r : EventRuns L dim c h c') {T : UInt64 → Prop} (hT : ∀ e ∈ h, ∀ x, e.touches x → T x) : EvoS L c c' T := by
  induction r with
  | nil => exact (Evo.refl _ _ _).toS
  | @cons c c1 c2 e t hl hs _ ih =>
    obtain ⟨i1, d1⟩ := step_weak i dv hl hs
    exact ((step_evoS i dv hl hs).mono (hT e (by simp))).trans (ih i1 d1 (fun p hp => hT p (List.mem_cons_of_mem _ hp)))

theorem Stored.evoS {L : Lib V D} {dim : Nat} {c c' : Coll} {T : UInt64 → Prop} {o : Object V} (i : WInv S L dim X c)
    (h : Stored L c o) (e : EvoS L c c' T) (ht : ¬ T o.id) : Stored L c' o := by
  obtain ⟨b, p, h1, h2, h3⟩ := h
  exact ⟨b, p, h1, h2, by rw [e.keep _ (getObject_used i h3) ht]; exact h3⟩

theorem legalEv_bound {L : Lib V D} {dim : Nat} {c : Coll} {e : Ev V D} (h : e.Legal L dim c) :
    c.counter.count.toNat + e.objects < 18446744073709551616 ∧ e.untorn := by
  have := c.counter.count.toNat_lt
  cases e with
  | call op out =>
    refine ⟨?_, trivial⟩
    cases op with
    | reopen => simp only [Ev.objects, Op.objects]; omega
    | insert o embed env ff => exact h.2.2
    | insertBatch os embed envs ff => exact h.2.2
    | _ => simp only [Ev.objects, Op.objects]; omega
  | crashInsert pre o level p =>
    obtain ⟨_, _, _, _, _, _, h1, h2⟩ := h
    exact ⟨by simp only [Ev.objects]; omega, h2⟩
  | crashDelete id p => exact ⟨by simp only [Ev.objects]; omega, trivial⟩

theorem eventRuns_ids {L : Lib V D} {dim : Nat} {c c' : Coll} {h : List (Ev V D)} (r : EventRuns L dim c h c')
    (hle : fileCount c ≤ c.counter.count.toNat) :
    fileCount c ≤ fileCount c' ∧ fileCount c' ≤ c'.counter.count.toNat ∧
    ∀ x ∈ h.flatMap Ev.received, x.toNat < fileCount c' := by
  induction r with
  | nil => exact ⟨Nat.le_refl _, hle, by simp⟩
  | @cons c c1 c2 e t hl hs _ ih =>
    obtain ⟨hb, hu⟩ := legalEv_bound hl
    have s := event_ids hs hu hle hb
    obtain ⟨i1, i2, i3⟩ := ih s.le
    refine ⟨Nat.le_trans s.mono i1, i2, ?_⟩
    intro x hx
    rw [List.flatMap_cons, List.mem_append] at hx
    rcases hx with hx | hx
    · exact Nat.lt_of_lt_of_le (s.fresh x hx).2 i1
    · exact i3 x hx

end Vectory
