import Verif.Lemmas.Insert
/-! Insert, Delete, Flush, Search and reopening, on states satisfying the invariant. -/
namespace Vectory
variable {D : Type} {S : Prop}

theorem Good.withOnce {h : Hnsw} (g : Good S h) (b : Bool) : Good S { h with once := b } := ⟨g.graph, g.entry⟩

theorem MInv.withOnce {h : Hnsw} (i : MInv S h) (b : Bool) : MInv S { h with once := b } :=
  ⟨i.good.withOnce b, ⟨i.log.load, i.log.pre⟩, i.wal⟩

/-- the stored vector of `x`, if any. -/
def vecOf (nodes : AMap UInt64 Vertex) (x : UInt64) : Option Vec := (nodes.get? x).map Vertex.vec

theorem Shape.vecOf {a b : AMap UInt64 Vertex} (s : Shape a b) (x : UInt64) : vecOf b x = vecOf a x := by
  have := s.get x
  unfold Vectory.vecOf
  cases ha : a.get? x <;> cases hb : b.get? x <;> rw [ha, hb] at this <;> simp at this ⊢
  exact this.2.2

theorem vecOK_iff {dim : Nat} {nodes : AMap UInt64 Vertex} :
    VecOK dim nodes ↔ ∀ x v, vecOf nodes x = some v → v.length = dim := by
  unfold VecOK vecOf
  constructor
  · intro h x v hx
    cases hn : nodes.get? x with
    | none => rw [hn] at hx; simp at hx
    | some w => rw [hn] at hx; simp at hx; subst hx; exact h x w hn
  · intro h x w hx
    exact h x w.vec (by rw [hx]; rfl)

/-- effect of a successful `Insert`. -/
structure Inserted (h h' : Hnsw) (vec : Vec) (id : UInt64) : Prop where
  cfg : h'.cfg = h.cfg
  deleted : h'.deleted = h.deleted
  disk : h'.wal.disk = h.wal.disk
  keys : h'.nodes.keys = h.nodes.keys ++ [id]
  vecs : ∀ x, vecOf h'.nodes x = if x = id then some vec else vecOf h.nodes x

theorem Inserted.vecOK {h h' : Hnsw} {vec : Vec} {id : UInt64} (e : Inserted h h' vec id) {dim : Nat}
    (hv : VecOK dim h.nodes) (hd : vec.length = dim) : VecOK dim h'.nodes := by
  rw [vecOK_iff] at hv ⊢
  intro x v hx
  rw [e.vecs] at hx
  split at hx
  · cases hx; exact hd
  · exact hv x v hx

theorem insert_spec {M : Metric D} {dim : Nat} (hM : DimOK M dim) {h : Hnsw} (i : Inv S h) (hcfg : CfgOK h.cfg)
    (hv : VecOK dim h.nodes) {id : UInt64} (hid : id ∉ h.nodes.keys) {vec : Vec}
    (hd : vec.length = dim) {level : Nat} (hl : level < 4294967296) :
    ∃ h', h.insert M vec id level = .ok h' ∧ Inv S h' ∧ Inserted h h' vec id := by
  by_cases hn : h.nodes = []
  · have ho : h.once = false := by
      cases hb : h.once with
      | false => rfl
      | true => exact absurd hn (i.once hb)
    refine ⟨({ h with once := true } : Hnsw).insertFirst vec id, ?_, i.first hn vec id, ?_⟩
    · unfold Hnsw.insert; rw [if_pos ⟨ho, hn⟩]
    · refine ⟨rfl, rfl, rfl, ?_, ?_⟩
      · simp [Hnsw.insertFirst, Hnsw.log, hn, AMap.set, AMap.keys]
      · intro x
        unfold vecOf
        simp only [Hnsw.insertFirst, Hnsw.log]
        rw [AMap.get?_set]
        by_cases hx : id = x
        · subst hx; simp
        · have : ¬ x = id := fun e => hx e.symm
          simp [hx, this]
  · have i' : Inv S { h with once := true } := ⟨i.m.withOnce true, i.top, fun _ => hn, i.top32⟩
    obtain ⟨h', e, i2, c1, d1, _, k1, s1, _, _⟩ := insertNext_spec hM i' hcfg hv hn hid hd hl
    refine ⟨h', ?_, i2, c1, d1, k1, ?_, ?_⟩
    · unfold Hnsw.insert; rw [if_neg (fun hh => hn hh.2)]; exact e
    · rw [s1.keys]; exact keys_isolated (h := { h with once := true }) hid vec level
    · intro x
      rw [s1.vecOf]
      unfold vecOf Hnsw.addIsolated
      dsimp only
      rw [AMap.get?_set]
      by_cases hx : id = x
      · subst hx; simp
      · have : ¬ x = id := fun e => hx e.symm
        simp [hx, this]

theorem delete_spec {h : Hnsw} (i : Inv S h) (id : UInt64) : Inv S (h.delete id) := by
  refine ⟨?_, i.top, i.once, i.top32⟩
  refine MInv.step (h := h) i.m (recDeleteVertex id) rfl rfl ?_ ⟨i.m.good.graph, i.m.good.entry⟩
  rw [restore_deleteVertex]
  rfl

theorem flush_spec {h : Hnsw} (i : Inv S h) (b : Bool) : Inv S (h.flush b).1 := by
  have hs : (h.flush b).1 = { h with wal := (h.wal.flush b).1 } := by unfold Hnsw.flush; rfl
  rw [hs]
  refine ⟨⟨⟨i.m.good.graph, i.m.good.entry⟩, ⟨?_, ?_⟩, i.m.wal.flushed b⟩, i.top, i.once, i.top32⟩
  · show ∃ s, loadLog h.cfg (h.wal.flush b).1.records = .ok s ∧ Restores S s h.strip
    rw [i.m.wal.records_flush]; exact i.m.log.load
  · show ∀ p, p <+: (h.wal.flush b).1.records → _
    rw [i.m.wal.records_flush]; exact i.m.log.pre

theorem flush_ok {h : Hnsw} (i : Inv S h) :
    h.flush false = ({ h with wal := { h.wal with disk := h.wal.records, batch := [] } }, none) := by
  unfold Hnsw.flush
  rw [i.m.wal.flush]; rfl

/-! ### Search -/

theorem takeLive_spec (M : Metric D) (del : List UInt64) :
    ∀ (fuel k : Nat) (heap : List (Elem D)),
      (takeLive M del fuel k heap).length ≤ k ∧
      (∃ rest, heap.Perm (takeLive M del fuel k heap ++ rest)) ∧
      (∀ e ∈ takeLive M del fuel k heap, e.id ∉ del) := by
  intro fuel
  induction fuel with
  | zero => intro k heap; exact ⟨by simp [takeLive], ⟨heap, by simp [takeLive]⟩, by simp [takeLive]⟩
  | succ fuel ih =>
    intro k heap
    cases k with
    | zero => exact ⟨by simp [takeLive], ⟨heap, by simp [takeLive]⟩, by simp [takeLive]⟩
    | succ k =>
      unfold takeLive
      cases hp : Heap.pop (minLess M.lt) heap with
      | none => exact ⟨by simp, ⟨heap, by simp⟩, by simp⟩
      | some p =>
        obtain ⟨e, rest⟩ := p
        have hpp := Heap.pop_perm _ _ _ _ hp
        dsimp only
        split
        · obtain ⟨h1, ⟨r, h2⟩, h3⟩ := ih (k + 1) rest
          refine ⟨h1, ⟨e :: r, ?_⟩, h3⟩
          exact hpp.trans ((List.Perm.cons e h2).trans List.perm_middle.symm)
        · rename_i hnd
          obtain ⟨h1, ⟨r, h2⟩, h3⟩ := ih k rest
          refine ⟨by simp; omega, ⟨r, ?_⟩, ?_⟩
          · exact hpp.trans (List.Perm.cons e h2)
          · intro x hx
            rcases List.mem_cons.mp hx with rfl | hx
            · exact hnd
            · exact h3 x hx

/-- the bottom-layer search that `Search` performs, and its result. -/
theorem search_reduce {M : Metric D} {dim : Nat} (hM : DimOK M dim) {h : Hnsw} (i : Inv S h) (hcfg : CfgOK h.cfg)
    (hv : VecOK dim h.nodes) (hne : h.nodes ≠ []) {q : Vec} (hq : q.length = dim) {k : Int} (hk : 0 ≤ k) :
    ∃ eps nns, EpsOK M h.nodes q (fun x => HasLevel h.nodes x 0) eps ∧ eps.length = 1 ∧
      searchLayer M h.nodes h.cfg.mMax0 q eps h.cfg.ef 0 = .ok nns ∧
      EpsOK M h.nodes q (fun x => HasLevel h.nodes x 0) nns ∧ nns.length ≤ h.cfg.ef ∧
      h.search M q k = .ok (takeLive M h.deleted (newMinHeap M.lt nns).length k.toNat (newMinHeap M.lt nns)) := by
  have hent : HasLevel h.nodes h.entry h.maxLayer := by
    rcases i.m.good.entry with h1 | h1
    · exact absurd h1 hne
    · exact h1
  obtain ⟨epv, hepv, hepl⟩ := hent
  obtain ⟨d, hdd⟩ := hM epv.vec q (hv _ _ hepv) hq
  have heps0 : EpsOK M h.nodes q (fun x => HasLevel h.nodes x h.maxLayer) [{ id := h.entry, dist := d }] := by
    refine ⟨by simp, by simp, ?_, ?_⟩
    · intro e he; simp at he; subst he; exact ⟨epv, hepv, hepl⟩
    · intro e he; simp at he; subst he; exact ⟨epv, hepv, hdd⟩
  obtain ⟨eps, hr, ho, hl1⟩ := descend_spec M h.nodes h.cfg.mMax0 q (fun l x => HasLevel h.nodes x l) 0
      (fun l x hx => hx.mono (by omega)) h.maxLayer [{ id := h.entry, dist := d }]
      (fun l _ _ => closed_all hcfg i.m.good.graph l)
      (fun l _ _ => distOK_of hM hv hq _)
      (by simpa using heps0) rfl
  have hef := hcfg.ef
  obtain ⟨nns, hn1, hn2, hn3⟩ := searchLayer_spec M h.nodes h.cfg.mMax0 q eps h.cfg.ef 0 (fun x => HasLevel h.nodes x 0)
    hcfg.ef (closed_all hcfg i.m.good.graph 0) (distOK_of hM hv hq _) ho (by omega)
  refine ⟨eps, nns, ho, hl1, hn1, hn2, hn3, ?_⟩
  unfold Hnsw.search
  rw [if_neg (by omega), nodeAt_of hepv, ok_bind, hdd, ok_bind, hr, ok_bind, hn1, ok_bind]

theorem search_spec {M : Metric D} {dim : Nat} (hM : DimOK M dim) {h : Hnsw} (i : Inv S h) (hcfg : CfgOK h.cfg)
    (hv : VecOK dim h.nodes) (hne : h.nodes ≠ []) {q : Vec} (hq : q.length = dim) {k : Int} (hk : 0 ≤ k) :
    ∃ r, h.search M q k = .ok r ∧ r.length ≤ k.toNat ∧ r.length ≤ h.cfg.ef ∧ (r.map Elem.id).Nodup ∧
      (∀ e ∈ r, e.id ∉ h.deleted ∧ TrueDist M h.nodes q e) := by
  obtain ⟨eps, nns, _, _, _, hn2, hn3, hs⟩ := search_reduce hM i hcfg hv hne hq hk
  obtain ⟨h1, ⟨rest, h2⟩, h3⟩ := takeLive_spec M h.deleted (newMinHeap M.lt nns).length k.toNat (newMinHeap M.lt nns)
  have hp : (newMinHeap M.lt nns).Perm nns := Heap.init_perm _ _
  have hp2 := hp.symm.trans h2
  refine ⟨_, hs, h1, ?_, ?_, ?_⟩
  · have := hp2.length_eq; simp at this; omega
  · have := (hp2.map Elem.id).nodup_iff.mp hn2.nd
    rw [List.map_append] at this
    exact (List.nodup_append.mp this).1
  · intro e he
    exact ⟨h3 e he, hn2.dist e (hp2.mem_iff.mpr (List.mem_append_left _ he))⟩

/-! ### Reopening -/

theorem restore_wal (h : Hnsw) (w : Wal) (r : Bytes) :
    restore { h with wal := w } r = (restore h r).map (fun s => { s with wal := w }) := by
  cases r with
  | nil => rfl
  | cons op b =>
    simp only [restore]
    by_cases h0 : op = opAddVertex
    · simp only [if_pos h0, restoreAddVertex]
      cases uint64 b with
      | error p => rfl
      | ok id => cases uint32 (b.drop 8) <;> rfl
    by_cases h1 : op = opSetEntryPoint
    · simp only [if_neg h0, if_pos h1, restoreSetEntryPoint]
      cases uint64 b with
      | error p => rfl
      | ok id => cases uint32 (b.drop 8) <;> rfl
    by_cases h2 : op = opSetConnections
    · simp only [if_neg h0, if_neg h1, if_pos h2, restoreSetConnections]
      cases uint64 b with
      | error p => rfl
      | ok id =>
        cases uint32 (b.drop 8) with
        | error p => rfl
        | ok lv =>
          cases uint32 (b.drop 12) with
          | error p => rfl
          | ok sz =>
            simp only [ok_bind]
            cases readIds sz.toNat (b.drop 16) with
            | error p => rfl
            | ok ids =>
              simp only [ok_bind]
              cases setConns h.nodes id lv.toNat ids <;> rfl
    by_cases h3 : op = opAddConnection
    · simp only [if_neg h0, if_neg h1, if_neg h2, if_pos h3, restoreAddConnection]
      cases uint64 b with
      | error p => rfl
      | ok id =>
        cases uint32 (b.drop 8) with
        | error p => rfl
        | ok lv =>
          cases uint64 (b.drop 12) with
          | error p => rfl
          | ok n =>
            simp only [ok_bind]
            cases addConn h.nodes id lv.toNat n <;> rfl
    by_cases h4 : op = opDeleteVertex
    · simp only [if_neg h0, if_neg h1, if_neg h2, if_neg h3, if_pos h4, restoreDeleteVertex]
      cases uint64 b <;> rfl
    · simp only [if_neg h0, if_neg h1, if_neg h2, if_neg h3, if_neg h4]; rfl

theorem loadFromWAL_wal (w : Wal) : ∀ (rs : List Bytes) (h : Hnsw),
    loadFromWAL { h with wal := w } rs = (loadFromWAL h rs).map (fun s => { s with wal := w }) := by
  intro rs
  induction rs with
  | nil => intro h; rfl
  | cons r rs ih =>
    intro h
    unfold loadFromWAL at ih ⊢
    rw [List.foldlM_cons, List.foldlM_cons, restore_wal]
    cases hr : restore h r with
    | error a => rfl
    | ok s => exact ih s

/-- replaying the durable log of a flushed index. -/
theorem load_flushed {h : Hnsw} (i : Inv S h) (hb : h.wal.batch = []) :
    ∃ s, loadFromWAL (Hnsw.empty h.cfg h.wal.disk) h.wal.disk = .ok { s with wal := newWal h.wal.disk } ∧
      Restores S s h.strip := by
  obtain ⟨s, h1, hr⟩ := i.m.log.load
  have h2 : h.wal.records = h.wal.disk := by simp [Wal.records, hb]
  rw [h2] at h1
  have h3 := loadFromWAL_wal (newWal h.wal.disk) h.wal.disk { cfg := h.cfg }
  unfold loadLog at h1
  rw [h1] at h3
  exact ⟨s, h3, hr⟩

theorem AMap.ext_keys {V : Type} : ∀ {a b : AMap UInt64 V}, a.keys = b.keys → a.keys.Nodup →
    (∀ k, a.get? k = b.get? k) → a = b := by
  intro a
  induction a with
  | nil =>
    intro b hk _ _
    cases b with
    | nil => rfl
    | cons p b => simp [AMap.keys] at hk
  | cons p a ih =>
    intro b hk hn hg
    cases b with
    | nil => simp [AMap.keys] at hk
    | cons p' b =>
      obtain ⟨k, v⟩ := p
      obtain ⟨k', v'⟩ := p'
      have hk1 : k = k' ∧ AMap.keys a = AMap.keys b := by simpa [AMap.keys] using hk
      obtain ⟨rfl, hk2⟩ := hk1
      have hn1 : k ∉ AMap.keys a ∧ (AMap.keys a).Nodup := by
        have : (k :: AMap.keys a).Nodup := hn
        exact List.nodup_cons.mp this
      have hv : v = v' := by
        have := hg k
        simpa [AMap.get?] using this
      subst hv
      have : a = b := by
        apply ih hk2 hn1.2
        intro x
        by_cases hx : k = x
        · subst hx
          rw [(AMap.get?_none_iff a k).mpr hn1.1, (AMap.get?_none_iff b k).mpr (hk2 ▸ hn1.1)]
        · have := hg x
          simpa [AMap.get?, hx] using this
      rw [this]

/-- `populateVerticesVectors` over decoded key/vector pairs (`startup.go:42-50`). -/
def populate (h : Hnsw) (pairs : List (UInt64 × Vec)) : Except Panic Hnsw :=
  pairs.foldlM (fun h p => populateOne h p.1 p.2) h

theorem populate_spec : ∀ (pairs : List (UInt64 × Vec)) (h : Hnsw), (∀ p ∈ pairs, p.1 ∈ h.nodes.keys) →
    (pairs.map Prod.fst).Nodup →
    ∃ h', populate h pairs = .ok h' ∧ h' = { h with nodes := h'.nodes } ∧ h'.nodes.keys = h.nodes.keys ∧
      (∀ x, h'.nodes.get? x = (h.nodes.get? x).map (fun v => { v with vec := ((AMap.get? pairs x).getD v.vec) })) := by
  intro pairs
  induction pairs with
  | nil => intro h _ _; exact ⟨h, rfl, rfl, rfl, by intro x; simp⟩
  | cons p pairs ih =>
    intro h hp hn
    obtain ⟨id, vec⟩ := p
    have hin : id ∈ h.nodes.keys := hp (id, vec) (by simp)
    rw [List.map_cons, List.nodup_cons] at hn
    obtain ⟨v, hv⟩ : ∃ v, h.nodes.get? id = some v := by
      rw [← AMap.get?_isSome_iff, Option.isSome_iff_exists] at hin; exact hin
    have hk1 : (h.nodes.set id { v with vec := vec }).keys = h.nodes.keys := by rw [AMap.keys_set, if_pos hin]
    obtain ⟨h', e, e2, k, g⟩ := ih { h with nodes := h.nodes.set id { v with vec := vec } }
      (by intro p hp'; show p.1 ∈ (h.nodes.set id _).keys; rw [hk1]; exact hp p (List.mem_cons_of_mem _ hp')) hn.2
    refine ⟨h', ?_, ?_, k.trans hk1, ?_⟩
    · unfold populate at e ⊢
      rw [List.foldlM_cons]
      simp only [populateOne, nodeAt_of hv, ok_bind]
      exact e
    · rw [e2]
    · intro x
      rw [g]
      dsimp only
      rw [AMap.get?_set]
      by_cases hx : id = x
      · subst hx
        have hno : AMap.get? pairs id = none := (AMap.get?_none_iff pairs id).mpr hn.1
        simp [hv, AMap.get?, hno]
      · simp [AMap.get?, hx]

/-- the index after closing it and opening it again: the same, except that the log starts afresh; after concurrent inserts
the vertices may be listed in another order. -/
structure Reopened (S : Prop) (h h' : Hnsw) : Prop where
  rest : h' = { h with once := false, wal := newWal h.wal.disk, nodes := h'.nodes }
  nodes : SameMap h'.nodes h.nodes
  exact : S → h' = { h with once := false, wal := newWal h.wal.disk }

/-- closing a flushed index and opening it again gives back the same index. -/
theorem reopen_spec {h : Hnsw} (i : Inv S h) (hb : h.wal.batch = []) (pairs : List (UInt64 × Vec))
    (hn : (pairs.map Prod.fst).Nodup) (hp : ∀ x, AMap.get? pairs x = vecOf h.nodes x) :
    ∃ h', (do let h1 ← loadFromWAL (Hnsw.empty h.cfg h.wal.disk) h.wal.disk
              liftPanic (populate h1 pairs)) = .ok h' ∧ Reopened S h h' := by
  obtain ⟨s, hs, hr⟩ := load_flushed i hb
  rw [hs, ok_bind]
  obtain ⟨h', e, e2, k, g⟩ := populate_spec pairs { s with wal := newWal h.wal.disk }
    (by
      intro p hpm
      have hk : p.1 ∈ AMap.keys pairs := List.mem_map.mpr ⟨p, hpm, rfl⟩
      show p.1 ∈ s.nodes.keys
      rw [← AMap.get?_isSome_iff, hr.nodes.get, AMap.get?_isSome_iff]
      show p.1 ∈ (h.nodes.mapVals Vertex.strip).keys
      rw [keys_strip, ← AMap.get?_isSome_iff]
      rw [← AMap.get?_isSome_iff, hp] at hk
      unfold vecOf at hk
      simpa using hk) hn
  refine ⟨h', by rw [e]; rfl, ?_⟩
  have hget : ∀ x, h'.nodes.get? x = h.nodes.get? x := by
    intro x
    rw [g, hp, hr.nodes.get]
    simp only [Hnsw.strip, AMap.get?_mapVals, vecOf]
    cases h.nodes.get? x <;> simp [Vertex.strip]
  have hnd : h'.nodes.keys.Nodup := by rw [k]; exact hr.nodes.nd
  have hrest : h' = { h with once := false, wal := newWal h.wal.disk, nodes := h'.nodes } := by
    have h1 := hr.rest
    rw [e2, h1]
    rfl
  refine ⟨hrest, ⟨hnd, hget⟩, ?_⟩
  intro hS
  have hk : h'.nodes = h.nodes := by
    apply AMap.ext_keys _ hnd hget
    rw [k, hr.exact hS]
    exact keys_strip _
  rw [hrest, hk]

theorem SameMap.symm {a b : AMap UInt64 Vertex} (h : SameMap a b) (hb : b.keys.Nodup) : SameMap b a :=
  ⟨hb, fun k => (h.get k).symm⟩

theorem SameMap.hasLevel {a b : AMap UInt64 Vertex} (h : SameMap a b) {x : UInt64} {l : Nat} :
    HasLevel a x l ↔ HasLevel b x l := by rw [hasLevel_iff, hasLevel_iff, link?_same h]

theorem SameMap.mem {a b : AMap UInt64 Vertex} (h : SameMap a b) (x : UInt64) : x ∈ a.keys ↔ x ∈ b.keys := by
  rw [← AMap.get?_isSome_iff, ← AMap.get?_isSome_iff, h.get]

theorem SameMap.vecOf {a b : AMap UInt64 Vertex} (h : SameMap a b) (x : UInt64) : vecOf a x = vecOf b x := by
  unfold Vectory.vecOf; rw [h.get]

theorem SameMap.vecOK {a b : AMap UInt64 Vertex} (h : SameMap a b) {dim : Nat} (hv : VecOK dim b) : VecOK dim a :=
  fun x v hx => hv x v (by rw [← h.get]; exact hx)

theorem SameMap.nil {a b : AMap UInt64 Vertex} (h : SameMap a b) (hb : b = []) : a = [] := by
  cases hn : a with
  | nil => rfl
  | cons p t =>
    have := h.get p.1
    rw [hn, hb] at this
    simp [AMap.get?] at this

theorem SameMap.length {a b : AMap UInt64 Vertex} (h : SameMap a b) (hb : b.keys.Nodup) : a.length = b.length := by
  have : a.keys.Perm b.keys := (List.perm_ext_iff_of_nodup h.nd hb).mpr (fun x => h.mem x)
  have := this.length_eq
  rwa [AMap.length_keys, AMap.length_keys] at this

theorem SameMap.strip {a b : AMap UInt64 Vertex} (h : SameMap a b) :
    SameMap (a.mapVals Vertex.strip) (b.mapVals Vertex.strip) :=
  ⟨by rw [keys_strip]; exact h.nd, fun k => by rw [AMap.get?_mapVals, AMap.get?_mapVals, h.get]⟩

theorem Restores.trans {a b c : Hnsw} (h1 : Restores S a b) (h2 : Restores S b c) : Restores S a c := by
  refine ⟨?_, ⟨h1.nodes.nd, fun k => (h1.nodes.get k).trans (h2.nodes.get k)⟩, fun hS => (h1.exact hS).trans (h2.exact hS)⟩
  have e1 := h1.rest
  have e2 := h2.rest
  rw [e1, e2]

theorem Reopened.cfg {h h' : Hnsw} (r : Reopened S h h') : h'.cfg = h.cfg := by rw [r.rest]
theorem Reopened.entry {h h' : Hnsw} (r : Reopened S h h') : h'.entry = h.entry := by rw [r.rest]
theorem Reopened.maxLayer {h h' : Hnsw} (r : Reopened S h h') : h'.maxLayer = h.maxLayer := by rw [r.rest]
theorem Reopened.deleted {h h' : Hnsw} (r : Reopened S h h') : h'.deleted = h.deleted := by rw [r.rest]
theorem Reopened.once {h h' : Hnsw} (r : Reopened S h h') : h'.once = false := by rw [r.rest]
theorem Reopened.wal {h h' : Hnsw} (r : Reopened S h h') : h'.wal = newWal h.wal.disk := by rw [r.rest]

/-- the reopened index satisfies the invariant. -/
theorem reopened_inv {h h' : Hnsw} (i : Inv S h) (hb : h.wal.batch = []) (r : Reopened S h h') : Inv S h' := by
  have h2 : h.wal.records = h.wal.disk := by simp [Wal.records, hb]
  have h3 : h'.wal.records = h.wal.disk := by rw [r.wal]; simp [newWal, Wal.records]
  have hst : Restores S h.strip h'.strip := by
    refine ⟨?_, (r.nodes.symm i.m.good.graph.keysNd).strip, ?_⟩
    · have := r.rest
      rw [this]; rfl
    · intro hS; rw [r.exact hS]; rfl
  have hback : Restores S h' { h with once := false, wal := newWal h.wal.disk } :=
    ⟨by rw [r.rest], r.nodes, fun hS => r.exact hS⟩
  have g0 : Good S { h with once := false, wal := newWal h.wal.disk } := ⟨i.m.good.graph, i.m.good.entry⟩
  refine ⟨⟨g0.restores hback, ⟨?_, ?_⟩, by rw [r.wal]; exact WalOK.new _⟩, ?_, by simp [r.once], by rw [r.maxLayer]; exact i.top32⟩
  · obtain ⟨s, e, rs⟩ := i.m.log.load
    rw [h3, ← h2, r.cfg]; exact ⟨s, e, rs.trans hst⟩
  · rw [h3, ← h2, r.cfg]; exact i.m.log.pre
  · intro hS; rw [r.exact hS]; exact i.top hS

theorem inv_empty (cfg : Cfg) : Inv S (Hnsw.empty cfg []) := by
  have g : Good S ({ cfg := cfg } : Hnsw) :=
    ⟨⟨by simp [AMap.keys], by intro id v h; simp at h, by intro id l c h; simp [link?] at h⟩, Or.inl rfl⟩
  refine ⟨⟨⟨g.graph, g.entry⟩, ⟨⟨_, rfl, Restores.refl (by simp [Hnsw.strip, Hnsw.empty, AMap.keys, AMap.mapVals])⟩, ?_⟩, WalOK.new _⟩, ?_, by simp [Hnsw.empty], by simp [Hnsw.empty]⟩
  · intro p hp
    have : p = [] := by simpa [Hnsw.empty, newWal, Wal.records] using hp
    subst this
    exact ⟨_, rfl, g, rfl⟩
  · rintro _ id l ⟨v, hv, _⟩; simp [Hnsw.empty] at hv

end Vectory
