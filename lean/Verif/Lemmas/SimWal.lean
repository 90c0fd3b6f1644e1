import Verif.Lemmas.SimMap
import Verif.Lemmas.Wal
/-!
# When the log is flushed does not matter

Two collections that differ only in how much of the log is already on disk do the same.
-/
namespace Vectory
variable {V D : Type}

/-- the same index up to how many of its log records have been flushed. -/
structure WSame (h h' : Hnsw) : Prop where
  rest : h' = { h with wal := h'.wal }
  ok : WalOK h.wal
  ok' : WalOK h'.wal
  recs : h'.wal.records = h.wal.records

theorem WSame.fields {h h' : Hnsw} (s : WSame h h') : h'.cfg = h.cfg ∧ h'.entry = h.entry ∧ h'.maxLayer = h.maxLayer ∧
    h'.deleted = h.deleted ∧ h'.nodes = h.nodes ∧ h'.once = h.once := by
  rw [s.rest]; exact ⟨rfl, rfl, rfl, rfl, rfl, rfl⟩

theorem WSame.log {h h' : Hnsw} (s : WSame h h') (r : Bytes) : WSame (h.log r) (h'.log r) :=
  ⟨by rw [s.rest]; rfl, s.ok.write r, s.ok'.write r, by
    show (h'.wal.writeBatch r).records = (h.wal.writeBatch r).records
    rw [Wal.records_write, Wal.records_write, s.recs]⟩

theorem WSame.withNodes {h h' : Hnsw} (s : WSame h h') (x : AMap UInt64 Vertex) : WSame { h with nodes := x } { h' with nodes := x } :=
  ⟨by rw [s.rest], s.ok, s.ok', s.recs⟩

theorem setConnections_wal {h h' : Hnsw} (s : WSame h h') (id : UInt64) (l : Nat) (ids : List UInt64) :
    HRes WSame (h.setConnections id l ids) (h'.setConnections id l ids) := by
  unfold Hnsw.setConnections
  have s1 := s.log (recSetConnections id (UInt32.ofNat l) ids)
  exact HRes.bind_same (by rw [s1.fields.2.2.2.2.1]) (fun x => .ok (s1.withNodes x))

theorem addConnection_wal {h h' : Hnsw} (s : WSame h h') (id : UInt64) (l : Nat) (n : UInt64) :
    HRes WSame (h.addConnection id l n) (h'.addConnection id l n) := by
  unfold Hnsw.addConnection
  have s1 := s.log (recAddConnection id (UInt32.ofNat l) n)
  exact HRes.bind_same (by rw [s1.fields.2.2.2.2.1]) (fun x => .ok (s1.withNodes x))

theorem linkBack_wal (M : Metric D) {h h' : Hnsw} (s : WSame h h') (v : UInt64) (vvec : Vec) (l mx : Nat) (n : UInt64) :
    HRes WSame (Hnsw.linkBack M v vvec l mx h n) (Hnsw.linkBack M v vvec l mx h' n) := by
  unfold Hnsw.linkBack
  rw [s.fields.2.2.2.2.1, s.fields.1]
  refine HRes.bind_same rfl (fun nv => HRes.bind_same rfl (fun conns => ?_))
  split
  · exact addConnection_wal s _ _ _
  · exact HRes.bind_same rfl (fun d => HRes.bind_same rfl (fun es => HRes.bind_same rfl (fun nn => setConnections_wal s _ _ _)))

theorem connectLayer_wal (M : Metric D) {h h' : Hnsw} (s : WSame h h') (v : UInt64) (vvec : Vec) (eps : List (Elem D)) (l : Nat) :
    HRes (fun x y => WSame x.1 y.1 ∧ y.2 = x.2) (h.connectLayer M v vvec eps l) (h'.connectLayer M v vvec eps l) := by
  unfold Hnsw.connectLayer
  rw [s.fields.2.2.2.2.1, s.fields.1]
  refine HRes.bind_same rfl (fun nns => HRes.bind_same rfl (fun ns => ?_))
  refine (setConnections_wal s _ _ _).bind (fun x y s1 => ?_)
  rw [s1.fields.1]
  exact HRes.bind (R := WSame) (foldlM_same (fun x y a s2 => linkBack_wal M s2 v vvec l _ a) ns x y s1) (fun x y s2 => .ok ⟨s2, rfl⟩)

theorem construct_wal (M : Metric D) (v : UInt64) (vvec : Vec) : ∀ (n : Nat) {h h' : Hnsw} (_ : WSame h h') (eps : List (Elem D)),
    HRes WSame (Hnsw.construct M v vvec n h eps) (Hnsw.construct M v vvec n h' eps) := by
  intro n
  induction n with
  | zero => intro h h' s eps; exact .ok s
  | succ n ih =>
    intro h h' s eps
    unfold Hnsw.construct
    refine (connectLayer_wal M s v vvec eps n).bind ?_
    rintro ⟨x, ex⟩ ⟨y, ey⟩ ⟨s1, e⟩
    dsimp only at e s1 ⊢
    subst e
    exact ih s1 _

theorem insertTail_wal (M : Metric D) {h h' : Hnsw} (s : WSame h h') (vec : Vec) (id : UInt64) (level : Nat) :
    HRes WSame
      (do
        let epv ← nodeAt h.nodes h.entry
        let d ← M.dist epv.vec vec
        let eps ← descend M h.nodes h.cfg.mMax0 vec level (h.maxLayer - level) [{ id := h.entry, dist := d }]
        let h1 ← h.construct M id vec (min h.maxLayer level + 1) eps
        if h.maxLayer < level then
          Except.ok { h1.log (recSetEntryPoint id (UInt32.ofNat level)) with entry := id, maxLayer := level }
        else .ok h1)
      (do
        let epv ← nodeAt h'.nodes h'.entry
        let d ← M.dist epv.vec vec
        let eps ← descend M h'.nodes h'.cfg.mMax0 vec level (h'.maxLayer - level) [{ id := h'.entry, dist := d }]
        let h1 ← h'.construct M id vec (min h'.maxLayer level + 1) eps
        if h'.maxLayer < level then
          Except.ok { h1.log (recSetEntryPoint id (UInt32.ofNat level)) with entry := id, maxLayer := level }
        else .ok h1) := by
  obtain ⟨f1, f2, f3, _, f5, _⟩ := s.fields
  rw [f1, f2, f3, f5]
  refine HRes.bind_same rfl (fun epv => HRes.bind_same rfl (fun d => HRes.bind_same rfl (fun eps => ?_)))
  refine (construct_wal M id vec _ s eps).bind (fun x y s3 => ?_)
  split
  · have s4 := s3.log (recSetEntryPoint id (UInt32.ofNat level))
    exact .ok ⟨by rw [s4.rest], s4.ok, s4.ok', s4.recs⟩
  · exact .ok s3

theorem insertNext_wal (M : Metric D) {h h' : Hnsw} (s : WSame h h') (vec : Vec) (id : UInt64) (level : Nat) :
    HRes WSame (h.insertNext M vec id level) (h'.insertNext M vec id level) := by
  unfold Hnsw.insertNext
  rw [s.fields.1]
  split
  · exact .error _
  · have s1 := s.log (recAddVertex id (UInt32.ofNat level))
    have s2 := s1.withNodes ((h.log (recAddVertex id (UInt32.ofNat level))).nodes.set id { id := id, conns := List.replicate (level + 1) [], vec := vec })
    have := insertTail_wal M s2 vec id level
    rw [← s1.fields.2.2.2.2.1] at this
    have e : ({ h.log (recAddVertex id (UInt32.ofNat level)) with nodes := (h'.log (recAddVertex id (UInt32.ofNat level))).nodes.set id { id := id, conns := List.replicate (level + 1) [], vec := vec } } : Hnsw) =
      { h.log (recAddVertex id (UInt32.ofNat level)) with nodes := (h.log (recAddVertex id (UInt32.ofNat level))).nodes.set id { id := id, conns := List.replicate (level + 1) [], vec := vec } } := by
      rw [s1.fields.2.2.2.2.1]
    rw [e] at this
    exact this

theorem insert_wal (M : Metric D) {h h' : Hnsw} (s : WSame h h') (vec : Vec) (id : UInt64) (level : Nat) :
    HRes WSame (h.insert M vec id level) (h'.insert M vec id level) := by
  unfold Hnsw.insert
  have s1 : WSame { h with once := true } { h' with once := true } := ⟨by rw [s.rest], s.ok, s.ok', s.recs⟩
  rw [s.fields.2.2.2.2.1, s.fields.2.2.2.2.2]
  split
  · unfold Hnsw.insertFirst
    have s2 := s1.log (recSetEntryPoint id 0)
    have s3 : WSame { Hnsw.log { h with once := true } (recSetEntryPoint id 0) with entry := id, maxLayer := 0 }
        { Hnsw.log { h' with once := true } (recSetEntryPoint id 0) with entry := id, maxLayer := 0 } :=
      ⟨by rw [s2.rest], s2.ok, s2.ok', s2.recs⟩
    have s4 := s3.log (recAddVertex id 0)
    refine .ok ?_
    have s5 := s4.withNodes (h.nodes.set id { id := id, conns := [[]], vec := vec })
    refine ⟨?_, s5.ok, s5.ok', s5.recs⟩
    dsimp only [Hnsw.log]
    rw [s.rest]
  · have := insertNext_wal M s1 vec id level
    rw [s.fields.2.2.2.2.1] at this
    exact this

/-! ### collections -/

/-- the same collection up to how many of its log records have been flushed. -/
structure LSame (c c' : Coll) : Prop where
  rest : c' = { c with index := c'.index }
  index : WSame c.index c'.index

theorem LSame.refl {c : Coll} (h : WalOK c.index.wal) : LSame c c := ⟨rfl, rfl, h, h, rfl⟩

theorem LSame.fields {c c' : Coll} (s : LSame c c') : c'.closed = c.closed ∧ c'.mappings = c.mappings ∧
    c'.hasEmbedder = c.hasEmbedder ∧ c'.stores = c.stores ∧ c'.counter = c.counter := by
  rw [s.rest]; exact ⟨rfl, rfl, rfl, rfl, rfl⟩

/-- the same result up to how much has been flushed. -/
abbrev LRes {α : Type} : Except Panic (Coll × α) → Except Panic (Coll × α) → Prop := HRes (fun x y => LSame x.1 y.1 ∧ y.2 = x.2)

theorem insertOne_wal (L : Lib V D) {c c' : Coll} (s : LSame c c') (o : Object V) (env : InsEnv) :
    LRes (c.insertOne L o env) (c'.insertOne L o env) := by
  unfold Coll.insertOne
  obtain ⟨_, _, _, h2, h1⟩ := s.fields
  rw [h1, h2]
  cases hf : fetchAndInc c.counter env.counterFails with
  | mk ctr r =>
    cases r with
    | error e => exact .ok ⟨⟨by rw [s.rest], s.index⟩, rfl⟩
    | ok id =>
      dsimp only
      cases hp : putObject L.json c.stores { o with id := id } env.put with
      | mk st e =>
        cases e with
        | some e => exact .ok ⟨⟨by rw [s.rest], s.index⟩, rfl⟩
        | none =>
          dsimp only
          exact (insert_wal L.metric s.index _ id env.level).bind (fun x y e => .ok ⟨⟨by rw [s.rest], e⟩, rfl⟩)

/-- flushing one of them changes nothing of interest. -/
theorem LSame.flush_right {c c' : Coll} (s : LSame c c') (b : Bool) : LSame c (c'.flush b).1 := by
  refine ⟨by unfold Coll.flush Hnsw.flush; rw [s.rest], by unfold Coll.flush Hnsw.flush; dsimp only; rw [s.index.rest], s.index.ok, ?_, ?_⟩
  · exact s.index.ok'.flushed b
  · exact (s.index.ok'.records_flush b).trans s.index.recs

/-- after a flush of both they are equal. -/
theorem LSame.flush {c c' : Coll} (s : LSame c c') : c'.flush false = c.flush false := by
  unfold Coll.flush Hnsw.flush
  rw [s.index.ok.flush, s.index.ok'.flush]
  have h1 := s.index.recs
  unfold Wal.records at h1
  have h2 : c'.index.wal.seqNum = c.index.wal.seqNum := by
    rw [s.index.ok.seq, s.index.ok'.seq]
    have := congrArg List.length h1
    simp at this
    omega
  dsimp only
  rw [h1, h2, s.rest, s.index.rest]

/-- a collection with nothing waiting is as if just flushed. -/
theorem flush_nil {c : Coll} (h : WalOK c.index.wal) (hb : c.index.wal.batch = []) : c.flush false = (c, none) := by
  obtain ⟨ms, he, st, ctr, idx, cl⟩ := c
  obtain ⟨cfg, en, mx, nodes, del, once, wal⟩ := idx
  obtain ⟨disk, batch, seq⟩ := wal
  dsimp only at hb h
  subst hb
  unfold Coll.flush Hnsw.flush
  rw [h.flush]
  simp

theorem flush_ends {c : Coll} (h : WalOK c.index.wal) : (c.flush false).2 = none ∧ (c.flush false).1.index.wal.batch = [] ∧
    WalOK (c.flush false).1.index.wal := by
  refine ⟨?_, ?_, h.flushed false⟩
  · unfold Coll.flush Hnsw.flush; rw [h.flush]
  · unfold Coll.flush Hnsw.flush; rw [h.flush]

end Vectory
