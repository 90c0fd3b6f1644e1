import Verif.Model.Hnsw
import Verif.Lemmas.Basic
/-! Restoring a record that was logged; sequence numbers. -/
namespace Vectory

theorem restore_addVertex (h : Hnsw) (id : UInt64) (lv : UInt32) :
    restore h (recAddVertex id lv) =
      .ok { h with nodes := h.nodes.set id { id := id, conns := List.replicate (lv.toNat + 1) [], vec := [] } } := by
  have h1 : uint32 ((putUint64 id ++ putUint32 lv).drop 8) = .ok lv := by
    rw [drop_put64]; exact uint32_put lv []
  simp [restore, recAddVertex, opAddVertex, restoreAddVertex, uint64_put, h1, liftPanic]

theorem restore_setEntryPoint (h : Hnsw) (id : UInt64) (lv : UInt32) :
    restore h (recSetEntryPoint id lv) = .ok { h with entry := id, maxLayer := lv.toNat } := by
  have h1 : uint32 ((putUint64 id ++ putUint32 lv).drop 8) = .ok lv := by
    rw [drop_put64]; exact uint32_put lv []
  simp [restore, recSetEntryPoint, opAddVertex, opSetEntryPoint, restoreSetEntryPoint, uint64_put, h1, liftPanic]

theorem restore_deleteVertex (h : Hnsw) (id : UInt64) :
    restore h (recDeleteVertex id) =
      .ok { h with deleted := if id ∈ h.deleted then h.deleted else id :: h.deleted } := by
  have h1 : uint64 (putUint64 id) = .ok id := by simpa using uint64_put id []
  simp [restore, recDeleteVertex, opAddVertex, opSetEntryPoint, opSetConnections, opAddConnection, opDeleteVertex,
    restoreDeleteVertex, h1, liftPanic]

theorem restore_addConnection (h : Hnsw) (id : UInt64) (lv : UInt32) (n : UInt64) :
    restore h (recAddConnection id lv n) =
      liftPanic (do let nodes ← addConn h.nodes id lv.toNat n; .ok { h with nodes := nodes }) := by
  have h1 : uint32 ((putUint64 id ++ (putUint32 lv ++ putUint64 n)).drop 8) = .ok lv := by
    rw [drop_put64]; exact uint32_put lv _
  have h2 : uint64 ((putUint64 id ++ (putUint32 lv ++ putUint64 n)).drop 12) = .ok n := by
    show uint64 (((putUint64 id ++ (putUint32 lv ++ putUint64 n)).drop 8).drop 4) = .ok n
    rw [drop_put64, drop_put32]; simpa using uint64_put n []
  simp [restore, recAddConnection, opAddVertex, opSetEntryPoint, opSetConnections, opAddConnection,
    restoreAddConnection, uint64_put, h1, h2]

theorem readIds_flatMap (ids : List UInt64) : readIds ids.length (ids.flatMap putUint64) = .ok ids := by
  induction ids with
  | nil => rfl
  | cons x xs ih =>
    rw [List.flatMap_cons, List.length_cons, readIds, uint64_put, drop_put64, ok_bind, ih, ok_bind]

theorem restore_setConnections (h : Hnsw) (id : UInt64) (lv : UInt32) (ids : List UInt64)
    (hl : ids.length < 4294967296) :
    restore h (recSetConnections id lv ids) =
      liftPanic (do let nodes ← setConns h.nodes id lv.toNat ids; .ok { h with nodes := nodes }) := by
  have h0 : (UInt32.ofNat ids.length).toNat = ids.length := by
    simp; omega
  generalize hb : (putUint64 id ++ (putUint32 lv ++
      (putUint32 (UInt32.ofNat ids.length) ++ ids.flatMap putUint64))) = b
  have d8 : b.drop 8 = putUint32 lv ++ (putUint32 (UInt32.ofNat ids.length) ++ ids.flatMap putUint64) := by
    rw [← hb, drop_put64]
  have d12 : b.drop 12 = putUint32 (UInt32.ofNat ids.length) ++ ids.flatMap putUint64 := by
    have : b.drop 12 = (b.drop 8).drop 4 := by simp
    rw [this, d8, drop_put32]
  have d16 : b.drop 16 = ids.flatMap putUint64 := by
    have : b.drop 16 = (b.drop 12).drop 4 := by simp
    rw [this, d12, drop_put32]
  have e1 : uint64 b = .ok id := by rw [← hb]; exact uint64_put _ _
  have e2 : uint32 (b.drop 8) = .ok lv := by rw [d8]; exact uint32_put _ _
  have e3 : uint32 (b.drop 12) = .ok (UInt32.ofNat ids.length) := by rw [d12]; exact uint32_put _ _
  have e4 : readIds (UInt32.ofNat ids.length).toNat (b.drop 16) = .ok ids := by
    rw [d16, h0]; exact readIds_flatMap ids
  have hr : recSetConnections id lv ids = opSetConnections :: b := by rw [← hb]; rfl
  have n1 : ¬ (opSetConnections = opAddVertex) := by decide
  have n2 : ¬ (opSetConnections = opSetEntryPoint) := by decide
  rw [hr]
  simp only [restore, if_neg n1, if_neg n2, if_true]
  simp only [restoreSetConnections, e1, e2, e3, e4, ok_bind]

theorem toNat_level {l : Nat} (h : l < 4294967296) : (UInt32.ofNat l).toNat = l := by
  simp; omega

/-- the log is in order and the next number is the one the log expects. -/
structure WalOK (w : Wal) : Prop where
  order : inOrder w.disk.length w.batch = true
  seq : w.seqNum = w.disk.length + w.batch.length + 1

theorem inOrder_append (b1 b2 : List (Nat × Bytes)) : ∀ n,
    inOrder n (b1 ++ b2) = (inOrder n b1 && inOrder (n + b1.length) b2) := by
  induction b1 with
  | nil => intro n; simp [inOrder]
  | cons p b1 ih =>
    intro n
    obtain ⟨i, d⟩ := p
    simp only [List.cons_append, inOrder, ih, List.length_cons, Bool.and_assoc]
    have : n + 1 + b1.length = n + (b1.length + 1) := by omega
    rw [this]

theorem WalOK.write {w : Wal} (h : WalOK w) (r : Bytes) : WalOK (w.writeBatch r) := by
  constructor
  · show inOrder w.disk.length (w.batch ++ [(w.seqNum, r)]) = true
    rw [inOrder_append, h.order, h.seq]
    simp [inOrder]
  · show w.seqNum + 1 = w.disk.length + (w.batch ++ [(w.seqNum, r)]).length + 1
    rw [h.seq]; simp; omega

theorem WalOK.new (disk : List Bytes) : WalOK (newWal disk) := ⟨rfl, by simp [newWal]⟩

/-- a flush succeeds unless the environment makes it fail. -/
theorem WalOK.flush {w : Wal} (h : WalOK w) :
    w.flush false = ({ w with disk := w.disk ++ w.batch.map Prod.snd, batch := [] }, none) := by
  simp [Wal.flush, h.order]

theorem WalOK.flushed {w : Wal} (h : WalOK w) (b : Bool) : WalOK (w.flush b).1 := by
  cases b with
  | true => simpa [Wal.flush] using h
  | false =>
    rw [h.flush]
    refine ⟨rfl, ?_⟩
    show w.seqNum = _
    rw [h.seq]; simp

/-- all records, durable ones first. -/
def Wal.records (w : Wal) : List Bytes := w.disk ++ w.batch.map Prod.snd

theorem Wal.records_write (w : Wal) (r : Bytes) : (w.writeBatch r).records = w.records ++ [r] := by
  simp [Wal.records, Wal.writeBatch]

theorem WalOK.records_flush {w : Wal} (h : WalOK w) (b : Bool) : (w.flush b).1.records = w.records := by
  cases b with
  | true => simp [Wal.flush]
  | false => rw [h.flush]; simp [Wal.records]

end Vectory
