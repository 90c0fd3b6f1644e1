import Verif.Model.Errors
/-!
# The index log (`db/core/index/hnsw/wal.go`)

`tidwall/wal` is a trusted contract: a log is a sequence of records with indexes 1, 2, …; `Read(i)` returns
record `i` or `ErrNotFound`; `WriteBatch` appends all entries of the batch or none, and refuses a batch whose
indexes do not continue the log (`ErrOutOfOrder`). Appended records survive a crash.
-/
namespace Vectory

/-- `wal` (`wal.go:19-24`): the records on disk, the pending batch with the index of each record, and the
next sequence number. -/
structure Wal where
  disk : List Bytes := []
  batch : List (Nat × Bytes) := []
  seqNum : Nat := 1
  deriving DecidableEq, Repr

/-- `newWal` (`wal.go:26-42`) on the records found on disk: `seqNum = LastIndex() + 1`. -/
def newWal (disk : List Bytes) : Wal := { disk := disk, batch := [], seqNum := disk.length + 1 }

/-- `writeBatch` (`wal.go:135-141`). -/
def Wal.writeBatch (w : Wal) (data : Bytes) : Wal :=
  { w with batch := w.batch ++ [(w.seqNum, data)], seqNum := w.seqNum + 1 }

/-- tidwall/wal's check in `WriteBatch`: entry indexes continue the log. -/
def inOrder : Nat → List (Nat × Bytes) → Bool
  | _, [] => true
  | last, (i, _) :: rest => (i == last + 1) && inOrder (last + 1) rest

/-- `flush` (`wal.go:44-52`). `fails` is the environment's choice of an I/O error. -/
def Wal.flush (w : Wal) (fails : Bool) : Wal × Option Err :=
  if fails then (w, some .io)
  else if inOrder w.disk.length w.batch then
    ({ w with disk := w.disk ++ w.batch.map Prod.snd, batch := [] }, none)
  else (w, some .walOutOfOrder)

/-! ## Record layouts -/

/-- opcodes (`wal.go:11-17`). -/
def opAddVertex : UInt8 := 0
def opSetEntryPoint : UInt8 := 1
def opSetConnections : UInt8 := 2
def opAddConnection : UInt8 := 3
def opDeleteVertex : UInt8 := 4

/-- the bytes written by `addVertex` (`wal.go:54-66`). -/
def recAddVertex (id : UInt64) (level : UInt32) : Bytes :=
  opAddVertex :: (putUint64 id ++ putUint32 level)

/-- the bytes written by `setEntryPointWithMaxLayer` (`wal.go:68-80`). -/
def recSetEntryPoint (id : UInt64) (level : UInt32) : Bytes :=
  opSetEntryPoint :: (putUint64 id ++ putUint32 level)

/-- the bytes written by `setConnectionsAtLevel` (`wal.go:82-101`). -/
def recSetConnections (id : UInt64) (level : UInt32) (neighbors : List UInt64) : Bytes :=
  opSetConnections :: (putUint64 id ++ (putUint32 level ++
    (putUint32 (UInt32.ofNat neighbors.length) ++ neighbors.flatMap putUint64)))

/-- the bytes written by `addConnectionAtLevel` (`wal.go:103-116`). -/
def recAddConnection (id : UInt64) (level : UInt32) (n : UInt64) : Bytes :=
  opAddConnection :: (putUint64 id ++ (putUint32 level ++ putUint64 n))

/-- the bytes written by `deleteVertex` (`wal.go:118-129`). -/
def recDeleteVertex (id : UInt64) : Bytes := opDeleteVertex :: putUint64 id

end Vectory
