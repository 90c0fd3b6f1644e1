import Verif.Model.Basic
/-! # Go `error` values that the modelled code returns -/
namespace Vectory

/-- The `error` values of the modelled functions. Wrapping (`errors.Wrapf`, `fmt.Errorf("%w")`) is kept
only where a caller tests for it (`ErrValidationFailed` in `api/handlers/collection.go:31,72,89`). -/
inductive Err where
  /-- `db/errors.go:6` -/
  | unknownIndexType
  /-- `db/errors.go:7` -/
  | collectionAlreadyExists
  /-- `db/errors.go:9` wrapping the inner reason (`db/db.go:48,80,104`). -/
  | validationFailed (why : String)
  /-- `db/errors.go:10` -/
  | missingVectorAndEmbedder
  /-- `db/errors.go:11` -/
  | databaseClosed
  /-- `db/errors.go:12` -/
  | collectionClosed
  /-- `db/collection.go:140`: more properties than mappings, object number `i`. -/
  | tooManyProperties (i : Nat)
  /-- `db/collection.go:145`: object number `i` lacks property `p`. -/
  | missingProperty (i : Nat) (p : String)
  /-- `db/metadata/errors.go:7` -/
  | metaCollectionDoesntExist
  /-- unique constraint on the name column (`db/metadata/schema/collection.go:14`). -/
  | uniqueConstraint
  /-- `os.Mkdir` reporting that the directory already exists (`db/metadata/meta_manager.go:83-88`). -/
  | dirExists
  /-- `deserialize.go:27`: unknown opcode in a log record. -/
  | unknownOpcode (op : UInt8)
  /-- tidwall/wal `ErrOutOfOrder`. -/
  | walOutOfOrder
  /-- an operating-system level failure of a read, write, sync, mkdir, … -/
  | io
  /-- `io.ErrUnexpectedEOF` from `binary.Read` on a short counter file (`db/idcounter.go:30`). -/
  | unexpectedEOF
  /-- `encoding/json` failed. -/
  | json
  /-- the embedder failed (`db/embeddings/text2vec-huggingface.go:100-112`). -/
  | embed
  deriving DecidableEq, Repr

/-- How a Go call can end other than by returning a value with a nil error. -/
inductive Abort where
  | panic (p : Panic)
  | error (e : Err)
  deriving DecidableEq, Repr

/-- Lift a computation that can only panic. -/
def liftPanic {α : Type} : Except Panic α → Except Abort α
  | .ok a => .ok a
  | .error p => .error (.panic p)

/-- Lift a computation that can only return an error. -/
def liftErr {α : Type} : Except Err α → Except Abort α
  | .ok a => .ok a
  | .error e => .error (.error e)

end Vectory
