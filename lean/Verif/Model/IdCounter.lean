import Verif.Model.Errors
/-!
# The id counter and its file (`db/idcounter.go`)
-/
namespace Vectory

/-- `IdCounter` (`idcounter.go:11-15`) with the bytes of its file (`<collection>/indexcounter`). -/
structure IdCounter where
  count : UInt64
  file : Bytes
  closed : Bool := false
  deriving DecidableEq, Repr

/-- `newIdCounter` (`idcounter.go:17-39`) on the bytes found in the file: an empty file means 0, otherwise
`binary.Read` needs eight bytes. -/
def newIdCounter (file : Bytes) : Except Err IdCounter :=
  if file.length = 0 then .ok { count := 0, file := file }
  else
    match uint64 file with
    | .error _ => .error .unexpectedEOF
    | .ok n => .ok { count := n, file := file }

/-- writing `b` at offset 0 of a file (seek to 0, write; no truncation). -/
def overwrite (file b : Bytes) : Bytes := b ++ file.drop b.length

/-- `fetchAndInc` (`idcounter.go:41-63`). `writeFails` is the environment's choice; the in-memory count
is incremented before the write is attempted. A closed file makes the seek fail. -/
def fetchAndInc (c : IdCounter) (writeFails : Bool) : IdCounter × Except Err UInt64 :=
  let prev := c.count
  let c := { c with count := c.count + 1 }
  if c.closed || writeFails then (c, .error .io)
  else ({ c with file := overwrite c.file (putUint64 c.count) }, .ok prev)

/-- `close` (`idcounter.go:65-67`): closing an already closed file is an error. -/
def IdCounter.close (c : IdCounter) : IdCounter × Option Err :=
  if c.closed then (c, some .io) else ({ c with closed := true }, none)

end Vectory
