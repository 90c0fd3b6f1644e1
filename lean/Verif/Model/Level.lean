import Verif.Model.Collection
import Mathlib.Analysis.SpecialFunctions.Log.Basic
/-!
The level drawn for a new vector: `calculateLevelForVertex` (`db/core/index/hnsw/utils.go:16-18`), `mL`
(`db/core/index/hnsw/hnsw.go:49`) and `Vertex.Init` (`db/core/index/hnsw/vertex.go:14-22`).

Simplifications: a finite `float64` is the real number it denotes (so `-0` is `0`), and overflow to an infinity by a finite
product or quotient does not occur (it cannot for the numbers computed here). The results of `math.Log`, of a product and of
a quotient of finite numbers are those of an abstract `Float64Ops`; `Spec/Level.lean` says how accurate they are assumed
to be.
-/
namespace Vectory.Level
open Classical

/-- a `float64`. -/
inductive F64 where
  | nan
  | inf (neg : Bool)
  | fin (x : ℝ)

/-- what Go leaves to the platform: the rounded results on finite numbers, and the result of converting to `int64` a
floating-point number that does not fit (implementation-specific in Go; the smallest `int64` on amd64, the nearest one on
arm64). -/
structure Float64Ops where
  log : ℝ → ℝ
  mul : ℝ → ℝ → ℝ
  div : ℝ → ℝ → ℝ
  wild : Int

/-- `math.Log` (called at `hnsw.go:49`, `utils.go:17`) on a number that is not negative. -/
noncomputable def goLog (F : Float64Ops) (x : ℝ) : F64 := if x = 0 then .inf true else .fin (F.log x)

/-- `-x` (`utils.go:17`). -/
noncomputable def goNeg : F64 → F64
  | .nan => .nan
  | .inf b => .inf !b
  | .fin x => .fin (-x)

/-- `1 / x` (`hnsw.go:49`); `math.Log` has no negative zero among its results, so `1/0` is `+Inf`. -/
noncomputable def goRecip (F : Float64Ops) : F64 → F64
  | .nan => .nan
  | .inf _ => .fin 0
  | .fin x => if x = 0 then .inf false else .fin (F.div 1 x)

/-- `x * y` (`utils.go:17`). -/
noncomputable def goMul (F : Float64Ops) : F64 → F64 → F64
  | .nan, _ => .nan
  | _, .nan => .nan
  | .inf a, .inf b => .inf (a != b)
  | .inf a, .fin y => if y = 0 then .nan else .inf (a != decide (y < 0))
  | .fin x, .inf b => if x = 0 then .nan else .inf (decide (x < 0) != b)
  | .fin x, .fin y => .fin (F.mul x y)

/-- `int64(math.Floor(x))` (`utils.go:17`). -/
noncomputable def goFloorInt (F : Float64Ops) : F64 → Int
  | .fin x => if -9223372036854775808 ≤ ⌊x⌋ ∧ ⌊x⌋ < 9223372036854775808 then ⌊x⌋ else F.wild
  | _ => F.wild

/-- `h.mL = 1 / math.Log(float64(h.m))` (`hnsw.go:49`). -/
noncomputable def mL (F : Float64Ops) (m : Nat) : F64 := goRecip F (goLog F m)

/-- `calculateLevelForVertex` (`utils.go:16-18`) when `rand.Float64()` returns `u`. -/
noncomputable def drawLevel (F : Float64Ops) (m : Nat) (u : ℝ) : Int := goFloorInt F (goMul F (goNeg (goLog F u)) (mL F m))

/-- addition of `int64`s. -/
def addInt64 (a b : Int) : Int := (a + b + 9223372036854775808) % 18446744073709551616 - 9223372036854775808

/-- `Vertex.Init` (`vertex.go:14-22`): the connection lists, all of them empty. A negative length is a panic of `make`; with
length 0 the last line is an index panic. -/
def vertexInit (level : Int) : Except Panic (List (List UInt64)) :=
  if level < 0 then .error .makeLen
  else if level = 0 then .error .indexOutOfRange
  else .ok (List.replicate level.toNat [])

end Vectory.Level

namespace Vectory
open Vectory.Level
variable {V D : Type}

/-- `Hnsw.Insert` after `Vertex.Init` (`insert.go:42-126`): the vertex has the connection lists `conns`. -/
def Hnsw.insertRest (M : Metric D) (h : Hnsw) (vec : Vec) (id : UInt64) (level : Nat) (conns : List (List UInt64)) :
    Except Panic Hnsw := do
  let h := h.log (recAddVertex id (UInt32.ofNat level))
  let h := { h with nodes := h.nodes.set id { id := id, conns := conns, vec := vec } }
  let epv ← nodeAt h.nodes h.entry
  let curMax := h.maxLayer
  let d ← M.dist epv.vec vec
  let eps ← descend M h.nodes h.cfg.mMax0 vec level (curMax - level) [{ id := h.entry, dist := d }]
  let h ← h.construct M id vec (min curMax level + 1) eps
  if curMax < level then
    let h := h.log (recSetEntryPoint id (UInt32.ofNat level))
    .ok { h with entry := id, maxLayer := level }
  else .ok h

/-- `Hnsw.Insert` (`insert.go:8-127`) when `rand.Float64()` returns `u`, with the level computed as the code does. -/
noncomputable def Hnsw.insertDraw (F : Float64Ops) (M : Metric D) (h : Hnsw) (vec : Vec) (id : UInt64) (u : ℝ) :
    Except Panic Hnsw :=
  if h.once = false ∧ h.nodes = [] then .ok ({ h with once := true }.insertFirst vec id)
  else do
    let level := drawLevel F h.cfg.m u
    let conns ← vertexInit (addInt64 level 1)
    { h with once := true }.insertRest M vec id level.toNat conns

/-- what a call of `Collection.insert` does to the process. -/
inductive Ended where
  /-- it returned -/
  | returned (c : Coll) (err : Option Err)
  /-- it panicked, and this is what is in the files -/
  | panicked (p : Panic) (files : Disk)

/-- `Collection.insert` (`collection_insert.go:147-160`) when `rand.Float64()` returns `u`; when the index panics, the files
that are left if nothing recovers the panic. -/
noncomputable def Coll.insertDraw (F : Float64Ops) (L : Lib V D) (c : Coll) (o : Object V) (env : InsEnv) (u : ℝ) : Ended :=
  let (ctr, r) := fetchAndInc c.counter env.counterFails
  match r with
  | .error e => .returned { c with counter := ctr } (some e)
  | .ok id =>
    let o := { o with id := id }
    let (st, e) := putObject L.json c.stores o env.put
    match e with
    | some e => .returned { c with counter := ctr, stores := st } (some e)
    | none =>
      match c.index.insertDraw F L.metric (o.vec.getD []) id u with
      | .ok idx => .returned { c with counter := ctr, stores := st, index := idx } none
      | .error p => .panicked p { counterFile := ctr.file, stores := st, log := c.index.wal.disk }

end Vectory
