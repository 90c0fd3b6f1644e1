import Verif.Model.Basic
/-!
# Distance functions (`db/core/index/distance`)

IEEE arithmetic is a parameter: `FloatOps` names the operations the Go code performs, in the order it
performs them. The assembly version (`asm/dot.s`) is disabled in the code (`dot.go:28-32`) and not modelled.
-/
namespace Vectory

/-- The float32 operations used by the distance functions. -/
structure FloatOps where
  zero : F32
  add : F32 → F32 → F32
  sub : F32 → F32 → F32
  mul : F32 → F32 → F32
  /-- `float32(math.Sqrt(float64(x)))` -/
  sqrt : F32 → F32
  /-- `a < b` on float32 -/
  lt : F32 → F32 → Bool

/-- A distance function together with the comparison used on its results
(`Hnsw.distFunc`, `hnsw.go:29`, and `<` / `>` on `Distance`). `lt a b` is `a < b`; `a > b` is `lt b a`. -/
structure Metric (D : Type) where
  lt : D → D → Bool
  dist : Vec → Vec → Except Panic D

/-- the loop of `EuclideanDistance` (`rest.go:8-10`): indexes `v2[i]` for every `i < len(v1)`. -/
def euclidLoop (o : FloatOps) (acc : F32) : Vec → Vec → Except Panic F32
  | [], _ => .ok acc
  | _ :: _, [] => .error .indexOutOfRange
  | a :: as, b :: bs => euclidLoop o (o.add acc (o.mul (o.sub a b) (o.sub a b))) as bs

/-- `EuclideanDistance` (`rest.go:5-13`). -/
def euclideanDistance (o : FloatOps) (v1 v2 : Vec) : Except Panic F32 :=
  match euclidLoop o o.zero v1 v2 with
  | .ok s => .ok (o.sqrt s)
  | .error p => .error p

/-- the eight-fold unrolled loop of `dotProductImplementation` (`dot.go:10-19`): while `v1` is not
exhausted it reads eight components of both vectors, panicking if they are not there. -/
def dotLoop (o : FloatOps) (acc : F32) : Vec → Vec → Except Panic F32
  | [], _ => .ok acc
  | a0 :: a1 :: a2 :: a3 :: a4 :: a5 :: a6 :: a7 :: as,
    b0 :: b1 :: b2 :: b3 :: b4 :: b5 :: b6 :: b7 :: bs =>
      dotLoop o
        (o.add (o.add (o.add (o.add (o.add (o.add (o.add (o.add acc (o.mul a0 b0)) (o.mul a1 b1))
          (o.mul a2 b2)) (o.mul a3 b3)) (o.mul a4 b4)) (o.mul a5 b5)) (o.mul a6 b6)) (o.mul a7 b7)) as bs
  | _, _ => .error .indexOutOfRange

/-- `Dot` (`dot.go:34-36`), used unnegated as a distance (`hnsw.go:52-53`). -/
def dot (o : FloatOps) (v1 v2 : Vec) : Except Panic F32 := dotLoop o o.zero v1 v2

/-- the choice of the distance function from `distance_type` (`hnsw.go:51-56`; names in `entities/distance/models.go:4-5`).
`none`: `distFunc` stays nil; the validator lets no such configuration through (`C40`). -/
def metricOf (o : FloatOps) (distanceType : String) : Option (Metric F32) :=
  if distanceType = "dot_product" then some { lt := o.lt, dist := dot o }
  else if distanceType = "euclidean_distance" then some { lt := o.lt, dist := euclideanDistance o }
  else none

end Vectory
