import Verif.Model.Basic
/-!
# `utils.Set` (`db/core/index/utils/set.go`)

A Go map used as a set, as the list of its keys in the order a `range` loop happens to yield them. `Wf` says that no key
occurs twice; every operation keeps it. Aliasing of the results (`Intersection` may return an argument itself) is not modelled.
-/
namespace Vectory

variable {T : Type} [DecidableEq T]

/-- `Set` (`set.go:8-10`). -/
structure GoSet (T : Type) where
  m : List T
  deriving DecidableEq, Repr

/-- the keys of a Go map are distinct. -/
def GoSet.Wf (s : GoSet T) : Prop := s.m.Nodup

/-- `Has` (`set.go:67-70`). -/
def GoSet.has (s : GoSet T) (x : T) : Bool := decide (x ∈ s.m)

/-- `Add` (`set.go:55-58`). -/
def GoSet.add (s : GoSet T) (x : T) : GoSet T := if x ∈ s.m then s else ⟨s.m ++ [x]⟩

/-- `Remove` (`set.go:61-64`). -/
def GoSet.remove (s : GoSet T) (x : T) : GoSet T := ⟨s.m.filter (fun y => decide (y ≠ x))⟩

/-- `Cardinality` (`set.go:50-52`). -/
def GoSet.card (s : GoSet T) : Nat := s.m.length

/-- `NewSet` (`set.go:13-21`). -/
def GoSet.new (xs : List T) : GoSet T := xs.foldl GoSet.add ⟨[]⟩

/-- `Clone` (`set.go:24-30`). -/
def GoSet.clone (s : GoSet T) : GoSet T := s.m.foldl GoSet.add (GoSet.new [])

/-- `ToSlice` (`set.go:33-39`). -/
def GoSet.toSlice (s : GoSet T) : List T := s.m.foldl (fun ns v => ns ++ [v]) []

/-- `IsSubset` (`set.go:73-80`). -/
def GoSet.isSubset (s s2 : GoSet T) : Bool := s.m.all (fun e => s2.has e)

/-- `Equals` (`set.go:42-44`). -/
def GoSet.equals (s s2 : GoSet T) : Bool := s.card == s2.card && s.isSubset s2

/-- `Diff` (`set.go:83-91`). -/
def GoSet.diff (s s2 : GoSet T) : GoSet T := s.m.foldl (fun d v => if s2.has v = false then d.add v else d) (GoSet.new [])

/-- `SymDiff` (`set.go:95-111`). -/
def GoSet.symDiff (s s2 : GoSet T) : GoSet T :=
  let sd := s.m.foldl (fun d v => if s2.has v = false then d.add v else d) (GoSet.new [])
  s2.m.foldl (fun d v => if s.has v = false then d.add v else d) sd

/-- `Union` of any number of sets (`set.go:174-182`). -/
def unionAll (sets : List (GoSet T)) : GoSet T := sets.foldl (fun u s => s.m.foldl GoSet.add u) (GoSet.new [])

/-- `Set.Union` (`set.go:114-116`). -/
def GoSet.union (s s2 : GoSet T) : GoSet T := unionAll [s, s2]

/-- `twoSetsIntersection` (`set.go:205-226`). -/
def twoSetsIntersection (s1 s2 : GoSet T) : GoSet T :=
  let p := if s1.card < s2.card then (s1, s2) else (s2, s1)
  p.1.m.foldl (fun d v => if p.2.has v then d.add v else d) (GoSet.new [])

/-- the loop of `Intersection` (`set.go:190-197`), with its early exit. -/
def intersectLoop (acc : GoSet T) : List (GoSet T) → GoSet T
  | [] => acc
  | s :: rest => if acc.card = 0 ∨ s.card = 0 then acc else intersectLoop (twoSetsIntersection acc s) rest

/-- `Intersection` (`set.go:185-200`). -/
def intersectAll : List (GoSet T) → GoSet T
  | [] => GoSet.new []
  | s :: rest => intersectLoop s rest

/-- `Set.Intersect` (`set.go:119-121`). -/
def GoSet.intersect (s s2 : GoSet T) : GoSet T := intersectAll [s, s2]

/-- `All` (`set.go:124-131`). -/
def GoSet.all (s : GoSet T) (p : T → Bool) : Bool := s.m.all p

/-- `Some` (`set.go:134-141`): the same loop as `All`. -/
def GoSet.some (s : GoSet T) (p : T → Bool) : Bool := s.m.all p

/-- `Filter` (`set.go:144-153`). -/
def GoSet.filter (s : GoSet T) (p : T → Bool) : GoSet T := s.m.foldl (fun d e => if p e then d.add e else d) (GoSet.new [])

/-- `Clear` (`set.go:156-158`). -/
def GoSet.clear (_s : GoSet T) : GoSet T := ⟨[]⟩

end Vectory
