/-!
# Specification of a priority queue (no model helpers)

A queue is a bag (a list up to permutation). `lt a b` means that `a` has to come out before `b`.
-/
namespace Vectory.Spec

/-- a call on the queue. -/
inductive QOp (E : Type) where
  | push (x : E)
  | pop

/-- `Queue lt bag ops outs`: starting with the contents `bag`, the calls `ops` return `outs`, where a pop returns some
element of the bag that nothing in the bag has to precede, and removes exactly that one; a pop on the empty bag returns
nothing (in Go: a panic) and ends the sequence. -/
inductive Queue {E : Type} (lt : E → E → Bool) : List E → List (QOp E) → List (Option E) → Prop where
  | done (bag : List E) : Queue lt bag [] []
  | push {bag : List E} {x : E} {ops : List (QOp E)} {outs : List (Option E)} :
      Queue lt (x :: bag) ops outs → Queue lt bag (.push x :: ops) outs
  | pop {bag rest : List E} {x : E} {ops : List (QOp E)} {outs : List (Option E)} :
      bag.Perm (x :: rest) → (∀ y ∈ bag, lt y x = false) → Queue lt rest ops outs →
      Queue lt bag (.pop :: ops) (some x :: outs)
  | empty {ops : List (QOp E)} : Queue lt [] (.pop :: ops) [none]

/-- a call on a two-ended queue. -/
inductive DOp (E : Type) where
  | push (x : E)
  | popMin
  | popMax

/-- `DQueue lt bag ops outs`: like `Queue`, but there are two ways to take an element out: `popMin` returns some element that
nothing in the bag precedes, `popMax` some element that precedes nothing in the bag. -/
inductive DQueue {E : Type} (lt : E → E → Bool) : List E → List (DOp E) → List (Option E) → Prop where
  | done (bag : List E) : DQueue lt bag [] []
  | push {bag : List E} {x : E} {ops : List (DOp E)} {outs : List (Option E)} :
      DQueue lt (x :: bag) ops outs → DQueue lt bag (.push x :: ops) outs
  | popMin {bag rest : List E} {x : E} {ops : List (DOp E)} {outs : List (Option E)} :
      bag.Perm (x :: rest) → (∀ y ∈ bag, lt y x = false) → DQueue lt rest ops outs →
      DQueue lt bag (.popMin :: ops) (some x :: outs)
  | popMax {bag rest : List E} {x : E} {ops : List (DOp E)} {outs : List (Option E)} :
      bag.Perm (x :: rest) → (∀ y ∈ bag, lt x y = false) → DQueue lt rest ops outs →
      DQueue lt bag (.popMax :: ops) (some x :: outs)
  | emptyMin {ops : List (DOp E)} : DQueue lt [] (.popMin :: ops) [none]
  | emptyMax {ops : List (DOp E)} : DQueue lt [] (.popMax :: ops) [none]

end Vectory.Spec
