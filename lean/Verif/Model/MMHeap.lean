import Verif.Model.Heap
/-!
# The min-max heap (`db/core/index/utils/mmheap.go`)

The slice helpers `lessAt` and `swap` are those of `Model.Heap` (`utils.Heap` implements `heap.Interface` for both). The
function values `isLess` and `isGreater` (`mmheap.go:128-135`) are the comparison `lt` and its converse. `Remove`, `Fix`
and `Max` (`mmheap.go:66-104`): `Model/MMHeapFix.lean`.
-/
namespace Vectory.MMHeap
open Heap (lessAt swap)

variable {E : Type}

/-- `isGreater` (`mmheap.go:133-135`): the converse of `isLess`. -/
def gt (lt : E → E → Bool) (a b : E) : Bool := lt b a

/-- `isOnMinLevel` (`mmheap.go:120-123`). Go takes the logarithm in floating point; the model takes it exactly. -/
def isOnMinLevel (i : Nat) : Bool := Nat.log2 (i + 1) % 2 == 0

/-- `swapIf` (`mmheap.go:141-148`): the array afterwards and whether it swapped. -/
def swapIf (lt : E → E → Bool) (l : List E) (i j : Nat) : List E × Bool :=
  if lessAt lt l i j then (swap l i j, true) else (l, false)

/-- `least` (`mmheap.go:267-277`). -/
def least (lt : E → E → Bool) (l : List E) (i j n : Nat) : Nat × Bool :=
  if n ≤ j then (i, true)
  else if lessAt lt l i j then (i, false) else (j, false)

/-- `minDescendent` (`mmheap.go:225-262`); `none` is the result -1. -/
def minDescendent (lt : E → E → Bool) (l : List E) (i n : Nat) : Option Nat :=
  let left := i * 2 + 1
  if n ≤ left then none
  else
    let right := left + 1
    let r := least lt l left right n
    if r.2 then some r.1
    else
      let r := least lt l r.1 (left * 2 + 1) n
      if r.2 then some r.1
      else
        let r := least lt l r.1 (left * 2 + 2) n
        if r.2 then some r.1
        else
          let r := least lt l r.1 (right * 2 + 1) n
          if r.2 then some r.1
          else some (least lt l r.1 (right * 2 + 2) n).1

/-- the loop of `downX` (`mmheap.go:192-220`). The result `recursed` is used by `Remove` and `Fix` only: `recursedX`
in `Model/MMHeapFix.lean`.
The index strictly increases, so `n` rounds of fuel are enough. -/
def downX (lt : E → E → Bool) : Nat → List E → Nat → Nat → List E
  | 0, l, _, _ => l
  | f + 1, l, i, n =>
    match minDescendent lt l i n with
    | none => l
    | some m =>
      let parent := (m - 1) / 2
      if i = parent then (swapIf lt l m i).1
      else
        let s := swapIf lt l m i
        if s.2 then downX lt f (swapIf lt s.1 parent m).1 m n else l

/-- `down` (`mmheap.go:184-190`). -/
def down (lt : E → E → Bool) (l : List E) (i n : Nat) : List E :=
  if isOnMinLevel i then downX lt n l i n else downX (gt lt) n l i n

/-- the loop of `upX` (`mmheap.go:170-180`). The index strictly decreases, so `i` rounds of fuel are enough. -/
def upX (lt : E → E → Bool) : Nat → List E → Nat → List E
  | 0, l, _ => l
  | f + 1, l, i =>
    if 2 < i then
      let grandparent := ((i - 1) / 2 - 1) / 2
      let s := swapIf lt l i grandparent
      if s.2 then upX lt f s.1 grandparent else l
    else l

/-- `up` (`mmheap.go:152-168`). -/
def up (lt : E → E → Bool) (l : List E) (i : Nat) : List E :=
  let parent := (i - 1) / 2
  if isOnMinLevel i then
    let s := swapIf (gt lt) l i parent
    if 0 < i ∧ s.2 = true then upX (gt lt) parent s.1 parent else upX lt i l i
  else
    let s := swapIf lt l i parent
    if 0 < i ∧ s.2 = true then upX lt parent s.1 parent else upX (gt lt) i l i

/-- the loop of `Init` (`mmheap.go:28-33`): `for i := n/2; i > 0; i--`; `initLoop k` runs `i = k, …, 1`. The root, `i = 0`,
is not visited. -/
def initLoop (lt : E → E → Bool) : Nat → List E → List E
  | 0, l => l
  | k + 1, l => initLoop lt k (down lt l (k + 1) l.length)

/-- `Init`, as called by `NewMinMaxHeapFromSlice` (`mmheap.go:10-21`, `28-33`). -/
def init (lt : E → E → Bool) (l : List E) : List E := initLoop lt (l.length / 2) l

/-- `Push` (`mmheap.go:36-40`). -/
def push (lt : E → E → Bool) (l : List E) (x : E) : List E := up lt (l ++ [x]) l.length

/-- `Pop` (`mmheap.go:44-50`); `none` is the index-out-of-range panic on an empty heap. -/
def pop (lt : E → E → Bool) (l : List E) : Option (E × List E) :=
  let i := l.length - 1
  let l' := down lt (swap l 0 i) 0 i
  match l'[i]? with
  | some x => some (x, l'.take i)
  | none => none

/-- `indexOfMax` (`mmheap.go:106-116`); for an empty heap Go returns -1, here 0, and the swap of `PopMax` panics either way. -/
def indexOfMax (lt : E → E → Bool) (l : List E) (n : Nat) : Nat :=
  if n ≤ 2 then n - 1 else if lessAt lt l 2 1 then 1 else 2

/-- `PopMax` (`mmheap.go:54-63`); `none` is the index-out-of-range panic on an empty heap. -/
def popMax (lt : E → E → Bool) (l : List E) : Option (E × List E) :=
  let i := indexOfMax lt l l.length
  let j := l.length - 1
  let l' := down lt (swap l i j) i j
  match l'[j]? with
  | some x => some (x, l'.take j)
  | none => none

end Vectory.MMHeap
