import Verif.Model.Basic
/-!
# `container/heap` on a slice, and `utils.Heap`

Models Go's standard `container/heap` (Init, Push, Pop, up, down) operating on
`utils.Heap` (`db/core/index/utils/heap.go`). The exact array layout matters, because `Peek`
(`heap.go:34-36`) returns the last array cell and `searchLayer` returns the raw array.
-/
namespace Vectory.Heap

variable {E : Type}

/-- `h.Less(i, j)` (`heap.go:19`). Out of range is `false`; the loops below never ask for it. -/
def lessAt (lt : E → E → Bool) (l : List E) (i j : Nat) : Bool :=
  match l[i]?, l[j]? with
  | some a, some b => lt a b
  | _, _ => false

/-- `h.Swap(i, j)` (`heap.go:17`). -/
def swap (l : List E) (i j : Nat) : List E :=
  match l[i]?, l[j]? with
  | some a, some b => (l.set i b).set j a
  | _, _ => l

/-- `container/heap.up`: `for { i := (j-1)/2; if i == j || !Less(j,i) {break}; Swap(i,j); j = i }`.
The index strictly decreases, so `j` rounds of fuel are enough. -/
def upFuel (lt : E → E → Bool) : Nat → List E → Nat → List E
  | 0, l, _ => l
  | f + 1, l, j =>
    let i := (j - 1) / 2
    if i = j ∨ lessAt lt l j i = false then l
    else upFuel lt f (swap l i j) i

/-- `container/heap.up(h, j)`. -/
def up (lt : E → E → Bool) (l : List E) (j : Nat) : List E := upFuel lt j l j

/-- `container/heap.down(h, i0, n)`: sift the element at `i` down within the first `n` cells.
The index strictly increases, so `n` rounds of fuel are enough. -/
def downFuel (lt : E → E → Bool) : Nat → List E → Nat → Nat → List E
  | 0, l, _, _ => l
  | f + 1, l, i, n =>
    let j1 := 2 * i + 1
    if n ≤ j1 then l
    else
      let j := if j1 + 1 < n ∧ lessAt lt l (j1 + 1) j1 = true then j1 + 1 else j1
      if lessAt lt l j i = false then l
      else downFuel lt f (swap l i j) j n

/-- `container/heap.down(h, i, n)`. -/
def down (lt : E → E → Bool) (l : List E) (i n : Nat) : List E := downFuel lt n l i n

/-- the loop of `container/heap.Init`: `for i := n/2 - 1; i >= 0; i-- { down(h, i, n) }`;
`initLoop k` runs `i = k-1, …, 0`. -/
def initLoop (lt : E → E → Bool) : Nat → List E → List E
  | 0, l => l
  | k + 1, l => initLoop lt k (down lt l k l.length)

/-- `container/heap.Init`. -/
def init (lt : E → E → Bool) (l : List E) : List E := initLoop lt (l.length / 2) l

/-- `heap.Push(h, x)`: append (`heap.go:21-23`) and sift up. -/
def push (lt : E → E → Bool) (l : List E) (x : E) : List E := up lt (l ++ [x]) l.length

/-- `heap.Pop(h)`: swap first and last, sift down, cut the last cell (`heap.go:25-32`).
`none` is the index-out-of-range panic on an empty heap. -/
def pop (lt : E → E → Bool) (l : List E) : Option (E × List E) :=
  let n := l.length - 1
  let l' := down lt (swap l 0 n) 0 n
  match l'[n]? with
  | some x => some (x, l'.take n)
  | none => none

/-- `(*Heap).Peek` (`heap.go:34-36`): the LAST array cell, not the root.
`none` is the index-out-of-range panic on an empty heap. -/
def peek (l : List E) : Option E := l.getLast?

end Vectory.Heap

namespace Vectory

/-- `utils.Element` (`db/core/index/utils/heap.go:5-8`). -/
structure Elem (D : Type) where
  id : UInt64
  dist : D
  deriving DecidableEq, Repr

variable {D : Type}

/-- the `less` of `NewMinHeapFromSlice` / `NewMinHeapFromSliceDeep` (`heap.go:47-73`). -/
def minLess (lt : D → D → Bool) (a b : Elem D) : Bool := lt a.dist b.dist

/-- the `less` of `NewMaxHeapFromSliceDeep` (`heap.go:84-97`). -/
def maxLess (lt : D → D → Bool) (a b : Elem D) : Bool := lt b.dist a.dist

/-- `NewMinHeapFromSlice(s)` and `NewMinHeapFromSliceDeep(s, c)` (`heap.go:47-73`); the two differ
only in aliasing of `s`, which no caller observes. The capacity check is in the callers. -/
def newMinHeap (lt : D → D → Bool) (s : List (Elem D)) : List (Elem D) := Heap.init (minLess lt) s

/-- `NewMaxHeapFromSliceDeep(s, c)` (`heap.go:84-97`). -/
def newMaxHeap (lt : D → D → Bool) (s : List (Elem D)) : List (Elem D) := Heap.init (maxLess lt) s

end Vectory
