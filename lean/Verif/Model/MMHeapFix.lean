import Verif.Model.MMHeap
/-!
# `Remove`, `Fix` and `Max` of the min-max heap (`db/core/index/utils/mmheap.go:66-116`)

Exported, without a caller in the repository.
-/
namespace Vectory.MMHeap
open Heap (lessAt swap)
variable {E : Type}

/-- the result `recursed` of `downX` (`mmheap.go:192-220`): whether the first round swapped with a grandchild. (It is set at the end
of such a round and never reset.) -/
def recursedX (lt : E → E → Bool) (l : List E) (i n : Nat) : Bool :=
  match minDescendent lt l i n with
  | none => false
  | some m => if i = (m - 1) / 2 then false else (swapIf lt l m i).2

/-- the result of `down` (`mmheap.go:184-190`). -/
def recursed (lt : E → E → Bool) (l : List E) (i n : Nat) : Bool :=
  if isOnMinLevel i then recursedX lt l i n else recursedX (gt lt) l i n

/-- `if !down(h, i, n) { up(h, i, n) }` (`mmheap.go:72-74`, `88-90`). -/
def fixN (lt : E → E → Bool) (l : List E) (i n : Nat) : List E :=
  let l' := down lt l i n
  if recursed lt l i n then l' else up lt l' i

/-- `Fix` (`mmheap.go:86-91`) on an array whose cell `i` has changed. -/
def fix (lt : E → E → Bool) (l : List E) (i : Nat) : List E := fixN lt l i l.length

/-- `Remove` (`mmheap.go:66-78`): the element and the remaining array; `none` is the index-out-of-range panic. -/
def remove (lt : E → E → Bool) (l : List E) (i : Nat) : Option (E × List E) :=
  if l.length ≤ i then none
  else
    let j := l.length - 1
    let l' := if i = j then l else fixN lt (swap l i j) i j
    match l'[j]? with
    | some x => some (x, l'.take j)
    | none => none

/-- `Max` (`mmheap.go:102-104`): an index, -1 for the empty heap. -/
def max (lt : E → E → Bool) (l : List E) : Int := if l.length = 0 then -1 else indexOfMax lt l l.length

end Vectory.MMHeap
