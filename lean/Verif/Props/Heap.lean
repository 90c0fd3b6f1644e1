import Verif.Lemmas.Order
import Verif.Spec.Queue
/-! # The heap: C25 -/
namespace Vectory
open Spec

/-- calls of `container/heap` on the array `l`: what the pops return; `none` is the panic on an empty heap. -/
def heapRun {E : Type} (lt : E → E → Bool) : List E → List (QOp E) → List (Option E)
  | _, [] => []
  | l, .push x :: ops => heapRun lt (Heap.push lt l x) ops
  | l, .pop :: ops =>
    match Heap.pop lt l with
    | none => [none]
    | some (x, rest) => some x :: heapRun lt rest ops

theorem Queue.perm {E : Type} {lt : E → E → Bool} {b b' : List E} {ops : List (QOp E)} {outs : List (Option E)}
    (h : Queue lt b ops outs) (p : b.Perm b') : Queue lt b' ops outs := by
  induction h generalizing b' with
  | done => exact .done _
  | push _ ih => exact .push (ih (p.cons _))
  | pop hp hm hq _ => exact .pop (p.symm.trans hp) (fun y hy => hm y (p.symm.subset hy)) hq
  | empty => rw [List.nil_perm.mp p]; exact .empty

/-- C25: build the heap from any slice and call `Push` and `Pop` in any order: it is a priority queue with the slice as
initial contents. -/
theorem C25_heap_is_queue {E : Type} (lt : E → E → Bool) (w : Heap.WeakOrder lt) (s : List E) (ops : List (QOp E)) :
    Queue lt s ops (heapRun lt (Heap.init lt s) ops) := by
  have key : ∀ (ops : List (QOp E)) (l : List E), Heap.IsHeap lt l → Queue lt l ops (heapRun lt l ops) := by
    intro ops
    induction ops with
    | nil => intro l _; exact .done _
    | cons op ops ih =>
      intro l hl
      cases op with
      | push x => exact .push (Queue.perm (ih _ (Heap.push_heap w l x hl)) (Heap.push_perm lt l x))
      | pop =>
        unfold heapRun
        cases hp : Heap.pop lt l with
        | none => rw [(Heap.pop_none lt l).mp hp]; exact .empty
        | some r =>
          obtain ⟨x, rest⟩ := r
          have h := Heap.pop_heap w l hl x rest hp
          exact .pop (Heap.pop_perm lt l x rest hp) h.2 (ih _ h.1)
  exact Queue.perm (key ops _ (Heap.init_heap w s)) (Heap.init_perm lt s)

/-- C25 for `NewMinHeapFromSlice` / `NewMinHeapFromSliceDeep`: pops return elements in order of increasing distance. -/
theorem C25_min_heap {D : Type} (lt : D → D → Bool) (w : Ord lt) (s : List (Elem D)) (ops : List (QOp (Elem D))) :
    Queue (fun a b => lt a.dist b.dist) s ops (heapRun (minLess lt) (newMinHeap lt s) ops) :=
  C25_heap_is_queue (minLess lt) w.min s ops

/-- C25 for `NewMaxHeapFromSliceDeep`: pops return a farthest element. -/
theorem C25_max_heap {D : Type} (lt : D → D → Bool) (w : Ord lt) (s : List (Elem D)) (ops : List (QOp (Elem D))) :
    Queue (fun a b => lt b.dist a.dist) s ops (heapRun (maxLess lt) (newMaxHeap lt s) ops) :=
  C25_heap_is_queue (maxLess lt) w.max s ops

/-- C25: without assuming anything about the comparison (NaN distances included) no element is lost or duplicated. -/
theorem C25_nothing_lost {E : Type} (lt : E → E → Bool) (l : List E) (x : E) :
    (Heap.init lt l).Perm l ∧ (Heap.push lt l x).Perm (x :: l) ∧
    (l ≠ [] → ∃ y rest, Heap.pop lt l = some (y, rest) ∧ l.Perm (y :: rest)) := by
  refine ⟨Heap.init_perm lt l, Heap.push_perm lt l x, fun hl => ?_⟩
  obtain ⟨y, rest, h, _⟩ := Heap.pop_eq lt l hl
  exact ⟨y, rest, h, Heap.pop_perm lt l y rest h⟩

/-- Not part of C25, but of how the heap is used (`search.go:67,86`): `Peek` does not return what `Pop` would; on a max-heap
of three distances it returns the smallest one. -/
theorem C25_peek_is_not_next :
    ∃ s : List (Elem Nat), (Heap.peek (newMaxHeap (fun a b => decide (a < b)) s)).map Elem.dist = some 1 ∧
      (Heap.pop (maxLess (fun a b => decide (a < b))) (newMaxHeap (fun a b => decide (a < b)) s)).map (fun r => r.1.dist) = some 9 :=
  ⟨[⟨0, 9⟩, ⟨1, 5⟩, ⟨2, 1⟩], by decide, by decide⟩

-- eight elements with ties, pushes in between, and a pop too many
example : heapRun (fun a b : Nat => decide (a < b)) (Heap.init (fun a b : Nat => decide (a < b)) [5, 3, 8, 3, 1, 9, 2])
    [.pop, .push 0, .pop, .pop, .push 4, .pop, .pop, .pop, .pop, .pop, .pop, .pop] =
    [some 1, some 0, some 2, some 3, some 3, some 4, some 5, some 8, some 9, none] := by decide

example : Heap.WeakOrder (fun a b : Nat => decide (a < b)) :=
  ⟨fun a b h => by simp at *; omega, fun a b c h1 h2 => by simp at *; omega⟩

end Vectory
