import Verif.Lemmas.MMHeap
import Verif.Lemmas.Order
import Verif.Spec.Queue
/-! # The min-max heap: C47 -/
namespace Vectory
open Spec

/-- calls of `mmheap.go` on the array `l`: what `Pop` and `PopMax` return; `none` is the panic on an empty heap. -/
def mmRun {E : Type} (lt : E → E → Bool) : List E → List (DOp E) → List (Option E)
  | _, [] => []
  | l, .push x :: ops => mmRun lt (MMHeap.push lt l x) ops
  | l, .popMin :: ops =>
    match MMHeap.pop lt l with
    | none => [none]
    | some (x, rest) => some x :: mmRun lt rest ops
  | l, .popMax :: ops =>
    match MMHeap.popMax lt l with
    | none => [none]
    | some (x, rest) => some x :: mmRun lt rest ops

theorem DQueue.perm {E : Type} {lt : E → E → Bool} {b b' : List E} {ops : List (DOp E)} {outs : List (Option E)}
    (h : DQueue lt b ops outs) (p : b.Perm b') : DQueue lt b' ops outs := by
  induction h generalizing b' with
  | done => exact .done _
  | push _ ih => exact .push (ih (p.cons _))
  | popMin hp hm hq _ => exact .popMin (p.symm.trans hp) (fun y hy => hm y (p.symm.subset hy)) hq
  | popMax hp hm hq _ => exact .popMax (p.symm.trans hp) (fun y hy => hm y (p.symm.subset hy)) hq
  | emptyMin => rw [List.nil_perm.mp p]; exact .emptyMin
  | emptyMax => rw [List.nil_perm.mp p]; exact .emptyMax

theorem MMHeap.pop_nil {E : Type} (lt : E → E → Bool) : MMHeap.pop lt [] = none := by
  have h : MMHeap.down lt (Heap.swap ([] : List E) 0 (([] : List E).length - 1)) 0 (([] : List E).length - 1) = [] :=
    List.perm_nil.mp ((MMHeap.down_perm lt _ _ _).trans (Heap.swap_perm _ _ _))
  unfold MMHeap.pop; simp only [h]; rfl

theorem MMHeap.popMax_nil {E : Type} (lt : E → E → Bool) : MMHeap.popMax lt [] = none := by
  have h : ∀ i, MMHeap.down lt (Heap.swap ([] : List E) i (([] : List E).length - 1)) i (([] : List E).length - 1) = [] := fun i =>
    List.perm_nil.mp ((MMHeap.down_perm lt _ _ _).trans (Heap.swap_perm _ _ _))
  unfold MMHeap.popMax; simp only [h]; rfl

theorem mmRun_queue {E : Type} {lt : E → E → Bool} (w : Heap.WeakOrder lt) (d : E) :
    ∀ (ops : List (DOp E)) (l : List E), MMHeap.IsMM lt d l → DQueue lt l ops (mmRun lt l ops) := by
  intro ops
  induction ops with
  | nil => intro l _; exact .done _
  | cons op ops ih =>
    intro l hl
    cases op with
    | push x => exact .push (DQueue.perm (ih _ (MMHeap.push_mm w d l x hl)) (MMHeap.push_perm lt l x))
    | popMin =>
      unfold mmRun
      by_cases hn : l = []
      · subst hn; rw [MMHeap.pop_nil]; exact .emptyMin
      · obtain ⟨x, rest, hp, _, hperm, hm⟩ := MMHeap.pop_spec w d l hn
        rw [hp]
        exact .popMin hperm (hm hl).2 (ih _ (hm hl).1)
    | popMax =>
      unfold mmRun
      by_cases hn : l = []
      · subst hn; rw [MMHeap.popMax_nil]; exact .emptyMax
      · obtain ⟨x, rest, hp, hperm, hm⟩ := MMHeap.popMax_spec w d l hn
        rw [hp]
        exact .popMax hperm (hm hl).2 (ih _ (hm hl).1)

/-- C47, for the slices whose first element is a minimum of the slice: build the heap with `NewMinMaxHeapFromSlice` and call
`Push`, `Pop` and `PopMax` in any order: it is a two-ended priority queue with the slice as initial contents. Excluded: the other
slices, for which it is false (`C47_pop_returns_first`). -/
theorem C47_two_ended_queue {E : Type} (lt : E → E → Bool) (w : Heap.WeakOrder lt) (s : List E)
    (hs : ∀ x, s.head? = some x → ∀ y ∈ s, lt y x = false) (ops : List (DOp E)) :
    DQueue lt s ops (mmRun lt (MMHeap.init lt s) ops) := by
  have key : ∀ d : E, (∀ y ∈ s, lt y (MMHeap.val d s 0) = false) → DQueue lt s ops (mmRun lt (MMHeap.init lt s) ops) := by
    intro d hd
    exact DQueue.perm (mmRun_queue w d ops _ (MMHeap.init_mm w d s hd)) (MMHeap.init_perm lt s)
  cases s with
  | cons x s => exact key x (fun y hy => hs x rfl y hy)
  | nil =>
    have e : MMHeap.init lt ([] : List E) = [] := List.perm_nil.mp (MMHeap.init_perm lt [])
    cases ops with
    | nil => exact .done _
    | cons op ops =>
      cases op with
      | push x => exact key x (fun y hy => (nomatch hy))
      | popMin => simp only [e, mmRun, MMHeap.pop_nil]; exact .emptyMin
      | popMax => simp only [e, mmRun, MMHeap.popMax_nil]; exact .emptyMax

/-- C47 for the heap that `MemoryIndex.search` uses (`memory_index.go:59`): it starts with one element, and there the claim
holds without restriction. -/
theorem C47_single_start {D : Type} (lt : D → D → Bool) (w : Ord lt) (e : Elem D) (ops : List (DOp (Elem D))) :
    DQueue (fun a b => lt a.dist b.dist) [e] ops (mmRun (minLess lt) (MMHeap.init (minLess lt) [e]) ops) := by
  refine C47_two_ended_queue (minLess lt) w.min [e] (fun x hx y hy => ?_) ops
  cases hx
  rcases List.mem_singleton.mp hy with rfl
  exact Heap.WeakOrder.irrefl w.min _

/-- C47 is false for a general slice: whatever the slice, the first `Pop` returns the slice's first element, because `Init`
stops before the root. -/
theorem C47_pop_returns_first {E : Type} (lt : E → E → Bool) (w : Heap.WeakOrder lt) (x : E) (s : List E) :
    ∃ rest, MMHeap.pop lt (MMHeap.init lt (x :: s)) = some (x, rest) := by
  have hne : MMHeap.init lt (x :: s) ≠ [] := by
    intro h
    have := (MMHeap.init_perm lt (x :: s)).length_eq
    rw [h] at this; simp at this
  obtain ⟨y, rest, hp, hy, _⟩ := MMHeap.pop_spec w x _ hne
  rw [(MMHeap.init_order w x (x :: s)).2] at hy
  cases hy
  exact ⟨rest, hp⟩

/-- C47, exactly: the heap built from a slice is a two-ended queue iff the slice's first element is a minimum. -/
theorem C47_exactly {E : Type} (lt : E → E → Bool) (w : Heap.WeakOrder lt) (x : E) (s : List E) :
    (∀ ops, DQueue lt (x :: s) ops (mmRun lt (MMHeap.init lt (x :: s)) ops)) ↔ ∀ y ∈ s, lt y x = false := by
  constructor
  · intro h y hy
    have h1 := h [.popMin]
    obtain ⟨rest, hr⟩ := C47_pop_returns_first lt w x s
    simp only [mmRun, hr] at h1
    cases h1 with
    | popMin _ hm _ => exact hm y (List.mem_cons_of_mem _ hy)
  · intro h ops
    refine C47_two_ended_queue lt w (x :: s) (fun z hz y hy => ?_) ops
    cases hz
    rcases List.mem_cons.mp hy with rfl | hy
    · exact Heap.WeakOrder.irrefl w _
    · exact h y hy

/-- C47: whatever the slice, and whatever the comparison, `NewMinMaxHeapFromSlice` and `Push` lose and duplicate nothing. -/
theorem C47_nothing_lost_building {E : Type} (lt : E → E → Bool) (l : List E) (x : E) :
    (MMHeap.init lt l).Perm l ∧ (MMHeap.push lt l x).Perm (x :: l) :=
  ⟨MMHeap.init_perm lt l, MMHeap.push_perm lt l x⟩

/-- C47: on any non-empty array, ordered or not, `Pop` and `PopMax` return one of its elements and keep exactly the others. -/
theorem C47_nothing_lost_popping {E : Type} (lt : E → E → Bool) (w : Heap.WeakOrder lt) (l : List E) (hl : l ≠ []) :
    (∃ y rest, MMHeap.pop lt l = some (y, rest) ∧ l.Perm (y :: rest)) ∧
    (∃ y rest, MMHeap.popMax lt l = some (y, rest) ∧ l.Perm (y :: rest)) := by
  obtain ⟨x, hx⟩ := List.exists_mem_of_ne_nil l hl
  obtain ⟨y, rest, h, _, hp, _⟩ := MMHeap.pop_spec w x l hl
  obtain ⟨y', rest', h', hp', _⟩ := MMHeap.popMax_spec w x l hl
  exact ⟨⟨y, rest, h, hp⟩, ⟨y', rest', h', hp'⟩⟩

-- twelve elements with ties, both ends, pushes in between, and a pop too many
example : mmRun (fun a b : Nat => decide (a < b)) (MMHeap.init (fun a b : Nat => decide (a < b)) [1, 5, 3, 8, 3, 9, 2])
    [.popMax, .popMin, .push 0, .push 7, .popMin, .popMax, .popMax, .popMin, .popMax, .push 4, .popMax, .popMin, .popMin, .popMin] =
    [some 9, some 1, some 0, some 8, some 7, some 2, some 5, some 4, some 3, some 3, none] := by decide

-- the slice the code gets wrong: the minimum is not first
example : mmRun (fun a b : Nat => decide (a < b)) (MMHeap.init (fun a b : Nat => decide (a < b)) [3, 1]) [.popMin, .popMin] =
    [some 3, some 1] := by decide

example : ∀ x, [1, 5, 3, 8, 3, 9, 2].head? = some x → ∀ y ∈ [1, 5, 3, 8, 3, 9, 2], (fun a b : Nat => decide (a < b)) y x = false := by
  decide

end Vectory
