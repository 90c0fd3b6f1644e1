import Verif.Lemmas.MMHeapFix
import Verif.Props.MMHeap
/-!
# C82: `Remove`, `Fix` and `Max` of the min-max heap

`Fix` and `Remove` sift down first and sift up only if sifting down "did not recurse", and then from the original cell. An element that belongs
above the cell's parent is thereby moved below the cell and stays there. The theorems say exactly when the result is a min-max heap.
-/
namespace Vectory
open Spec MMHeap
variable {E : Type}

/-- the specification's order is what makes `Pop`, `PopMax` and `Push` a two-ended queue. -/
theorem C82_queue (lt : E → E → Bool) (w : Heap.WeakOrder lt) (l : List E) (h : MinMax lt l) (ops : List (DOp E)) :
    DQueue lt l ops (mmRun lt l ops) := by
  cases l with
  | cons d s => exact mmRun_queue w d ops _ ((isMM_iff w d _).mpr h)
  | nil =>
    cases ops with
    | nil => exact .done _
    | cons op ops =>
      cases op with
      | push x => exact mmRun_queue w x _ [] ((isMM_iff w x _).mpr h)
      | popMin => simp only [mmRun, pop_nil]; exact .emptyMin
      | popMax => simp only [mmRun, popMax_nil]; exact .emptyMax

/-- **C82, Fix.** The value in cell `i` of a min-max heap becomes `x`, and `Fix` is called: the result contains exactly the elements of the
changed array, and it is a min-max heap again exactly if the cell is the root, or has no children, or `x` does not belong above the parent. -/
theorem C82_fix (lt : E → E → Bool) (w : Heap.WeakOrder lt) (l : List E) (h : MinMax lt l) (i : Nat) (hi : i < l.length) (x : E) :
    (fix lt (l.set i x) i).Perm (l.set i x) ∧
    (MinMax lt (fix lt (l.set i x) i) ↔
      i = 0 ∨ l.length ≤ 2 * i + 1 ∨ ∃ p, l[(i - 1) / 2]? = some p ∧ beyond lt (depth i) p x = false) := by
  refine ⟨fixN_perm lt _ _ _, ?_⟩
  have hp : (i - 1) / 2 < l.length := by omega
  rw [← isMM_iff w x, fix_exact w x l i x hi ((isMM_iff w x l).mpr h), isOnMinLevel_depth]
  have hb : (if decide (depth i % 2 = 0) = true then lt (val x l ((i - 1) / 2)) x else lt x (val x l ((i - 1) / 2))) =
      beyond lt (depth i) (val x l ((i - 1) / 2)) x := by
    unfold beyond
    by_cases h : depth i % 2 = 0
    · rw [if_pos h, if_pos (by simpa using h)]
    · rw [if_neg h, if_neg (by simpa using h)]
  rw [hb]
  constructor
  · intro hn
    by_cases h0 : i = 0
    · exact Or.inl h0
    · by_cases h1 : l.length ≤ 2 * i + 1
      · exact Or.inr (Or.inl h1)
      · refine Or.inr (Or.inr ⟨_, val_zero x l _ hp, ?_⟩)
        cases hh : beyond lt (depth i) (val x l ((i - 1) / 2)) x with
        | false => rfl
        | true => exact absurd ⟨by omega, by omega, hh⟩ hn
  · rintro (h0 | h0 | ⟨p, h1, h2⟩) ⟨a, b, c⟩
    · omega
    · omega
    · rw [val_zero x l _ hp] at h1
      cases h1
      rw [h2] at c; cases c

/-- the last element is removed: nothing moves. -/
theorem remove_last (lt : E → E → Bool) (l : List E) (x : E) : remove lt (l ++ [x]) l.length = some (x, l) := by
  unfold remove
  rw [if_neg (by simp)]
  simp

theorem minMax_prefix {lt : E → E → Bool} {l r : List E} (h : MinMax lt (l ++ r)) : MinMax lt l := by
  intro u v a b hb ha hv
  have hul := (List.getElem?_eq_some_iff.mp ha).1
  have hvl := (List.getElem?_eq_some_iff.mp hv).1
  exact h u v a b hb (by rw [List.getElem?_append_left hul]; exact ha) (by rw [List.getElem?_append_left hvl]; exact hv)

/-- **C82, Remove.** On a min-max heap, `Remove` of a cell that is not the last returns its element and keeps exactly the others; the rest is a
min-max heap exactly if the cell is the root, or has no children in the rest, or the last element, which takes the cell's place, does not belong
above the cell's parent. -/
theorem C82_remove (lt : E → E → Bool) (w : Heap.WeakOrder lt) (l : List E) (x : E) (h : MinMax lt (l ++ [x])) (i : Nat) (hi : i < l.length) :
    ∃ rest, remove lt (l ++ [x]) i = some (l[i], rest) ∧ (l ++ [x]).Perm (l[i] :: rest) ∧
      (MinMax lt rest ↔ i = 0 ∨ l.length ≤ 2 * i + 1 ∨ ∃ p, l[(i - 1) / 2]? = some p ∧ beyond lt (depth i) p x = false) := by
  obtain ⟨hp, he⟩ := C82_fix lt w l (minMax_prefix h) i hi x
  refine ⟨_, remove_eq w l x i hi, ?_, he⟩
  have h2 : (l[i] :: l.set i x).Perm (l ++ [x]) := by
    have e : l.set i x = l.take i ++ x :: l.drop (i + 1) := List.set_eq_take_append_cons_drop.trans (by rw [if_pos hi])
    have e2 : l = l.take i ++ l[i] :: l.drop (i + 1) := by rw [← List.drop_eq_getElem_cons hi, List.take_append_drop]
    rw [e]
    refine (List.Perm.trans ?_ (List.perm_append_singleton x l).symm)
    conv => rhs; rw [e2]
    calc l[i] :: (l.take i ++ x :: l.drop (i + 1)) |>.Perm (l[i] :: x :: (l.take i ++ l.drop (i + 1))) := List.Perm.cons _ List.perm_middle
      _ |>.Perm (x :: l[i] :: (l.take i ++ l.drop (i + 1))) := List.Perm.swap _ _ _
      _ |>.Perm (x :: (l.take i ++ l[i] :: l.drop (i + 1))) := List.Perm.cons _ List.perm_middle.symm
  exact h2.symm.trans (List.Perm.cons _ hp.symm)

/-- **C82, Remove of the last cell.** -/
theorem C82_remove_last (lt : E → E → Bool) (l : List E) (x : E) (h : MinMax lt (l ++ [x])) :
    remove lt (l ++ [x]) l.length = some (x, l) ∧ MinMax lt l := ⟨remove_last lt l x, minMax_prefix h⟩

/-- **C82, outside.** -/
theorem C82_remove_outside (lt : E → E → Bool) (l : List E) (i : Nat) (h : l.length ≤ i) : remove lt l i = none := by
  unfold remove; rw [if_pos h]

theorem below_root : ∀ k, 0 < k → Below 0 k := by
  intro k
  induction k using Nat.strongRecOn with
  | _ k ih =>
    intro hk
    have hstep : ∀ p, (k = 2 * p + 1 ∨ k = 2 * p + 2) → Below p k := by
      rintro p (rfl | rfl)
      · exact .left p
      · exact .right p
    have h1 := hstep ((k - 1) / 2) (by omega)
    by_cases h0 : (k - 1) / 2 = 0
    · rw [h0] at h1; exact h1
    · exact (ih _ (by omega) (by omega)).trans h1

/-- **C82.** So `Remove` is right for the root, its children and every cell whose children (if any) are the last cell: in particular the
minimum and the maximum can be removed by index. -/
theorem C82_remove_top (lt : E → E → Bool) (w : Heap.WeakOrder lt) (l : List E) (x : E) (h : MinMax lt (l ++ [x])) (i : Nat) (hi : i < l.length)
    (hi2 : i ≤ 2 ∨ l.length ≤ 2 * i + 1) : ∃ rest, remove lt (l ++ [x]) i = some (l[i], rest) ∧ (l ++ [x]).Perm (l[i] :: rest) ∧ MinMax lt rest := by
  obtain ⟨rest, h1, h2, h3⟩ := C82_remove lt w l x h i hi
  refine ⟨rest, h1, h2, h3.mpr ?_⟩
  rcases hi2 with hi2 | hi2
  · by_cases h0 : i = 0
    · exact Or.inl h0
    · right; right
      have hp : (i - 1) / 2 = 0 := by omega
      refine ⟨l[0], by rw [hp]; exact List.getElem?_eq_getElem (by omega), ?_⟩
      have hd : depth i = 1 := by
        rw [depth_child (u := 0) (v := i) (by omega), depth]
      have := h 0 l.length l[0] x (below_root _ (by omega)) (by rw [List.getElem?_append_left (by omega)]; exact List.getElem?_eq_getElem (by omega))
        (by rw [List.getElem?_append_right (Nat.le_refl _)]; simp)
      rw [if_pos (by rw [depth])] at this
      unfold beyond
      rw [if_neg (by rw [hd]; decide)]
      exact this
  · exact Or.inr (Or.inl hi2)

/-- **C82, Max.** -1 for the empty heap, else the index of a maximum. -/
theorem C82_max (lt : E → E → Bool) (w : Heap.WeakOrder lt) (l : List E) (h : MinMax lt l) :
    (l = [] → MMHeap.max lt l = -1) ∧
    (l ≠ [] → ∃ (k : Nat) (m : E), MMHeap.max lt l = (k : Int) ∧ l[k]? = some m ∧ ∀ y ∈ l, lt m y = false) := by
  constructor
  · rintro rfl; rfl
  · intro hn
    have hpos : 0 < l.length := List.length_pos_iff.mpr hn
    have hi : indexOfMax lt l l.length < l.length := by
      unfold indexOfMax; split
      · omega
      · split <;> omega
    obtain ⟨d, _⟩ := List.exists_mem_of_ne_nil l hn
    refine ⟨indexOfMax lt l l.length, val d l (indexOfMax lt l l.length), by unfold MMHeap.max; rw [if_neg (by omega)], val_zero d l _ hi, ?_⟩
    intro y hy
    obtain ⟨k, hk, rfl⟩ := List.mem_iff_getElem.mp hy
    have := mm_max w d l ((isMM_iff w d l).mpr h) k hk
    have e : val d l k = l[k] := by unfold val; rw [List.getElem?_eq_getElem hk]; rfl
    rwa [e] at this

/-! ## The failing cases, run -/

def natLt (a b : Nat) : Bool := decide (a < b)

theorem natLt_order : Heap.WeakOrder natLt :=
  ⟨fun a b h => by simp only [natLt, decide_eq_true_eq, decide_eq_false_iff_not] at *; omega,
   fun a b c h1 h2 => by simp only [natLt, decide_eq_false_iff_not] at *; omega⟩

/-- fourteen elements, as `NewMinMaxHeapFromSlice` leaves them. -/
def c82Heap : List Nat := [0, 10, 30, 1, 2, 3, 4, 5, 6, 7, 8, 25, 26, 27]

theorem c82Heap_ok : MinMax natLt c82Heap := by
  refine (isMM_iff natLt_order 0 c82Heap).mp ?_
  have e : c82Heap = init natLt c82Heap := by decide +kernel
  rw [e]
  exact init_mm natLt_order 0 c82Heap (by decide)

/-- **C82 fails for `Remove`**: after `Remove(h, 3)` the four largest elements come out as 30, 26, 25, 10 although 27 is in the heap. -/
theorem C82_remove_fails : ∃ rest, remove natLt c82Heap 3 = some (1, rest) ∧ 27 ∈ rest ∧
    mmRun natLt rest [.popMax, .popMax, .popMax, .popMax, .popMax] = [some 30, some 26, some 25, some 10, some 27] ∧ ¬ MinMax natLt rest := by
  have hr : remove natLt c82Heap 3 = some (1, [0, 10, 30, 5, 2, 3, 4, 27, 6, 7, 8, 25, 26]) := by decide +kernel
  refine ⟨_, hr, by decide, by decide +kernel, fun hm => ?_⟩
  have q := C82_queue natLt natLt_order _ hm [.popMax, .popMax]
  have e : mmRun natLt [0, 10, 30, 5, 2, 3, 4, 27, 6, 7, 8, 25, 26] [.popMax, .popMax] = [some 30, some 26] := by decide +kernel
  rw [e] at q
  cases q with
  | @popMax _ rest _ _ _ hp _ hq =>
    cases hq with
    | popMax _ hm2 _ =>
      have h27 : 27 ∈ rest := by
        have : (27 : Nat) ∈ 30 :: rest := hp.subset (by decide)
        simpa using this
      exact absurd (hm2 27 h27) (by decide)

/-- **C82 fails for `Fix`**: the value in cell 1 becomes the smallest; after `Fix`, `Pop` returns another element first. -/
theorem C82_fix_fails : MinMax natLt [5, 10, 20, 6, 7] ∧
    mmRun natLt (fix natLt ([5, 10, 20, 6, 7].set 1 3) 1) [.popMin, .popMin] = [some 5, some 3] := by
  refine ⟨?_, by decide +kernel⟩
  refine (isMM_iff natLt_order 0 _).mp ?_
  have e : [5, 10, 20, 6, 7] = init natLt [5, 10, 20, 6, 7] := by decide +kernel
  rw [e]
  exact init_mm natLt_order 0 _ (by decide)

-- the good cases: remove the minimum, the maximum by index, and an inner cell whose replacement stays below the parent
example : MMHeap.max natLt c82Heap = 2 ∧ (remove natLt c82Heap 2).map Prod.fst = some 30 ∧ (remove natLt c82Heap 0).map Prod.fst = some 0 ∧
    (remove natLt c82Heap 5).map (fun r => mmRun natLt r.2 [.popMax, .popMax, .popMax, .popMin, .popMin]) =
      some [some 30, some 27, some 26, some 0, some 1] := by decide +kernel

end Vectory
