import Verif.Model.GoSet
import Verif.Lemmas.Search
/-! # C46: set operations are the mathematical ones

`x ∈ s.m` is "x is an element of s". -/
namespace Vectory
variable {T : Type} [DecidableEq T]

theorem mem_add (s : GoSet T) (x y : T) : y ∈ (s.add x).m ↔ y ∈ s.m ∨ y = x := by
  unfold GoSet.add; split
  · rename_i h; constructor
    · exact Or.inl
    · rintro (h' | rfl)
      · exact h'
      · exact h
  · simp

theorem wf_add {s : GoSet T} (h : s.Wf) (x : T) : (s.add x).Wf := by
  unfold GoSet.add; split
  · exact h
  · rename_i hx
    unfold GoSet.Wf at *
    refine List.nodup_append.mpr ⟨h, by simp, ?_⟩
    intro a ha b hb
    simp at hb; subst hb
    rintro rfl; exact hx ha

/-- a loop that adds the elements that satisfy `p`. -/
theorem fold_add (p : T → Bool) : ∀ (xs : List T) (s : GoSet T), s.Wf →
    (xs.foldl (fun d v => if p v then d.add v else d) s).Wf ∧
    ∀ y, y ∈ (xs.foldl (fun d v => if p v then d.add v else d) s).m ↔ y ∈ s.m ∨ (y ∈ xs ∧ p y = true) := by
  intro xs
  induction xs with
  | nil => intro s h; exact ⟨h, by simp⟩
  | cons x xs ih =>
    intro s h
    rw [List.foldl_cons]
    by_cases hp : p x = true
    · rw [if_pos hp]
      obtain ⟨h1, h2⟩ := ih _ (wf_add h x)
      refine ⟨h1, fun y => ?_⟩
      rw [h2, mem_add, List.mem_cons]
      constructor
      · rintro ((h | rfl) | ⟨h, h'⟩)
        · exact Or.inl h
        · exact Or.inr ⟨Or.inl rfl, hp⟩
        · exact Or.inr ⟨Or.inr h, h'⟩
      · rintro (h | ⟨rfl | h, h'⟩)
        · exact Or.inl (Or.inl h)
        · exact Or.inl (Or.inr rfl)
        · exact Or.inr ⟨h, h'⟩
    · rw [if_neg hp]
      obtain ⟨h1, h2⟩ := ih _ h
      refine ⟨h1, fun y => ?_⟩
      rw [h2, List.mem_cons]
      constructor
      · rintro (h | ⟨h, h'⟩)
        · exact Or.inl h
        · exact Or.inr ⟨Or.inr h, h'⟩
      · rintro (h | ⟨rfl | h, h'⟩)
        · exact Or.inl h
        · exact absurd h' hp
        · exact Or.inr ⟨h, h'⟩

theorem fold_add_true (xs : List T) (s : GoSet T) : xs.foldl GoSet.add s = xs.foldl (fun d v => if (fun _ => true) v then d.add v else d) s := by
  simp

theorem wf_empty : (GoSet.new ([] : List T)).Wf := by unfold GoSet.new GoSet.Wf; simp

theorem mem_new_nil (y : T) : y ∉ (GoSet.new ([] : List T)).m := by unfold GoSet.new; simp

/-- **C46, building sets**: NewSet, Add, Remove, Clone, Clear, Has. -/
theorem C46_build (xs : List T) (s : GoSet T) (h : s.Wf) (x : T) :
    ((GoSet.new xs).Wf ∧ ∀ y, y ∈ (GoSet.new xs).m ↔ y ∈ xs) ∧
    ((s.add x).Wf ∧ ∀ y, y ∈ (s.add x).m ↔ y ∈ s.m ∨ y = x) ∧
    ((s.remove x).Wf ∧ ∀ y, y ∈ (s.remove x).m ↔ y ∈ s.m ∧ y ≠ x) ∧
    (s.clone.Wf ∧ ∀ y, y ∈ s.clone.m ↔ y ∈ s.m) ∧
    (s.clear.Wf ∧ ∀ y, y ∉ s.clear.m) ∧
    (s.has x = true ↔ x ∈ s.m) := by
  refine ⟨?_, ⟨wf_add h x, mem_add s x⟩, ⟨?_, ?_⟩, ?_, ⟨?_, ?_⟩, ?_⟩
  · unfold GoSet.new
    rw [fold_add_true]
    obtain ⟨h1, h2⟩ := fold_add (fun _ => true) xs ⟨[]⟩ (by unfold GoSet.Wf; simp)
    exact ⟨h1, fun y => by rw [h2]; simp⟩
  · exact h.filter _
  · intro y; simp [GoSet.remove]
  · unfold GoSet.clone
    rw [fold_add_true]
    obtain ⟨h1, h2⟩ := fold_add (fun _ => true) s.m (GoSet.new []) wf_empty
    exact ⟨h1, fun y => by rw [h2]; simp [mem_new_nil]⟩
  · unfold GoSet.clear GoSet.Wf; simp
  · intro y; simp [GoSet.clear]
  · simp [GoSet.has]

theorem toSlice_eq (s : GoSet T) : s.toSlice = s.m := by
  unfold GoSet.toSlice
  have : ∀ (l acc : List T), l.foldl (fun ns v => ns ++ [v]) acc = acc ++ l := by
    intro l
    induction l with
    | nil => simp
    | cons x l ih => intro acc; rw [List.foldl_cons, ih]; simp
  simpa using this s.m []

/-- **C46, algebra**: union of any family, difference, symmetric difference, filter. -/
theorem C46_algebra (s s2 : GoSet T) (sets : List (GoSet T)) (p : T → Bool) :
    ((unionAll sets).Wf ∧ ∀ y, y ∈ (unionAll sets).m ↔ ∃ t ∈ sets, y ∈ t.m) ∧
    ((s.union s2).Wf ∧ ∀ y, y ∈ (s.union s2).m ↔ y ∈ s.m ∨ y ∈ s2.m) ∧
    ((s.diff s2).Wf ∧ ∀ y, y ∈ (s.diff s2).m ↔ y ∈ s.m ∧ y ∉ s2.m) ∧
    ((s.symDiff s2).Wf ∧ ∀ y, y ∈ (s.symDiff s2).m ↔ (y ∈ s.m ∧ y ∉ s2.m) ∨ (y ∈ s2.m ∧ y ∉ s.m)) ∧
    ((s.filter p).Wf ∧ ∀ y, y ∈ (s.filter p).m ↔ y ∈ s.m ∧ p y = true) ∧
    (∀ y, y ∈ s.toSlice ↔ y ∈ s.m) := by
  have hu : ∀ sets : List (GoSet T), (unionAll sets).Wf ∧ ∀ y, y ∈ (unionAll sets).m ↔ ∃ t ∈ sets, y ∈ t.m := by
    have gen : ∀ (sets : List (GoSet T)) (u : GoSet T), u.Wf → (sets.foldl (fun u s => s.m.foldl GoSet.add u) u).Wf ∧
        ∀ y, y ∈ (sets.foldl (fun u s => s.m.foldl GoSet.add u) u).m ↔ y ∈ u.m ∨ ∃ t ∈ sets, y ∈ t.m := by
      intro sets
      induction sets with
      | nil => intro u hw; exact ⟨hw, by simp⟩
      | cons t sets ih =>
        intro u hw
        rw [List.foldl_cons]
        have h1 := fold_add (fun _ => true) t.m u hw
        rw [← fold_add_true] at h1
        obtain ⟨h2, h3⟩ := ih _ h1.1
        refine ⟨h2, fun y => ?_⟩
        rw [h3, h1.2]
        simp [or_assoc]
    intro sets
    obtain ⟨h1, h2⟩ := gen sets (GoSet.new []) wf_empty
    exact ⟨h1, fun y => by unfold unionAll; rw [h2]; simp [mem_new_nil]⟩
  have hcond : ∀ (a : GoSet T), (fun (d : GoSet T) v => if a.has v = false then d.add v else d) =
      (fun d v => if (fun v => !a.has v) v then d.add v else d) := by
    intro a; funext d v; cases h : a.has v <;> simp [h]
  refine ⟨hu sets, ?_, ?_, ?_, ?_, ?_⟩
  · obtain ⟨h1, h2⟩ := hu [s, s2]
    exact ⟨h1, fun y => by unfold GoSet.union; rw [h2]; simp⟩
  · unfold GoSet.diff
    rw [hcond]
    obtain ⟨h1, h2⟩ := fold_add (fun v => !s2.has v) s.m (GoSet.new []) wf_empty
    exact ⟨h1, fun y => by rw [h2]; simp [mem_new_nil, GoSet.has]⟩
  · unfold GoSet.symDiff
    dsimp only
    rw [hcond, hcond]
    obtain ⟨h1, h2⟩ := fold_add (fun v => !s2.has v) s.m (GoSet.new []) wf_empty
    obtain ⟨h3, h4⟩ := fold_add (fun v => !s.has v) s2.m _ h1
    exact ⟨h3, fun y => by rw [h4, h2]; simp [mem_new_nil, GoSet.has]⟩
  · unfold GoSet.filter
    obtain ⟨h1, h2⟩ := fold_add p s.m (GoSet.new []) wf_empty
    exact ⟨h1, fun y => by rw [h2]; simp [mem_new_nil]⟩
  · intro y; rw [toSlice_eq]

/-- **C46, comparisons**: subset, equality, All. -/
theorem C46_compare (s s2 : GoSet T) (h : s.Wf) (h2 : s2.Wf) (p : T → Bool) :
    (s.isSubset s2 = true ↔ ∀ y ∈ s.m, y ∈ s2.m) ∧
    (s.equals s2 = true ↔ ∀ y, y ∈ s.m ↔ y ∈ s2.m) ∧
    (s.all p = true ↔ ∀ y ∈ s.m, p y = true) := by
  have hs : s.isSubset s2 = true ↔ ∀ y ∈ s.m, y ∈ s2.m := by simp [GoSet.isSubset, GoSet.has]
  refine ⟨hs, ?_, by simp [GoSet.all]⟩
  unfold GoSet.equals
  rw [Bool.and_eq_true, hs]
  constructor
  · rintro ⟨hc, hsub⟩ y
    refine ⟨hsub y, fun hy => ?_⟩
    have hc : s.m.length = s2.m.length := by simpa [GoSet.card] using hc
    apply Classical.byContradiction
    intro hny
    have : (y :: s.m).length ≤ s2.m.length := nodup_length_le (List.nodup_cons.mpr ⟨hny, h⟩) (by
      intro z hz
      rcases List.mem_cons.mp hz with rfl | hz
      · exact hy
      · exact hsub z hz)
    simp at this
    omega
  · intro he
    have : s.m.Perm s2.m := (List.perm_ext_iff_of_nodup h h2).mpr he
    exact ⟨by simpa [GoSet.card] using this.length_eq, fun y hy => (he y).mp hy⟩

theorem two_spec (s1 s2 : GoSet T) : (twoSetsIntersection s1 s2).Wf ∧
    ∀ y, y ∈ (twoSetsIntersection s1 s2).m ↔ y ∈ s1.m ∧ y ∈ s2.m := by
  have key : ∀ a b : GoSet T, (a.m.foldl (fun d v => if b.has v then d.add v else d) (GoSet.new [])).Wf ∧
      ∀ y, y ∈ (a.m.foldl (fun d v => if b.has v then d.add v else d) (GoSet.new [])).m ↔ y ∈ a.m ∧ y ∈ b.m := by
    intro a b
    obtain ⟨h1, h2⟩ := fold_add (fun v => b.has v) a.m (GoSet.new []) wf_empty
    exact ⟨h1, fun y => by rw [h2]; simp [mem_new_nil, GoSet.has]⟩
  unfold twoSetsIntersection
  dsimp only
  split
  · exact key s1 s2
  · obtain ⟨h1, h2⟩ := key s2 s1
    exact ⟨h1, fun y => by rw [h2, and_comm]⟩

/-- **C46, intersection, the part that holds**: when no argument after the first is empty, the elements of `Intersection` are
the common elements. Excluded: empty arguments (`C46_intersection_with_empty`). -/
theorem C46_intersection (s : GoSet T) (rest : List (GoSet T)) (h : s.Wf) (hne : ∀ t ∈ rest, t.m ≠ []) :
    (intersectAll (s :: rest)).Wf ∧ ∀ y, y ∈ (intersectAll (s :: rest)).m ↔ ∀ t ∈ s :: rest, y ∈ t.m := by
  have gen : ∀ (rest : List (GoSet T)) (acc : GoSet T), acc.Wf → (∀ t ∈ rest, t.m ≠ []) →
      (intersectLoop acc rest).Wf ∧ ∀ y, y ∈ (intersectLoop acc rest).m ↔ (y ∈ acc.m ∧ ∀ t ∈ rest, y ∈ t.m) := by
    intro rest
    induction rest with
    | nil => intro acc hw _; exact ⟨hw, by simp [intersectLoop]⟩
    | cons t rest ih =>
      intro acc hw hne
      unfold intersectLoop
      split
      · rename_i hc
        rcases hc with hc | hc
        · refine ⟨hw, fun y => ?_⟩
          have : acc.m = [] := List.eq_nil_of_length_eq_zero hc
          simp [this]
        · exact absurd (List.eq_nil_of_length_eq_zero hc) (hne t (by simp))
      · obtain ⟨h1, h2⟩ := two_spec acc t
        obtain ⟨h3, h4⟩ := ih _ h1 (fun t ht => hne t (by simp [ht]))
        refine ⟨h3, fun y => ?_⟩
        rw [h4, h2]
        simp [and_assoc]
  obtain ⟨h1, h2⟩ := gen rest s h hne
  exact ⟨h1, fun y => by unfold intersectAll; rw [h2]; simp⟩

example : (intersectAll [GoSet.new [1, 2, 3, 4], GoSet.new [2, 3, 4, 5], GoSet.new [3, 4]]).m = [3, 4] := by decide

/-- **C46 fails for the intersection with an empty set**: it is the first set, not the empty one. -/
theorem C46_intersection_with_empty (s : GoSet T) : s.intersect (GoSet.new []) = s := by
  show (if s.card = 0 ∨ (GoSet.new ([] : List T)).card = 0 then s else _) = s
  rw [if_pos (Or.inr (by simp [GoSet.card, GoSet.new]))]

/-- **C46 fails for Some**: it is `All`. On a set with an element that satisfies the predicate and one that does not, it
answers false; on the empty set, true. -/
theorem C46_some_is_all (s : GoSet T) (p : T → Bool) :
    s.some p = s.all p ∧ (∀ x ∈ s.m, p x = false → s.some p = false) ∧ (s.m = [] → s.some p = true) := by
  refine ⟨rfl, ?_, ?_⟩
  · intro x hx hp
    unfold GoSet.some
    rw [List.all_eq_false]
    exact ⟨x, hx, by simp [hp]⟩
  · intro h; unfold GoSet.some; rw [h]; rfl

example : (GoSet.new [1, 2]).some (fun x => x == 1) = false ∧ (GoSet.new [1, 2]).intersect (GoSet.new []) = GoSet.new [1, 2] := by decide

/-- **C46, Intersection exactly**: the sets from the first empty one on (other than the very first set) are ignored. So it is the mathematical
intersection iff no later set is empty or the sets before the first empty one have nothing in common. -/
theorem C46_intersection_exact (s : GoSet T) (rest : List (GoSet T)) (h : s.Wf) :
    (intersectAll (s :: rest)).Wf ∧
    (∀ y, y ∈ (intersectAll (s :: rest)).m ↔ ∀ t ∈ s :: rest.takeWhile (fun t => decide (t.m ≠ [])), y ∈ t.m) ∧
    ((∀ y, y ∈ (intersectAll (s :: rest)).m ↔ ∀ t ∈ s :: rest, y ∈ t.m) ↔
      (∀ t ∈ rest, t.m ≠ []) ∨ ¬ ∃ y, ∀ t ∈ s :: rest.takeWhile (fun t => decide (t.m ≠ [])), y ∈ t.m) := by
  have key : ∀ (rest : List (GoSet T)) (acc : GoSet T), acc.Wf → (intersectLoop acc rest).Wf ∧
      ∀ y, y ∈ (intersectLoop acc rest).m ↔ (y ∈ acc.m ∧ ∀ t ∈ rest.takeWhile (fun t => decide (t.m ≠ [])), y ∈ t.m) := by
    intro rest
    induction rest with
    | nil => intro acc hw; exact ⟨hw, by simp [intersectLoop]⟩
    | cons t rest ih =>
      intro acc hw
      unfold intersectLoop
      by_cases hacc : acc.m = []
      · rw [if_pos (Or.inl (by simp [GoSet.card, hacc]))]
        exact ⟨hw, by simp [hacc]⟩
      · by_cases ht : t.m = []
        · rw [if_pos (Or.inr (by simp [GoSet.card, ht]))]
          exact ⟨hw, by simp [ht]⟩
        · rw [if_neg (by simp [GoSet.card, hacc, ht])]
          obtain ⟨w2, m2⟩ := two_spec acc t
          obtain ⟨w3, m3⟩ := ih (twoSetsIntersection acc t) w2
          refine ⟨w3, fun y => ?_⟩
          rw [m3, m2, List.takeWhile_cons_of_pos (by simpa using ht)]
          simp [and_assoc]
  obtain ⟨k1, k2⟩ := key rest s h
  have k3 : ∀ y, y ∈ (intersectAll (s :: rest)).m ↔ ∀ t ∈ s :: rest.takeWhile (fun t => decide (t.m ≠ [])), y ∈ t.m := by
    intro y
    rw [List.forall_mem_cons]
    exact k2 y
  refine ⟨k1, k3, ?_⟩
  constructor
  · intro hall
    by_cases hne : ∀ t ∈ rest, t.m ≠ []
    · exact Or.inl hne
    · refine Or.inr ?_
      rintro ⟨y, hy⟩
      have h1 := (hall y).mp ((k3 y).mpr hy)
      apply hne
      intro t ht he
      have := h1 t (List.mem_cons_of_mem _ ht)
      rw [he] at this
      cases this
  · rintro (hne | hno) y
    · rw [k3]
      have : rest.takeWhile (fun t => decide (t.m ≠ [])) = rest := by
        clear k1 k2 k3
        induction rest with
        | nil => rfl
        | cons a l ih =>
          rw [List.takeWhile_cons_of_pos (by simpa using hne a (by simp)), ih (fun t ht => hne t (List.mem_cons_of_mem _ ht))]
      rw [this]
    · constructor
      · intro hy; exact absurd ⟨y, (k3 y).mp hy⟩ hno
      · intro hy
        refine (k3 y).mpr ?_
        intro t ht
        rcases List.mem_cons.mp ht with rfl | ht
        · exact hy _ (by simp)
        · exact hy t (List.mem_cons_of_mem _ ((List.takeWhile_subset _) ht))

omit [DecidableEq T] in
/-- **C46, Some exactly**: it answers right iff the predicate holds for some and for every element, or for none of a non-empty set. -/
theorem C46_some_exact (s : GoSet T) (p : T → Bool) :
    (s.some p = true ↔ ∃ y ∈ s.m, p y = true) ↔ (s.m ≠ [] ∧ ((∀ y ∈ s.m, p y = true) ∨ ∀ y ∈ s.m, p y = false)) := by
  have hs : s.some p = true ↔ ∀ y ∈ s.m, p y = true := by simp [GoSet.some]
  rw [hs]
  constructor
  · intro h
    have hne : s.m ≠ [] := by
      intro he
      obtain ⟨y, hy, _⟩ := h.mp (by rw [he]; intro y hy; cases hy)
      rw [he] at hy; cases hy
    refine ⟨hne, ?_⟩
    by_cases hall : ∀ y ∈ s.m, p y = true
    · exact Or.inl hall
    · refine Or.inr fun y hy => ?_
      cases hp : p y with
      | false => rfl
      | true => exact absurd (h.mpr ⟨y, hy, hp⟩) hall
  · rintro ⟨hne, h | h⟩
    · refine ⟨fun _ => ?_, fun _ => h⟩
      cases hm : s.m with
      | nil => exact absurd hm hne
      | cons y l => exact ⟨y, by simp, h y (by rw [hm]; simp)⟩
    · constructor
      · intro hall
        cases hm : s.m with
        | nil => exact absurd hm hne
        | cons y l =>
          have h1 := hall y (by rw [hm]; simp)
          rw [h y (by rw [hm]; simp)] at h1
          cases h1
      · rintro ⟨y, hy, hp⟩
        rw [h y hy] at hp; cases hp

end Vectory
