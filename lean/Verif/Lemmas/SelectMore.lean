import Verif.Lemmas.Order
/-! Which candidates the two selection strategies pick, and in which order. -/
namespace Vectory
variable {D : Type}

/-- popping a heap until it is empty yields `s`. -/
inductive Drains (lt : Elem D → Elem D → Bool) : List (Elem D) → List (Elem D) → Prop where
  | nil : Drains lt [] []
  | cons {h rest s : List (Elem D)} {e : Elem D} : Heap.pop lt h = some (e, rest) → Drains lt rest s → Drains lt h (e :: s)

theorem drains_exists {lt : Elem D → Elem D → Bool} (w : Heap.WeakOrder lt) :
    ∀ (n : Nat) (h : List (Elem D)), h.length = n → Heap.IsHeap lt h →
      ∃ s, Drains lt h s ∧ s.Perm h ∧ s.Pairwise (fun a b => lt b a = false) := by
  intro n
  induction n with
  | zero =>
    intro h hl _
    have : h = [] := List.eq_nil_of_length_eq_zero hl
    subst this
    exact ⟨[], .nil, .refl _, .nil⟩
  | succ n ih =>
    intro h hl hh
    have hne : h ≠ [] := by intro h0; rw [h0] at hl; simp at hl
    obtain ⟨e, rest, hp, _⟩ := Heap.pop_eq lt h hne
    obtain ⟨hr, hmin⟩ := Heap.pop_heap w h hh e rest hp
    have hperm := Heap.pop_perm lt h e rest hp
    obtain ⟨s, h1, h2, h3⟩ := ih rest (by have := Heap.pop_length lt h e rest hp; omega) hr
    refine ⟨e :: s, .cons hp h1, (List.Perm.cons e h2).trans hperm.symm, ?_⟩
    refine List.pairwise_cons.mpr ⟨fun b hb => ?_, h3⟩
    exact hmin b (hperm.symm.subset (List.mem_cons_of_mem _ (h2.subset hb)))

theorem popN_drains {lt : Elem D → Elem D → Bool} {h s : List (Elem D)} (d : Drains lt h s) :
    ∀ n, n ≤ s.length → popN lt n h = .ok ((s.take n).map Elem.id) := by
  induction d with
  | nil => intro n hn; simp at hn; subst hn; rfl
  | cons hp _ ih =>
    intro n hn
    cases n with
    | zero => rfl
    | succ n =>
      unfold popN
      rw [hp]
      dsimp only
      rw [ih n (by simpa using hn)]
      rfl

/-- the simple strategy picks the `m` nearest candidates in order. -/
theorem selectSimple_sorted {M : Metric D} (w : Ord M.lt) (cands : List (Elem D)) (m : Nat) :
    ∃ s : List (Elem D), s.Perm cands ∧ s.Pairwise (fun a b => Le M.lt a.dist b.dist) ∧
      selectNeighborsSimple M cands m = .ok ((s.take m).map Elem.id) := by
  obtain ⟨s, h1, h2, h3⟩ := drains_exists w.min _ (newMinHeap M.lt cands) rfl (Heap.init_heap w.min cands)
  have hp : s.Perm cands := h2.trans (Heap.init_perm _ _)
  refine ⟨s, hp, h3, ?_⟩
  unfold selectNeighborsSimple
  have hl := hp.length_eq
  rw [popN_drains h1 _ (by rw [hl]; exact Nat.min_le_right ..), ← hl]
  congr 2
  rcases Nat.le_total m s.length with h | h
  · rw [Nat.min_eq_left h]
  · rw [Nat.min_eq_right h, List.take_length, List.take_of_length_le h]

/-- does a chosen vertex `r` stand closer to the candidate `e` than the base vertex does? -/
def Shadows (M : Metric D) (nodes : AMap UInt64 Vertex) (r e : Elem D) : Prop :=
  ∃ (ve vr : Vertex) (d : D), AMap.get? nodes e.id = some ve ∧ AMap.get? nodes r.id = some vr ∧
    M.dist ve.vec vr.vec = .ok d ∧ M.lt d e.dist = true

theorem dominated_iff {M : Metric D} {nodes : AMap UInt64 Vertex} {e : Elem D} :
    ∀ {rs : List (Elem D)} {b : Bool}, dominated M nodes e (rs.map Elem.id) = .ok b →
      (b = true ↔ ∃ r ∈ rs, Shadows M nodes r e) := by
  intro rs
  induction rs with
  | nil => intro b h; cases h; simp
  | cons r rs ih =>
    intro b h
    rw [List.map_cons] at h
    unfold dominated at h
    obtain ⟨ev, h1, h⟩ := (bind_ok_iff _ _ _).mp h
    obtain ⟨rv, h2, h⟩ := (bind_ok_iff _ _ _).mp h
    obtain ⟨d, h3, h⟩ := (bind_ok_iff _ _ _).mp h
    have h1 := nodeAt_eq_ok.mp h1
    have h2 := nodeAt_eq_ok.mp h2
    split at h
    · rename_i hlt
      cases h
      simp only [true_iff]
      exact ⟨r, List.mem_cons_self .., ev, rv, d, h1, h2, h3, hlt⟩
    · rename_i hlt
      rw [ih h]
      constructor
      · rintro ⟨x, hx, hs⟩; exact ⟨x, List.mem_cons_of_mem _ hx, hs⟩
      · rintro ⟨x, hx, hs⟩
        rcases List.mem_cons.mp hx with rfl | hx
        · obtain ⟨ve, vr, d', g1, g2, g3, g4⟩ := hs
          rw [h1] at g1; cases g1
          rw [h2] at g2; cases g2
          rw [h3] at g3; cases g3
          exact absurd g4 hlt
        · exact ⟨x, hx, hs⟩

/-- the heuristic over the sorted candidates `s`: `es` is what is chosen. -/
theorem heuristic_drains {M : Metric D} {nodes : AMap UInt64 Vertex} {m : Nat} {h s : List (Elem D)}
    (d : Drains (minLess M.lt) h s) :
    ∀ (fuel : Nat) (pre : List (Elem D)) (r : List UInt64), s.length ≤ fuel →
      heuristicLoop M nodes m fuel h (pre.map Elem.id) = .ok r →
      ∃ es, es.Sublist s ∧ r = (pre ++ es).map Elem.id ∧
        (∀ a ∈ pre, ∀ e ∈ es, ¬ Shadows M nodes a e) ∧ es.Pairwise (fun a b => ¬ Shadows M nodes a b) ∧
        (m ≤ (pre ++ es).length ∨ ∀ e ∈ s, e ∈ es ∨ ∃ a ∈ pre ++ es, Shadows M nodes a e) ∧
        (pre = [] → 0 < m → es.head? = s.head?) := by
  induction d with
  | nil =>
    intro fuel pre r _ hr
    refine ⟨[], .refl _, ?_, by simp, .nil, Or.inr (by simp), fun _ _ => rfl⟩
    cases fuel with
    | zero => cases hr; simp
    | succ fuel =>
      unfold heuristicLoop at hr
      split at hr
      · cases hr; simp
      · have : Heap.pop (minLess M.lt) ([] : List (Elem D)) = none := (Heap.pop_none _ _).mpr rfl
        rw [this] at hr; cases hr; simp
  | @cons h rest s e hp _ ih =>
    intro fuel pre r hf hr
    cases fuel with
    | zero => simp at hf
    | succ fuel =>
      unfold heuristicLoop at hr
      split at hr
      · rename_i hm
        cases hr
        exact ⟨[], List.nil_sublist _, by simp, by simp, .nil, Or.inl (by simpa using hm), fun h0 h1 => by rw [h0] at hm; simp at hm; omega⟩
      · rw [hp] at hr
        dsimp only at hr
        obtain ⟨b, hb, hr⟩ := (bind_ok_iff _ _ _).mp hr
        have hdom := dominated_iff hb
        cases b with
        | true =>
          rw [if_pos rfl] at hr
          obtain ⟨es, g1, g2, g3, g4, g5, _⟩ := ih fuel pre r (by simpa using hf) hr
          refine ⟨es, g1.cons _, g2, g3, g4, ?_, fun h0 _ => by obtain ⟨a, ha, _⟩ := hdom.mp rfl; rw [h0] at ha; simp at ha⟩
          rcases g5 with g5 | g5
          · exact Or.inl g5
          · refine Or.inr fun x hx => ?_
            rcases List.mem_cons.mp hx with rfl | hx
            · obtain ⟨a, ha, hs⟩ := hdom.mp rfl
              exact Or.inr ⟨a, List.mem_append_left _ ha, hs⟩
            · exact g5 x hx
        | false =>
          rw [if_neg (by simp)] at hr
          have : List.map Elem.id pre ++ [e.id] = (pre ++ [e]).map Elem.id := by simp
          rw [this] at hr
          obtain ⟨es, g1, g2, g3, g4, g5, _⟩ := ih fuel (pre ++ [e]) r (by simpa using hf) hr
          have hne : ¬ ∃ r ∈ pre, Shadows M nodes r e := by
            intro hh; have := hdom.mpr hh; cases this
          refine ⟨e :: es, g1.cons_cons _, by rw [g2]; simp, ?_, ?_, ?_, fun _ _ => rfl⟩
          · intro a ha x hx
            rcases List.mem_cons.mp hx with rfl | hx
            · exact fun hs => hne ⟨a, ha, hs⟩
            · exact g3 a (List.mem_append_left _ ha) x hx
          · exact List.pairwise_cons.mpr ⟨fun x hx => g3 e (by simp) x hx, g4⟩
          · rcases g5 with g5 | g5
            · exact Or.inl (by simpa using g5)
            · refine Or.inr fun x hx => ?_
              rcases List.mem_cons.mp hx with rfl | hx
              · exact Or.inl (List.mem_cons_self ..)
              · rcases g5 x hx with g | ⟨a, ha, hs⟩
                · exact Or.inl (List.mem_cons_of_mem _ g)
                · exact Or.inr ⟨a, by simpa using ha, hs⟩

theorem selectHeuristic_greedy {M : Metric D} (w : Ord M.lt) {nodes : AMap UInt64 Vertex} {cands : List (Elem D)} {m : Nat}
    {r : List UInt64} (hr : selectNeighborsHeuristic M nodes cands m = .ok r) :
    ∃ s es : List (Elem D), s.Perm cands ∧ s.Pairwise (fun a b => Le M.lt a.dist b.dist) ∧ es.Sublist s ∧
      r = es.map Elem.id ∧ es.Pairwise (fun a b => ¬ Shadows M nodes a b) ∧
      (m ≤ es.length ∨ ∀ e ∈ s, e ∈ es ∨ ∃ a ∈ es, Shadows M nodes a e) ∧ (0 < m → es.head? = s.head?) := by
  obtain ⟨s, h1, h2, h3⟩ := drains_exists w.min _ (newMinHeap M.lt cands) rfl (Heap.init_heap w.min cands)
  have hp : s.Perm cands := h2.trans (Heap.init_perm _ _)
  unfold selectNeighborsHeuristic at hr
  obtain ⟨es, g1, g2, g3, g4, g5, g6⟩ := heuristic_drains h1 cands.length [] r (by rw [hp.length_eq]; exact Nat.le_refl _) hr
  exact ⟨s, es, hp, h3, g1, by simpa using g2, g4, by simpa using g5, g6 rfl⟩

end Vectory
