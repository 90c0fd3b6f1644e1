import Verif.Props.Heap
import Verif.Props.Index
import Verif.Lemmas.SwapColl
/-! # Heaps and neighbour selection when only the elements at hand can be compared: C25, C43 -/
namespace Vectory
open Spec
variable {D : Type}

theorem pairwise_with {α : Type} {R : α → α → Prop} {l : List α} (h : l.Pairwise R) :
    l.Pairwise (fun a b => a ∈ l ∧ b ∈ l ∧ R a b) := h.imp_of_mem (fun ha hb hab => ⟨ha, hb, hab⟩)

/-- the elements that calls push. -/
def pushed {E : Type} : List (QOp E) → List E
  | [] => []
  | .push x :: ops => x :: pushed ops
  | .pop :: ops => pushed ops

theorem heapRun_swap {E : Type} {T : E → Prop} {lt lt' : E → E → Bool} (ag : Heap.AgreeOn T lt lt') :
    ∀ (ops : List (QOp E)) (l : List E), (∀ a ∈ l, T a) → (∀ a ∈ pushed ops, T a) → heapRun lt' l ops = heapRun lt l ops := by
  intro ops
  induction ops with
  | nil => intro l _ _; rfl
  | cons op ops ih =>
    intro l hl hp
    cases op with
    | push x =>
      simp only [heapRun, pushed] at hp ⊢
      rw [Heap.push_swap ag hl (hp x (by simp))]
      refine ih _ ?_ (fun a ha => hp a (by simp [ha]))
      intro a ha
      rcases List.mem_cons.mp ((Heap.push_perm lt l x).mem_iff.mp ha) with h | h
      · rw [h]; exact hp x (by simp)
      · exact hl a h
    | pop =>
      simp only [heapRun, pushed] at hp ⊢
      rw [Heap.pop_swap ag hl]
      cases hq : Heap.pop lt l with
      | none => rfl
      | some r =>
        obtain ⟨x, rest⟩ := r
        dsimp only
        rw [ih rest (fun a ha => hl a ((Heap.pop_perm lt l x rest hq).mem_iff.mpr (by simp [ha]))) hp]

theorem Queue.uncmp {E : Type} {T : E → Prop} {lt lt' : E → E → Bool} (ag : Heap.AgreeOn T lt lt') {b : List E} {ops : List (QOp E)}
    {outs : List (Option E)} (h : Queue lt' b ops outs) (hb : ∀ a ∈ b, T a) (hp : ∀ a ∈ pushed ops, T a) : Queue lt b ops outs := by
  induction h with
  | done => exact .done _
  | push _ ih =>
    simp only [pushed] at hp
    refine .push (ih (fun a ha => ?_) (fun a ha => hp a (by simp [ha])))
    rcases List.mem_cons.mp ha with h | h
    · rw [h]; exact hp _ (by simp)
    · exact hb a h
  | pop q hm _ ih =>
    refine .pop q (fun y hy => ?_) (ih (fun a ha => hb a (q.mem_iff.mpr (by simp [ha]))) hp)
    rw [← ag y _ (hb y hy) (hb _ (q.mem_iff.mpr (by simp)))]
    exact hm y hy
  | empty => exact .empty

/-- C25: it is enough that the elements that are ever in the heap can be compared with each other. -/
theorem C25_comparable {E : Type} (lt : E → E → Bool) (s : List E) (ops : List (QOp E))
    (w : OrdOn (fun x => x ∈ s ∨ x ∈ pushed ops) lt) : Queue lt s ops (heapRun lt (Heap.init lt s) ops) := by
  have ag : Heap.AgreeOn (fun x => x ∈ s ∨ x ∈ pushed ops) lt (cmp (fun x => x ∈ s ∨ x ∈ pushed ops) lt) := fun a b ha hb => cmp_eq ha hb
  have h := C25_heap_is_queue _ (cmp_ord w) s ops
  rw [Heap.init_swap ag (fun a ha => Or.inl ha), heapRun_swap ag ops _ (fun a ha => Or.inl ((Heap.init_perm lt s).mem_iff.mp ha))
    (fun a ha => Or.inr ha)] at h
  exact Queue.uncmp ag h (fun a ha => Or.inl ha) (fun a ha => Or.inr ha)

/-- C25 for the two heaps of the index: it is enough that the distances that are ever in the heap can be compared. -/
theorem C25_comparable_distances (lt : D → D → Bool) (s : List (Elem D)) (ops : List (QOp (Elem D)))
    (w : OrdOn (fun d => ∃ e, (e ∈ s ∨ e ∈ pushed ops) ∧ e.dist = d) lt) :
    Queue (fun a b => lt a.dist b.dist) s ops (heapRun (minLess lt) (newMinHeap lt s) ops) ∧
    Queue (fun a b => lt b.dist a.dist) s ops (heapRun (maxLess lt) (newMaxHeap lt s) ops) := by
  refine ⟨C25_comparable (minLess lt) s ops ⟨fun a b ha hb => w.asymm _ _ ⟨a, ha, rfl⟩ ⟨b, hb, rfl⟩,
      fun a b c ha hb hc => w.negTrans _ _ _ ⟨a, ha, rfl⟩ ⟨b, hb, rfl⟩ ⟨c, hc, rfl⟩⟩,
    C25_comparable (maxLess lt) s ops ⟨fun a b ha hb => w.asymm _ _ ⟨b, hb, rfl⟩ ⟨a, ha, rfl⟩,
      fun a b c ha hb hc h1 h2 => w.negTrans _ _ _ ⟨c, hc, rfl⟩ ⟨b, hb, rfl⟩ ⟨a, ha, rfl⟩ h2 h1⟩⟩

/-- C43, simple strategy, when the distances of the candidates can be compared. -/
theorem C43_simple_comparable (M : Metric D) (cfg : Cfg) (hh : cfg.heuristic = false) (nodes : AMap UInt64 Vertex)
    (cands : List (Elem D)) (m : Nat) (w : OrdOn (fun d => ∃ e ∈ cands, e.dist = d) M.lt) :
    ∃ s : List (Elem D), s.Perm cands ∧ s.Pairwise (fun a b => Le M.lt a.dist b.dist) ∧
      selectNeighbors M cfg nodes cands m = .ok ((s.take m).map Elem.id) := by
  generalize hS : (fun d => ∃ e ∈ cands, e.dist = d) = S at w
  have hC : ElemsIn S cands := fun e he => by rw [← hS]; exact ⟨e, he, rfl⟩
  have ag : SameOn (fun _ => False) (fun _ => False) S M { M with lt := cmp S M.lt } :=
    ⟨rfl, fun _ _ _ h => h.elim, fun _ _ ha hb => cmp_eq ha hb⟩
  obtain ⟨s, h1, h2, h3⟩ := C43_simple { M with lt := cmp S M.lt } (cmp_ord w) cfg hh nodes cands m
  refine ⟨s, h1, (pairwise_with h2).imp (fun ⟨ha, hb, hab⟩ => (le_cmp (hC _ (h1.mem_iff.mp ha)) (hC _ (h1.mem_iff.mp hb))).mp hab), ?_⟩
  rw [← h3]
  unfold selectNeighbors selectNeighborsSimple
  rw [hh]
  rw [newMinHeap_swap ag hC]
  have h' := hC.perm (Heap.init_perm (minLess M.lt) cands)
  have h4 := popN_swap ag (min m cands.length) h'
  simp only [Bool.false_eq_true, if_false]
  exact h4.symm

/-- C43, heuristic strategy, when the distances of the candidates and those between stored vectors can be compared. -/
theorem C43_heuristic_comparable (M : Metric D) (cfg : Cfg) (hh : cfg.heuristic = true) (nodes : AMap UInt64 Vertex)
    (cands : List (Elem D)) (m : Nat) (r : List UInt64)
    (w : OrdOn (fun d => (∃ e ∈ cands, e.dist = d) ∨ ∃ x y vx vy, nodes.get? x = some vx ∧ nodes.get? y = some vy ∧ M.dist vx.vec vy.vec = .ok d) M.lt)
    (h : selectNeighbors M cfg nodes cands m = .ok r) :
    ∃ es : List (Elem D), r = es.map Elem.id ∧ (∀ e ∈ es, e ∈ cands) ∧
      es.Pairwise (fun a b => Le M.lt a.dist b.dist) ∧
      es.Pairwise (fun a b => ∀ (va vb : Vertex) (d : D), AMap.get? nodes a.id = some va → AMap.get? nodes b.id = some vb →
        M.dist vb.vec va.vec = .ok d → Le M.lt b.dist d) ∧
      (0 < m → cands ≠ [] → ∃ e rest, es = e :: rest ∧ ∀ x ∈ cands, Le M.lt e.dist x.dist) ∧
      (∀ x ∈ cands, x ∈ es ∨ m ≤ es.length ∨ ∃ a ∈ es, ∃ (va vx : Vertex) (d : D), AMap.get? nodes a.id = some va ∧
        AMap.get? nodes x.id = some vx ∧ M.dist vx.vec va.vec = .ok d ∧ M.lt d x.dist = true) := by
  generalize hS : (fun d => (∃ e ∈ cands, e.dist = d) ∨ ∃ x y vx vy, nodes.get? x = some vx ∧ nodes.get? y = some vy ∧ M.dist vx.vec vy.vec = .ok d) = S at w
  have s1 : ∀ e ∈ cands, S e.dist := fun e he => by rw [← hS]; exact Or.inl ⟨e, he, rfl⟩
  have s2 : ∀ x y vx vy d, nodes.get? x = some vx → nodes.get? y = some vy → M.dist vx.vec vy.vec = .ok d → S d :=
    fun x y vx vy d h1 h2 h3 => by rw [← hS]; exact Or.inr ⟨x, y, vx, vy, h1, h2, h3⟩
  have ag : SameOn (fun v => ∃ x vx, nodes.get? x = some vx ∧ vx.vec = v) (fun v => ∃ x vx, nodes.get? x = some vx ∧ vx.vec = v) S M
      { M with lt := cmp S M.lt } := by
    refine ⟨rfl, ?_, fun _ _ ha hb => cmp_eq ha hb⟩
    rintro _ _ d ⟨x, vx, h1, rfl⟩ ⟨y, vy, h2, rfl⟩ h3
    exact s2 x y vx vy d h1 h2 h3
  have h' : selectNeighbors { M with lt := cmp S M.lt } cfg nodes cands m = .ok r := by
    rw [selectNeighbors_swap ag cfg (fun id v hv => ⟨id, v, hv, rfl⟩) s1 m]; exact h
  obtain ⟨es, e1, e2, e3, e4, e5, e6⟩ := C43_heuristic { M with lt := cmp S M.lt } (cmp_ord w) cfg hh nodes cands m r h'
  refine ⟨es, e1, e2, ?_, ?_, ?_, ?_⟩
  · exact (pairwise_with e3).imp (fun ⟨ha, hb, hab⟩ => (le_cmp (s1 _ (e2 _ ha)) (s1 _ (e2 _ hb))).mp hab)
  · refine (pairwise_with e4).imp (fun ⟨ha, hb, hab⟩ va vb d g1 g2 g3 => ?_)
    exact (le_cmp (s1 _ (e2 _ hb)) (s2 _ _ _ _ _ g2 g1 g3)).mp (hab va vb d g1 g2 g3)
  · intro hm hne
    obtain ⟨e, rest, g1, g2⟩ := e5 hm hne
    exact ⟨e, rest, g1, fun x hx => (le_cmp (s1 _ (e2 _ (by rw [g1]; simp))) (s1 _ hx)).mp (g2 x hx)⟩
  · intro x hx
    rcases e6 x hx with g | g | ⟨a, ha, va, vx, d, g1, g2, g3, g4⟩
    · exact Or.inl g
    · exact Or.inr (Or.inl g)
    · refine Or.inr (Or.inr ⟨a, ha, va, vx, d, g1, g2, g3, ?_⟩)
      have g4' : cmp S M.lt d x.dist = true := g4
      rwa [cmp_eq (s2 _ _ _ _ _ g2 g1 g3) (s1 _ hx)] at g4'

/-- an order on the numbers below ten only: ten compares with nothing, like NaN. -/
def ltBelowTen (a b : Nat) : Bool := decide (a < b ∧ b < 10)

example : ¬ Ord ltBelowTen ∧ OrdOn (fun d => ∃ e, (e ∈ [⟨0, 5⟩, ⟨1, 3⟩] ∨ e ∈ pushed [QOp.pop, .push (⟨2, 4⟩ : Elem Nat)]) ∧ e.dist = d) ltBelowTen := by
  constructor
  · intro w
    have := w.negTrans 5 10 3 (by decide) (by decide)
    exact absurd this (by decide)
  · have key : ∀ d, (∃ e, (e ∈ [⟨0, 5⟩, ⟨1, 3⟩] ∨ e ∈ pushed [QOp.pop, .push (⟨2, 4⟩ : Elem Nat)]) ∧ e.dist = d) → d < 10 := by
      rintro d ⟨e, he, rfl⟩
      simp only [pushed, List.mem_cons, List.not_mem_nil, or_false] at he
      rcases he with (rfl | rfl) | rfl <;> decide
    refine ⟨fun a b ha hb h => ?_, fun a b c ha hb hc h1 h2 => ?_⟩
    · have := key a ha; have := key b hb
      simp only [ltBelowTen, decide_eq_true_eq, decide_eq_false_iff_not] at *
      omega
    · have := key a ha; have := key b hb; have := key c hc
      simp only [ltBelowTen, decide_eq_false_iff_not] at *
      omega

end Vectory
