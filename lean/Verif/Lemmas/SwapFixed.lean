import Verif.Lemmas.Swap
import Verif.Model.SearchFixed
/-! The swap lemmas of `Lemmas/Swap.lean` for the repaired search. -/
namespace Vectory
variable {D : Type}

theorem root_mem' {E : Type} {l : List E} {x : E} (h : Heap.root l = some x) : x ∈ l := List.mem_of_head? h

section
variable {P Q : Vec → Prop} {S : D → Prop} {M M' : Metric D} (g : SameOn P Q S M M')
include g

theorem visitOneR_swap {nodes : AMap UInt64 Vertex} (hn : NodesIn Q nodes) {q : Vec} (hq : P q) (ef : Nat) {s : SL D} (hs : SLIn S s)
    (nid : UInt64) :
    visitOneR M' nodes q ef s nid = visitOneR M nodes q ef s nid ∧ ∀ s', visitOneR M nodes q ef s nid = .ok s' → SLIn S s' := by
  unfold visitOneR
  by_cases hv : nid ∈ s.visited
  · rw [if_pos hv, if_pos hv]
    exact ⟨rfl, fun s' h => by cases h; exact hs⟩
  · rw [if_neg hv, if_neg hv]
    cases hp : Heap.root s.nn with
    | none => exact ⟨rfl, fun _ h => by cases h⟩
    | some f =>
      dsimp only
      have hf : S f.dist := hs.2 f (root_mem' hp)
      rw [g.dist]
      cases hnb : nodeAt nodes nid with
      | error p => rw [error_bind, error_bind]; exact ⟨rfl, fun _ h => by cases h⟩
      | ok nb =>
        rw [ok_bind, ok_bind]
        cases hd : M.dist nb.vec q with
        | error p => rw [error_bind, error_bind]; exact ⟨rfl, fun _ h => by cases h⟩
        | ok d =>
          have hdS : S d := g.inS _ _ _ (hn.at hnb) hq hd
          rw [ok_bind, ok_bind, g.lt d f.dist hdS hf]
          split
          · have c1 := Heap.push_swap (x := ({ id := nid, dist := d } : Elem D)) g.minLess hs.1 hdS
            have c2 := Heap.push_swap (x := ({ id := nid, dist := d } : Elem D)) g.maxLess hs.2 hdS
            have i1 : ElemsIn S (Heap.push (Vectory.minLess M.lt) s.cands { id := nid, dist := d }) := hs.1.push hdS
            have i2 : ElemsIn S (Heap.push (Vectory.maxLess M.lt) s.nn { id := nid, dist := d }) := hs.2.push hdS
            rw [c1, c2, Heap.pop_swap g.maxLess i2]
            refine ⟨rfl, ?_⟩
            split
            · split
              · intro _ h; cases h
              · rename_i x nn' hpop
                intro s' h; cases h
                exact ⟨i1, (i2.pop hpop).2⟩
            · intro s' h; cases h; exact ⟨i1, i2⟩
          · exact ⟨rfl, fun s' h => by cases h; exact hs⟩

theorem visitAllR_swap {nodes : AMap UInt64 Vertex} (hn : NodesIn Q nodes) {q : Vec} (hq : P q) (ef : Nat) :
    ∀ (l : List UInt64) {s : SL D} (_ : SLIn S s),
      l.foldlM (visitOneR M' nodes q ef) s = l.foldlM (visitOneR M nodes q ef) s ∧
        ∀ s', l.foldlM (visitOneR M nodes q ef) s = .ok s' → SLIn S s' := by
  intro l
  induction l with
  | nil => intro s hs; exact ⟨rfl, fun s' h => by cases h; exact hs⟩
  | cons x l ih =>
    intro s hs
    obtain ⟨h1, h2⟩ := visitOneR_swap g hn hq ef hs x
    simp only [List.foldlM_cons]
    rw [h1]
    cases hv : visitOneR M nodes q ef s x with
    | error p => rw [error_bind, error_bind]; exact ⟨rfl, fun _ h => by cases h⟩
    | ok s1 =>
      rw [ok_bind, ok_bind]
      exact ih (h2 s1 hv)

theorem searchLoopR_swap {nodes : AMap UInt64 Vertex} (hn : NodesIn Q nodes) (b : Nat) {q : Vec} (hq : P q) (ef level : Nat) :
    ∀ (fuel : Nat) {s : SL D} (_ : SLIn S s),
      searchLoopR M' nodes b q ef level fuel s = searchLoopR M nodes b q ef level fuel s ∧
        ∀ s', searchLoopR M nodes b q ef level fuel s = .ok s' → SLIn S s' := by
  intro fuel
  induction fuel with
  | zero => intro s _; exact ⟨rfl, fun _ h => by cases h⟩
  | succ fuel ih =>
    intro s hs
    unfold searchLoopR
    rw [Heap.pop_swap g.minLess hs.1]
    cases hp : Heap.pop (Vectory.minLess M.lt) s.cands with
    | none => exact ⟨rfl, fun s' h => by cases h; exact hs⟩
    | some cr =>
      obtain ⟨c, rest⟩ := cr
      obtain ⟨hc, hrest⟩ := hs.1.pop hp
      dsimp only
      cases hf : Heap.root s.nn with
      | none => exact ⟨rfl, fun _ h => by cases h⟩
      | some f =>
        dsimp only
        rw [g.lt f.dist c.dist (hs.2 f (root_mem' hf)) hc]
        split
        · exact ⟨rfl, fun s' h => by cases h; exact ⟨hrest, hs.2⟩⟩
        · cases hcv : nodeAt nodes c.id with
          | error p => rw [error_bind, error_bind]; exact ⟨rfl, fun _ h => by cases h⟩
          | ok cv =>
            rw [ok_bind, ok_bind]
            cases hco : cv.connsAt level with
            | error p => rw [error_bind, error_bind]; exact ⟨rfl, fun _ h => by cases h⟩
            | ok conns =>
              rw [ok_bind, ok_bind]
              split
              · exact ⟨rfl, fun _ h => by cases h⟩
              · obtain ⟨h1, h2⟩ := visitAllR_swap g hn hq ef conns (s := { s with cands := rest }) ⟨hrest, hs.2⟩
                rw [h1]
                cases hv : conns.foldlM (visitOneR M nodes q ef) { s with cands := rest } with
                | error p => rw [error_bind, error_bind]; exact ⟨rfl, fun _ h => by cases h⟩
                | ok s1 =>
                  rw [ok_bind, ok_bind]
                  exact ih (h2 s1 hv)

theorem searchLayerR_swap {nodes : AMap UInt64 Vertex} (hn : NodesIn Q nodes) (b : Nat) {q : Vec} (hq : P q) {eps : List (Elem D)}
    (he : ElemsIn S eps) (ef level : Nat) :
    searchLayerR M' nodes b q eps ef level = searchLayerR M nodes b q eps ef level ∧
      ∀ r, searchLayerR M nodes b q eps ef level = .ok r → ElemsIn S r := by
  unfold searchLayerR
  split
  · exact ⟨rfl, fun _ h => by cases h⟩
  · rw [newMinHeap_swap g he, newMaxHeap_swap g he]
    obtain ⟨h1, h2⟩ := searchLoopR_swap g hn b hq ef level (nodes.length + eps.length + 1)
      (s := { visited := eps.map Elem.id, cands := newMinHeap M.lt eps, nn := newMaxHeap M.lt eps })
      ⟨he.perm (Heap.init_perm _ _), he.perm (Heap.init_perm _ _)⟩
    rw [h1]
    refine ⟨rfl, ?_⟩
    intro r h
    obtain ⟨s, hs, hr⟩ := (bind_ok_iff _ _ _).mp h
    cases hr
    exact (h2 s hs).2

theorem descendR_swap {nodes : AMap UInt64 Vertex} (hn : NodesIn Q nodes) (b : Nat) {q : Vec} (hq : P q) (to : Nat) :
    ∀ (n : Nat) {eps : List (Elem D)} (_ : ElemsIn S eps),
      descendR M' nodes b q to n eps = descendR M nodes b q to n eps ∧ ∀ r, descendR M nodes b q to n eps = .ok r → ElemsIn S r := by
  intro n
  induction n with
  | zero => intro eps h; exact ⟨rfl, fun r hr => by cases hr; exact h⟩
  | succ n ih =>
    intro eps h
    unfold descendR
    obtain ⟨h1, h2⟩ := searchLayerR_swap g hn b hq h 1 (to + n + 1)
    rw [h1]
    cases hs : searchLayerR M nodes b q eps 1 (to + n + 1) with
    | error p => rw [error_bind, error_bind]; exact ⟨rfl, fun _ h => by cases h⟩
    | ok nns =>
      rw [ok_bind, ok_bind]
      cases nns with
      | nil => exact ⟨rfl, fun _ h => by cases h⟩
      | cons e es =>
        exact ih (fun x hx => by simp at hx; subst hx; exact h2 _ hs _ (by simp))

/-- the search is the same. -/
theorem searchR_swap {h : Hnsw} (hn : NodesIn Q h.nodes) {q : Vec} (hq : P q) (k : Int) : h.searchR M' q k = h.searchR M q k := by
  unfold Hnsw.searchR
  split
  · rfl
  · rw [g.dist]
    cases hv : nodeAt h.nodes h.entry with
    | error p => rw [error_bind, error_bind]
    | ok epv =>
      rw [ok_bind, ok_bind]
      cases hd : M.dist epv.vec q with
      | error p => rw [error_bind, error_bind]
      | ok d =>
        rw [ok_bind, ok_bind]
        have he : ElemsIn S [({ id := h.entry, dist := d } : Elem D)] := by
          intro e he; simp at he; subst he; exact g.inS _ _ _ (hn.at hv) hq hd
        obtain ⟨h1, h2⟩ := descendR_swap g hn h.cfg.mMax0 hq 0 h.maxLayer he
        rw [h1]
        cases hde : descendR M h.nodes h.cfg.mMax0 q 0 h.maxLayer [{ id := h.entry, dist := d }] with
        | error p => rw [error_bind, error_bind]
        | ok eps =>
          rw [ok_bind, ok_bind]
          obtain ⟨h3, h4⟩ := searchLayerR_swap g hn h.cfg.mMax0 hq (h2 eps hde) h.cfg.ef 0
          rw [h3]
          cases hsl : searchLayerR M h.nodes h.cfg.mMax0 q eps h.cfg.ef 0 with
          | error p => rw [error_bind, error_bind]
          | ok nns =>
            rw [ok_bind, ok_bind]
            dsimp only
            rw [newMinHeap_swap g (h4 nns hsl), takeLive_swap g _ _ _ (l := newMinHeap M.lt nns) ((h4 nns hsl).perm (Heap.init_perm _ _))]

end
end Vectory
