import Verif.Lemmas.SelectMore
import Verif.Lemmas.Ops
/-! A search that returns only returns what can be reached from the entry point; no invariant is needed. -/
namespace Vectory
variable {D : Type} {M : Metric D} {nodes : AMap UInt64 Vertex} {R : UInt64 → Prop}

/-- links lead from `R` to `R` only. -/
def LinksWithin (nodes : AMap UInt64 Vertex) (R : UInt64 → Prop) : Prop :=
  ∀ (x : UInt64) (v : Vertex) (l : Nat) (c : List UInt64), nodes.get? x = some v → v.conns[l]? = some c → R x → ∀ n ∈ c, R n

def SL.within (R : UInt64 → Prop) (s : SL D) : Prop := (∀ e ∈ s.cands, R e.id) ∧ ∀ e ∈ s.nn, R e.id

theorem visitOne_within {q : Vec} {ef : Nat} {s s' : SL D} {nid : UInt64} (h : visitOne M nodes q ef s nid = .ok s')
    (hs : s.within R) (hn : R nid) : s'.within R := by
  unfold visitOne at h
  split at h
  · cases h; exact hs
  · split at h
    · cases h
    · cases h1 : nodeAt nodes nid with
      | error p => rw [h1] at h; cases h
      | ok nb =>
        rw [h1, ok_bind] at h
        cases h2 : M.dist nb.vec q with
        | error p => rw [h2] at h; cases h
        | ok d =>
          rw [h2, ok_bind] at h
          have hc : ∀ e ∈ Heap.push (minLess M.lt) s.cands ⟨nid, d⟩, R e.id := by
            intro e he
            rcases List.mem_cons.mp ((Heap.push_perm _ _ _).mem_iff.mp he) with rfl | he
            · exact hn
            · exact hs.1 e he
          have hnn : ∀ e ∈ Heap.push (maxLess M.lt) s.nn ⟨nid, d⟩, R e.id := by
            intro e he
            rcases List.mem_cons.mp ((Heap.push_perm _ _ _).mem_iff.mp he) with rfl | he
            · exact hn
            · exact hs.2 e he
          split at h
          · dsimp only at h
            split at h
            · split at h
              · cases h
              · rename_i hp
                cases h
                exact ⟨hc, fun e he => hnn e ((Heap.pop_perm _ _ _ _ hp).mem_iff.mpr (List.mem_cons_of_mem _ he))⟩
            · cases h; exact ⟨hc, hnn⟩
          · cases h; exact hs

theorem visitAll_within {q : Vec} {ef : Nat} : ∀ (c : List UInt64) (s s' : SL D),
    c.foldlM (visitOne M nodes q ef) s = .ok s' → s.within R → (∀ n ∈ c, R n) → s'.within R := by
  intro c
  induction c with
  | nil => intro s s' h hs _; cases h; exact hs
  | cons n c ih =>
    intro s s' h hs hc
    rw [List.foldlM_cons] at h
    obtain ⟨s1, h1, h2⟩ := (bind_ok_iff _ _ _).mp h
    exact ih s1 s' h2 (visitOne_within h1 hs (hc n (by simp))) (fun x hx => hc x (List.mem_cons_of_mem _ hx))

theorem searchLoop_within {q : Vec} {b ef level : Nat} (hR : LinksWithin nodes R) : ∀ (fuel : Nat) (s s' : SL D),
    searchLoop M nodes b q ef level fuel s = .ok s' → s.within R → s'.within R := by
  intro fuel
  induction fuel with
  | zero => intro s s' h _; cases h
  | succ fuel ih =>
    intro s s' h hs
    unfold searchLoop at h
    cases hp : Heap.pop (minLess M.lt) s.cands with
    | none => rw [hp] at h; cases h; exact hs
    | some p =>
      obtain ⟨c, rest⟩ := p
      rw [hp] at h
      dsimp only at h
      have hperm := Heap.pop_perm _ _ _ _ hp
      have hrest : ∀ e ∈ rest, R e.id := fun e he => hs.1 e (hperm.mem_iff.mpr (List.mem_cons_of_mem _ he))
      split at h
      · cases h
      · split at h
        · cases h; exact ⟨hrest, hs.2⟩
        · obtain ⟨cv, h1, h⟩ := (bind_ok_iff _ _ _).mp h
          obtain ⟨conns, h2, h⟩ := (bind_ok_iff _ _ _).mp h
          split at h
          · cases h
          · obtain ⟨s1, h3, h⟩ := (bind_ok_iff _ _ _).mp h
            have hcv := nodeAt_eq_ok.mp h1
            have hcc : cv.conns[level]? = some conns := by
              unfold Vertex.connsAt at h2
              split at h2
              · rename_i hx; cases h2; exact hx
              · cases h2
            exact ih s1 s' h (visitAll_within conns _ _ h3 ⟨hrest, hs.2⟩
              (hR c.id cv level conns hcv hcc (hs.1 c (hperm.mem_iff.mpr (by simp)))))

theorem searchLayer_within {q : Vec} {b ef level : Nat} {eps r : List (Elem D)} (hR : LinksWithin nodes R)
    (h : searchLayer M nodes b q eps ef level = .ok r) (he : ∀ e ∈ eps, R e.id) : ∀ e ∈ r, R e.id := by
  unfold searchLayer at h
  split at h
  · cases h
  · obtain ⟨s, h1, h⟩ := (bind_ok_iff _ _ _).mp h
    cases h
    refine (searchLoop_within hR _ _ _ h1 ⟨?_, ?_⟩).2
    · intro e hx; exact he e ((Heap.init_perm _ _).mem_iff.mp hx)
    · intro e hx; exact he e ((Heap.init_perm _ _).mem_iff.mp hx)

theorem descend_within {q : Vec} {b to : Nat} (hR : LinksWithin nodes R) : ∀ (n : Nat) (eps r : List (Elem D)),
    descend M nodes b q to n eps = .ok r → (∀ e ∈ eps, R e.id) → ∀ e ∈ r, R e.id := by
  intro n
  induction n with
  | zero => intro eps r h he; cases h; exact he
  | succ n ih =>
    intro eps r h he
    unfold descend at h
    obtain ⟨r1, h1, h⟩ := (bind_ok_iff _ _ _).mp h
    have hr1 := searchLayer_within hR h1 he
    cases r1 with
    | nil => cases h
    | cons e r1 => exact ih _ _ h (by intro x hx; simp at hx; subst hx; exact hr1 x (by simp))

theorem takeLive_mem (del : List UInt64) : ∀ (fuel k : Nat) (heap : List (Elem D)), ∀ e ∈ takeLive M del fuel k heap, e ∈ heap := by
  intro fuel
  induction fuel with
  | zero => intro k heap e he; cases he
  | succ fuel ih =>
    intro k heap e he
    cases k with
    | zero => cases he
    | succ k =>
      unfold takeLive at he
      cases hp : Heap.pop (minLess M.lt) heap with
      | none => rw [hp] at he; cases he
      | some p =>
        obtain ⟨x, rest⟩ := p
        rw [hp] at he
        dsimp only at he
        have hperm := Heap.pop_perm _ _ _ _ hp
        split at he
        · exact hperm.mem_iff.mpr (List.mem_cons_of_mem _ (ih _ _ e he))
        · rcases List.mem_cons.mp he with rfl | he
          · exact hperm.mem_iff.mpr (by simp)
          · exact hperm.mem_iff.mpr (List.mem_cons_of_mem _ (ih _ _ e he))

/-- a search that returns finds only vertices in a set that contains the entry point and is closed under links. -/
theorem search_within {h : Hnsw} {q : Vec} {k : Int} {r : List (Elem D)} (hR : LinksWithin h.nodes R) (he : R h.entry)
    (hs : h.search M q k = .ok r) : ∀ e ∈ r, R e.id := by
  unfold Hnsw.search at hs
  split at hs
  · cases hs
  · obtain ⟨epv, _, hs⟩ := (bind_ok_iff _ _ _).mp hs
    obtain ⟨d, _, hs⟩ := (bind_ok_iff _ _ _).mp hs
    obtain ⟨eps, h1, hs⟩ := (bind_ok_iff _ _ _).mp hs
    obtain ⟨nns, h2, hs⟩ := (bind_ok_iff _ _ _).mp hs
    cases hs
    have hd := descend_within hR _ _ _ h1 (by intro e hx; simp at hx; subst hx; exact he)
    have hl := searchLayer_within hR h2 hd
    intro e hx
    exact hl e ((Heap.init_perm _ _).mem_iff.mp (takeLive_mem _ _ _ _ e hx))

end Vectory
