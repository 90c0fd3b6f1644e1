import Verif.Lemmas.Search
/-! Structural facts about neighbour selection (any comparison relation). -/
namespace Vectory
variable {D : Type}

theorem popN_spec (lt : Elem D → Elem D → Bool) :
    ∀ (n : Nat) (h : List (Elem D)), n ≤ h.length →
      ∃ (r : List UInt64) (rest : List (Elem D)), popN lt n h = .ok r ∧ r.length = n ∧ (h.map Elem.id).Perm (r ++ rest.map Elem.id) := by
  intro n
  induction n with
  | zero => intro h _; exact ⟨[], h, rfl, rfl, by simp⟩
  | succ n ih =>
    intro h hl
    unfold popN
    cases hp : Heap.pop lt h with
    | none =>
      rw [Heap.pop_none] at hp
      subst hp; simp at hl
    | some p =>
      obtain ⟨e, rest⟩ := p
      have hpp := Heap.pop_perm _ _ _ _ hp
      have hpl := Heap.pop_length _ _ _ _ hp
      obtain ⟨r, rest', hr, hrl, hrp⟩ := ih rest (by omega)
      dsimp only
      rw [hr]
      refine ⟨e.id :: r, rest', rfl, by simp [hrl], ?_⟩
      have := hpp.map Elem.id
      rw [List.map_cons] at this
      exact this.trans (List.Perm.cons _ hrp)

/-- what the graph invariant needs to know about a selection. -/
structure SelOK (cands : List (Elem D)) (m : Nat) (r : List UInt64) : Prop where
  nd : (cands.map Elem.id).Nodup → r.Nodup
  sub : ∀ x ∈ r, x ∈ cands.map Elem.id
  len : r.length ≤ m
  ne : cands ≠ [] → 0 < m → r ≠ []

theorem selectSimple_spec (M : Metric D) (cands : List (Elem D)) (m : Nat) :
    ∃ r, selectNeighborsSimple M cands m = .ok r ∧ SelOK cands m r ∧ r.length = min m cands.length := by
  have hp : (newMinHeap M.lt cands).Perm cands := Heap.init_perm _ _
  obtain ⟨r, rest, hr, hl, hperm⟩ := popN_spec (minLess M.lt) (min m cands.length) (newMinHeap M.lt cands)
    (by rw [hp.length_eq]; omega)
  have hperm2 := (hp.map Elem.id).symm.trans hperm
  refine ⟨r, hr, ⟨?_, ?_, by omega, ?_⟩, hl⟩
  · intro hnd
    have := hperm2.nodup_iff.mp hnd
    exact (List.nodup_append.mp this).1
  · intro x hx
    exact hperm2.mem_iff.mpr (List.mem_append_left _ hx)
  · intro h1 h2 h3
    subst h3
    have : 0 < cands.length := List.length_pos_iff.mpr h1
    simp at hl; omega

theorem dominated_ok (M : Metric D) (nodes : AMap UInt64 Vertex) (e : Elem D)
    (hM : ∀ x y vx vy, nodes.get? x = some vx → nodes.get? y = some vy → ∃ d, M.dist vx.vec vy.vec = .ok d)
    (he : ∃ v, nodes.get? e.id = some v) :
    ∀ rs : List UInt64, (∀ r ∈ rs, ∃ v, nodes.get? r = some v) → ∃ b, dominated M nodes e rs = .ok b := by
  intro rs
  induction rs with
  | nil => intro _; exact ⟨false, rfl⟩
  | cons r rs ih =>
    intro h
    obtain ⟨ev, hev⟩ := he
    obtain ⟨rv, hrv⟩ := h r (by simp)
    obtain ⟨d, hd⟩ := hM _ _ _ _ hev hrv
    unfold dominated
    rw [nodeAt_of hev, ok_bind, nodeAt_of hrv, ok_bind, hd, ok_bind]
    split
    · exact ⟨true, rfl⟩
    · exact ih (fun x hx => h x (List.mem_cons_of_mem _ hx))

theorem heuristicLoop_spec (M : Metric D) (nodes : AMap UInt64 Vertex) (m : Nat)
    (hM : ∀ x y vx vy, nodes.get? x = some vx → nodes.get? y = some vy → ∃ d, M.dist vx.vec vy.vec = .ok d) :
    ∀ (fuel : Nat) (q : List (Elem D)) (res : List UInt64), q.length ≤ fuel →
      (∀ e ∈ q, ∃ v, nodes.get? e.id = some v) → (∀ r ∈ res, ∃ v, nodes.get? r = some v) →
      res.length ≤ m →
      ∃ r, heuristicLoop M nodes m fuel q res = .ok r ∧ ((res ++ q.map Elem.id).Nodup → r.Nodup) ∧ (∀ x ∈ r, x ∈ res ++ q.map Elem.id) ∧
        r.length ≤ m ∧ (∀ x ∈ res, x ∈ r) ∧ (res = [] → q ≠ [] → 0 < m → r ≠ []) := by
  intro fuel
  induction fuel with
  | zero =>
    intro q res hq _ _ hl
    have : q = [] := List.eq_nil_of_length_eq_zero (by omega)
    subst this
    exact ⟨res, rfl, (fun hnd => by simpa using hnd), by intro x hx; simpa using hx, hl, fun _ h => h, by simp⟩
  | succ fuel ih =>
    intro q res hq hqe hre hl
    unfold heuristicLoop
    split
    · rename_i hml
      refine ⟨res, rfl, (fun hnd => (List.nodup_append.mp hnd).1), fun x hx => List.mem_append_left _ hx, hl, fun _ h => h, ?_⟩
      rintro rfl _ hm; simp at hml; omega
    · rename_i hml
      cases hp : Heap.pop (minLess M.lt) q with
      | none =>
        rw [Heap.pop_none] at hp; subst hp
        exact ⟨res, rfl, (fun hnd => by simpa using hnd), by intro x hx; simpa using hx, hl, fun _ h => h, by simp⟩
      | some p =>
        obtain ⟨e, rest⟩ := p
        have hpp := Heap.pop_perm _ _ _ _ hp
        have hpl := Heap.pop_length _ _ _ _ hp
        have hem : e ∈ q := hpp.mem_iff.mpr (by simp)
        have hrm : ∀ x ∈ rest, x ∈ q := fun x hx => hpp.mem_iff.mpr (List.mem_cons_of_mem _ hx)
        obtain ⟨b, hb⟩ := dominated_ok M nodes e hM (hqe e hem) res hre
        dsimp only
        rw [hb, ok_bind]
        have hnd2 : (res ++ q.map Elem.id).Nodup → (res ++ (e.id :: rest.map Elem.id)).Nodup := by
          intro hnd
          have : (res ++ q.map Elem.id).Perm (res ++ (e.id :: rest.map Elem.id)) :=
            List.Perm.append_left _ (hpp.map Elem.id)
          exact this.nodup_iff.mp hnd
        have hsubq : ∀ x, x ∈ e.id :: rest.map Elem.id → x ∈ q.map Elem.id :=
          fun x hx => (hpp.map Elem.id).mem_iff.mpr hx
        cases b with
        | true =>
          rw [if_pos rfl]
          obtain ⟨r, h1, h2, h3, h4, h5, h6⟩ := ih rest res (by omega) (fun x hx => hqe x (hrm x hx)) hre hl
          refine ⟨r, h1, (fun hnd => h2 ((hnd2 hnd).sublist (List.Sublist.append_left (List.sublist_cons_self _ _) _))), ?_, h4, h5, ?_⟩
          · intro x hx
            rcases List.mem_append.mp (h3 x hx) with h | h
            · exact List.mem_append_left _ h
            · exact List.mem_append_right _ (hsubq x (List.mem_cons_of_mem _ h))
          · rintro rfl
            exfalso
            simp [dominated] at hb
        | false =>
          rw [if_neg (by simp)]
          obtain ⟨r, h1, h2, h3, h4, h5, h6⟩ := ih rest (res ++ [e.id]) (by omega) (fun x hx => hqe x (hrm x hx))
            (by
              intro x hx
              rcases List.mem_append.mp hx with h | h
              · exact hre x h
              · simp at h; subst h; exact hqe e hem)
            (by simp; omega)
          refine ⟨r, h1, (fun hnd => h2 (by simpa using hnd2 hnd)), ?_, h4, ?_, ?_⟩
          · intro x hx
            rcases List.mem_append.mp (h3 x hx) with h | h
            · rcases List.mem_append.mp h with h | h
              · exact List.mem_append_left _ h
              · simp at h; subst h
                exact List.mem_append_right _ (hsubq _ (by simp))
            · exact List.mem_append_right _ (hsubq x (List.mem_cons_of_mem _ h))
          · intro x hx; exact h5 x (List.mem_append_left _ hx)
          · intro _ _ _ hn
            have := h5 e.id (by simp)
            rw [hn] at this; simp at this

theorem selectHeuristic_spec (M : Metric D) (nodes : AMap UInt64 Vertex) (cands : List (Elem D)) (m : Nat)
    (hM : ∀ x y vx vy, nodes.get? x = some vx → nodes.get? y = some vy → ∃ d, M.dist vx.vec vy.vec = .ok d)
    (hex : ∀ e ∈ cands, ∃ v, nodes.get? e.id = some v) :
    ∃ r, selectNeighborsHeuristic M nodes cands m = .ok r ∧ SelOK cands m r := by
  have hp : (newMinHeap M.lt cands).Perm cands := Heap.init_perm _ _
  obtain ⟨r, h1, h2, h3, h4, _, h6⟩ := heuristicLoop_spec M nodes m hM cands.length (newMinHeap M.lt cands) []
    (by rw [hp.length_eq]; omega) (fun e he => hex e (hp.mem_iff.mp he)) (by simp)
    (by simp)
  refine ⟨r, h1, ⟨(fun hnd => h2 (by rw [List.nil_append]; exact (hp.map Elem.id).nodup_iff.mpr hnd)), ?_, h4, ?_⟩⟩
  · intro x hx
    have := h3 x hx
    rw [List.nil_append] at this
    exact (hp.map Elem.id).mem_iff.mp this
  · intro hc hm
    apply h6 rfl _ hm
    intro hn; rw [hn] at hp; exact hc hp.nil_eq.symm

theorem selectNeighbors_spec (M : Metric D) (cfg : Cfg) (nodes : AMap UInt64 Vertex) (cands : List (Elem D)) (m : Nat)
    (hM : ∀ x y vx vy, nodes.get? x = some vx → nodes.get? y = some vy → ∃ d, M.dist vx.vec vy.vec = .ok d)
    (hex : ∀ e ∈ cands, ∃ v, nodes.get? e.id = some v) :
    ∃ r, selectNeighbors M cfg nodes cands m = .ok r ∧ SelOK cands m r := by
  unfold selectNeighbors
  split
  · exact selectHeuristic_spec M nodes cands m hM hex
  · obtain ⟨r, h1, h2, _⟩ := selectSimple_spec M cands m
    exact ⟨r, h1, h2⟩

end Vectory
