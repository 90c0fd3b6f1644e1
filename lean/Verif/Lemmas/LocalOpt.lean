import Verif.Lemmas.Bottom
/-! A layer search never stops before it has looked at every link of the nearest vertex it found. -/
namespace Vectory
variable {D : Type}

/-- the loop invariant: `cands` is a heap; every result is still a candidate or all its links were looked at; and nothing
looked at is nearer than all the results. -/
structure OptInv (M : Metric D) (nodes : AMap UInt64 Vertex) (q : Vec) (l : Nat) (s : SL D) : Prop where
  heap : Heap.IsHeap (minLess M.lt) s.cands
  nnHeap : Heap.IsHeap (maxLess M.lt) s.nn
  open_ : ∀ e ∈ s.nn, e ∈ s.cands ∨ ∀ c, link? nodes e.id l = some c → ∀ y ∈ c, y ∈ s.visited
  seen : ∀ y ∈ s.visited, ∀ v d, nodes.get? y = some v → M.dist v.vec q = .ok d → ∃ m ∈ s.nn, Le M.lt m.dist d

/-- `visitOne` may leave the vertex that is being expanded, `x`, without an entry in `cands`. -/
structure OptInv' (M : Metric D) (nodes : AMap UInt64 Vertex) (q : Vec) (l : Nat) (x : Elem D) (s : SL D) : Prop where
  heap : Heap.IsHeap (minLess M.lt) s.cands
  nnHeap : Heap.IsHeap (maxLess M.lt) s.nn
  open_ : ∀ e ∈ s.nn, e = x ∨ e ∈ s.cands ∨ ∀ c, link? nodes e.id l = some c → ∀ y ∈ c, y ∈ s.visited
  seen : ∀ y ∈ s.visited, ∀ v d, nodes.get? y = some v → M.dist v.vec q = .ok d → ∃ m ∈ s.nn, Le M.lt m.dist d

theorem visitOne_opt {M : Metric D} (w : Ord M.lt) {nodes : AMap UInt64 Vertex} {q : Vec} {ef : Nat} {P : UInt64 → Prop} (hef : 0 < ef)
    (hd : DistOK M nodes q P) {s s' : SL D} {nid : UInt64} {l : Nat} {x : Elem D} (hs : SInv M nodes q ef P s)
    (ho : OptInv' M nodes q l x s) (hP : P nid) (hv : ∃ v, nodes.get? nid = some v) (h : visitOne M nodes q ef s nid = .ok s') :
    OptInv' M nodes q l x s' := by
  obtain ⟨v, hv⟩ := hv
  obtain ⟨d, hd'⟩ := hd nid hP v hv
  have hcp := Heap.push_perm (minLess M.lt) s.cands ⟨nid, d⟩
  have hnp := Heap.push_perm (maxLess M.lt) s.nn ⟨nid, d⟩
  have hch := Heap.push_heap w.min s.cands ⟨nid, d⟩ ho.heap
  have hnh := Heap.push_heap w.max s.nn ⟨nid, d⟩ ho.nnHeap
  have hopen : ∀ e ∈ Heap.push (maxLess M.lt) s.nn ⟨nid, d⟩, e = x ∨ e ∈ Heap.push (minLess M.lt) s.cands ⟨nid, d⟩ ∨
      ∀ c, link? nodes e.id l = some c → ∀ y ∈ c, y ∈ nid :: s.visited := by
    intro e he
    rcases List.mem_cons.mp (hnp.mem_iff.mp he) with rfl | he
    · exact Or.inr (Or.inl (hcp.mem_iff.mpr (by simp)))
    · rcases ho.open_ e he with h1 | h1 | h1
      · exact Or.inl h1
      · exact Or.inr (Or.inl (hcp.mem_iff.mpr (List.mem_cons_of_mem _ h1)))
      · exact Or.inr (Or.inr (fun c hc y hy => List.mem_cons_of_mem _ (h1 c hc y hy)))
  have hseen : ∀ y ∈ nid :: s.visited, ∀ v d', nodes.get? y = some v → M.dist v.vec q = .ok d' →
      ∃ m ∈ Heap.push (maxLess M.lt) s.nn ⟨nid, d⟩, Le M.lt m.dist d' := by
    intro y hy v' d' hv' hdd
    rcases List.mem_cons.mp hy with rfl | hy
    · rw [hv] at hv'; cases hv'
      rw [hd'] at hdd; cases hdd
      exact ⟨⟨y, d⟩, hnp.mem_iff.mpr (by simp), w.irrefl d⟩
    · obtain ⟨m, hm, hle⟩ := ho.seen y hy v' d' hv' hdd
      exact ⟨m, hnp.mem_iff.mpr (List.mem_cons_of_mem _ hm), hle⟩
  rcases visitOne_cases M nodes q ef s nid v d hs.ne hv hd' with
    ⟨hvis, h1⟩ | ⟨hvis, f, hf, ⟨h1, h2, h3⟩ | ⟨h1, h2, h3⟩ | ⟨h1, h2, z, nn', hp, h3⟩⟩
  · rw [h1] at h; cases h; exact ho
  · rw [h3] at h; cases h
    refine ⟨ho.heap, ho.nnHeap, ?_, ?_⟩
    · intro e he
      rcases ho.open_ e he with h4 | h4 | h4
      · exact Or.inl h4
      · exact Or.inr (Or.inl h4)
      · exact Or.inr (Or.inr (fun c hc y hy => List.mem_cons_of_mem _ (h4 c hc y hy)))
    · intro y hy v' d' hv' hdd
      rcases List.mem_cons.mp hy with rfl | hy
      · rw [hv] at hv'; cases hv'
        rw [hd'] at hdd; cases hdd
        exact ⟨f, peek_mem hf, h1⟩
      · exact ho.seen y hy v' d' hv' hdd
  · rw [h3] at h; cases h
    exact ⟨hch, hnh, hopen, hseen⟩
  · rw [h3] at h; cases h
    obtain ⟨k1, k2⟩ := Heap.pop_heap w.max _ hnh _ _ hp
    have hpp := Heap.pop_perm _ _ _ _ hp
    have hpl := Heap.pop_length _ _ _ _ hp
    rw [Heap.push_length] at hpl
    have hne : nn' ≠ [] := by
      rintro rfl
      simp at hpl
      exact hs.ne hpl
    obtain ⟨m0, hm0⟩ := List.exists_mem_of_ne_nil _ hne
    have hsub : ∀ e ∈ nn', e ∈ Heap.push (maxLess M.lt) s.nn ⟨nid, d⟩ := by
      intro e he; exact hpp.symm.mem_iff.mp (List.mem_cons_of_mem _ he)
    refine ⟨hch, k1, fun e he => hopen e (hsub e he), ?_⟩
    intro y hy v' d' hv' hdd
    obtain ⟨m, hm, hle⟩ := hseen y hy v' d' hv' hdd
    rcases List.mem_cons.mp (hpp.mem_iff.mp hm) with rfl | hm
    · refine ⟨m0, hm0, ?_⟩
      have := k2 m0 (hsub m0 hm0)
      exact Le.trans w this hle
    · exact ⟨m, hm, hle⟩

theorem visitAll_opt {M : Metric D} (w : Ord M.lt) {nodes : AMap UInt64 Vertex} {q : Vec} {ef : Nat} {P : UInt64 → Prop} (hef : 0 < ef)
    (hd : DistOK M nodes q P) (hex : ∀ id, P id → ∃ v, nodes.get? id = some v) {l : Nat} {x : Elem D} :
    ∀ (conns : List UInt64) (s s' : SL D), SInv M nodes q ef P s → OptInv' M nodes q l x s → (∀ n ∈ conns, P n) →
      conns.foldlM (visitOne M nodes q ef) s = .ok s' → OptInv' M nodes q l x s' := by
  intro conns
  induction conns with
  | nil => intro s s' _ ho _ h; cases h; exact ho
  | cons n rest ih =>
    intro s s' hs ho hP h
    obtain ⟨s1, h1, i1, _⟩ := visitOne_spec M nodes q ef P s n hs hef (hP n (by simp)) (hex n (hP n (by simp))) hd
    rw [List.foldlM_cons, h1] at h
    exact ih s1 s' i1 (visitOne_opt w hef hd hs ho (hP n (by simp)) (hex n (hP n (by simp))) h1)
      (fun x hx => hP x (List.mem_cons_of_mem _ hx)) h

/-- what holds of the results when the loop ends: no link of a nearest result leads to a nearer vertex. -/
def LocalOpt (M : Metric D) (nodes : AMap UInt64 Vertex) (q : Vec) (l : Nat) (r : List (Elem D)) : Prop :=
  ∀ e ∈ r, (∀ m ∈ r, Le M.lt e.dist m.dist) → ∀ c, link? nodes e.id l = some c → ∀ y ∈ c, ∀ v d, nodes.get? y = some v →
    M.dist v.vec q = .ok d → Le M.lt e.dist d

theorem localOpt_of {M : Metric D} (w : Ord M.lt) {nodes : AMap UInt64 Vertex} {q : Vec} {l : Nat} {s : SL D} (ho : OptInv M nodes q l s)
    (hc : ∀ e ∈ s.nn, (∀ m ∈ s.nn, Le M.lt e.dist m.dist) → e ∉ s.cands) : LocalOpt M nodes q l s.nn := by
  intro e he hmin c hcl y hy v d hv hd
  rcases ho.open_ e he with h1 | h1
  · exact absurd h1 (hc e he hmin)
  · obtain ⟨m, hm, hle⟩ := ho.seen y (h1 c hcl y hy) v d hv hd
    exact Le.trans w (hmin m hm) hle

theorem searchLoop_opt {M : Metric D} (w : Ord M.lt) {nodes : AMap UInt64 Vertex} {b : Nat} {q : Vec} {ef l : Nat}
    {P : UInt64 → Prop} (hef : 0 < ef) (hcl : Closed nodes l b P) (hd : DistOK M nodes q P) :
    ∀ (fuel : Nat) (s s' : SL D), SInv M nodes q ef P s → OptInv M nodes q l s → searchLoop M nodes b q ef l fuel s = .ok s' →
      LocalOpt M nodes q l s'.nn := by
  have hex : ∀ id, P id → ∃ v, nodes.get? id = some v := by
    intro id hP; obtain ⟨v, c, hv, _⟩ := hcl id hP; exact ⟨v, hv⟩
  intro fuel
  induction fuel with
  | zero => intro s s' _ _ h; cases h
  | succ fuel ih =>
    intro s s' hs ho h
    unfold searchLoop at h
    cases hp : Heap.pop (minLess M.lt) s.cands with
    | none =>
      rw [hp] at h; cases h
      rw [Heap.pop_none] at hp
      exact localOpt_of w ho (by intro e _ _; rw [hp]; simp)
    | some p =>
      obtain ⟨c, rest⟩ := p
      rw [hp] at h
      obtain ⟨k1, k2⟩ := Heap.pop_heap w.min _ ho.heap _ _ hp
      have hpp := (Heap.pop_perm _ _ _ _ hp).symm
      have hcm : c ∈ s.cands := hpp.mem_iff.mp (by simp)
      have hrm : ∀ e ∈ rest, e ∈ s.cands := fun e he => hpp.mem_iff.mp (List.mem_cons_of_mem _ he)
      obtain ⟨f, hfk⟩ := peek_some hs.ne
      simp only [hfk] at h
      have hs1 : SInv M nodes q ef P { s with cands := rest } :=
        ⟨hs.vis, hs.visP, hs.ne, hs.len, hs.nnNd, hs.nnVis, hs.nnD, fun e he => hs.cdVis e (hrm e he),
          fun e he => hs.cdD e (hrm e he)⟩
      split at h
      · rename_i hlt
        cases h
        refine localOpt_of (s := s) w ho ?_
        intro e he hmin hec
        have h1 := k2 e hec
        have h2 := hmin f (peek_mem hfk)
        have h3 : Le M.lt c.dist f.dist := Le.trans w h1 h2
        unfold Le at h3
        rw [h3] at hlt; cases hlt
      · obtain ⟨v, cs, hv, hcs, hcb, hcP⟩ := hcl c.id (hs.visP _ (hs.cdVis c hcm))
        rw [nodeAt_of hv, ok_bind, connsAt_of hcs, ok_bind, if_neg (by omega)] at h
        obtain ⟨s2, h2, i2, v2, m2, _⟩ := visitAll_spec M nodes q ef P hef hd hex cs _ hs1 hcP
        rw [h2, ok_bind] at h
        have ho1 : OptInv' M nodes q l c { s with cands := rest } := by
          refine ⟨k1, ho.nnHeap, ?_, ho.seen⟩
          intro e he
          rcases ho.open_ e he with h4 | h4
          · rcases List.mem_cons.mp (hpp.mem_iff.mpr h4) with h5 | h5
            · exact Or.inl h5
            · exact Or.inr (Or.inl h5)
          · exact Or.inr (Or.inr h4)
        have ho2 := visitAll_opt w hef hd hex cs _ s2 hs1 ho1 hcP h2
        refine ih s2 s' i2 ⟨ho2.heap, ho2.nnHeap, ?_, ho2.seen⟩ h
        intro e he
        rcases ho2.open_ e he with h4 | h4 | h4
        · subst h4
          right
          intro c' hc' y hy
          have : link? nodes e.id l = some cs := by simp only [link?, hv]; exact hcs
          rw [this] at hc'; cases hc'
          exact v2 y hy
        · exact Or.inl h4
        · exact Or.inr h4

theorem searchLayer_opt {M : Metric D} (w : Ord M.lt) {nodes : AMap UInt64 Vertex} {b : Nat} {q : Vec}
    {eps : List (Elem D)} {ef l : Nat} {P : UInt64 → Prop} (hef : 0 < ef) (hel : eps.length ≤ ef) (hcl : Closed nodes l b P)
    (hd : DistOK M nodes q P) (he : EpsOK M nodes q P eps) {r : List (Elem D)}
    (h : searchLayer M nodes b q eps ef l = .ok r) : LocalOpt M nodes q l r := by
  unfold searchLayer at h
  rw [if_neg (by omega)] at h
  obtain ⟨s, h3, hr⟩ := (bind_ok_iff _ _ _).mp h
  cases hr
  have p1 : (newMinHeap M.lt eps).Perm eps := Heap.init_perm _ _
  have p2 : (newMaxHeap M.lt eps).Perm eps := Heap.init_perm _ _
  refine searchLoop_opt w hef hcl hd _ _ _ (sinv_init M nodes q ef P eps he hel) ⟨Heap.init_heap w.min eps, Heap.init_heap w.max eps, ?_, ?_⟩ h3
  · intro e hee
    exact Or.inl (p1.mem_iff.mpr (p2.mem_iff.mp hee))
  · intro y hy v d hv hdd
    obtain ⟨e, hee, rfl⟩ := List.mem_map.mp hy
    obtain ⟨v', e1, e2⟩ := he.dist e hee
    rw [hv] at e1; cases e1
    rw [hdd] at e2; cases e2
    exact ⟨e, p2.mem_iff.mpr hee, w.irrefl _⟩

end Vectory
