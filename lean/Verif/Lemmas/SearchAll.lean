import Verif.Lemmas.SearchFixed
/-! The repaired search with `ef` at least the number of vertices looks at everything it can reach. -/
namespace Vectory
variable {D : Type}

/-- the loop invariant of the repaired search while nothing is dropped from the results. `x` is the vertex being expanded. -/
structure AllInv (M : Metric D) (nodes : AMap UInt64 Vertex) (l : Nat) (x : Option (Elem D)) (s : SL D) : Prop where
  nnHeap : Heap.IsHeap (maxLess M.lt) s.nn
  cover : Cover s
  sub : ∀ e ∈ s.cands, e ∈ s.nn
  open_ : ∀ e ∈ s.nn, some e = x ∨ e ∈ s.cands ∨ ∀ c, link? nodes e.id l = some c → ∀ y ∈ c, y ∈ s.visited

theorem visitOneR_all {M : Metric D} (w : Ord M.lt) {nodes : AMap UInt64 Vertex} {q : Vec} {ef : Nat} {P : UInt64 → Prop}
    (hcount : ∀ l : List UInt64, l.Nodup → (∀ x ∈ l, P x) → l.length ≤ ef)
    (hd : DistOK M nodes q P) {s s' : SL D} {nid : UInt64} {l : Nat} {x : Option (Elem D)} (hs : SInv M nodes q ef P s)
    (ha : AllInv M nodes l x s) (hP : P nid) (hv : ∃ v, nodes.get? nid = some v) (h : visitOneR M nodes q ef s nid = .ok s') :
    AllInv M nodes l x s' := by
  have hcov := visitOne_coverR hcount hd hs ha.cover hP hv h
  obtain ⟨v, hv⟩ := hv
  obtain ⟨d, hd'⟩ := hd nid hP v hv
  have hfew : nid ∉ s.visited → s.nn.length + 1 ≤ ef := by
    intro hvis
    have := hcount (nid :: s.nn.map Elem.id) (List.nodup_cons.mpr ⟨by
        intro hm
        obtain ⟨e, he, rfl⟩ := List.mem_map.mp hm
        exact hvis (hs.nnVis e he), hs.nnNd⟩) (by
        intro x hx
        rcases List.mem_cons.mp hx with rfl | hx
        · exact hP
        · obtain ⟨e, he, rfl⟩ := List.mem_map.mp hx
          exact hs.visP _ (hs.nnVis e he))
    simpa using this
  rcases visitOne_casesR M nodes q ef s nid v d hs.ne hv hd' with
    ⟨hvis, h1⟩ | ⟨hvis, f, hf, ⟨h1, h2, h3⟩ | ⟨h1, h2, h3⟩ | ⟨h1, h2, z, nn', hp, h3⟩⟩
  · rw [h1] at h; cases h; exact ha
  · have := hfew hvis; omega
  · rw [h3] at h; cases h
    have hcp := Heap.push_perm (minLess M.lt) s.cands ⟨nid, d⟩
    have hnp := Heap.push_perm (maxLess M.lt) s.nn ⟨nid, d⟩
    refine ⟨Heap.push_heap w.max _ _ ha.nnHeap, hcov, ?_, ?_⟩
    · intro e he
      rcases List.mem_cons.mp (hcp.mem_iff.mp he) with rfl | he
      · exact hnp.mem_iff.mpr (by simp)
      · exact hnp.mem_iff.mpr (List.mem_cons_of_mem _ (ha.sub e he))
    · intro e he
      rcases List.mem_cons.mp (hnp.mem_iff.mp he) with rfl | he
      · exact Or.inr (Or.inl (hcp.mem_iff.mpr (by simp)))
      · rcases ha.open_ e he with h4 | h4 | h4
        · exact Or.inl h4
        · exact Or.inr (Or.inl (hcp.mem_iff.mpr (List.mem_cons_of_mem _ h4)))
        · exact Or.inr (Or.inr (fun c hc y hy => List.mem_cons_of_mem _ (h4 c hc y hy)))
  · have := hfew hvis; omega

theorem visitAllR_all {M : Metric D} (w : Ord M.lt) {nodes : AMap UInt64 Vertex} {q : Vec} {ef : Nat} {P : UInt64 → Prop} (hef : 0 < ef)
    (hcount : ∀ l : List UInt64, l.Nodup → (∀ x ∈ l, P x) → l.length ≤ ef)
    (hd : DistOK M nodes q P) (hex : ∀ id, P id → ∃ v, nodes.get? id = some v) {l : Nat} {x : Option (Elem D)} :
    ∀ (conns : List UInt64) (s s' : SL D), SInv M nodes q ef P s → AllInv M nodes l x s → (∀ n ∈ conns, P n) →
      conns.foldlM (visitOneR M nodes q ef) s = .ok s' → AllInv M nodes l x s' := by
  intro conns
  induction conns with
  | nil => intro s s' _ ho _ h; cases h; exact ho
  | cons n rest ih =>
    intro s s' hs ho hP h
    obtain ⟨s1, h1, i1, _⟩ := visitOne_specR M nodes q ef P s n hs hef (hP n (by simp)) (hex n (hP n (by simp))) hd
    rw [List.foldlM_cons, h1] at h
    exact ih s1 s' i1 (visitOneR_all w hcount hd hs ho (hP n (by simp)) (hex n (hP n (by simp))) h1)
      (fun x hx => hP x (List.mem_cons_of_mem _ hx)) h

theorem searchLoopR_all {M : Metric D} (w : Ord M.lt) {nodes : AMap UInt64 Vertex} {b : Nat} {q : Vec} {ef l : Nat}
    {P : UInt64 → Prop} (hef : 0 < ef) (hcount : ∀ l : List UInt64, l.Nodup → (∀ x ∈ l, P x) → l.length ≤ ef)
    (hcl : Closed nodes l b P) (hd : DistOK M nodes q P) :
    ∀ (fuel : Nat) (s s' : SL D), SInv M nodes q ef P s → AllInv M nodes l none s → searchLoopR M nodes b q ef l fuel s = .ok s' →
      Cover s' ∧ (∀ x ∈ s.visited, x ∈ s'.visited) ∧
      ∀ x ∈ s'.visited, ∀ c, link? nodes x l = some c → ∀ y ∈ c, y ∈ s'.visited := by
  have hex : ∀ id, P id → ∃ v, nodes.get? id = some v := by
    intro id hP; obtain ⟨v, c, hv, _⟩ := hcl id hP; exact ⟨v, hv⟩
  intro fuel
  induction fuel with
  | zero => intro s s' _ _ h; cases h
  | succ fuel ih =>
    intro s s' hs ho h
    unfold searchLoopR at h
    cases hp : Heap.pop (minLess M.lt) s.cands with
    | none =>
      rw [hp] at h; cases h
      rw [Heap.pop_none] at hp
      refine ⟨ho.cover, fun _ h => h, ?_⟩
      intro x hx c hc y hy
      obtain ⟨e, he, rfl⟩ := ho.cover x hx
      rcases ho.open_ e he with h1 | h1 | h1
      · cases h1
      · rw [hp] at h1; cases h1
      · exact h1 c hc y hy
    | some p =>
      obtain ⟨c, rest⟩ := p
      rw [hp] at h
      have hpp := (Heap.pop_perm _ _ _ _ hp).symm
      have hcm : c ∈ s.cands := hpp.mem_iff.mp (by simp)
      have hrm : ∀ e ∈ rest, e ∈ s.cands := fun e he => hpp.mem_iff.mp (List.mem_cons_of_mem _ he)
      obtain ⟨f, hfk⟩ := root_some hs.ne
      simp only [hfk] at h
      have hs1 : SInv M nodes q ef P { s with cands := rest } :=
        ⟨hs.vis, hs.visP, hs.ne, hs.len, hs.nnNd, hs.nnVis, hs.nnD, fun e he => hs.cdVis e (hrm e he),
          fun e he => hs.cdD e (hrm e he)⟩
      have hle : M.lt f.dist c.dist = false :=
        Heap.root_min w.max s.nn ho.nnHeap f (by unfold Heap.root at hfk; rw [List.head?_eq_getElem?] at hfk; exact hfk) c (ho.sub c hcm)
      rw [if_neg (by rw [hle]; simp)] at h
      obtain ⟨v, cs, hv, hcs, hcb, hcP⟩ := hcl c.id (hs.visP _ (hs.cdVis c hcm))
      rw [nodeAt_of hv, ok_bind, connsAt_of hcs, ok_bind, if_neg (by omega)] at h
      obtain ⟨s2, h2, i2, v2, m2, _⟩ := visitAll_specR M nodes q ef P hef hd hex cs _ hs1 hcP
      rw [h2, ok_bind] at h
      have ho1 : AllInv M nodes l (some c) { s with cands := rest } := by
        refine ⟨ho.nnHeap, ho.cover, fun e he => ho.sub e (hrm e he), ?_⟩
        intro e he
        rcases ho.open_ e he with h4 | h4 | h4
        · cases h4
        · rcases List.mem_cons.mp (hpp.mem_iff.mpr h4) with h5 | h5
          · exact Or.inl (by rw [h5])
          · exact Or.inr (Or.inl h5)
        · exact Or.inr (Or.inr h4)
      have ho2 := visitAllR_all w hef hcount hd hex cs _ s2 hs1 ho1 hcP h2
      have ho3 : AllInv M nodes l none s2 := by
        refine ⟨ho2.nnHeap, ho2.cover, ho2.sub, ?_⟩
        intro e he
        rcases ho2.open_ e he with h4 | h4 | h4
        · cases h4
          right; right
          intro c' hc' y hy
          have : link? nodes c.id l = some cs := by simp only [link?, hv]; exact hcs
          rw [this] at hc'; cases hc'
          exact v2 y hy
        · exact Or.inr (Or.inl h4)
        · exact Or.inr (Or.inr h4)
      obtain ⟨r1, r2, r3⟩ := ih s2 s' i2 ho3 h
      exact ⟨r1, fun x hx => r2 x (m2 x hx), r3⟩

/-- what the repaired layer search returns when `ef` is large enough: everything linked from what it returns, too. -/
theorem searchLayerR_all {M : Metric D} (w : Ord M.lt) {nodes : AMap UInt64 Vertex} {b : Nat} {q : Vec}
    {eps : List (Elem D)} {ef l : Nat} {P : UInt64 → Prop} (hef : 0 < ef)
    (hcount : ∀ l : List UInt64, l.Nodup → (∀ x ∈ l, P x) → l.length ≤ ef) (hcl : Closed nodes l b P)
    (hd : DistOK M nodes q P) (he : EpsOK M nodes q P eps) {r : List (Elem D)}
    (h : searchLayerR M nodes b q eps ef l = .ok r) :
    (∀ e ∈ eps, e.id ∈ r.map Elem.id) ∧
      ∀ x ∈ r.map Elem.id, ∀ c, link? nodes x l = some c → ∀ y ∈ c, y ∈ r.map Elem.id := by
  have hel : eps.length ≤ ef := by
    have := hcount (eps.map Elem.id) he.nd (by
      intro x hx; obtain ⟨e, h1, rfl⟩ := List.mem_map.mp hx; exact he.mem e h1)
    simpa using this
  have hex : ∀ id, P id → ∃ v, nodes.get? id = some v := by
    intro id hP; obtain ⟨v, c, hv, _⟩ := hcl id hP; exact ⟨v, hv⟩
  unfold searchLayerR at h
  rw [if_neg (by omega)] at h
  obtain ⟨s, h3, hr⟩ := (bind_ok_iff _ _ _).mp h
  have p1 : (newMinHeap M.lt eps).Perm eps := Heap.init_perm _ _
  have p2 : (newMaxHeap M.lt eps).Perm eps := Heap.init_perm _ _
  have i0 := sinv_init M nodes q ef P eps he hel
  obtain ⟨s', hs', is⟩ := searchLoop_specR M nodes b q ef l P hef hcl hd (nodes.length + eps.length + 1) _ i0 (by
      show (newMinHeap M.lt eps).length + _ < _ + (eps.map Elem.id).length
      rw [p1.length_eq]; simp; omega)
  rw [h3] at hs'; cases hs'
  obtain ⟨a1, a2, a3⟩ := searchLoopR_all w hef hcount hcl hd _ _ _ i0 ⟨Heap.init_heap w.max eps, by
      intro x hx
      obtain ⟨e, h1, h2⟩ := List.mem_map.mp hx
      exact ⟨e, p2.mem_iff.mpr h1, h2⟩, fun e hee => p2.mem_iff.mpr (p1.mem_iff.mp hee),
      fun e hee => Or.inr (Or.inl (p1.mem_iff.mpr (p2.mem_iff.mp hee)))⟩ h3
  cases hr
  have heq : ∀ x, x ∈ s.nn.map Elem.id ↔ x ∈ s.visited := by
    intro x
    constructor
    · intro hx; obtain ⟨e, hee, rfl⟩ := List.mem_map.mp hx; exact is.nnVis e hee
    · intro hx; obtain ⟨e, hee, rfl⟩ := a1 x hx; exact List.mem_map.mpr ⟨e, hee, rfl⟩
  refine ⟨fun e hee => (heq _).mpr (a2 _ (List.mem_map_of_mem hee)), fun x hx c hc y hy => (heq _).mpr (a3 x ((heq x).mp hx) c hc y hy)⟩

end Vectory
