import Verif.Model.Hnsw
import Verif.Lemmas.Heap
import Verif.Lemmas.Basic
/-! Loop invariants of `searchLayer`. -/
namespace Vectory
variable {D : Type}

theorem nodup_length_le {α : Type} [DecidableEq α] : ∀ {l₁ l₂ : List α}, l₁.Nodup → (∀ x ∈ l₁, x ∈ l₂) →
    l₁.length ≤ l₂.length := by
  intro l₁
  induction l₁ with
  | nil => intro l₂ _ _; simp
  | cons a t ih =>
    intro l₂ hn hs
    rw [List.nodup_cons] at hn
    have ha : a ∈ l₂ := hs a (by simp)
    have h := @ih (l₂.erase a) hn.2 (by
      intro x hx
      have hxa : x ≠ a := by rintro rfl; exact hn.1 hx
      exact (List.mem_erase_of_ne hxa).mpr (hs x (List.mem_cons_of_mem _ hx)))
    rw [List.length_erase_of_mem ha] at h
    have : 0 < l₂.length := List.length_pos_of_mem ha
    simp; omega

/-- the distance recorded in `e` is the distance of the stored vector of `e.id` to `q`. -/
def TrueDist (M : Metric D) (nodes : AMap UInt64 Vertex) (q : Vec) (e : Elem D) : Prop :=
  ∃ v, nodes.get? e.id = some v ∧ M.dist v.vec q = .ok e.dist

/-- `P` is a set of vertices that have layer `l` and is closed under links of layer `l`, with degree at most `b`. -/
def Closed (nodes : AMap UInt64 Vertex) (l b : Nat) (P : UInt64 → Prop) : Prop :=
  ∀ id, P id → ∃ v c, nodes.get? id = some v ∧ v.conns[l]? = some c ∧ c.length ≤ b ∧ ∀ n ∈ c, P n

/-- distances to `q` are defined on `P`. -/
def DistOK (M : Metric D) (nodes : AMap UInt64 Vertex) (q : Vec) (P : UInt64 → Prop) : Prop :=
  ∀ id, P id → ∀ v, nodes.get? id = some v → ∃ d, M.dist v.vec q = .ok d

structure SInv (M : Metric D) (nodes : AMap UInt64 Vertex) (q : Vec) (ef : Nat) (P : UInt64 → Prop) (s : SL D) :
    Prop where
  vis : s.visited.Nodup
  visP : ∀ x ∈ s.visited, P x
  ne : s.nn ≠ []
  len : s.nn.length ≤ ef
  nnNd : (s.nn.map Elem.id).Nodup
  nnVis : ∀ e ∈ s.nn, e.id ∈ s.visited
  nnD : ∀ e ∈ s.nn, TrueDist M nodes q e
  cdVis : ∀ e ∈ s.cands, e.id ∈ s.visited
  cdD : ∀ e ∈ s.cands, TrueDist M nodes q e

theorem peek_mem {E : Type} {l : List E} {f : E} (h : Heap.peek l = some f) : f ∈ l :=
  List.mem_of_getLast? h

theorem peek_some {E : Type} {l : List E} (h : l ≠ []) : ∃ f, Heap.peek l = some f :=
  ⟨l.getLast h, List.getLast?_eq_some_getLast h⟩

theorem nodeAt_eq_ok {nodes : AMap UInt64 Vertex} {id : UInt64} {v : Vertex} :
    nodeAt nodes id = .ok v ↔ nodes.get? id = some v := by
  unfold nodeAt
  cases nodes.get? id <;> simp

theorem nodeAt_of {nodes : AMap UInt64 Vertex} {id : UInt64} {v : Vertex} (h : nodes.get? id = some v) :
    nodeAt nodes id = .ok v := nodeAt_eq_ok.mpr h

theorem connsAt_of {v : Vertex} {l : Nat} {c : List UInt64} (h : v.conns[l]? = some c) :
    v.connsAt l = .ok c := by
  unfold Vertex.connsAt; rw [h]

theorem connsAt_eq_ok {v : Vertex} {l : Nat} {c : List UInt64} : v.connsAt l = .ok c ↔ v.conns[l]? = some c := by
  unfold Vertex.connsAt
  cases v.conns[l]? <;> simp

/-- the case analysis of one inner round, with everything it can do. -/
theorem visitOne_cases (M : Metric D) (nodes : AMap UInt64 Vertex) (q : Vec) (ef : Nat) (s : SL D) (nid : UInt64)
    (v : Vertex) (d : D) (hne : s.nn ≠ []) (hv : nodes.get? nid = some v) (hd : M.dist v.vec q = .ok d) :
    (nid ∈ s.visited ∧ visitOne M nodes q ef s nid = .ok s) ∨
    (nid ∉ s.visited ∧ ∃ f, Heap.peek s.nn = some f ∧
      ((M.lt d f.dist = false ∧ ef ≤ s.nn.length ∧
          visitOne M nodes q ef s nid = .ok { s with visited := nid :: s.visited }) ∨
       ((M.lt d f.dist = true ∨ s.nn.length < ef) ∧ s.nn.length + 1 ≤ ef ∧
          visitOne M nodes q ef s nid = .ok
            { visited := nid :: s.visited, cands := Heap.push (minLess M.lt) s.cands ⟨nid, d⟩,
              nn := Heap.push (maxLess M.lt) s.nn ⟨nid, d⟩ }) ∨
       ((M.lt d f.dist = true ∨ s.nn.length < ef) ∧ ef < s.nn.length + 1 ∧
          ∃ x nn', Heap.pop (maxLess M.lt) (Heap.push (maxLess M.lt) s.nn ⟨nid, d⟩) = some (x, nn') ∧
          visitOne M nodes q ef s nid = .ok
            { visited := nid :: s.visited, cands := Heap.push (minLess M.lt) s.cands ⟨nid, d⟩, nn := nn' }))) := by
  by_cases hvis : nid ∈ s.visited
  · left; exact ⟨hvis, by simp [visitOne, hvis]⟩
  · right
    refine ⟨hvis, ?_⟩
    obtain ⟨f, hf⟩ := peek_some hne
    refine ⟨f, hf, ?_⟩
    have hpl := Heap.push_length (maxLess M.lt) s.nn ⟨nid, d⟩
    by_cases hc : M.lt d f.dist = true ∨ s.nn.length < ef
    · by_cases hl : ef < s.nn.length + 1
      · right; right
        refine ⟨hc, hl, ?_⟩
        cases hp : Heap.pop (maxLess M.lt) (Heap.push (maxLess M.lt) s.nn ⟨nid, d⟩) with
        | none =>
          rw [Heap.pop_none] at hp
          rw [hp] at hpl; simp at hpl
        | some p =>
          obtain ⟨x, nn'⟩ := p
          refine ⟨x, nn', rfl, ?_⟩
          simp [visitOne, hvis, hf, nodeAt_of hv, hd, hc, hpl, hl, hp]
      · right; left
        refine ⟨hc, by omega, ?_⟩
        simp [visitOne, hvis, hf, nodeAt_of hv, hd, hc, hpl, hl]
    · left
      have h1 : M.lt d f.dist = false := by
        cases h : M.lt d f.dist
        · rfl
        · exact absurd (Or.inl h) hc
      have h2 : ef ≤ s.nn.length := by
        by_cases h : s.nn.length < ef
        · exact absurd (Or.inr h) hc
        · omega
      refine ⟨h1, h2, ?_⟩
      simp [visitOne, hvis, hf, nodeAt_of hv, hd, hc]

theorem visitOne_spec (M : Metric D) (nodes : AMap UInt64 Vertex) (q : Vec) (ef : Nat) (P : UInt64 → Prop)
    (s : SL D) (nid : UInt64) (hs : SInv M nodes q ef P s) (hef : 0 < ef)
    (hP : P nid) (hv : ∃ v, nodes.get? nid = some v) (hd : DistOK M nodes q P) :
    ∃ s', visitOne M nodes q ef s nid = .ok s' ∧ SInv M nodes q ef P s' ∧ nid ∈ s'.visited ∧
      (∀ x ∈ s.visited, x ∈ s'.visited) ∧ (∀ e ∈ s.cands, e ∈ s'.cands) ∧
      (∀ e ∈ s'.cands, e ∈ s.cands ∨ e.id = nid) ∧
      s'.cands.length + s.visited.length ≤ s.cands.length + s'.visited.length := by
  obtain ⟨v, hv⟩ := hv
  obtain ⟨d, hd'⟩ := hd nid hP v hv
  have htd : TrueDist M nodes q ⟨nid, d⟩ := ⟨v, hv, hd'⟩
  have hnd' : nid ∉ s.visited → (nid :: s.visited).Nodup := fun h => List.nodup_cons.mpr ⟨h, hs.vis⟩
  have hvP : ∀ x ∈ nid :: s.visited, P x := by
    intro x hx
    rcases List.mem_cons.mp hx with rfl | hx
    · exact hP
    · exact hs.visP x hx
  have hcp := Heap.push_perm (minLess M.lt) s.cands ⟨nid, d⟩
  have hnp := Heap.push_perm (maxLess M.lt) s.nn ⟨nid, d⟩
  have hcm : ∀ e ∈ Heap.push (minLess M.lt) s.cands ⟨nid, d⟩, e = ⟨nid, d⟩ ∨ e ∈ s.cands := by
    intro e he; exact List.mem_cons.mp (hcp.mem_iff.mp he)
  have hcV : ∀ e ∈ Heap.push (minLess M.lt) s.cands ⟨nid, d⟩, e.id ∈ nid :: s.visited := by
    intro e he
    rcases hcm e he with rfl | h
    · simp
    · exact List.mem_cons_of_mem _ (hs.cdVis e h)
  have hcD : ∀ e ∈ Heap.push (minLess M.lt) s.cands ⟨nid, d⟩, TrueDist M nodes q e := by
    intro e he
    rcases hcm e he with rfl | h
    · exact htd
    · exact hs.cdD e h
  have hcl : (Heap.push (minLess M.lt) s.cands ⟨nid, d⟩).length = s.cands.length + 1 := Heap.push_length _ _ _
  have hcs : ∀ e ∈ s.cands, e ∈ Heap.push (minLess M.lt) s.cands ⟨nid, d⟩ := by
    intro e he; exact hcp.mem_iff.mpr (List.mem_cons_of_mem _ he)
  have hnm : ∀ e ∈ Heap.push (maxLess M.lt) s.nn ⟨nid, d⟩, e = ⟨nid, d⟩ ∨ e ∈ s.nn := by
    intro e he; exact List.mem_cons.mp (hnp.mem_iff.mp he)
  have hnV : ∀ e ∈ Heap.push (maxLess M.lt) s.nn ⟨nid, d⟩, e.id ∈ nid :: s.visited := by
    intro e he
    rcases hnm e he with rfl | h
    · simp
    · exact List.mem_cons_of_mem _ (hs.nnVis e h)
  have hnD : ∀ e ∈ Heap.push (maxLess M.lt) s.nn ⟨nid, d⟩, TrueDist M nodes q e := by
    intro e he
    rcases hnm e he with rfl | h
    · exact htd
    · exact hs.nnD e h
  have hnN : nid ∉ s.visited → ((Heap.push (maxLess M.lt) s.nn ⟨nid, d⟩).map Elem.id).Nodup := by
    intro h
    rw [(hnp.map Elem.id).nodup_iff]
    rw [List.map_cons, List.nodup_cons]
    refine ⟨?_, hs.nnNd⟩
    intro hm
    obtain ⟨e, he, hid⟩ := List.mem_map.mp hm
    have := hs.nnVis e he
    rw [hid] at this; exact h this
  rcases visitOne_cases M nodes q ef s nid v d hs.ne hv hd' with
    ⟨hvis, h⟩ | ⟨hvis, f, hf, ⟨h1, h2, h⟩ | ⟨h1, h2, h⟩ | ⟨h1, h2, x, nn', hp, h⟩⟩
  · exact ⟨s, h, hs, hvis, fun _ h => h, fun _ h => h, fun _ h => Or.inl h, Nat.le_refl _⟩
  · refine ⟨_, h, ⟨hnd' hvis, hvP, hs.ne, hs.len, hs.nnNd, ?_, hs.nnD, ?_, hs.cdD⟩, by simp, ?_, fun _ h => h,
      fun _ h => Or.inl h, by simp⟩
    · intro e he; exact List.mem_cons_of_mem _ (hs.nnVis e he)
    · intro e he; exact List.mem_cons_of_mem _ (hs.cdVis e he)
    · intro x hx; exact List.mem_cons_of_mem _ hx
  · refine ⟨_, h, ⟨hnd' hvis, hvP, ?_, ?_, hnN hvis, hnV, hnD, hcV, hcD⟩, by simp, ?_, hcs, ?_, by simp [hcl]; omega⟩
    · intro hnil
      have := Heap.push_length (maxLess M.lt) s.nn ⟨nid, d⟩
      dsimp only at hnil
      rw [hnil] at this; simp at this
    · show (Heap.push (maxLess M.lt) s.nn ⟨nid, d⟩).length ≤ ef
      rw [Heap.push_length]; exact h2
    · intro x hx; exact List.mem_cons_of_mem _ hx
    · intro e he
      rcases hcm e he with rfl | h
      · exact Or.inr rfl
      · exact Or.inl h
  · have hpp := (Heap.pop_perm _ _ _ _ hp).symm
    have hpl := Heap.pop_length _ _ _ _ hp
    rw [Heap.push_length] at hpl
    have hsub : ∀ e ∈ nn', e ∈ Heap.push (maxLess M.lt) s.nn ⟨nid, d⟩ := by
      intro e he; exact hpp.mem_iff.mp (List.mem_cons_of_mem _ he)
    have hlen := hs.len
    refine ⟨_, h, ⟨hnd' hvis, hvP, ?_, ?_, ?_, ?_, ?_, hcV, hcD⟩, by simp, ?_, hcs, ?_, by simp [hcl]; omega⟩
    · intro hnil
      dsimp only at hnil
      rw [hnil] at hpl; simp at hpl
      exact hs.ne hpl
    · show nn'.length ≤ ef; omega
    · have := hnN hvis
      rw [← (hpp.map Elem.id).nodup_iff, List.map_cons, List.nodup_cons] at this
      exact this.2
    · intro e he; exact hnV e (hsub e he)
    · intro e he; exact hnD e (hsub e he)
    · intro x hx; exact List.mem_cons_of_mem _ hx
    · intro e he
      rcases hcm e he with rfl | h
      · exact Or.inr rfl
      · exact Or.inl h

/-- the inner loop over all connections of a vertex. -/
theorem visitAll_spec (M : Metric D) (nodes : AMap UInt64 Vertex) (q : Vec) (ef : Nat) (P : UInt64 → Prop)
    (hef : 0 < ef) (hd : DistOK M nodes q P) (hex : ∀ id, P id → ∃ v, nodes.get? id = some v) :
    ∀ (conns : List UInt64) (s : SL D), SInv M nodes q ef P s → (∀ n ∈ conns, P n) →
    ∃ s', conns.foldlM (visitOne M nodes q ef) s = .ok s' ∧ SInv M nodes q ef P s' ∧
      (∀ n ∈ conns, n ∈ s'.visited) ∧ (∀ x ∈ s.visited, x ∈ s'.visited) ∧ (∀ e ∈ s.cands, e ∈ s'.cands) ∧
      (∀ e ∈ s'.cands, e ∈ s.cands ∨ e.id ∈ conns) ∧
      s'.cands.length + s.visited.length ≤ s.cands.length + s'.visited.length := by
  intro conns
  induction conns with
  | nil => intro s hs _; exact ⟨s, rfl, hs, by simp, fun _ h => h, fun _ h => h, fun _ h => Or.inl h, Nat.le_refl _⟩
  | cons n rest ih =>
    intro s hs hP
    obtain ⟨s1, h1, i1, v1, m1, c1, k1, l1⟩ :=
      visitOne_spec M nodes q ef P s n hs hef (hP n (by simp)) (hex n (hP n (by simp))) hd
    obtain ⟨s2, h2, i2, v2, m2, c2, k2, l2⟩ := ih s1 i1 (fun x hx => hP x (List.mem_cons_of_mem _ hx))
    refine ⟨s2, ?_, i2, ?_, fun x hx => m2 x (m1 x hx), fun e he => c2 e (c1 e he), ?_, by omega⟩
    · rw [List.foldlM_cons, h1]; exact h2
    · intro x hx
      rcases List.mem_cons.mp hx with rfl | hx
      · exact m2 _ v1
      · exact v2 x hx
    · intro e he
      rcases k2 e he with h | h
      · rcases k1 e h with h | h
        · exact Or.inl h
        · exact Or.inr (by simp [h])
      · exact Or.inr (List.mem_cons_of_mem _ h)

theorem searchLoop_spec (M : Metric D) (nodes : AMap UInt64 Vertex) (b : Nat) (q : Vec) (ef l : Nat)
    (P : UInt64 → Prop) (hef : 0 < ef) (hcl : Closed nodes l b P) (hd : DistOK M nodes q P) :
    ∀ (fuel : Nat) (s : SL D), SInv M nodes q ef P s → s.cands.length + nodes.length < fuel + s.visited.length →
    ∃ s', searchLoop M nodes b q ef l fuel s = .ok s' ∧ SInv M nodes q ef P s' := by
  have hex : ∀ id, P id → ∃ v, nodes.get? id = some v := by
    intro id hP; obtain ⟨v, c, hv, _⟩ := hcl id hP; exact ⟨v, hv⟩
  intro fuel
  induction fuel with
  | zero =>
    intro s hs hf
    exfalso
    have hk : ∀ x ∈ s.visited, x ∈ nodes.keys := by
      intro x hx
      obtain ⟨v, hv⟩ := hex x (hs.visP x hx)
      rw [← AMap.get?_isSome_iff, hv]; rfl
    have := nodup_length_le hs.vis hk
    rw [AMap.length_keys] at this
    omega
  | succ fuel ih =>
    intro s hs hf
    unfold searchLoop
    cases hp : Heap.pop (minLess M.lt) s.cands with
    | none => exact ⟨s, rfl, hs⟩
    | some p =>
      obtain ⟨c, rest⟩ := p
      have hpp := (Heap.pop_perm _ _ _ _ hp).symm
      have hpl := Heap.pop_length _ _ _ _ hp
      have hcm : c ∈ s.cands := hpp.mem_iff.mp (by simp)
      have hrm : ∀ e ∈ rest, e ∈ s.cands := fun e he => hpp.mem_iff.mp (List.mem_cons_of_mem _ he)
      obtain ⟨f, hfk⟩ := peek_some hs.ne
      simp only [hfk]
      have hs1 : SInv M nodes q ef P { s with cands := rest } :=
        ⟨hs.vis, hs.visP, hs.ne, hs.len, hs.nnNd, hs.nnVis, hs.nnD, fun e he => hs.cdVis e (hrm e he),
          fun e he => hs.cdD e (hrm e he)⟩
      split
      · exact ⟨_, rfl, hs1⟩
      · obtain ⟨v, cs, hv, hcs, hcb, hcP⟩ := hcl c.id (hs.visP _ (hs.cdVis c hcm))
        rw [nodeAt_of hv, ok_bind, connsAt_of hcs, ok_bind, if_neg (by omega)]
        obtain ⟨s2, h2, i2, _, _, _, _, l2⟩ := visitAll_spec M nodes q ef P hef hd hex cs _ hs1 hcP
        rw [h2, ok_bind]
        apply ih s2 i2
        dsimp only at l2
        omega

/-- valid entry points / results of a layer search restricted to `P`. -/
structure EpsOK (M : Metric D) (nodes : AMap UInt64 Vertex) (q : Vec) (P : UInt64 → Prop) (eps : List (Elem D)) :
    Prop where
  ne : eps ≠ []
  nd : (eps.map Elem.id).Nodup
  mem : ∀ e ∈ eps, P e.id
  dist : ∀ e ∈ eps, TrueDist M nodes q e

theorem sinv_init (M : Metric D) (nodes : AMap UInt64 Vertex) (q : Vec) (ef : Nat) (P : UInt64 → Prop)
    (eps : List (Elem D)) (h : EpsOK M nodes q P eps) (hl : eps.length ≤ ef) :
    SInv M nodes q ef P { visited := eps.map Elem.id, cands := newMinHeap M.lt eps, nn := newMaxHeap M.lt eps } := by
  have p1 : (newMinHeap M.lt eps).Perm eps := Heap.init_perm _ _
  have p2 : (newMaxHeap M.lt eps).Perm eps := Heap.init_perm _ _
  refine ⟨h.nd, ?_, ?_, ?_, ?_, ?_, ?_, ?_, ?_⟩
  · intro x hx; obtain ⟨e, he, rfl⟩ := List.mem_map.mp hx; exact h.mem e he
  · intro hn
    dsimp only at hn
    rw [hn] at p2; exact h.ne p2.nil_eq.symm
  · show (newMaxHeap M.lt eps).length ≤ ef
    rw [p2.length_eq]; exact hl
  · exact (p2.map Elem.id).nodup_iff.mpr h.nd
  · intro e he; exact List.mem_map.mpr ⟨e, p2.mem_iff.mp he, rfl⟩
  · intro e he; exact h.dist e (p2.mem_iff.mp he)
  · intro e he; exact List.mem_map.mpr ⟨e, p1.mem_iff.mp he, rfl⟩
  · intro e he; exact h.dist e (p1.mem_iff.mp he)

theorem searchLayer_spec (M : Metric D) (nodes : AMap UInt64 Vertex) (b : Nat) (q : Vec) (eps : List (Elem D))
    (ef l : Nat) (P : UInt64 → Prop) (hef : 0 < ef) (hcl : Closed nodes l b P) (hd : DistOK M nodes q P)
    (he : EpsOK M nodes q P eps) (hl : eps.length ≤ ef) :
    ∃ r, searchLayer M nodes b q eps ef l = .ok r ∧ EpsOK M nodes q P r ∧ r.length ≤ ef := by
  unfold searchLayer
  rw [if_neg (by omega)]
  have p1 : (newMinHeap M.lt eps).Perm eps := Heap.init_perm _ _
  obtain ⟨s, hs, i⟩ := searchLoop_spec M nodes b q ef l P hef hcl hd (nodes.length + eps.length + 1) _
    (sinv_init M nodes q ef P eps he hl) (by
      show (newMinHeap M.lt eps).length + _ < _ + (eps.map Elem.id).length
      rw [p1.length_eq]; simp; omega)
  rw [hs, ok_bind]
  exact ⟨s.nn, rfl, ⟨i.ne, i.nnNd, fun e h => i.visP _ (i.nnVis e h), i.nnD⟩, i.len⟩

theorem EpsOK.mono {M : Metric D} {nodes : AMap UInt64 Vertex} {q : Vec} {P Q : UInt64 → Prop} {eps : List (Elem D)}
    (h : EpsOK M nodes q P eps) (hPQ : ∀ x, P x → Q x) : EpsOK M nodes q Q eps :=
  ⟨h.ne, h.nd, fun e he => hPQ _ (h.mem e he), h.dist⟩

theorem EpsOK.head {M : Metric D} {nodes : AMap UInt64 Vertex} {q : Vec} {P : UInt64 → Prop} {e : Elem D}
    {eps : List (Elem D)} (h : EpsOK M nodes q P (e :: eps)) : EpsOK M nodes q P [e] :=
  ⟨by simp, by simp, by intro x hx; simp at hx; subst hx; exact h.mem _ (by simp),
    by intro x hx; simp at hx; subst hx; exact h.dist _ (by simp)⟩

/-- greedy descent. `P l` is the closed set used at layer `l`. -/
theorem descend_spec (M : Metric D) (nodes : AMap UInt64 Vertex) (b : Nat) (q : Vec) (P : Nat → UInt64 → Prop)
    (to : Nat) (hmono : ∀ l x, P (l + 1) x → P l x) :
    ∀ (n : Nat) (eps : List (Elem D)),
      (∀ l, to < l → l ≤ to + n → Closed nodes l b (P l)) → (∀ l, to < l → l ≤ to + n → DistOK M nodes q (P l)) →
      EpsOK M nodes q (P (to + n)) eps → eps.length = 1 →
      ∃ r, descend M nodes b q to n eps = .ok r ∧ EpsOK M nodes q (P to) r ∧ r.length = 1 := by
  intro n
  induction n with
  | zero => intro eps _ _ he hl; exact ⟨eps, rfl, he, hl⟩
  | succ n ih =>
    intro eps hcl hd he hl
    obtain ⟨r, hr, hok, hrl⟩ := searchLayer_spec M nodes b q eps 1 (to + n + 1) (P (to + n + 1)) (by omega)
      (hcl _ (by omega) (by omega)) (hd _ (by omega) (by omega)) he (by omega)
    unfold descend
    rw [hr, ok_bind]
    cases r with
    | nil => exact absurd rfl hok.ne
    | cons e r =>
      dsimp only
      exact ih [e] (fun l h1 h2 => hcl l h1 (by omega)) (fun l h1 h2 => hd l h1 (by omega))
        (hok.head.mono (hmono _)) rfl

end Vectory
