import Verif.Model.SearchFixed
import Verif.Lemmas.LocalOpt
import Verif.Lemmas.SearchMore
/-! The lemmas about searches, for the repaired program (`Model/SearchFixed.lean`). -/
namespace Vectory
variable {V D : Type} {S : Prop} {X : UInt64 → Prop}

theorem root_mem {E : Type} {l : List E} {f : E} (h : Heap.root l = some f) : f ∈ l := List.mem_of_mem_head? h

theorem root_some {E : Type} {l : List E} (h : l ≠ []) : ∃ f, Heap.root l = some f :=
  ⟨l.head h, List.head?_eq_some_head h⟩

/-- the case analysis of one inner round, with everything it can do. -/
theorem visitOne_casesR (M : Metric D) (nodes : AMap UInt64 Vertex) (q : Vec) (ef : Nat) (s : SL D) (nid : UInt64)
    (v : Vertex) (d : D) (hne : s.nn ≠ []) (hv : nodes.get? nid = some v) (hd : M.dist v.vec q = .ok d) :
    (nid ∈ s.visited ∧ visitOneR M nodes q ef s nid = .ok s) ∨
    (nid ∉ s.visited ∧ ∃ f, Heap.root s.nn = some f ∧
      ((M.lt d f.dist = false ∧ ef ≤ s.nn.length ∧
          visitOneR M nodes q ef s nid = .ok { s with visited := nid :: s.visited }) ∨
       ((M.lt d f.dist = true ∨ s.nn.length < ef) ∧ s.nn.length + 1 ≤ ef ∧
          visitOneR M nodes q ef s nid = .ok
            { visited := nid :: s.visited, cands := Heap.push (minLess M.lt) s.cands ⟨nid, d⟩,
              nn := Heap.push (maxLess M.lt) s.nn ⟨nid, d⟩ }) ∨
       ((M.lt d f.dist = true ∨ s.nn.length < ef) ∧ ef < s.nn.length + 1 ∧
          ∃ x nn', Heap.pop (maxLess M.lt) (Heap.push (maxLess M.lt) s.nn ⟨nid, d⟩) = some (x, nn') ∧
          visitOneR M nodes q ef s nid = .ok
            { visited := nid :: s.visited, cands := Heap.push (minLess M.lt) s.cands ⟨nid, d⟩, nn := nn' }))) := by
  by_cases hvis : nid ∈ s.visited
  · left; exact ⟨hvis, by simp [visitOneR, hvis]⟩
  · right
    refine ⟨hvis, ?_⟩
    obtain ⟨f, hf⟩ := root_some hne
    refine ⟨f, hf, ?_⟩
    have hpl := Heap.push_length (maxLess M.lt) s.nn ⟨nid, d⟩
    by_cases hc : M.lt d f.dist = true ∨ s.nn.length < ef
    · by_cases hl : ef < s.nn.length + 1
      · right; right
        refine ⟨hc, hl, ?_⟩
        cases hp : Heap.pop (maxLess M.lt) (Heap.push (maxLess M.lt) s.nn ⟨nid, d⟩) with
        | none =>
          rw [Heap.pop_none] at hp
          rw [hp] at hpl; simp at hpl
        | some p =>
          obtain ⟨x, nn'⟩ := p
          refine ⟨x, nn', rfl, ?_⟩
          simp [visitOneR, hvis, hf, nodeAt_of hv, hd, hc, hpl, hl, hp]
      · right; left
        refine ⟨hc, by omega, ?_⟩
        simp [visitOneR, hvis, hf, nodeAt_of hv, hd, hc, hpl, hl]
    · left
      have h1 : M.lt d f.dist = false := by
        cases h : M.lt d f.dist
        · rfl
        · exact absurd (Or.inl h) hc
      have h2 : ef ≤ s.nn.length := by
        by_cases h : s.nn.length < ef
        · exact absurd (Or.inr h) hc
        · omega
      refine ⟨h1, h2, ?_⟩
      simp [visitOneR, hvis, hf, nodeAt_of hv, hd, hc]

theorem visitOne_specR (M : Metric D) (nodes : AMap UInt64 Vertex) (q : Vec) (ef : Nat) (P : UInt64 → Prop)
    (s : SL D) (nid : UInt64) (hs : SInv M nodes q ef P s) (hef : 0 < ef)
    (hP : P nid) (hv : ∃ v, nodes.get? nid = some v) (hd : DistOK M nodes q P) :
    ∃ s', visitOneR M nodes q ef s nid = .ok s' ∧ SInv M nodes q ef P s' ∧ nid ∈ s'.visited ∧
      (∀ x ∈ s.visited, x ∈ s'.visited) ∧ (∀ e ∈ s.cands, e ∈ s'.cands) ∧
      (∀ e ∈ s'.cands, e ∈ s.cands ∨ e.id = nid) ∧
      s'.cands.length + s.visited.length ≤ s.cands.length + s'.visited.length := by
  obtain ⟨v, hv⟩ := hv
  obtain ⟨d, hd'⟩ := hd nid hP v hv
  have htd : TrueDist M nodes q ⟨nid, d⟩ := ⟨v, hv, hd'⟩
  have hnd' : nid ∉ s.visited → (nid :: s.visited).Nodup := fun h => List.nodup_cons.mpr ⟨h, hs.vis⟩
  have hvP : ∀ x ∈ nid :: s.visited, P x := by
    intro x hx
    rcases List.mem_cons.mp hx with rfl | hx
    · exact hP
    · exact hs.visP x hx
  have hcp := Heap.push_perm (minLess M.lt) s.cands ⟨nid, d⟩
  have hnp := Heap.push_perm (maxLess M.lt) s.nn ⟨nid, d⟩
  have hcm : ∀ e ∈ Heap.push (minLess M.lt) s.cands ⟨nid, d⟩, e = ⟨nid, d⟩ ∨ e ∈ s.cands := by
    intro e he; exact List.mem_cons.mp (hcp.mem_iff.mp he)
  have hcV : ∀ e ∈ Heap.push (minLess M.lt) s.cands ⟨nid, d⟩, e.id ∈ nid :: s.visited := by
    intro e he
    rcases hcm e he with rfl | h
    · simp
    · exact List.mem_cons_of_mem _ (hs.cdVis e h)
  have hcD : ∀ e ∈ Heap.push (minLess M.lt) s.cands ⟨nid, d⟩, TrueDist M nodes q e := by
    intro e he
    rcases hcm e he with rfl | h
    · exact htd
    · exact hs.cdD e h
  have hcl : (Heap.push (minLess M.lt) s.cands ⟨nid, d⟩).length = s.cands.length + 1 := Heap.push_length _ _ _
  have hcs : ∀ e ∈ s.cands, e ∈ Heap.push (minLess M.lt) s.cands ⟨nid, d⟩ := by
    intro e he; exact hcp.mem_iff.mpr (List.mem_cons_of_mem _ he)
  have hnm : ∀ e ∈ Heap.push (maxLess M.lt) s.nn ⟨nid, d⟩, e = ⟨nid, d⟩ ∨ e ∈ s.nn := by
    intro e he; exact List.mem_cons.mp (hnp.mem_iff.mp he)
  have hnV : ∀ e ∈ Heap.push (maxLess M.lt) s.nn ⟨nid, d⟩, e.id ∈ nid :: s.visited := by
    intro e he
    rcases hnm e he with rfl | h
    · simp
    · exact List.mem_cons_of_mem _ (hs.nnVis e h)
  have hnD : ∀ e ∈ Heap.push (maxLess M.lt) s.nn ⟨nid, d⟩, TrueDist M nodes q e := by
    intro e he
    rcases hnm e he with rfl | h
    · exact htd
    · exact hs.nnD e h
  have hnN : nid ∉ s.visited → ((Heap.push (maxLess M.lt) s.nn ⟨nid, d⟩).map Elem.id).Nodup := by
    intro h
    rw [(hnp.map Elem.id).nodup_iff]
    rw [List.map_cons, List.nodup_cons]
    refine ⟨?_, hs.nnNd⟩
    intro hm
    obtain ⟨e, he, hid⟩ := List.mem_map.mp hm
    have := hs.nnVis e he
    rw [hid] at this; exact h this
  rcases visitOne_casesR M nodes q ef s nid v d hs.ne hv hd' with
    ⟨hvis, h⟩ | ⟨hvis, f, hf, ⟨h1, h2, h⟩ | ⟨h1, h2, h⟩ | ⟨h1, h2, x, nn', hp, h⟩⟩
  · exact ⟨s, h, hs, hvis, fun _ h => h, fun _ h => h, fun _ h => Or.inl h, Nat.le_refl _⟩
  · refine ⟨_, h, ⟨hnd' hvis, hvP, hs.ne, hs.len, hs.nnNd, ?_, hs.nnD, ?_, hs.cdD⟩, by simp, ?_, fun _ h => h,
      fun _ h => Or.inl h, by simp⟩
    · intro e he; exact List.mem_cons_of_mem _ (hs.nnVis e he)
    · intro e he; exact List.mem_cons_of_mem _ (hs.cdVis e he)
    · intro x hx; exact List.mem_cons_of_mem _ hx
  · refine ⟨_, h, ⟨hnd' hvis, hvP, ?_, ?_, hnN hvis, hnV, hnD, hcV, hcD⟩, by simp, ?_, hcs, ?_, by simp [hcl]; omega⟩
    · intro hnil
      have := Heap.push_length (maxLess M.lt) s.nn ⟨nid, d⟩
      dsimp only at hnil
      rw [hnil] at this; simp at this
    · show (Heap.push (maxLess M.lt) s.nn ⟨nid, d⟩).length ≤ ef
      rw [Heap.push_length]; exact h2
    · intro x hx; exact List.mem_cons_of_mem _ hx
    · intro e he
      rcases hcm e he with rfl | h
      · exact Or.inr rfl
      · exact Or.inl h
  · have hpp := (Heap.pop_perm _ _ _ _ hp).symm
    have hpl := Heap.pop_length _ _ _ _ hp
    rw [Heap.push_length] at hpl
    have hsub : ∀ e ∈ nn', e ∈ Heap.push (maxLess M.lt) s.nn ⟨nid, d⟩ := by
      intro e he; exact hpp.mem_iff.mp (List.mem_cons_of_mem _ he)
    have hlen := hs.len
    refine ⟨_, h, ⟨hnd' hvis, hvP, ?_, ?_, ?_, ?_, ?_, hcV, hcD⟩, by simp, ?_, hcs, ?_, by simp [hcl]; omega⟩
    · intro hnil
      dsimp only at hnil
      rw [hnil] at hpl; simp at hpl
      exact hs.ne hpl
    · show nn'.length ≤ ef; omega
    · have := hnN hvis
      rw [← (hpp.map Elem.id).nodup_iff, List.map_cons, List.nodup_cons] at this
      exact this.2
    · intro e he; exact hnV e (hsub e he)
    · intro e he; exact hnD e (hsub e he)
    · intro x hx; exact List.mem_cons_of_mem _ hx
    · intro e he
      rcases hcm e he with rfl | h
      · exact Or.inr rfl
      · exact Or.inl h

/-- the inner loop over all connections of a vertex. -/
theorem visitAll_specR (M : Metric D) (nodes : AMap UInt64 Vertex) (q : Vec) (ef : Nat) (P : UInt64 → Prop)
    (hef : 0 < ef) (hd : DistOK M nodes q P) (hex : ∀ id, P id → ∃ v, nodes.get? id = some v) :
    ∀ (conns : List UInt64) (s : SL D), SInv M nodes q ef P s → (∀ n ∈ conns, P n) →
    ∃ s', conns.foldlM (visitOneR M nodes q ef) s = .ok s' ∧ SInv M nodes q ef P s' ∧
      (∀ n ∈ conns, n ∈ s'.visited) ∧ (∀ x ∈ s.visited, x ∈ s'.visited) ∧ (∀ e ∈ s.cands, e ∈ s'.cands) ∧
      (∀ e ∈ s'.cands, e ∈ s.cands ∨ e.id ∈ conns) ∧
      s'.cands.length + s.visited.length ≤ s.cands.length + s'.visited.length := by
  intro conns
  induction conns with
  | nil => intro s hs _; exact ⟨s, rfl, hs, by simp, fun _ h => h, fun _ h => h, fun _ h => Or.inl h, Nat.le_refl _⟩
  | cons n rest ih =>
    intro s hs hP
    obtain ⟨s1, h1, i1, v1, m1, c1, k1, l1⟩ :=
      visitOne_specR M nodes q ef P s n hs hef (hP n (by simp)) (hex n (hP n (by simp))) hd
    obtain ⟨s2, h2, i2, v2, m2, c2, k2, l2⟩ := ih s1 i1 (fun x hx => hP x (List.mem_cons_of_mem _ hx))
    refine ⟨s2, ?_, i2, ?_, fun x hx => m2 x (m1 x hx), fun e he => c2 e (c1 e he), ?_, by omega⟩
    · rw [List.foldlM_cons, h1]; exact h2
    · intro x hx
      rcases List.mem_cons.mp hx with rfl | hx
      · exact m2 _ v1
      · exact v2 x hx
    · intro e he
      rcases k2 e he with h | h
      · rcases k1 e h with h | h
        · exact Or.inl h
        · exact Or.inr (by simp [h])
      · exact Or.inr (List.mem_cons_of_mem _ h)

theorem searchLoop_specR (M : Metric D) (nodes : AMap UInt64 Vertex) (b : Nat) (q : Vec) (ef l : Nat)
    (P : UInt64 → Prop) (hef : 0 < ef) (hcl : Closed nodes l b P) (hd : DistOK M nodes q P) :
    ∀ (fuel : Nat) (s : SL D), SInv M nodes q ef P s → s.cands.length + nodes.length < fuel + s.visited.length →
    ∃ s', searchLoopR M nodes b q ef l fuel s = .ok s' ∧ SInv M nodes q ef P s' := by
  have hex : ∀ id, P id → ∃ v, nodes.get? id = some v := by
    intro id hP; obtain ⟨v, c, hv, _⟩ := hcl id hP; exact ⟨v, hv⟩
  intro fuel
  induction fuel with
  | zero =>
    intro s hs hf
    exfalso
    have hk : ∀ x ∈ s.visited, x ∈ nodes.keys := by
      intro x hx
      obtain ⟨v, hv⟩ := hex x (hs.visP x hx)
      rw [← AMap.get?_isSome_iff, hv]; rfl
    have := nodup_length_le hs.vis hk
    rw [AMap.length_keys] at this
    omega
  | succ fuel ih =>
    intro s hs hf
    unfold searchLoopR
    cases hp : Heap.pop (minLess M.lt) s.cands with
    | none => exact ⟨s, rfl, hs⟩
    | some p =>
      obtain ⟨c, rest⟩ := p
      have hpp := (Heap.pop_perm _ _ _ _ hp).symm
      have hpl := Heap.pop_length _ _ _ _ hp
      have hcm : c ∈ s.cands := hpp.mem_iff.mp (by simp)
      have hrm : ∀ e ∈ rest, e ∈ s.cands := fun e he => hpp.mem_iff.mp (List.mem_cons_of_mem _ he)
      obtain ⟨f, hfk⟩ := root_some hs.ne
      simp only [hfk]
      have hs1 : SInv M nodes q ef P { s with cands := rest } :=
        ⟨hs.vis, hs.visP, hs.ne, hs.len, hs.nnNd, hs.nnVis, hs.nnD, fun e he => hs.cdVis e (hrm e he),
          fun e he => hs.cdD e (hrm e he)⟩
      split
      · exact ⟨_, rfl, hs1⟩
      · obtain ⟨v, cs, hv, hcs, hcb, hcP⟩ := hcl c.id (hs.visP _ (hs.cdVis c hcm))
        rw [nodeAt_of hv, ok_bind, connsAt_of hcs, ok_bind, if_neg (by omega)]
        obtain ⟨s2, h2, i2, _, _, _, _, l2⟩ := visitAll_specR M nodes q ef P hef hd hex cs _ hs1 hcP
        rw [h2, ok_bind]
        apply ih s2 i2
        dsimp only at l2
        omega


theorem searchLayer_specR (M : Metric D) (nodes : AMap UInt64 Vertex) (b : Nat) (q : Vec) (eps : List (Elem D))
    (ef l : Nat) (P : UInt64 → Prop) (hef : 0 < ef) (hcl : Closed nodes l b P) (hd : DistOK M nodes q P)
    (he : EpsOK M nodes q P eps) (hl : eps.length ≤ ef) :
    ∃ r, searchLayerR M nodes b q eps ef l = .ok r ∧ EpsOK M nodes q P r ∧ r.length ≤ ef := by
  unfold searchLayerR
  rw [if_neg (by omega)]
  have p1 : (newMinHeap M.lt eps).Perm eps := Heap.init_perm _ _
  obtain ⟨s, hs, i⟩ := searchLoop_specR M nodes b q ef l P hef hcl hd (nodes.length + eps.length + 1) _
    (sinv_init M nodes q ef P eps he hl) (by
      show (newMinHeap M.lt eps).length + _ < _ + (eps.map Elem.id).length
      rw [p1.length_eq]; simp; omega)
  rw [hs, ok_bind]
  exact ⟨s.nn, rfl, ⟨i.ne, i.nnNd, fun e h => i.visP _ (i.nnVis e h), i.nnD⟩, i.len⟩


/-- greedy descent. `P l` is the closed set used at layer `l`. -/
theorem descend_specR (M : Metric D) (nodes : AMap UInt64 Vertex) (b : Nat) (q : Vec) (P : Nat → UInt64 → Prop)
    (to : Nat) (hmono : ∀ l x, P (l + 1) x → P l x) :
    ∀ (n : Nat) (eps : List (Elem D)),
      (∀ l, to < l → l ≤ to + n → Closed nodes l b (P l)) → (∀ l, to < l → l ≤ to + n → DistOK M nodes q (P l)) →
      EpsOK M nodes q (P (to + n)) eps → eps.length = 1 →
      ∃ r, descendR M nodes b q to n eps = .ok r ∧ EpsOK M nodes q (P to) r ∧ r.length = 1 := by
  intro n
  induction n with
  | zero => intro eps _ _ he hl; exact ⟨eps, rfl, he, hl⟩
  | succ n ih =>
    intro eps hcl hd he hl
    obtain ⟨r, hr, hok, hrl⟩ := searchLayer_specR M nodes b q eps 1 (to + n + 1) (P (to + n + 1)) (by omega)
      (hcl _ (by omega) (by omega)) (hd _ (by omega) (by omega)) he (by omega)
    unfold descendR
    rw [hr, ok_bind]
    cases r with
    | nil => exact absurd rfl hok.ne
    | cons e r =>
      dsimp only
      exact ih [e] (fun l h1 h2 => hcl l h1 (by omega)) (fun l h1 h2 => hd l h1 (by omega))
        (hok.head.mono (hmono _)) rfl


theorem visitOne_coverR {M : Metric D} {nodes : AMap UInt64 Vertex} {q : Vec} {ef : Nat} {P : UInt64 → Prop}
    (hcount : ∀ l : List UInt64, l.Nodup → (∀ x ∈ l, P x) → l.length ≤ ef)
    (hd : DistOK M nodes q P) {s s' : SL D} {nid : UInt64} (hs : SInv M nodes q ef P s) (hc : Cover s) (hP : P nid)
    (hv : ∃ v, nodes.get? nid = some v) (h : visitOneR M nodes q ef s nid = .ok s') : Cover s' := by
  obtain ⟨v, hv⟩ := hv
  obtain ⟨d, hd'⟩ := hd nid hP v hv
  have hfew : nid ∉ s.visited → s.nn.length + 1 ≤ ef := by
    intro hvis
    have := hcount (nid :: s.nn.map Elem.id) (List.nodup_cons.mpr ⟨by
        intro hm
        obtain ⟨e, he, rfl⟩ := List.mem_map.mp hm
        exact hvis (hs.nnVis e he), hs.nnNd⟩) (by
        intro x hx
        rcases List.mem_cons.mp hx with rfl | hx
        · exact hP
        · obtain ⟨e, he, rfl⟩ := List.mem_map.mp hx
          exact hs.visP _ (hs.nnVis e he))
    simpa using this
  rcases visitOne_casesR M nodes q ef s nid v d hs.ne hv hd' with
    ⟨hvis, h1⟩ | ⟨hvis, f, hf, ⟨h1, h2, h3⟩ | ⟨h1, h2, h3⟩ | ⟨h1, h2, x, nn', hp, h3⟩⟩
  · rw [h1] at h; cases h; exact hc
  · have := hfew hvis; omega
  · rw [h3] at h; cases h
    have hnp := Heap.push_perm (maxLess M.lt) s.nn ⟨nid, d⟩
    intro y hy
    rcases List.mem_cons.mp hy with rfl | hy
    · exact ⟨⟨y, d⟩, hnp.mem_iff.mpr (by simp), rfl⟩
    · obtain ⟨e, he, hid⟩ := hc y hy
      exact ⟨e, hnp.mem_iff.mpr (List.mem_cons_of_mem _ he), hid⟩
  · have := hfew hvis; omega

theorem visitAll_coverR {M : Metric D} {nodes : AMap UInt64 Vertex} {q : Vec} {ef : Nat} {P : UInt64 → Prop}
    (hef : 0 < ef) (hcount : ∀ l : List UInt64, l.Nodup → (∀ x ∈ l, P x) → l.length ≤ ef)
    (hd : DistOK M nodes q P) (hex : ∀ id, P id → ∃ v, nodes.get? id = some v) :
    ∀ (conns : List UInt64) (s s' : SL D), SInv M nodes q ef P s → Cover s → (∀ n ∈ conns, P n) →
      conns.foldlM (visitOneR M nodes q ef) s = .ok s' → Cover s' := by
  intro conns
  induction conns with
  | nil => intro s s' _ hc _ h; cases h; exact hc
  | cons n rest ih =>
    intro s s' hs hc hP h
    obtain ⟨s1, h1, i1, _⟩ := visitOne_specR M nodes q ef P s n hs hef (hP n (by simp)) (hex n (hP n (by simp))) hd
    rw [List.foldlM_cons, h1] at h
    exact ih s1 s' i1 (visitOne_coverR hcount hd hs hc (hP n (by simp)) (hex n (hP n (by simp))) h1)
      (fun x hx => hP x (List.mem_cons_of_mem _ hx)) h

theorem searchLoop_coverR {M : Metric D} {nodes : AMap UInt64 Vertex} {b : Nat} {q : Vec} {ef l : Nat}
    {P : UInt64 → Prop} (hef : 0 < ef) (hcount : ∀ l : List UInt64, l.Nodup → (∀ x ∈ l, P x) → l.length ≤ ef)
    (hcl : Closed nodes l b P) (hd : DistOK M nodes q P) :
    ∀ (fuel : Nat) (s s' : SL D), SInv M nodes q ef P s → Cover s → searchLoopR M nodes b q ef l fuel s = .ok s' →
      Cover s' ∧ ∀ x ∈ s.visited, x ∈ s'.visited := by
  have hex : ∀ id, P id → ∃ v, nodes.get? id = some v := by
    intro id hP; obtain ⟨v, c, hv, _⟩ := hcl id hP; exact ⟨v, hv⟩
  intro fuel
  induction fuel with
  | zero => intro s s' _ _ h; cases h
  | succ fuel ih =>
    intro s s' hs hc h
    unfold searchLoopR at h
    cases hp : Heap.pop (minLess M.lt) s.cands with
    | none => rw [hp] at h; cases h; exact ⟨hc, fun _ h => h⟩
    | some p =>
      obtain ⟨c, rest⟩ := p
      rw [hp] at h
      have hpp := (Heap.pop_perm _ _ _ _ hp).symm
      have hcm : c ∈ s.cands := hpp.mem_iff.mp (by simp)
      have hrm : ∀ e ∈ rest, e ∈ s.cands := fun e he => hpp.mem_iff.mp (List.mem_cons_of_mem _ he)
      obtain ⟨f, hfk⟩ := root_some hs.ne
      simp only [hfk] at h
      have hs1 : SInv M nodes q ef P { s with cands := rest } :=
        ⟨hs.vis, hs.visP, hs.ne, hs.len, hs.nnNd, hs.nnVis, hs.nnD, fun e he => hs.cdVis e (hrm e he),
          fun e he => hs.cdD e (hrm e he)⟩
      split at h
      · cases h; exact ⟨hc, fun _ h => h⟩
      · obtain ⟨v, cs, hv, hcs, hcb, hcP⟩ := hcl c.id (hs.visP _ (hs.cdVis c hcm))
        rw [nodeAt_of hv, ok_bind, connsAt_of hcs, ok_bind, if_neg (by omega)] at h
        obtain ⟨s2, h2, i2, _, m2, _⟩ := visitAll_specR M nodes q ef P hef hd hex cs _ hs1 hcP
        rw [h2, ok_bind] at h
        obtain ⟨r1, r2⟩ := ih s2 s' i2 (visitAll_coverR hef hcount hd hex cs _ s2 hs1 hc hcP h2) h
        exact ⟨r1, fun x hx => r2 x (m2 x hx)⟩


theorem search_reduceR {M : Metric D} {dim : Nat} (hM : DimOK M dim) {h : Hnsw} (i : Inv S h) (hcfg : CfgOK h.cfg)
    (hv : VecOK dim h.nodes) (hne : h.nodes ≠ []) {q : Vec} (hq : q.length = dim) {k : Int} (hk : 0 ≤ k) :
    ∃ eps nns, EpsOK M h.nodes q (fun x => HasLevel h.nodes x 0) eps ∧ eps.length = 1 ∧
      searchLayerR M h.nodes h.cfg.mMax0 q eps h.cfg.ef 0 = .ok nns ∧
      EpsOK M h.nodes q (fun x => HasLevel h.nodes x 0) nns ∧ nns.length ≤ h.cfg.ef ∧
      h.searchR M q k = .ok (takeLive M h.deleted (newMinHeap M.lt nns).length k.toNat (newMinHeap M.lt nns)) := by
  have hent : HasLevel h.nodes h.entry h.maxLayer := by
    rcases i.m.good.entry with h1 | h1
    · exact absurd h1 hne
    · exact h1
  obtain ⟨epv, hepv, hepl⟩ := hent
  obtain ⟨d, hdd⟩ := hM epv.vec q (hv _ _ hepv) hq
  have heps0 : EpsOK M h.nodes q (fun x => HasLevel h.nodes x h.maxLayer) [{ id := h.entry, dist := d }] := by
    refine ⟨by simp, by simp, ?_, ?_⟩
    · intro e he; simp at he; subst he; exact ⟨epv, hepv, hepl⟩
    · intro e he; simp at he; subst he; exact ⟨epv, hepv, hdd⟩
  obtain ⟨eps, hr, ho, hl1⟩ := descend_specR M h.nodes h.cfg.mMax0 q (fun l x => HasLevel h.nodes x l) 0
      (fun l x hx => hx.mono (by omega)) h.maxLayer [{ id := h.entry, dist := d }]
      (fun l _ _ => closed_all hcfg i.m.good.graph l)
      (fun l _ _ => distOK_of hM hv hq _)
      (by simpa using heps0) rfl
  have hef := hcfg.ef
  obtain ⟨nns, hn1, hn2, hn3⟩ := searchLayer_specR M h.nodes h.cfg.mMax0 q eps h.cfg.ef 0 (fun x => HasLevel h.nodes x 0)
    hcfg.ef (closed_all hcfg i.m.good.graph 0) (distOK_of hM hv hq _) ho (by omega)
  refine ⟨eps, nns, ho, hl1, hn1, hn2, hn3, ?_⟩
  unfold Hnsw.searchR
  rw [if_neg (by omega), nodeAt_of hepv, ok_bind, hdd, ok_bind, hr, ok_bind, hn1, ok_bind]

theorem search_specR {M : Metric D} {dim : Nat} (hM : DimOK M dim) {h : Hnsw} (i : Inv S h) (hcfg : CfgOK h.cfg)
    (hv : VecOK dim h.nodes) (hne : h.nodes ≠ []) {q : Vec} (hq : q.length = dim) {k : Int} (hk : 0 ≤ k) :
    ∃ r, h.searchR M q k = .ok r ∧ r.length ≤ k.toNat ∧ r.length ≤ h.cfg.ef ∧ (r.map Elem.id).Nodup ∧
      (∀ e ∈ r, e.id ∉ h.deleted ∧ TrueDist M h.nodes q e) := by
  obtain ⟨eps, nns, _, _, _, hn2, hn3, hs⟩ := search_reduceR hM i hcfg hv hne hq hk
  obtain ⟨h1, ⟨rest, h2⟩, h3⟩ := takeLive_spec M h.deleted (newMinHeap M.lt nns).length k.toNat (newMinHeap M.lt nns)
  have hp : (newMinHeap M.lt nns).Perm nns := Heap.init_perm _ _
  have hp2 := hp.symm.trans h2
  refine ⟨_, hs, h1, ?_, ?_, ?_⟩
  · have := hp2.length_eq; simp at this; omega
  · have := (hp2.map Elem.id).nodup_iff.mp hn2.nd
    rw [List.map_append] at this
    exact (List.nodup_append.mp this).1
  · intro e he
    exact ⟨h3 e he, hn2.dist e (hp2.mem_iff.mpr (List.mem_append_left _ he))⟩


/-- what a successful search says about its inputs. -/
theorem search_okR {L : Lib V D} {dim : Nat} {c : Coll} (i : WInv S L dim X c) {o : Object V} {embed : Embed V} {k : Int}
    {r : SearchResult V D} (he : EmbedOK c embed dim [o]) (h : c.semanticSearchR L o embed k = .ok r) :
    ∃ o1, c.closed = false ∧ embedObjectsIfNeeded c embed [o] = .ok (.ok [o1]) ∧ (o1.vec.getD []).length = dim ∧ 0 ≤ k ∧
      c.index.nodes ≠ [] := by
  unfold Coll.semanticSearchR at h
  split at h
  · cases h
  · rename_i hc
    obtain ⟨r1, h1, h2⟩ := (bind_ok_iff _ _ _).mp h
    obtain ⟨r0, h3, h4⟩ := he
    rw [h3] at h1
    cases h1
    cases r1 with
    | error e => cases h2
    | ok os =>
      have hlen := embed_length h3
      match os, hlen with
      | [o1], _ =>
        dsimp only at h2
        obtain ⟨es, h5, _⟩ := (bind_ok_iff _ _ _).mp h2
        refine ⟨o1, by simpa using hc, h3, h4 _ rfl o1 (by simp), ?_, ?_⟩
        · rcases Int.lt_or_le k 0 with hk | hk
          · unfold Hnsw.searchR at h5
            rw [if_pos hk] at h5
            cases h5
          · exact hk
        · intro hn
          unfold Hnsw.searchR at h5
          split at h5
          · cases h5
          · rw [hn] at h5
            cases h5


/-- a search on any collection satisfying the weak invariant: it pairs every result of the index with its own object, or
panics when a result has no stored object. -/
theorem coll_search_weakR {L : Lib V D} {dim : Nat} {c : Coll} (i : WInv S L dim X c) (hc : c.closed = false)
    (hne : c.index.nodes ≠ []) {o o1 : Object V} {embed : Embed V} (he : embedObjectsIfNeeded c embed [o] = .ok (.ok [o1]))
    (hd : (o1.vec.getD []).length = dim) {k : Int} (hk : 0 ≤ k) :
    ∃ es, c.index.searchR L.metric (o1.vec.getD []) k = .ok es ∧
      ((∃ e ∈ es, c.hasObject e.id = false) → c.semanticSearchR L o embed k = .error (.panic .indexOutOfRange)) ∧
      ((∀ e ∈ es, c.hasObject e.id = true) → ∃ r, c.semanticSearchR L o embed k = .ok r ∧
      r.hits = es.length ∧ r.objects.map Hit.id = es.map Elem.id ∧ r.objects.map Hit.dist = es.map Elem.dist ∧
      ∀ h ∈ r.objects, ∃ x v, getObject L.json c.stores h.id = .ok (some x) ∧ x.id = h.id ∧ h.props = x.props ∧ x.vec = some v ∧
        L.metric.dist v (o1.vec.getD []) = .ok h.dist ∧ h.id ∉ c.index.deleted) := by
  obtain ⟨es, h1, _, _, _, h5⟩ := search_specR i.dimM i.idx i.cfg i.vecs hne hd hk
  obtain ⟨os, h6, h7, h8⟩ := getObjects_weak i (es.map Elem.id) (by
    intro id hid
    obtain ⟨e, hee, rfl⟩ := List.mem_map.mp hid
    obtain ⟨hdl, v, hv, _⟩ := h5 e hee
    rw [← AMap.get?_isSome_iff, hv]; rfl)
  have hrun : ∀ p, pairHits es os = p → c.semanticSearchR L o embed k = (do
      let hits ← liftPanic p
      .ok { hits := es.length, objects := hits }) := by
    intro p hp
    unfold Coll.semanticSearchR
    rw [hc, he]
    simp only [Bool.false_eq_true, if_false, liftPanic, ok_bind]
    rw [h1]
    dsimp only
    rw [ok_bind, h6, ok_bind, hp]
  refine ⟨es, h1, ?_, ?_⟩
  · rintro ⟨e, hee, hf⟩
    have : os.length < es.length := by
      have hl := congrArg List.length h7
      rw [List.length_map] at hl
      rw [hl]
      have : ((es.map Elem.id).filter (fun id => c.hasObject id)).length < (es.map Elem.id).length := by
        apply List.length_filter_lt_length_iff_exists.mpr
        exact ⟨e.id, List.mem_map_of_mem hee, by simp [hf]⟩
      simpa using this
    rw [hrun _ (pairHits_short es os this)]
    rfl
  · intro hall
    have h7' : os.map Object.id = es.map Elem.id := by
      rw [h7]
      apply List.filter_eq_self.mpr
      intro x hx
      obtain ⟨e, hee, rfl⟩ := List.mem_map.mp hx
      exact hall e hee
    obtain ⟨hs, p1, p2, p3, p4⟩ := pairHits_all es os h7'
    refine ⟨⟨es.length, hs⟩, ?_, rfl, p2, p3, ?_⟩
    · rw [hrun _ p1]; rfl
    · intro h hh
      obtain ⟨e, hee, x, hx, q1, q2, q3, q4⟩ := p4 h hh
      obtain ⟨g1, g2, g3⟩ := h8 x hx
      obtain ⟨hdl, v, hv, hdist⟩ := h5 e hee
      refine ⟨x, v.vec, by rw [q2]; exact g1, q2.symm, q3, ?_, by rw [q4]; exact hdist, by rw [q1]; exact hdl⟩
      rw [← g2, ← q2, q1]
      unfold vecOf; rw [hv]; rfl

/-- everything about a successful search. -/
theorem coll_search_okR {L : Lib V D} {dim : Nat} {c : Coll} (i : WInv S L dim X c) {o : Object V} {embed : Embed V} {k : Int}
    {r : SearchResult V D} (he : EmbedOK c embed dim [o]) (h : c.semanticSearchR L o embed k = .ok r) :
    ∃ o1 es, c.closed = false ∧ embedObjectsIfNeeded c embed [o] = .ok (.ok [o1]) ∧ (o1.vec.getD []).length = dim ∧ 0 ≤ k ∧
      c.index.nodes ≠ [] ∧ c.index.searchR L.metric (o1.vec.getD []) k = .ok es ∧
      r.hits = es.length ∧ r.objects.map Hit.id = es.map Elem.id ∧ r.objects.map Hit.dist = es.map Elem.dist ∧
      ∀ h ∈ r.objects, ∃ x v, getObject L.json c.stores h.id = .ok (some x) ∧ x.id = h.id ∧ h.props = x.props ∧ x.vec = some v ∧
        L.metric.dist v (o1.vec.getD []) = .ok h.dist ∧ h.id ∉ c.index.deleted := by
  obtain ⟨o1, hc, h1, hd, hk, hne⟩ := search_okR i he h
  obtain ⟨es, h2, hbad, hgood⟩ := coll_search_weakR i hc hne h1 hd hk
  refine ⟨o1, es, hc, h1, hd, hk, hne, h2, ?_⟩
  by_cases hall : ∀ e ∈ es, c.hasObject e.id = true
  · obtain ⟨r', g1, g2⟩ := hgood hall
    rw [h] at g1; cases g1; exact g2
  · have : ∃ e ∈ es, c.hasObject e.id = false := by
      apply Classical.byContradiction
      intro hn
      refine hall (fun e hee => ?_)
      cases hb : c.hasObject e.id with
      | true => rfl
      | false => exact absurd ⟨e, hee, hb⟩ hn
    rw [hbad this] at h; cases h


end Vectory
