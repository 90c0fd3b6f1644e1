import Verif.Lemmas.Ops
/-! Facts that need the comparison of distances to be an order: sortedness and local optimality. -/
namespace Vectory
variable {D : Type}

theorem Ord.min {lt : D → D → Bool} (w : Ord lt) : Heap.WeakOrder (minLess lt) :=
  ⟨fun a b h => w.asymm a.dist b.dist h, fun a b c h1 h2 => w.negTrans a.dist b.dist c.dist h1 h2⟩

theorem Ord.max {lt : D → D → Bool} (w : Ord lt) : Heap.WeakOrder (maxLess lt) :=
  ⟨fun a b h => w.asymm b.dist a.dist h, fun a b c h1 h2 => w.negTrans c.dist b.dist a.dist h2 h1⟩

theorem Le.trans {lt : D → D → Bool} (w : Ord lt) {a b c : D} (h1 : Le lt a b) (h2 : Le lt b c) : Le lt a c :=
  w.negTrans a b c h1 h2

theorem Le.refl {lt : D → D → Bool} (w : Ord lt) (a : D) : Le lt a a := w.irrefl a

theorem Le.of_lt {lt : D → D → Bool} (w : Ord lt) {a b : D} (h : lt a b = true) : Le lt a b := w.asymm a b h

/-! ### popping in order -/

theorem takeLive_sorted {M : Metric D} (w : Ord M.lt) (del : List UInt64) :
    ∀ (fuel k : Nat) (heap : List (Elem D)), Heap.IsHeap (minLess M.lt) heap → heap.length ≤ fuel →
      ∃ rest, heap.Perm (takeLive M del fuel k heap ++ rest) ∧
        (takeLive M del fuel k heap).Pairwise (fun a b => Le M.lt a.dist b.dist) ∧
        (∀ e ∈ rest, e.id ∉ del → ∀ r ∈ takeLive M del fuel k heap, Le M.lt r.dist e.dist) ∧
        (∀ e ∈ takeLive M del fuel k heap, e.id ∉ del) ∧
        (takeLive M del fuel k heap).length = min k (heap.filter (fun e => decide (e.id ∉ del))).length := by
  intro fuel
  induction fuel with
  | zero =>
    intro k heap _ hl
    have : heap = [] := List.eq_nil_of_length_eq_zero (by omega)
    subst this
    exact ⟨[], by simp [takeLive], by simp [takeLive], by simp, by simp [takeLive], by simp [takeLive]⟩
  | succ fuel ih =>
    intro k heap hh hl
    cases k with
    | zero => exact ⟨heap, by simp [takeLive], by simp [takeLive], by simp [takeLive], by simp [takeLive], by simp [takeLive]⟩
    | succ k =>
      unfold takeLive
      cases hp : Heap.pop (minLess M.lt) heap with
      | none =>
        rw [Heap.pop_none] at hp; subst hp
        exact ⟨[], by simp, by simp, by simp, by simp, by simp⟩
      | some p =>
        obtain ⟨e, rest⟩ := p
        have hpp := Heap.pop_perm _ _ _ _ hp
        have hpl := Heap.pop_length _ _ _ _ hp
        obtain ⟨hh', hmin⟩ := Heap.pop_heap w.min _ hh _ _ hp
        have hfl := (hpp.filter (fun e => decide (e.id ∉ del))).length_eq
        dsimp only
        split
        · rename_i hd
          obtain ⟨r, h1, h2, h3, h4, h5⟩ := ih (k + 1) rest hh' (by omega)
          refine ⟨e :: r, hpp.trans ((List.Perm.cons e h1).trans List.perm_middle.symm), h2, ?_, h4, ?_⟩
          · intro x hx hxd
            rcases List.mem_cons.mp hx with rfl | hx
            · exact absurd hd hxd
            · exact h3 x hx hxd
          · rw [hfl, List.filter_cons_of_neg (by simpa using hd)]; exact h5
        · rename_i hd
          obtain ⟨r, h1, h2, h3, h4, h5⟩ := ih k rest hh' (by omega)
          have hle : ∀ x ∈ rest, Le M.lt e.dist x.dist := fun x hx => hmin x (hpp.mem_iff.mpr (List.mem_cons_of_mem _ hx))
          refine ⟨r, hpp.trans (List.Perm.cons e h1), ?_, ?_, ?_, ?_⟩
          · rw [List.pairwise_cons]
            exact ⟨fun x hx => hle x (h1.mem_iff.mpr (List.mem_append_left _ hx)), h2⟩
          · intro x hx hxd y hy
            rcases List.mem_cons.mp hy with rfl | hy
            · exact hle x (h1.mem_iff.mpr (List.mem_append_right _ hx))
            · exact h3 x hx hxd y hy
          · intro x hx
            rcases List.mem_cons.mp hx with rfl | hx
            · exact hd
            · exact h4 x hx
          · rw [hfl, List.filter_cons_of_pos (by simpa using hd)]
            simp only [List.length_cons, h5]; omega

/-! ### what a layer search guarantees about the closest vertex it found -/

structure OInv (M : Metric D) (nodes : AMap UInt64 Vertex) (q : Vec) (l : Nat) (s : SL D) : Prop where
  hc : Heap.IsHeap (minLess M.lt) s.cands
  hn : Heap.IsHeap (maxLess M.lt) s.nn
  best : ∀ x ∈ s.visited, ∀ d, TrueDist M nodes q ⟨x, d⟩ → ∃ e ∈ s.nn, Le M.lt e.dist d
  exp : ∀ e ∈ s.nn, e ∈ s.cands ∨ ∀ c, (∃ v, nodes.get? e.id = some v ∧ v.conns[l]? = some c) → ∀ n ∈ c, n ∈ s.visited

theorem trueDist_fun {M : Metric D} {nodes : AMap UInt64 Vertex} {q : Vec} {x : UInt64} {d d' : D}
    (h : TrueDist M nodes q ⟨x, d⟩) (h' : TrueDist M nodes q ⟨x, d'⟩) : d = d' := by
  obtain ⟨v, hv, hd⟩ := h
  obtain ⟨v', hv', hd'⟩ := h'
  rw [hv] at hv'; cases hv'
  rw [hd] at hd'; cases hd'; rfl

theorem visitOne_order {M : Metric D} (w : Ord M.lt) {nodes : AMap UInt64 Vertex} {q : Vec} {ef l : Nat}
    {s s' : SL D} {nid : UInt64} {v : Vertex} {d : D} (hef : 0 < ef) (hne : s.nn ≠ []) (hv : nodes.get? nid = some v)
    (hd : M.dist v.vec q = .ok d)
    (o : Heap.IsHeap (minLess M.lt) s.cands ∧ Heap.IsHeap (maxLess M.lt) s.nn ∧
      ∀ x ∈ s.visited, ∀ d, TrueDist M nodes q ⟨x, d⟩ → ∃ e ∈ s.nn, Le M.lt e.dist d)
    (h : visitOne M nodes q ef s nid = .ok s') :
    (Heap.IsHeap (minLess M.lt) s'.cands ∧ Heap.IsHeap (maxLess M.lt) s'.nn ∧
      ∀ x ∈ s'.visited, ∀ d, TrueDist M nodes q ⟨x, d⟩ → ∃ e ∈ s'.nn, Le M.lt e.dist d) ∧
    (∀ e ∈ s'.nn, e ∈ s.nn ∨ e ∈ s'.cands) := by
  obtain ⟨oc, on, ob⟩ := o
  have htd : ∀ d', TrueDist M nodes q ⟨nid, d'⟩ → d' = d := fun d' hd' => trueDist_fun hd' ⟨v, hv, hd⟩
  have hcp := Heap.push_perm (minLess M.lt) s.cands ⟨nid, d⟩
  have hnp := Heap.push_perm (maxLess M.lt) s.nn ⟨nid, d⟩
  have hnh := Heap.push_heap w.max s.nn ⟨nid, d⟩ on
  have hch := Heap.push_heap w.min s.cands ⟨nid, d⟩ oc
  have hbest : ∀ x ∈ nid :: s.visited, ∀ d', TrueDist M nodes q ⟨x, d'⟩ →
      ∃ e ∈ Heap.push (maxLess M.lt) s.nn ⟨nid, d⟩, Le M.lt e.dist d' := by
    intro x hx d' hd'
    rcases List.mem_cons.mp hx with rfl | hx
    · exact ⟨⟨x, d⟩, hnp.mem_iff.mpr (by simp), by rw [htd d' hd']; exact Le.refl w d⟩
    · obtain ⟨e, he, hle⟩ := ob x hx d' hd'
      exact ⟨e, hnp.mem_iff.mpr (List.mem_cons_of_mem _ he), hle⟩
  have hexp : ∀ e ∈ Heap.push (maxLess M.lt) s.nn ⟨nid, d⟩, e ∈ s.nn ∨ e ∈ Heap.push (minLess M.lt) s.cands ⟨nid, d⟩ := by
    intro e he
    rcases List.mem_cons.mp (hnp.mem_iff.mp he) with rfl | he
    · exact Or.inr (hcp.mem_iff.mpr (by simp))
    · exact Or.inl he
  rcases visitOne_cases M nodes q ef s nid v d hne hv hd with
    ⟨hvis, h'⟩ | ⟨hvis, f, hf, ⟨h1, h2, h'⟩ | ⟨h1, h2, h'⟩ | ⟨h1, h2, x, nn', hp, h'⟩⟩
  · rw [h] at h'; cases h'
    exact ⟨⟨oc, on, ob⟩, fun e he => Or.inl he⟩
  · rw [h] at h'; cases h'
    refine ⟨⟨oc, on, ?_⟩, fun e he => Or.inl he⟩
    intro x hx d' hd'
    rcases List.mem_cons.mp hx with rfl | hx
    · exact ⟨f, peek_mem hf, by rw [htd d' hd']; exact h1⟩
    · exact ob x hx d' hd'
  · rw [h] at h'; cases h'
    exact ⟨⟨hch, hnh, hbest⟩, hexp⟩
  · rw [h] at h'; cases h'
    obtain ⟨hh', hmax⟩ := Heap.pop_heap w.max _ hnh _ _ hp
    have hpp := Heap.pop_perm _ _ _ _ hp
    have hpl := Heap.pop_length _ _ _ _ hp
    rw [Heap.push_length] at hpl
    refine ⟨⟨hch, hh', ?_⟩, ?_⟩
    · intro y hy d' hd'
      obtain ⟨e, he, hle⟩ := hbest y hy d' hd'
      rcases List.mem_cons.mp (hpp.mem_iff.mp he) with rfl | he'
      · cases hn : nn' with
        | nil =>
          rw [hn] at hpl; simp at hpl
          exact absurd hpl hne
        | cons g t =>
          have hg : g ∈ Heap.push (maxLess M.lt) s.nn ⟨nid, d⟩ := hpp.mem_iff.mpr (by rw [hn]; simp)
          exact ⟨g, by simp, Le.trans w (hmax g hg) hle⟩
      · exact ⟨e, he', hle⟩
    · intro e he
      exact hexp e (hpp.mem_iff.mpr (List.mem_cons_of_mem _ he))

theorem visitAll_order {M : Metric D} (w : Ord M.lt) {nodes : AMap UInt64 Vertex} {q : Vec} {ef : Nat}
    {P : UInt64 → Prop} (hef : 0 < ef) (hd : DistOK M nodes q P) (hex : ∀ id, P id → ∃ v, nodes.get? id = some v) :
    ∀ (conns : List UInt64) (s s' : SL D), SInv M nodes q ef P s → (∀ n ∈ conns, P n) →
    (Heap.IsHeap (minLess M.lt) s.cands ∧ Heap.IsHeap (maxLess M.lt) s.nn ∧
      ∀ x ∈ s.visited, ∀ d, TrueDist M nodes q ⟨x, d⟩ → ∃ e ∈ s.nn, Le M.lt e.dist d) →
    conns.foldlM (visitOne M nodes q ef) s = .ok s' →
    (Heap.IsHeap (minLess M.lt) s'.cands ∧ Heap.IsHeap (maxLess M.lt) s'.nn ∧
      ∀ x ∈ s'.visited, ∀ d, TrueDist M nodes q ⟨x, d⟩ → ∃ e ∈ s'.nn, Le M.lt e.dist d) ∧
    (∀ e ∈ s'.nn, e ∈ s.nn ∨ e ∈ s'.cands) := by
  intro conns
  induction conns with
  | nil =>
    intro s s' _ _ o h
    cases h
    exact ⟨o, fun e he => Or.inl he⟩
  | cons n rest ih =>
    intro s s' hs hP o h
    obtain ⟨s1, h1, i1, _, _, _, _, _⟩ :=
      visitOne_spec M nodes q ef P s n hs hef (hP n (by simp)) (hex n (hP n (by simp))) hd
    rw [List.foldlM_cons, h1, ok_bind] at h
    obtain ⟨v, hv⟩ := hex n (hP n (by simp))
    obtain ⟨d, hdd⟩ := hd n (hP n (by simp)) v hv
    obtain ⟨o1, e1⟩ := visitOne_order (l := 0) w hef hs.ne hv hdd o h1
    obtain ⟨o2, e2⟩ := ih s1 s' i1 (fun x hx => hP x (List.mem_cons_of_mem _ hx)) o1 h
    refine ⟨o2, ?_⟩
    intro e he
    rcases e2 e he with h2 | h2
    · rcases e1 e h2 with h3 | h3
      · exact Or.inl h3
      · obtain ⟨s2, hs2, _, _, _, c2, _⟩ := visitAll_spec M nodes q ef P hef hd hex rest s1 i1
          (fun x hx => hP x (List.mem_cons_of_mem _ hx))
        rw [hs2] at h; cases h
        exact Or.inr (c2 e h3)
    · exact Or.inr h2

/-- the final state of a layer search: an element of the result that is closest among the results has had all its
neighbours visited, and everything visited is no closer than some result. -/
structure Final (M : Metric D) (nodes : AMap UInt64 Vertex) (q : Vec) (l : Nat) (s : SL D) : Prop where
  best : ∀ x ∈ s.visited, ∀ d, TrueDist M nodes q ⟨x, d⟩ → ∃ e ∈ s.nn, Le M.lt e.dist d
  loc : ∀ e ∈ s.nn, (∀ e' ∈ s.nn, Le M.lt e.dist e'.dist) →
    ∀ c, (∃ v, nodes.get? e.id = some v ∧ v.conns[l]? = some c) → ∀ n ∈ c, n ∈ s.visited

theorem searchLoop_order {M : Metric D} (w : Ord M.lt) {nodes : AMap UInt64 Vertex} {b : Nat} {q : Vec} {ef l : Nat}
    {P : UInt64 → Prop} (hef : 0 < ef) (hcl : Closed nodes l b P) (hd : DistOK M nodes q P) :
    ∀ (fuel : Nat) (s s' : SL D), SInv M nodes q ef P s → OInv M nodes q l s →
      searchLoop M nodes b q ef l fuel s = .ok s' → Final M nodes q l s' ∧ (∀ x ∈ s.visited, x ∈ s'.visited) := by
  have hex : ∀ id, P id → ∃ v, nodes.get? id = some v := by
    intro id hP; obtain ⟨v, c, hv, _⟩ := hcl id hP; exact ⟨v, hv⟩
  intro fuel
  induction fuel with
  | zero => intro s s' _ _ h; cases h
  | succ fuel ih =>
    intro s s' hs o h
    unfold searchLoop at h
    cases hp : Heap.pop (minLess M.lt) s.cands with
    | none =>
      rw [hp] at h; cases h
      rw [Heap.pop_none] at hp
      refine ⟨⟨o.best, ?_⟩, fun _ h => h⟩
      intro e he _
      rcases o.exp e he with h1 | h1
      · rw [hp] at h1; simp at h1
      · exact h1
    | some p =>
      obtain ⟨c, rest⟩ := p
      have hpp := Heap.pop_perm _ _ _ _ hp
      have hcm : c ∈ s.cands := hpp.mem_iff.mpr (by simp)
      have hrm : ∀ e ∈ rest, e ∈ s.cands := fun e he => hpp.mem_iff.mpr (List.mem_cons_of_mem _ he)
      obtain ⟨hch, hmin⟩ := Heap.pop_heap w.min _ o.hc _ _ hp
      obtain ⟨f, hfk⟩ := peek_some hs.ne
      simp only [hp, hfk] at h
      have hs1 : SInv M nodes q ef P { s with cands := rest } :=
        ⟨hs.vis, hs.visP, hs.ne, hs.len, hs.nnNd, hs.nnVis, hs.nnD, fun e he => hs.cdVis e (hrm e he),
          fun e he => hs.cdD e (hrm e he)⟩
      split at h
      · rename_i hlt
        cases h
        refine ⟨⟨o.best, ?_⟩, fun _ h => h⟩
        intro e he hall
        rcases o.exp e he with h1 | h1
        · exfalso
          have h2 : Le M.lt e.dist f.dist := hall f (peek_mem hfk)
          have h3 : Le M.lt c.dist e.dist := hmin e h1
          have h4 : Le M.lt c.dist f.dist := Le.trans w h3 h2
          unfold Le at h4
          rw [hlt] at h4; cases h4
        · exact h1
      · obtain ⟨v, cs, hv, hcs, hcb, hcP⟩ := hcl c.id (hs.visP _ (hs.cdVis c hcm))
        rw [nodeAt_of hv, ok_bind, connsAt_of hcs, ok_bind, if_neg (by omega)] at h
        obtain ⟨s2, h2, i2, v2, m2, c2, _, _⟩ := visitAll_spec M nodes q ef P hef hd hex cs _ hs1 hcP
        rw [h2, ok_bind] at h
        obtain ⟨⟨oc2, on2, ob2⟩, e2⟩ := visitAll_order w hef hd hex cs _ s2 hs1 hcP ⟨hch, o.hn, o.best⟩ h2
        have o2 : OInv M nodes q l s2 := by
          refine ⟨oc2, on2, ob2, ?_⟩
          intro e he
          rcases e2 e he with h3 | h3
          · rcases o.exp e h3 with h4 | h4
            · rcases List.mem_cons.mp (hpp.mem_iff.mp h4) with rfl | h5
              · right
                rintro c' ⟨v', hv', hc'⟩ n hn
                rw [hv] at hv'; cases hv'
                rw [hcs] at hc'; cases hc'
                exact v2 n hn
              · exact Or.inl (c2 e h5)
            · right
              intro c' hc' n hn
              exact m2 n (h4 c' hc' n hn)
          · exact Or.inl h3
        obtain ⟨f1, f2⟩ := ih s2 s' i2 o2 h
        exact ⟨f1, fun x hx => f2 x (m2 x hx)⟩

theorem oinv_init {M : Metric D} (w : Ord M.lt) {nodes : AMap UInt64 Vertex} {q : Vec} {l : Nat} {P : UInt64 → Prop}
    {eps : List (Elem D)} (h : EpsOK M nodes q P eps) :
    OInv M nodes q l { visited := eps.map Elem.id, cands := newMinHeap M.lt eps, nn := newMaxHeap M.lt eps } := by
  have p1 : (newMinHeap M.lt eps).Perm eps := Heap.init_perm _ _
  have p2 : (newMaxHeap M.lt eps).Perm eps := Heap.init_perm _ _
  refine ⟨Heap.init_heap w.min _, Heap.init_heap w.max _, ?_, ?_⟩
  · intro x hx d hd
    obtain ⟨e, he, rfl⟩ := List.mem_map.mp hx
    refine ⟨e, p2.mem_iff.mpr he, ?_⟩
    have := trueDist_fun hd (h.dist e he)
    rw [this]; exact Le.refl w _
  · intro e he
    exact Or.inl (p1.mem_iff.mpr (p2.mem_iff.mp he))

/-- local optimality of a layer search: a closest result has no strictly closer neighbour on that layer, and no entry
point was strictly closer. -/
theorem searchLayer_order {M : Metric D} (w : Ord M.lt) {nodes : AMap UInt64 Vertex} {b : Nat} {q : Vec}
    {eps : List (Elem D)} {ef l : Nat} {P : UInt64 → Prop} (hef : 0 < ef) (hcl : Closed nodes l b P)
    (hd : DistOK M nodes q P) (he : EpsOK M nodes q P eps) (hl : eps.length ≤ ef) {r : List (Elem D)}
    (h : searchLayer M nodes b q eps ef l = .ok r) :
    (∀ e ∈ r, (∀ e' ∈ r, Le M.lt e.dist e'.dist) → ∀ v c, nodes.get? e.id = some v → v.conns[l]? = some c →
      ∀ n ∈ c, ∀ d, TrueDist M nodes q ⟨n, d⟩ → Le M.lt e.dist d) ∧
    (∀ e ∈ eps, ∃ e' ∈ r, Le M.lt e'.dist e.dist) := by
  unfold searchLayer at h
  rw [if_neg (by omega)] at h
  obtain ⟨s, hs, hr⟩ := (bind_ok_iff _ _ _).mp h
  cases hr
  obtain ⟨fin, hvis⟩ := searchLoop_order w hef hcl hd _ _ _ (sinv_init M nodes q ef P eps he hl) (oinv_init w he) hs
  constructor
  · intro e he' hall v c hv hc n hn d hdn
    have := fin.loc e he' hall c ⟨v, hv, hc⟩ n hn
    obtain ⟨e2, h2, h3⟩ := fin.best n this d hdn
    exact Le.trans w (hall e2 h2) h3
  · intro e he'
    exact fin.best e.id (hvis _ (List.mem_map.mpr ⟨e, he', rfl⟩)) e.dist (he.dist e he')

/-- greedy descent never moves away from the query. -/
theorem descend_order {M : Metric D} (w : Ord M.lt) {nodes : AMap UInt64 Vertex} {b : Nat} {q : Vec}
    {P : Nat → UInt64 → Prop} {to : Nat} (hmono : ∀ l x, P (l + 1) x → P l x) :
    ∀ (n : Nat) (e0 : Elem D) (r : List (Elem D)),
      (∀ l, to < l → l ≤ to + n → Closed nodes l b (P l)) → (∀ l, to < l → l ≤ to + n → DistOK M nodes q (P l)) →
      EpsOK M nodes q (P (to + n)) [e0] → descend M nodes b q to n [e0] = .ok r →
      ∃ e, r = [e] ∧ Le M.lt e.dist e0.dist := by
  intro n
  induction n with
  | zero => intro e0 r _ _ _ h; cases h; exact ⟨e0, rfl, Le.refl w _⟩
  | succ n ih =>
    intro e0 r hcl hd he h
    obtain ⟨r1, hr, hok, hrl⟩ := searchLayer_spec M nodes b q [e0] 1 (to + n + 1) (P (to + n + 1)) (by omega)
      (hcl _ (by omega) (by omega)) (hd _ (by omega) (by omega)) he (by simp)
    obtain ⟨_, hb⟩ := searchLayer_order w (by omega) (hcl _ (by omega) (by omega)) (hd _ (by omega) (by omega)) he (by simp) hr
    unfold descend at h
    rw [hr, ok_bind] at h
    cases r1 with
    | nil => exact absurd rfl hok.ne
    | cons e r1 =>
      dsimp only at h
      have hr1 : r1 = [] := List.eq_nil_of_length_eq_zero (by simp at hrl; exact List.length_eq_zero_iff.mpr hrl)
      subst hr1
      obtain ⟨e', he', hle⟩ := hb e0 (by simp)
      simp at he'; subst he'
      obtain ⟨e2, h2, h3⟩ := ih e' r (fun l h1 h2 => hcl l h1 (by omega)) (fun l h1 h2 => hd l h1 (by omega))
        (hok.head.mono (hmono _)) h
      exact ⟨e2, h2, Le.trans w h3 hle⟩

end Vectory
