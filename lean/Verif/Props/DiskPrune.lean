import Verif.Props.DiskAnn
/-! # C49: what DiskANN's pruning keeps, exactly, and that it never enforces the degree bound -/
namespace Vectory
open DiskAnn
variable {D : Type}

/-- candidate `c` lies in the shadow of vertex `a`: `distanceThreshold * distance(a, c) <= distance of c` to the pruned vertex. -/
def InShadow (M : Metric D) (close : D → D → Bool) (g : DiskAnn.Graph) (a c : Elem D) : Prop :=
  ∃ va vc d, g.get? a.id = some va ∧ g.get? c.id = some vc ∧ M.dist va.vector vc.vector = .ok d ∧ close d c.dist = true

/-- `kept` is what the greedy pruning without any bound keeps of the candidates `l`, the ids in `avoid` being excluded: nearest first,
no kept one in the shadow of an earlier one, and every candidate left out lies in the shadow of a kept one that is no farther. -/
structure Greedy (M : Metric D) (close : D → D → Bool) (g : DiskAnn.Graph) (l : List (Elem D)) (avoid : List UInt64)
    (kept : List (Elem D)) : Prop where
  sub : ∀ a ∈ kept, a ∈ l ∧ a.id ∉ avoid
  sorted : kept.Pairwise (fun a b => M.lt b.dist a.dist = false)
  apart : kept.Pairwise (fun a b => ¬ InShadow M close g a b)
  cover : ∀ c ∈ l, c.id ∉ avoid → c.id ∈ kept.map Elem.id ∨
    ∃ a ∈ kept, ∃ c' ∈ l, c'.id = c.id ∧ M.lt c'.dist a.dist = false ∧ InShadow M close g a c'

namespace DiskAnn

theorem closeTo_exact {M : Metric D} (close : D → D → Bool) {g : Graph} {dim : Nat} (G : GOK g dim) (a : Elem D) :
    ∀ (cs : List (Elem D)) (r : List UInt64), closeTo M close g a.id cs = .ok r →
      ∀ x, x ∈ r ↔ ∃ c ∈ cs, c.id = x ∧ InShadow M close g a c := by
  intro cs
  induction cs with
  | nil => intro r h x; cases h; simp
  | cons c cs ih =>
    intro r h x
    unfold closeTo at h
    rw [bind_ok_iff] at h; obtain ⟨mv, h1, h⟩ := h
    rw [bind_ok_iff] at h; obtain ⟨cv, h2, h⟩ := h
    rw [bind_ok_iff] at h; obtain ⟨d, h3, h⟩ := h
    rw [bind_ok_iff] at h; obtain ⟨r', h4, h⟩ := h
    have g1 : g.get? a.id = some mv := by
      unfold vertexAt at h1; split at h1
      · cases h1; assumption
      · cases h1
    have g2 : g.get? c.id = some cv := by
      unfold vertexAt at h2; split at h2
      · cases h2; assumption
      · cases h2
    have key := G.key _ _ g2
    have hs : InShadow M close g a c ↔ close d c.dist = true := by
      constructor
      · rintro ⟨va, vc, d', e1, e2, e3, e4⟩
        rw [g1] at e1; cases e1
        rw [g2] at e2; cases e2
        rw [h3] at e3; cases e3; exact e4
      · intro h; exact ⟨mv, cv, d, g1, g2, h3, h⟩
    have ih' := ih r' h4 x
    cases h
    simp only [List.mem_cons, exists_eq_or_imp]
    by_cases hc : close d c.dist = true
    · rw [if_pos hc, List.mem_cons, ih', key]
      constructor
      · rintro (rfl | h)
        · exact Or.inl ⟨rfl, hs.mpr hc⟩
        · exact Or.inr h
      · rintro (⟨rfl, _⟩ | h)
        · exact Or.inl rfl
        · exact Or.inr h
    · rw [if_neg hc, ih']
      constructor
      · exact Or.inr
      · rintro (⟨_, h⟩ | h)
        · exact absurd (hs.mp h) hc
        · exact h

theorem pruneLoop_greedy {M : Metric D} (w : Ord M.lt) (close : D → D → Bool) {g : Graph} {dim : Nat} (hd : DimOK M dim) (G : GOK g dim) :
    ∀ fuel (l : List (Elem D)) (dropped : List UInt64), l.length ≤ fuel → Heap.IsHeap (minLess M.lt) l →
    (∀ c ∈ l, c.id ∈ AMap.keys g) →
    ∃ kept, pruneLoop M close g false fuel l dropped = .ok (kept.map Elem.id) ∧ Greedy M close g l dropped kept := by
  intro fuel
  induction fuel with
  | zero =>
    intro l dropped hl _ _
    have : l = [] := List.length_eq_zero_iff.mp (by omega)
    subst this
    exact ⟨[], rfl, fun x hx => (nomatch hx), List.Pairwise.nil, List.Pairwise.nil, fun c hc => (nomatch hc)⟩
  | succ fuel ih =>
    intro l dropped hl hh hk
    unfold pruneLoop
    cases hp : Heap.pop (minLess M.lt) l with
    | none =>
      have := (Heap.pop_none _ l).mp hp
      subst this
      exact ⟨[], rfl, fun x hx => (nomatch hx), List.Pairwise.nil, List.Pairwise.nil, fun c hc => (nomatch hc)⟩
    | some r =>
      obtain ⟨e, rest⟩ := r
      dsimp only
      have hperm := Heap.pop_perm _ l e rest hp
      obtain ⟨hheap, hmin⟩ := Heap.pop_heap w.min l hh e rest hp
      have hlen := hperm.length_eq
      simp only [List.length_cons] at hlen
      have hrl : ∀ c ∈ rest, c ∈ l := fun c hc => hperm.symm.subset (List.mem_cons_of_mem _ hc)
      have hel : e ∈ l := hperm.symm.subset (List.mem_cons_self ..)
      by_cases hdr : e.id ∈ dropped
      · rw [if_pos hdr]
        obtain ⟨kept, h1, h2⟩ := ih rest dropped (by omega) hheap (fun c hc => hk c (hrl c hc))
        refine ⟨kept, h1, fun a ha => ⟨hrl a (h2.sub a ha).1, (h2.sub a ha).2⟩, h2.sorted, h2.apart, ?_⟩
        intro c hc hnd
        rcases List.mem_cons.mp (hperm.subset hc) with rfl | hc
        · exact absurd hdr hnd
        · rcases h2.cover c hc hnd with h | ⟨a, ha, c', hc', r⟩
          · exact Or.inl h
          · exact Or.inr ⟨a, ha, c', hrl c' hc', r⟩
      · rw [if_neg hdr]
        simp only [Bool.false_eq_true, if_false]
        obtain ⟨more, m1, _, _⟩ := closeTo_spec close hd G e.id (hk e hel) rest (fun c hc => hk c (hrl c hc))
        have m2 := closeTo_exact close G e rest more m1
        rw [m1]
        simp only [ok_bind]
        obtain ⟨kept, h1, h2⟩ := ih rest (more ++ dropped) (by omega) hheap (fun c hc => hk c (hrl c hc))
        rw [h1]
        simp only [ok_bind]
        refine ⟨e :: kept, by simp, ?_, ?_, ?_, ?_⟩
        · intro a ha
          rcases List.mem_cons.mp ha with rfl | ha
          · exact ⟨hel, hdr⟩
          · exact ⟨hrl a (h2.sub a ha).1, fun h => (h2.sub a ha).2 (List.mem_append_right _ h)⟩
        · exact List.pairwise_cons.mpr ⟨fun b hb => hmin b (hrl b (h2.sub b hb).1), h2.sorted⟩
        · refine List.pairwise_cons.mpr ⟨fun b hb hs => ?_, h2.apart⟩
          exact (h2.sub b hb).2 (List.mem_append_left _ ((m2 b.id).mpr ⟨b, (h2.sub b hb).1, rfl, hs⟩))
        · intro c hc hnd
          rcases List.mem_cons.mp (hperm.subset hc) with rfl | hc
          · exact Or.inl (List.mem_cons_self ..)
          · by_cases hmore : c.id ∈ more
            · obtain ⟨c', a1, a2, a3⟩ := (m2 c.id).mp hmore
              exact Or.inr ⟨e, List.mem_cons_self .., c', hrl c' a1, a2, hmin c' (hrl c' a1), a3⟩
            · rcases h2.cover c hc (by simp [hmore, hnd]) with h | ⟨a, ha, c', hc', r⟩
              · exact Or.inl (List.mem_cons_of_mem _ h)
              · exact Or.inr ⟨a, List.mem_cons_of_mem _ ha, c', hrl c' hc', r⟩

theorem own_true {M : Metric D} {g : Graph} (v : Vertex) : ∀ ns es, ownNeighbors M g v ns = .ok es →
    ∀ e ∈ es, ∃ nv, g.get? e.id = some nv ∧ M.dist v.vector nv.vector = .ok e.dist := by
  intro ns
  induction ns with
  | nil => intro es h e he; cases h; cases he
  | cons n ns ih =>
    intro es h e he
    unfold ownNeighbors at h
    rw [bind_ok_iff] at h; obtain ⟨nv, h1, h⟩ := h
    rw [bind_ok_iff] at h; obtain ⟨d, h2, h⟩ := h
    rw [bind_ok_iff] at h; obtain ⟨es', h3, h⟩ := h
    cases h
    rcases List.mem_cons.mp he with rfl | he
    · unfold vertexAt at h1; split at h1
      · cases h1; exact ⟨_, by assumption, h2⟩
      · cases h1
    · exact ih es' h3 e he

theorem distancesTo_true {M : Metric D} {g : Graph} (v : Vertex) : ∀ ns es, distancesTo M g v ns = .ok es →
    ∀ e ∈ es, ∃ nv, g.get? e.id = some nv ∧ M.dist nv.vector v.vector = .ok e.dist := by
  intro ns
  induction ns with
  | nil => intro es h e he; cases h; cases he
  | cons n ns ih =>
    intro es h e he
    unfold distancesTo at h
    rw [bind_ok_iff] at h; obtain ⟨nv, h1, h⟩ := h
    rw [bind_ok_iff] at h; obtain ⟨d, h2, h⟩ := h
    rw [bind_ok_iff] at h; obtain ⟨es', h3, h⟩ := h
    cases h
    rcases List.mem_cons.mp he with rfl | he
    · unfold vertexAt at h1; split at h1
      · cases h1; exact ⟨_, by assumption, h2⟩
      · cases h1
    · exact ih es' h3 e he

theorem Greedy.perm {M : Metric D} {close : D → D → Bool} {g : Graph} {l l' : List (Elem D)} {avoid : List UInt64} {kept : List (Elem D)}
    (h : Greedy M close g l avoid kept) (p : ∀ x, x ∈ l ↔ x ∈ l') : Greedy M close g l' avoid kept :=
  ⟨fun a ha => ⟨(p a).mp (h.sub a ha).1, (h.sub a ha).2⟩, h.sorted, h.apart, fun c hc hn => by
    rcases h.cover c ((p c).mpr hc) hn with h | ⟨a, ha, c', hc', r⟩
    · exact Or.inl h
    · exact Or.inr ⟨a, ha, c', (p c').mp hc', r⟩⟩

theorem robustPrune_greedy {M : Metric D} (w : Ord M.lt) (close : D → D → Bool) {g : Graph} {dim : Nat} (hd : DimOK M dim) (G : GOK g dim)
    (maxDegree : UInt32) (v : Vertex) (hv : v.vector.length = dim) (hn : ∀ n ∈ v.neighbors, n ∈ AMap.keys g) (cands : List (Elem D))
    (hc : ∀ c ∈ cands, c.id ∈ AMap.keys g) (hf : v.neighbors.length ≠ maxDegree.toNat) :
    ∃ own kept, robustPrune M close g maxDegree v cands = .ok (kept.map Elem.id) ∧ ownNeighbors M g v v.neighbors = .ok own ∧
      own.map Elem.id = v.neighbors ∧ Greedy M close g (cands ++ own) [v.id] kept := by
  obtain ⟨own, h1, h2⟩ := ownNeighbors_spec hd G v hv v.neighbors hn
  have hperm : (newMinHeap M.lt (cands ++ own)).Perm (cands ++ own) := Heap.init_perm _ _
  have hk : ∀ c ∈ cands ++ own, c.id ∈ AMap.keys g := by
    intro c hcm
    rcases List.mem_append.mp hcm with h | h
    · exact hc c h
    · exact hn _ (h2 ▸ List.mem_map_of_mem h)
  obtain ⟨kept, a1, a2⟩ := pruneLoop_greedy w close hd G _ (newMinHeap M.lt (cands ++ own))
    [v.id] (Nat.le_refl _) (Heap.init_heap w.min _) (fun c hcm => hk c (hperm.subset hcm))
  refine ⟨own, kept, ?_, h1, h2, Greedy.perm a2 (fun x => hperm.mem_iff)⟩
  unfold robustPrune; rw [h1]; simp only [ok_bind]
  rw [show (v.neighbors.length == maxDegree.toNat) = false by simpa using hf]
  exact a1

end DiskAnn

/-- C49: what pruning keeps, exactly. Unless the vertex has exactly `maxDegree` neighbours beforehand, it keeps what the greedy rule
without any bound keeps: see `Greedy`. (With exactly `maxDegree` neighbours beforehand it keeps one: `C49_prune_full`.) -/
theorem C49_prune_exact {M : Metric D} (w : Ord M.lt) {close : D → D → Bool} {dim maxDegree : UInt32} {firstId : UInt64}
    (hd : DimOK M dim.toNat) {mi : MemIndex} (b : Built M close firstId maxDegree dim mi) (v : DiskAnn.Vertex)
    (hv : v.vector.length = dim.toNat) (hn : ∀ n ∈ v.neighbors, n ∈ AMap.keys mi.graph) (cands : List (Elem D))
    (hc : ∀ c ∈ cands, c.id ∈ AMap.keys mi.graph) (hf : v.neighbors.length ≠ maxDegree.toNat) :
    ∃ own kept, DiskAnn.robustPrune M close mi.graph maxDegree v cands = .ok (kept.map Elem.id) ∧
      own.map Elem.id = v.neighbors ∧
      (∀ e ∈ own, ∃ nv, mi.graph.get? e.id = some nv ∧ M.dist v.vector nv.vector = .ok e.dist) ∧
      Greedy M close mi.graph (cands ++ own) [v.id] kept := by
  obtain ⟨own, kept, h1, h2, h3, h4⟩ := DiskAnn.robustPrune_greedy w close hd (DiskAnn.built_inv w hd b).g maxDegree v hv hn cands hc hf
  exact ⟨own, kept, h1, h3, DiskAnn.own_true v _ _ h2, h4⟩

/-- C49: a vertex that has exactly `maxDegree` neighbours beforehand is left with at most one (which `insert` never asks for when
`maxDegree` is positive). -/
theorem C49_prune_full {M : Metric D} (w : Ord M.lt) {close : D → D → Bool} {dim maxDegree : UInt32} {firstId : UInt64}
    (hd : DimOK M dim.toNat) {mi : MemIndex} (b : Built M close firstId maxDegree dim mi) (v : DiskAnn.Vertex)
    (hv : v.vector.length = dim.toNat) (hn : ∀ n ∈ v.neighbors, n ∈ AMap.keys mi.graph) (cands : List (Elem D))
    (hc : ∀ c ∈ cands, c.id ∈ AMap.keys mi.graph) (hf : v.neighbors.length = maxDegree.toNat) :
    ∃ r, DiskAnn.robustPrune M close mi.graph maxDegree v cands = .ok r ∧ r.length ≤ 1 := by
  obtain ⟨own, r, h1, _, _, _, h5, _⟩ := DiskAnn.robustPrune_spec w close hd (DiskAnn.built_inv w hd b).g maxDegree v hv hn cands hc
  exact ⟨r, h1, h5 hf⟩

/-! ## a star: the degree grows without bound -/

/-- the distance of a star: the vector `[0]` is the centre, at distance 1 from every other vector; any two others are at distance 2. -/
def starMetric : Metric Nat where
  lt a b := decide (a < b)
  dist a b :=
    match a, b with
    | [x], [y] => .ok (if x = y then 0 else if x = 0 ∨ y = 0 then 1 else 2)
    | _, _ => .error .indexOutOfRange

/-- distance threshold 2. -/
def twice (d c : Nat) : Bool := decide (2 * d ≤ c)

theorem star_ord : Ord starMetric.lt := ⟨fun a b h => by simp [starMetric] at *; omega, fun a b c h1 h2 => by simp [starMetric] at *; omega⟩

theorem star_dim : DimOK starMetric 1 := by
  intro a b ha hb
  obtain ⟨x, rfl⟩ := List.length_eq_one_iff.mp ha
  obtain ⟨y, rfl⟩ := List.length_eq_one_iff.mp hb
  exact ⟨_, rfl⟩

/-- the centre has id 1; the `i`-th other vertex has id `i + 2` and the vector `[i + 1]`. -/
structure Star (m : UInt32) (n : Nat) (mi : MemIndex) : Prop where
  built : Built starMetric twice 1 m 1 mi
  rw : mi.readOnly = false
  s : mi.s = 1
  once : mi.once = true
  keys : ∀ k, k ∈ AMap.keys mi.graph ↔ ∃ i, i ≤ n ∧ k = UInt64.ofNat (i + 1)
  vec : ∀ i, i ≤ n → (mi.graph.get? (UInt64.ofNat (i + 1))).map Vertex.vector = some [UInt32.ofNat i]
  hub : ∃ v, mi.graph.get? 1 = some v ∧ v.neighbors.Nodup ∧ ∀ k, k ∈ v.neighbors ↔ ∃ i, 1 ≤ i ∧ i ≤ n ∧ k = UInt64.ofNat (i + 1)

namespace DiskAnn

theorem searchLoop_found {M : Metric D} {g : Graph} {del : List UInt32} {q : Vec} {ls : Nat} : ∀ fuel (st st' : SearchState D),
    searchLoop M g del q ls fuel st = .ok st' → ∀ e ∈ st.found, e ∈ st'.found := by
  intro fuel
  induction fuel with
  | zero => intro st st' h; cases h
  | succ fuel ih =>
    intro st st' h e he
    unfold searchLoop at h
    cases hp : MMHeap.pop (minLess M.lt) st.results with
    | none => rw [hp] at h; cases h; exact he
    | some r =>
      obtain ⟨x, rest⟩ := r
      rw [hp] at h
      dsimp only at h
      split at h
      · exact ih _ _ h e he
      · rw [bind_ok_iff] at h; obtain ⟨v, _, h⟩ := h
        rw [bind_ok_iff] at h; obtain ⟨l, _, h⟩ := h
        refine ih _ _ h e ?_
        dsimp only
        split
        · exact he
        · exact List.mem_append_left _ he

/-- a search that skips nothing visits the start vertex. -/
theorem visit_start {M : Metric D} (w : Ord M.lt) {mi : MemIndex} {q : Vec} {ls : Nat} {found : List (Elem D)}
    (h : mi.visit M [] q ls = .ok found) : ∃ e ∈ found, e.id = mi.s := by
  unfold MemIndex.visit at h
  rw [bind_ok_iff] at h; obtain ⟨sv, hs, h⟩ := h
  split at h
  · cases h
  · rw [bind_ok_iff] at h; obtain ⟨d, hd, h⟩ := h
    rw [bind_ok_iff] at h; obtain ⟨st, h1, h⟩ := h
    cases h
    rw [init_single] at h1
    unfold searchLoop at h1
    dsimp only at h1
    rcases mm_pop w.min [({ id := mi.s, dist := d } : Elem D)] with ⟨h2, _⟩ | ⟨x, rest, h2, hp⟩
    · cases h2
    · have hx := List.perm_singleton.mp hp.symm
      cases hx
      rw [h2] at h1
      simp only [List.not_mem_nil, if_false] at h1
      rw [bind_ok_iff] at h1; obtain ⟨v, _, h1⟩ := h1
      rw [bind_ok_iff] at h1; obtain ⟨l, _, h1⟩ := h1
      exact ⟨{ id := mi.s, dist := d }, searchLoop_found _ _ _ h1 _ (by simp), rfl⟩

theorem id_inj {i j : Nat} (hi : i < 2 ^ 32) (hj : j < 2 ^ 32) (h : UInt64.ofNat (i + 1) = UInt64.ofNat (j + 1)) : i = j := by
  have := congrArg UInt64.toNat h
  rw [UInt64.toNat_ofNat', UInt64.toNat_ofNat', Nat.mod_eq_of_lt (by omega), Nat.mod_eq_of_lt (by omega)] at this
  omega

theorem v_inj {i j : Nat} (hi : i < 2 ^ 32) (hj : j < 2 ^ 32) (h : UInt32.ofNat i = UInt32.ofNat j) : i = j := by
  have := congrArg UInt32.toNat h
  rw [UInt32.toNat_ofNat', UInt32.toNat_ofNat', Nat.mod_eq_of_lt (by omega), Nat.mod_eq_of_lt (by omega)] at this
  omega

/-- the distance between two vectors of the star. -/
theorem star_dist {i j : Nat} (hi : i < 2 ^ 32) (hj : j < 2 ^ 32) :
    starMetric.dist [UInt32.ofNat i] [UInt32.ofNat j] = .ok (if i = j then 0 else if i = 0 ∨ j = 0 then 1 else 2) := by
  have h0 : ∀ k, k < 2 ^ 32 → (UInt32.ofNat k = 0 ↔ k = 0) := fun k hk =>
    ⟨fun h => v_inj hk (by decide) (h.trans (by decide : (0 : UInt32) = UInt32.ofNat 0)), fun h => by subst h; rfl⟩
  unfold starMetric
  dsimp only
  by_cases h : i = j
  · subst h; simp
  · rw [if_neg h, if_neg (fun e => h (v_inj hi hj e))]
    simp only [h0 i hi, h0 j hj]

/-- the vertices of a graph are those of a star with `n` rays. -/
structure StarVec (g : Graph) (n : Nat) : Prop where
  keys : ∀ k, k ∈ AMap.keys g ↔ ∃ i, i ≤ n ∧ k = UInt64.ofNat (i + 1)
  vec : ∀ i v, i ≤ n → g.get? (UInt64.ofNat (i + 1)) = some v → v.vector = [UInt32.ofNat i]

theorem StarVec.shadow {g : Graph} {n : Nat} (s : StarVec g n) (hn : n + 1 < 2 ^ 32) {i j : Nat} (hi : i ≤ n) (hj : j ≤ n)
    {a c : Elem Nat} (ha : a.id = UInt64.ofNat (i + 1)) (hc : c.id = UInt64.ofNat (j + 1)) :
    InShadow starMetric twice g a c ↔ 2 * (if i = j then 0 else if i = 0 ∨ j = 0 then 1 else 2) ≤ c.dist := by
  unfold InShadow
  rw [ha, hc]
  obtain ⟨va, h1⟩ := get_of_mem ((s.keys _).mpr ⟨i, hi, rfl⟩)
  obtain ⟨vc, h2⟩ := get_of_mem ((s.keys _).mpr ⟨j, hj, rfl⟩)
  have e1 := s.vec i va hi h1
  have e2 := s.vec j vc hj h2
  have hd := star_dist (i := i) (j := j) (by omega) (by omega)
  constructor
  · rintro ⟨va', vc', d, g1, g2, g3, g4⟩
    rw [h1] at g1; cases g1
    rw [h2] at g2; cases g2
    rw [e1, e2, hd] at g3; cases g3
    simpa [twice] using g4
  · intro h
    exact ⟨va, vc, _, h1, h2, by rw [e1, e2]; exact hd, by simpa [twice] using h⟩

theorem StarVec.congr {g g' : Graph} {n : Nat} (s : StarVec g n) (hk : AMap.keys g' = AMap.keys g) (hv : vecs g' = vecs g) : StarVec g' n := by
  refine ⟨fun k => by rw [hk]; exact s.keys k, fun i v hi h => ?_⟩
  have := congrFun hv (UInt64.ofNat (i + 1))
  unfold vecs at this
  rw [h] at this
  obtain ⟨u, hu⟩ := get_of_mem ((s.keys _).mpr ⟨i, hi, rfl⟩)
  rw [hu] at this
  simp only [Option.map_some, Option.some.injEq] at this
  rw [this]; exact s.vec i u hi hu

theorem one_id : (1 : UInt64) = UInt64.ofNat (0 + 1) := by decide

/-- pruning a new ray of the star keeps the centre alone. -/
theorem star_ray {g : Graph} {n : Nat} (s : StarVec g (n + 1)) (hn : n + 2 < 2 ^ 32) {l kept : List (Elem Nat)}
    (hl : ∀ e ∈ l, True' starMetric g [UInt32.ofNat (n + 1)] e) (hs : ∃ e ∈ l, e.id = 1)
    (h : Greedy starMetric twice g l [UInt64.ofNat (n + 1 + 1)] kept) (nd : (kept.map Elem.id).Nodup) : kept.map Elem.id = [1] := by
  -- every candidate is a vertex with its distance
  have hd : ∀ e ∈ l, e.id ≠ UInt64.ofNat (n + 1 + 1) → ∃ i, i ≤ n ∧ e.id = UInt64.ofNat (i + 1) ∧ e.dist = if i = 0 then 1 else 2 := by
    intro e he hne
    obtain ⟨v, h1, h2⟩ := hl e he
    obtain ⟨i, hi, hid⟩ := (s.keys _).mp (mem_of_get h1)
    have hin : i ≠ n + 1 := fun h => hne (by rw [hid, h])
    rw [hid] at h1
    rw [s.vec i v hi h1, star_dist (by omega) (by omega), if_neg hin] at h2
    refine ⟨i, by omega, hid, ?_⟩
    rw [← Except.ok.inj h2]
    by_cases h0 : i = 0
    · rw [if_pos h0, if_pos (Or.inl h0)]
    · rw [if_neg h0, if_neg (by omega)]
  have hk : ∀ e ∈ kept, ∃ i, i ≤ n ∧ e.id = UInt64.ofNat (i + 1) ∧ e.dist = if i = 0 then 1 else 2 := fun e he =>
    hd e (h.sub e he).1 (fun hc => (h.sub e he).2 (by rw [hc]; exact List.mem_singleton.mpr rfl))
  obtain ⟨c, hc, hc1⟩ := hs
  have hc0 : c.id ≠ UInt64.ofNat (n + 1 + 1) := fun hcc => by
    rw [hc1, one_id] at hcc; have := id_inj (by decide) (by omega) hcc; omega
  have hin : (1 : UInt64) ∈ kept.map Elem.id := by
    rcases h.cover c hc (by simpa using hc0) with hin | ⟨a, ha, c', hc', e1, e2, _⟩
    · rw [← hc1]; exact hin
    · obtain ⟨i, hi, hid, hdist⟩ := hk a ha
      obtain ⟨j, hj, hjd, hjdist⟩ := hd c' hc' (by rw [e1]; exact hc0)
      rw [e1, hc1, one_id] at hjd
      have hj0 := id_inj (by decide) (by omega) hjd
      subst hj0
      by_cases h0 : i = 0
      · subst h0; exact List.mem_map.mpr ⟨a, ha, hid.trans one_id.symm⟩
      · rw [hdist, hjdist, if_neg h0, if_pos rfl] at e2
        simp [starMetric] at e2
  obtain ⟨z, hz, hz1⟩ := List.mem_map.mp hin
  obtain ⟨j, hj, hjd, hzd⟩ := hk z hz
  have hj0 : j = 0 := by
    rw [hz1, one_id] at hjd; exact (id_inj (by decide) (by omega) hjd).symm
  subst hj0
  -- nothing else is kept
  have hall : ∀ e ∈ kept, e.id = 1 := by
    intro e he
    obtain ⟨i, hi, hid, hdist⟩ := hk e he
    by_cases h0 : i = 0
    · rw [hid, h0]; exact one_id.symm
    · exfalso
      rw [if_neg h0] at hdist
      rw [if_pos rfl] at hzd
      obtain ⟨l1, l2, rfl⟩ := List.append_of_mem hz
      rcases List.mem_append.mp he with he | he
      · have := (List.pairwise_append.mp h.sorted).2.2 e he z (List.mem_cons_self ..)
        rw [hdist, hzd] at this
        simp [starMetric] at this
      · rcases List.mem_cons.mp he with rfl | he
        · rw [hid, one_id] at hz1; exact h0 (id_inj (by omega) (by decide) hz1)
        · have := (List.pairwise_cons.mp (List.pairwise_append.mp h.apart).2.1).1 e he
          refine this ((s.shadow (by omega) (i := 0) (j := i) (by omega) (by omega) hjd hid).mpr ?_)
          rw [if_neg (fun h => h0 h.symm), if_pos (Or.inl rfl), hdist]
          decide
  cases kept with
  | nil => cases hz
  | cons a kept =>
    have ha := hall a (List.mem_cons_self ..)
    cases kept with
    | nil => simp [ha]
    | cons b kept =>
      have hb := hall b (by simp)
      simp [ha, hb] at nd

/-- pruning the centre of the star keeps every ray. -/
theorem star_hub {g : Graph} {n : Nat} (s : StarVec g n) (hn : n + 1 < 2 ^ 32) {l kept : List (Elem Nat)} {ns : List UInt64}
    (hns : ∀ k, k ∈ ns ↔ ∃ i, 1 ≤ i ∧ i ≤ n ∧ k = UInt64.ofNat (i + 1))
    (hl : ∀ k, k ∈ l.map Elem.id ↔ k ∈ ns) (hd : ∀ e ∈ l, e.dist = 1)
    (h : Greedy starMetric twice g l [1] kept) : ∀ k, k ∈ kept.map Elem.id ↔ k ∈ ns := by
  intro k
  constructor
  · intro hk
    obtain ⟨e, he, rfl⟩ := List.mem_map.mp hk
    exact (hl _).mp (List.mem_map_of_mem (h.sub e he).1)
  · intro hk
    obtain ⟨c, hc, rfl⟩ := List.mem_map.mp ((hl k).mpr hk)
    obtain ⟨i, h1, h2, h3⟩ := (hns _).mp hk
    have hne : c.id ≠ 1 := fun hcc => by
      rw [hcc, one_id] at h3; have := id_inj (by decide) (by omega) h3; omega
    rcases h.cover c hc (by simpa using hne) with hin | ⟨a, ha, c', hc', e1, _, e2⟩
    · exact hin
    · have ha' := (h.sub a ha).1
      obtain ⟨j, g1, g2, g3⟩ := (hns _).mp ((hl _).mp (List.mem_map_of_mem ha'))
      have hs := (s.shadow hn (i := j) (j := i) g2 h2 g3 (e1.trans h3)).mp e2
      rw [hd c' hc'] at hs
      by_cases hji : j = i
      · exact List.mem_map.mpr ⟨a, ha, by rw [g3, h3, hji]⟩
      · rw [if_neg hji] at hs; split at hs <;> omega

theorem star_step {m : UInt32} (hm : 1 ≤ m.toNat) {n : Nat} {mi : MemIndex} (S : Star m n mi) (hn : n + 2 < 2 ^ 32) :
    ∃ mi', mi.insert starMetric twice [] [UInt32.ofNat (n + 1)] 10 (UInt64.ofNat (n + 1 + 1)) = .ok mi' ∧ Star m (n + 1) mi' := by
  have I := built_inv (dim := 1) star_ord star_dim S.built
  have hid : UInt64.ofNat (n + 1 + 1) ∉ AMap.keys mi.graph := fun h => by
    obtain ⟨i, hi, he⟩ := (S.keys _).mp h
    have := id_inj (by omega) (by omega) he; omega
  obtain ⟨mi', h1, I', hro, hk, hvec⟩ := insert_spec (dim := 1) star_ord twice star_dim I S.rw [] [UInt32.ofNat (n + 1)] rfl 10 _ hid
  have hkeys : ∀ k, k ∈ AMap.keys mi.graph ++ [UInt64.ofNat (n + 1 + 1)] ↔ ∃ i, i ≤ n + 1 ∧ k = UInt64.ofNat (i + 1) := by
    intro k
    rw [List.mem_append, S.keys, List.mem_singleton]
    constructor
    · rintro (⟨i, hi, rfl⟩ | rfl)
      · exact ⟨i, by omega, rfl⟩
      · exact ⟨n + 1, by omega, rfl⟩
    · rintro ⟨i, hi, rfl⟩
      rcases Nat.lt_or_ge n i with h | h
      · have : i = n + 1 := by omega
        subst this; exact Or.inr rfl
      · exact Or.inl ⟨i, h, rfl⟩
  refine ⟨mi', h1, ?_⟩
  -- the steps of the insert
  have hc : mi.connect starMetric twice [] [UInt32.ofNat (n + 1)] 10 (UInt64.ofNat (n + 1 + 1)) = .ok mi' := by
    have h := h1
    unfold MemIndex.insert at h
    rw [if_neg (by simp [S.rw]), if_neg (by rw [I.dim]; simp), if_neg (by simp [I.wired]), if_neg (by simp [S.once])] at h
    cases hcc : mi.connect starMetric twice [] [UInt32.ofNat (n + 1)] 10 (UInt64.ofNat (n + 1 + 1)) with
    | ok a => rw [hcc] at h; cases h; rfl
    | error p => rw [hcc] at h; cases h
  obtain ⟨G1, hk1⟩ := I.g.add _ hid [UInt32.ofNat (n + 1)] rfl
  generalize hidd : UInt64.ofNat (n + 1 + 1) = nid at *
  unfold MemIndex.connect at hc
  dsimp only at hc
  rw [bind_ok_iff] at hc; obtain ⟨visited, c1, hc⟩ := hc
  rw [bind_ok_iff] at hc; obtain ⟨ns, c2, hc⟩ := hc
  rw [bind_ok_iff] at hc; obtain ⟨g3, c3, hc⟩ := hc
  cases hc
  dsimp only at hk hvec hro I'
  have sv1 : StarVec (mi.graph.set nid { id := nid, vector := [UInt32.ofNat (n + 1)] }) (n + 1) := by
    refine ⟨fun k => by rw [hk1]; exact hkeys k, fun i v hi h => ?_⟩
    rw [AMap.get?_set] at h
    split at h
    · rename_i e
      cases h
      rw [← hidd] at e
      have := id_inj (by omega) (by omega) e
      subst this; rfl
    · rename_i e
      have hin : i ≤ n := by
        rcases Nat.lt_or_ge n i with h' | h'
        · exact absurd (by rw [← hidd, show i = n + 1 by omega]) e
        · exact h'
      have := S.vec i hin
      rw [h] at this
      simpa using this
  obtain ⟨found, f1, f2⟩ := visit_spec (mi := { mi with graph := mi.graph.set nid { id := nid, vector := [UInt32.ofNat (n + 1)] } })
    star_ord star_dim G1 (by dsimp only; rw [hk1]; exact List.mem_append_left _ (I.start S.once)) I.wired
    (q := [UInt32.ofNat (n + 1)]) rfl 10 []
  rw [f1] at c1
  obtain rfl : found = visited := Except.ok.inj c1
  have hfk : ∀ c ∈ found, c.id ∈ AMap.keys (mi.graph.set nid { id := nid, vector := [UInt32.ofNat (n + 1)] }) := by
    intro c hc
    obtain ⟨⟨v, h, _⟩, _⟩ := f2.ok c hc
    exact mem_of_get h
  obtain ⟨own, kept, b1, b2, b3, b4⟩ := robustPrune_greedy star_ord twice star_dim G1 mi.maxDegree
    { id := nid, vector := [UInt32.ofNat (n + 1)] } rfl (fun n hn => (nomatch hn)) found hfk
    (by rw [I.deg]; simp only [List.length_nil]; omega)
  have hown : own = [] := List.map_eq_nil_iff.mp b3
  subst hown
  have selfc : ∀ (c : Elem Nat) (x : Vec) (d : Nat), starMetric.dist x x = .ok d → twice d c.dist = true := by
    intro c x d h
    have : d = 0 := by
      unfold starMetric at h
      dsimp only at h
      match x, h with
      | [y], h => simp only [if_true] at h; exact (Except.ok.inj h).symm
      | [], h => cases h
      | _ :: _ :: _, h => cases h
    subst this; simp [twice]
  have hnd : (kept.map Elem.id).Nodup := by
    obtain ⟨own', r, d1, _, _, _, _, d6, _⟩ := robustPrune_spec star_ord twice star_dim G1 mi.maxDegree
      { id := nid, vector := [UInt32.ofNat (n + 1)] } rfl (fun n hn => (nomatch hn)) found hfk
    rw [b1] at d1; cases d1
    exact d6 (fun c _ v d _ hdd => selfc c _ d hdd)
  rw [List.append_nil] at b4
  have hns : kept.map Elem.id = [1] := by
    refine star_ray sv1 hn (fun e he => (f2.ok e he).1) ?_ (by rw [hidd]; exact b4) hnd
    obtain ⟨e, he, hes⟩ := visit_start star_ord f1
    exact ⟨e, he, hes.trans S.s⟩
  rw [b1, hns] at c2
  cases c2
  -- linking back
  have hget : (mi.graph.set nid { id := nid, vector := [UInt32.ofNat (n + 1)] }).get? nid =
      some { id := nid, vector := [UInt32.ofNat (n + 1)] } := AMap.get?_set_self _ _ _
  have h1k : (1 : UInt64) ∈ AMap.keys (mi.graph.set nid { id := nid, vector := [UInt32.ofNat (n + 1)] }) := by
    exact (sv1.keys _).mpr ⟨0, by omega, one_id⟩
  have hne1 : nid ≠ 1 := fun h => by
    rw [← hidd, one_id] at h; have := id_inj (by omega) (by decide) h; omega
  obtain ⟨G2, hk2⟩ := G1.setNeighbors hget [1] (fun x hx => by rcases List.mem_singleton.mp hx with rfl; exact h1k)
    (fun h => hne1 (List.mem_singleton.mp h))
  have sv2 := sv1.congr hk2 (vecs_set hget [1])
  obtain ⟨hub, hh1, hh2, hh3⟩ := S.hub
  have hg2 : ((mi.graph.set nid { id := nid, vector := [UInt32.ofNat (n + 1)] }).set nid
      { id := nid, vector := [UInt32.ofNat (n + 1)], neighbors := [1] }).get? 1 = some hub := by
    rw [AMap.get?_set, if_neg hne1, AMap.get?_set, if_neg hne1]; exact hh1
  have hnew : ∀ k, k ∈ hub.neighbors ++ [nid] ↔ ∃ i, 1 ≤ i ∧ i ≤ n + 1 ∧ k = UInt64.ofNat (i + 1) := by
    intro k
    rw [List.mem_append, hh3, List.mem_singleton]
    constructor
    · rintro (⟨i, h1, h2, rfl⟩ | rfl)
      · exact ⟨i, h1, by omega, rfl⟩
      · exact ⟨n + 1, by omega, by omega, hidd.symm⟩
    · rintro ⟨i, h1, h2, rfl⟩
      rcases Nat.lt_or_ge n i with h | h
      · have : i = n + 1 := by omega
        subst this; exact Or.inr hidd
      · exact Or.inl ⟨i, h1, h, rfl⟩
  have hnewnd : (hub.neighbors ++ [nid]).Nodup := by
    rw [List.nodup_append]
    refine ⟨hh2, by simp, fun a ha b hb hab => ?_⟩
    rcases List.mem_singleton.mp hb with rfl
    obtain ⟨i, _, h2, h3⟩ := (hh3 _).mp ha
    rw [hab, ← hidd] at h3
    have := id_inj (by omega) (by omega) h3; omega
  rw [List.foldlM_cons, bind_ok_iff] at c3
  obtain ⟨g3', c3, c4⟩ := c3
  cases c4
  generalize hgg : (mi.graph.set nid { id := nid, vector := [UInt32.ofNat (n + 1)] }).set nid
      { id := nid, vector := [UInt32.ofNat (n + 1)], neighbors := [1] } = g2 at *
  have hclosed : ∀ x ∈ hub.neighbors ++ [nid], x ∈ AMap.keys g2 := by
    intro x hx
    obtain ⟨i, _, h2, h3⟩ := (hnew x).mp hx
    exact (sv2.keys x).mpr ⟨i, h2, h3⟩
  have hnoself : (1 : UInt64) ∉ hub.neighbors ++ [nid] := fun h => by
    obtain ⟨i, h1, h2, h3⟩ := (hnew _).mp h
    rw [one_id] at h3; have := id_inj (by decide) (by omega) h3; omega
  obtain ⟨G3, hk3⟩ := G2.setNeighbors hg2 (hub.neighbors ++ [nid]) hclosed hnoself
  have sv3 := sv2.congr hk3 (vecs_set hg2 _)
  have hget3 : (g2.set 1 { hub with neighbors := hub.neighbors ++ [nid] }).get? 1 =
      some { hub with neighbors := hub.neighbors ++ [nid] } := AMap.get?_set_self _ _ _
  have hubv : hub.vector = [UInt32.ofNat 0] := by
    exact sv2.vec 0 hub (by omega) (by rw [← one_id]; exact hg2)
  have hubid : hub.id = 1 := G2.key 1 hub hg2
  have hfin : ∃ v, g3.get? 1 = some v ∧ v.neighbors.Nodup ∧
      ∀ k, k ∈ v.neighbors ↔ ∃ i, 1 ≤ i ∧ i ≤ n + 1 ∧ k = UInt64.ofNat (i + 1) := by
    unfold linkBack at c3
    rw [vertexAt_of hg2] at c3
    simp only [ok_bind] at c3
    split at c3
    · rename_i hlt
      rw [bind_ok_iff] at c3; obtain ⟨ds, d1, c3⟩ := c3
      rw [bind_ok_iff] at c3; obtain ⟨r, d2, c3⟩ := c3
      cases c3
      refine ⟨_, AMap.get?_set_self _ _ _, ?_⟩
      dsimp only
      have hcl3 : ∀ x ∈ hub.neighbors ++ [nid], x ∈ AMap.keys (g2.set 1 { hub with neighbors := hub.neighbors ++ [nid] }) := by
        rw [hk3]; exact hclosed
      have hl1 : ({ hub with neighbors := hub.neighbors ++ [nid] } : Vertex).vector.length = 1 := by
        dsimp only; rw [hubv]; rfl
      obtain ⟨ds', e1, e2⟩ := distancesTo_spec star_dim G3 { hub with neighbors := hub.neighbors ++ [nid] }
        hl1 (hub.neighbors ++ [nid]) hcl3
      rw [d1] at e1; cases e1
      have hdk : ∀ c ∈ ds, c.id ∈ AMap.keys (g2.set 1 { hub with neighbors := hub.neighbors ++ [nid] }) :=
        fun c hc => hcl3 _ (e2 ▸ List.mem_map_of_mem hc)
      obtain ⟨own, kept', k1, k2, k3, k4⟩ := robustPrune_greedy star_ord twice star_dim G3 mi.maxDegree
        { hub with neighbors := hub.neighbors ++ [nid] } hl1 hcl3 ds hdk
        (fun h => by dsimp only at hlt h; omega)
      obtain ⟨own', r', l1, _, _, _, _, l6, _⟩ := robustPrune_spec star_ord twice star_dim G3 mi.maxDegree
        { hub with neighbors := hub.neighbors ++ [nid] } hl1 hcl3 ds hdk
      have hnd' := l6 (fun c _ v d _ hdd => selfc c _ d hdd)
      rw [k1] at l1; cases l1
      rw [k1] at d2; cases d2
      refine ⟨hnd', fun k => ?_⟩
      rw [← hnew]
      have k5 : Greedy starMetric twice (g2.set 1 { hub with neighbors := hub.neighbors ++ [nid] }) (ds ++ own) [1] kept' := hubid ▸ k4
      have one : ∀ j x, 1 ≤ j → j ≤ n + 1 → (starMetric.dist [UInt32.ofNat 0] [UInt32.ofNat j] = .ok x ∨
          starMetric.dist [UInt32.ofNat j] [UInt32.ofNat 0] = .ok x) → x = 1 := by
        intro j x h1 h2 h
        rcases h with h | h
        · rw [star_dist (by decide) (by omega), if_neg (by omega), if_pos (Or.inl rfl)] at h
          exact (Except.ok.inj h).symm
        · rw [star_dist (by omega) (by decide), if_neg (by omega), if_pos (Or.inr rfl)] at h
          exact (Except.ok.inj h).symm
      refine star_hub sv3 (by omega) hnew ?_ ?_ k5 k
      · intro k
        rw [List.map_append, e2, k3, List.mem_append, or_self]
      · intro e he
        rcases List.mem_append.mp he with he | he
        · obtain ⟨nv, y1, y2⟩ := distancesTo_true _ _ _ d1 e he
          obtain ⟨i, z1, z2, z3⟩ := (hnew _).mp (e2 ▸ List.mem_map_of_mem he)
          rw [z3] at y1
          rw [sv3.vec i nv z2 y1] at y2
          dsimp only at y2
          rw [hubv] at y2
          exact one i _ z1 z2 (Or.inr y2)
        · obtain ⟨nv, y1, y2⟩ := own_true _ _ _ k2 e he
          have hin : e.id ∈ own.map Elem.id := List.mem_map_of_mem he
          rw [k3] at hin
          obtain ⟨i, z1, z2, z3⟩ := (hnew _).mp hin
          rw [z3] at y1
          rw [sv3.vec i nv z2 y1] at y2
          dsimp only at y2
          rw [hubv] at y2
          exact one i _ z1 z2 (Or.inl y2)
    · cases c3
      exact ⟨_, hget3, hnewnd, hnew⟩
  refine ⟨.insert S.built hid h1, hro, S.s, S.once, fun k => by dsimp only; rw [hk]; exact hkeys k, ?_, hfin⟩
  intro i hi
  have := hvec (UInt64.ofNat (i + 1))
  unfold vecs at this
  dsimp only
  rw [this]
  by_cases he : UInt64.ofNat (i + 1) = nid
  · rw [if_pos he]
    rw [← hidd] at he
    rw [id_inj (by omega) (by omega) he]
  · rw [if_neg he]
    refine S.vec i ?_
    rcases Nat.lt_or_ge n i with h' | h'
    · exact absurd (by rw [← hidd, show i = n + 1 by omega]) he
    · exact h'

theorem star_first (m : UInt32) : ∃ mi', (newMemIndex 1 m 1).insert starMetric twice [] [UInt32.ofNat 0] 10 (UInt64.ofNat (0 + 1)) = .ok mi' ∧
    Star m 0 mi' := by
  have h0 : (newMemIndex 1 m 1).insert starMetric twice [] [UInt32.ofNat 0] 10 (UInt64.ofNat (0 + 1)) = .ok { newMemIndex 1 m 1 with
      once := true, s := 1, graph := [(1, { id := 1, vector := [0] })] } := rfl
  refine ⟨_, h0, .insert .new (by simp [newMemIndex, AMap.keys]) h0, rfl, rfl, rfl, ?_, ?_, ?_⟩
  · intro k
    constructor
    · intro h
      have : k = 1 := by simpa [newMemIndex, AMap.set, AMap.keys] using h
      exact ⟨0, by omega, by rw [this]; rfl⟩
    · rintro ⟨i, hi, rfl⟩
      obtain rfl : i = 0 := by omega
      simp [AMap.keys]
  · intro i hi
    obtain rfl : i = 0 := by omega
    rfl
  · exact ⟨_, rfl, List.nodup_nil, fun k => ⟨fun h => (nomatch h), fun ⟨i, h1, h2, _⟩ => by omega⟩⟩

theorem star_exists {m : UInt32} (hm : 1 ≤ m.toNat) : ∀ n, n + 1 < 2 ^ 32 → ∃ mi, Star m n mi := by
  intro n
  induction n with
  | zero => intro _; obtain ⟨mi, _, h⟩ := star_first m; exact ⟨mi, h⟩
  | succ n ih =>
    intro h
    obtain ⟨mi, S⟩ := ih (by omega)
    obtain ⟨mi', _, S'⟩ := star_step hm S (by omega)
    exact ⟨mi', S'⟩

end DiskAnn

/-- C49's degree bound is false without limit: whatever positive maximal degree an index is given, and for every degree `n` (up to
`2^32 - 2`), inserts can build an index with a vertex that has `n` neighbours. -/
theorem C49_degree_unbounded (m : UInt32) (hm : m ≠ 0) (n : Nat) (hn : n + 1 < 2 ^ 32) :
    ∃ mi : MemIndex, Built starMetric twice 1 m 1 mi ∧ mi.maxDegree = m ∧ (neighborsOf mi 1).length = n ∧ (neighborsOf mi 1).Nodup := by
  have hm' : 1 ≤ m.toNat := by
    rcases Nat.eq_zero_or_pos m.toNat with h | h
    · exact absurd (UInt32.toNat_inj.mp (h.trans (by rfl))) hm
    · exact h
  obtain ⟨mi, S⟩ := DiskAnn.star_exists hm' n hn
  obtain ⟨v, h1, h2, h3⟩ := S.hub
  have hv : neighborsOf mi 1 = v.neighbors := by unfold neighborsOf; rw [h1]; rfl
  refine ⟨mi, S.built, (DiskAnn.built_inv (dim := 1) star_ord star_dim S.built).deg, ?_, by rw [hv]; exact h2⟩
  rw [hv]
  have hnd : ((List.range' 1 n).map (fun i => UInt64.ofNat (i + 1))).Nodup := by
    rw [List.nodup_iff_pairwise_ne, List.pairwise_map]
    refine List.Pairwise.imp_of_mem ?_ (List.nodup_range' (s := 1) (n := n))
    intro a b ha hb hab he
    simp only [List.mem_range'_1] at ha hb
    exact hab (DiskAnn.id_inj (by omega) (by omega) he)
  have hp : v.neighbors.Perm ((List.range' 1 n).map (fun i => UInt64.ofNat (i + 1))) := by
    rw [List.perm_ext_iff_of_nodup h2 hnd]
    intro k
    rw [h3, List.mem_map]
    constructor
    · rintro ⟨i, a, b, rfl⟩; exact ⟨i, by simp only [List.mem_range'_1]; omega, rfl⟩
    · rintro ⟨i, a, rfl⟩; simp only [List.mem_range'_1] at a; exact ⟨i, by omega, by omega, rfl⟩
  rw [hp.length_eq]; simp

-- the hypotheses of C49_prune_exact are met by an index of five vertices on a line; pruning its vertex 3 over the other four
-- candidates keeps one on each side
example : ∃ mi : MemIndex, Built lineMetric (fun d c => decide (1 * d ≤ c)) 1 2 1 mi ∧
    (match DiskAnn.robustPrune lineMetric (fun d c => decide (1 * d ≤ c)) mi.graph 2 { id := 3, vector := [30] }
      [⟨1, 20⟩, ⟨2, 10⟩, ⟨4, 11⟩, ⟨5, 20⟩] with | .ok l => l | .error _ => []) = [2, 4] := by
  have h : ∃ mi, lineIndex 1 1 2 [(5, 50), (4, 41), (3, 30), (2, 20), (1, 10)] = .ok mi ∧
      (match DiskAnn.robustPrune lineMetric (fun d c => decide (1 * d ≤ c)) mi.graph 2 { id := 3, vector := [30] }
        [⟨1, 20⟩, ⟨2, 10⟩, ⟨4, 11⟩, ⟨5, 20⟩] with | .ok l => l | .error _ => []) = [2, 4] := ⟨_, rfl, by decide +kernel⟩
  obtain ⟨mi, h1, h2⟩ := h
  exact ⟨mi, (line_built 1 1 2 _ mi (by decide) h1).1, h2⟩

-- an index with maximal degree 3 and a vertex of degree 1000
example : ∃ mi : MemIndex, Built starMetric twice 1 3 1 mi ∧ mi.maxDegree = 3 ∧ (neighborsOf mi 1).length = 1000 :=
  let ⟨mi, a, b, c, _⟩ := C49_degree_unbounded 3 (by decide) 1000 (by decide)
  ⟨mi, a, b, c⟩

end Vectory
