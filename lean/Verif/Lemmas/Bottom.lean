import Verif.Lemmas.Insert
import Verif.Lemmas.Order
/-! The bottom layer: what one insert does to it, and a layer search that finds everything. -/
namespace Vectory
variable {D : Type} {S : Prop}

/-- everything visited so far is still among the results. -/
def Cover (s : SL D) : Prop := ∀ x ∈ s.visited, ∃ e ∈ s.nn, e.id = x

theorem visitOne_cover {M : Metric D} {nodes : AMap UInt64 Vertex} {q : Vec} {ef : Nat} {P : UInt64 → Prop}
    (hcount : ∀ l : List UInt64, l.Nodup → (∀ x ∈ l, P x) → l.length ≤ ef)
    (hd : DistOK M nodes q P) {s s' : SL D} {nid : UInt64} (hs : SInv M nodes q ef P s) (hc : Cover s) (hP : P nid)
    (hv : ∃ v, nodes.get? nid = some v) (h : visitOne M nodes q ef s nid = .ok s') : Cover s' := by
  obtain ⟨v, hv⟩ := hv
  obtain ⟨d, hd'⟩ := hd nid hP v hv
  have hfew : nid ∉ s.visited → s.nn.length + 1 ≤ ef := by
    intro hvis
    have := hcount (nid :: s.nn.map Elem.id) (List.nodup_cons.mpr ⟨by
        intro hm
        obtain ⟨e, he, rfl⟩ := List.mem_map.mp hm
        exact hvis (hs.nnVis e he), hs.nnNd⟩) (by
        intro x hx
        rcases List.mem_cons.mp hx with rfl | hx
        · exact hP
        · obtain ⟨e, he, rfl⟩ := List.mem_map.mp hx
          exact hs.visP _ (hs.nnVis e he))
    simpa using this
  rcases visitOne_cases M nodes q ef s nid v d hs.ne hv hd' with
    ⟨hvis, h1⟩ | ⟨hvis, f, hf, ⟨h1, h2, h3⟩ | ⟨h1, h2, h3⟩ | ⟨h1, h2, x, nn', hp, h3⟩⟩
  · rw [h1] at h; cases h; exact hc
  · have := hfew hvis; omega
  · rw [h3] at h; cases h
    have hnp := Heap.push_perm (maxLess M.lt) s.nn ⟨nid, d⟩
    intro y hy
    rcases List.mem_cons.mp hy with rfl | hy
    · exact ⟨⟨y, d⟩, hnp.mem_iff.mpr (by simp), rfl⟩
    · obtain ⟨e, he, hid⟩ := hc y hy
      exact ⟨e, hnp.mem_iff.mpr (List.mem_cons_of_mem _ he), hid⟩
  · have := hfew hvis; omega

theorem visitAll_cover {M : Metric D} {nodes : AMap UInt64 Vertex} {q : Vec} {ef : Nat} {P : UInt64 → Prop}
    (hef : 0 < ef) (hcount : ∀ l : List UInt64, l.Nodup → (∀ x ∈ l, P x) → l.length ≤ ef)
    (hd : DistOK M nodes q P) (hex : ∀ id, P id → ∃ v, nodes.get? id = some v) :
    ∀ (conns : List UInt64) (s s' : SL D), SInv M nodes q ef P s → Cover s → (∀ n ∈ conns, P n) →
      conns.foldlM (visitOne M nodes q ef) s = .ok s' → Cover s' := by
  intro conns
  induction conns with
  | nil => intro s s' _ hc _ h; cases h; exact hc
  | cons n rest ih =>
    intro s s' hs hc hP h
    obtain ⟨s1, h1, i1, _⟩ := visitOne_spec M nodes q ef P s n hs hef (hP n (by simp)) (hex n (hP n (by simp))) hd
    rw [List.foldlM_cons, h1] at h
    exact ih s1 s' i1 (visitOne_cover hcount hd hs hc (hP n (by simp)) (hex n (hP n (by simp))) h1)
      (fun x hx => hP x (List.mem_cons_of_mem _ hx)) h

theorem searchLoop_cover {M : Metric D} {nodes : AMap UInt64 Vertex} {b : Nat} {q : Vec} {ef l : Nat}
    {P : UInt64 → Prop} (hef : 0 < ef) (hcount : ∀ l : List UInt64, l.Nodup → (∀ x ∈ l, P x) → l.length ≤ ef)
    (hcl : Closed nodes l b P) (hd : DistOK M nodes q P) :
    ∀ (fuel : Nat) (s s' : SL D), SInv M nodes q ef P s → Cover s → searchLoop M nodes b q ef l fuel s = .ok s' →
      Cover s' ∧ ∀ x ∈ s.visited, x ∈ s'.visited := by
  have hex : ∀ id, P id → ∃ v, nodes.get? id = some v := by
    intro id hP; obtain ⟨v, c, hv, _⟩ := hcl id hP; exact ⟨v, hv⟩
  intro fuel
  induction fuel with
  | zero => intro s s' _ _ h; cases h
  | succ fuel ih =>
    intro s s' hs hc h
    unfold searchLoop at h
    cases hp : Heap.pop (minLess M.lt) s.cands with
    | none => rw [hp] at h; cases h; exact ⟨hc, fun _ h => h⟩
    | some p =>
      obtain ⟨c, rest⟩ := p
      rw [hp] at h
      have hpp := (Heap.pop_perm _ _ _ _ hp).symm
      have hcm : c ∈ s.cands := hpp.mem_iff.mp (by simp)
      have hrm : ∀ e ∈ rest, e ∈ s.cands := fun e he => hpp.mem_iff.mp (List.mem_cons_of_mem _ he)
      obtain ⟨f, hfk⟩ := peek_some hs.ne
      simp only [hfk] at h
      have hs1 : SInv M nodes q ef P { s with cands := rest } :=
        ⟨hs.vis, hs.visP, hs.ne, hs.len, hs.nnNd, hs.nnVis, hs.nnD, fun e he => hs.cdVis e (hrm e he),
          fun e he => hs.cdD e (hrm e he)⟩
      split at h
      · cases h; exact ⟨hc, fun _ h => h⟩
      · obtain ⟨v, cs, hv, hcs, hcb, hcP⟩ := hcl c.id (hs.visP _ (hs.cdVis c hcm))
        rw [nodeAt_of hv, ok_bind, connsAt_of hcs, ok_bind, if_neg (by omega)] at h
        obtain ⟨s2, h2, i2, _, m2, _⟩ := visitAll_spec M nodes q ef P hef hd hex cs _ hs1 hcP
        rw [h2, ok_bind] at h
        obtain ⟨r1, r2⟩ := ih s2 s' i2 (visitAll_cover hef hcount hd hex cs _ s2 hs1 hc hcP h2) h
        exact ⟨r1, fun x hx => r2 x (m2 x hx)⟩

/-- a layer search over a region in which any two vertices are linked, and which is no larger than `ef`, finds the whole
region. -/
theorem searchLayer_full {M : Metric D} (w : Ord M.lt) {nodes : AMap UInt64 Vertex} {b : Nat} {q : Vec}
    {eps : List (Elem D)} {ef l : Nat} {P : UInt64 → Prop} (hef : 0 < ef)
    (hcount : ∀ l : List UInt64, l.Nodup → (∀ x ∈ l, P x) → l.length ≤ ef) (hcl : Closed nodes l b P)
    (hd : DistOK M nodes q P) (he : EpsOK M nodes q P eps)
    (hfull : ∀ x c, P x → link? nodes x l = some c → ∀ y, P y → y ≠ x → y ∈ c) {r : List (Elem D)}
    (h : searchLayer M nodes b q eps ef l = .ok r) : ∀ y, P y → ∃ e ∈ r, e.id = y := by
  have hex : ∀ id, P id → ∃ v, nodes.get? id = some v := by
    intro id hP; obtain ⟨v, c, hv, _⟩ := hcl id hP; exact ⟨v, hv⟩
  have hel : eps.length ≤ ef := by
    have := hcount (eps.map Elem.id) he.nd (by
      intro x hx; obtain ⟨e, h1, rfl⟩ := List.mem_map.mp hx; exact he.mem e h1)
    simpa using this
  unfold searchLayer at h
  rw [if_neg (by omega)] at h
  have i0 := sinv_init M nodes q ef P eps he hel
  have p1 : (newMinHeap M.lt eps).Perm eps := Heap.init_perm _ _
  have p2 : (newMaxHeap M.lt eps).Perm eps := Heap.init_perm _ _
  have c0 : Cover ({ visited := eps.map Elem.id, cands := newMinHeap M.lt eps, nn := newMaxHeap M.lt eps } : SL D) := by
    intro x hx
    obtain ⟨e, h1, h2⟩ := List.mem_map.mp hx
    exact ⟨e, p2.mem_iff.mpr h1, h2⟩
  generalize hs0 : ({ visited := eps.map Elem.id, cands := newMinHeap M.lt eps, nn := newMaxHeap M.lt eps } : SL D) = s0 at *
  have hc0 : s0.cands = newMinHeap M.lt eps := by rw [← hs0]
  have hn0 : s0.nn = newMaxHeap M.lt eps := by rw [← hs0]
  rw [bind_ok_iff] at h
  obtain ⟨s, h, hr⟩ := h
  cases hr
  intro y hy
  unfold searchLoop at h
  cases hp : Heap.pop (minLess M.lt) s0.cands with
  | none =>
    exfalso
    rw [Heap.pop_none, hc0] at hp
    rw [hp] at p1; exact he.ne p1.nil_eq.symm
  | some p =>
    obtain ⟨c, rest⟩ := p
    rw [hp] at h
    have hpp := (Heap.pop_perm _ _ _ _ hp).symm
    have hcm : c ∈ s0.cands := hpp.mem_iff.mp (by simp)
    have hrm : ∀ e ∈ rest, e ∈ s0.cands := fun e he => hpp.mem_iff.mp (List.mem_cons_of_mem _ he)
    obtain ⟨f, hfk⟩ := peek_some i0.ne
    simp only [hfk] at h
    have hfc : ¬ M.lt f.dist c.dist = true := by
      have hfm : f ∈ s0.cands := by
        have := peek_mem hfk
        rw [hn0] at this
        rw [hc0]
        exact p1.mem_iff.mpr (p2.mem_iff.mp this)
      have hh : Heap.IsHeap (minLess M.lt) s0.cands := by rw [hc0]; exact Heap.init_heap w.min eps
      have := (Heap.pop_heap w.min _ hh _ _ hp).2 f hfm
      unfold minLess at this
      rw [this]; simp
    rw [if_neg hfc] at h
    have hs1 : SInv M nodes q ef P { s0 with cands := rest } :=
      ⟨i0.vis, i0.visP, i0.ne, i0.len, i0.nnNd, i0.nnVis, i0.nnD, fun e he => i0.cdVis e (hrm e he),
        fun e he => i0.cdD e (hrm e he)⟩
    obtain ⟨v, cs, hv, hcs, hcb, hcP⟩ := hcl c.id (i0.visP _ (i0.cdVis c hcm))
    rw [nodeAt_of hv, ok_bind, connsAt_of hcs, ok_bind, if_neg (by omega)] at h
    obtain ⟨s2, h2, i2, v2, m2, _⟩ := visitAll_spec M nodes q ef P hef hd hex cs _ hs1 hcP
    rw [h2, ok_bind] at h
    have c2 := visitAll_cover hef hcount hd hex cs _ s2 hs1 c0 hcP h2
    obtain ⟨r1, r2⟩ := searchLoop_cover hef hcount hcl hd _ s2 s i2 c2 h
    by_cases hyc : y = c.id
    · rw [hyc]; exact r1 _ (r2 _ (m2 _ (i0.cdVis c hcm)))
    · exact r1 _ (r2 _ (v2 _ (hfull c.id cs (i0.visP _ (i0.cdVis c hcm)) (link?_of hv hcs) y hy hyc)))

/-! ### one insert -/

/-- what one insert of `id` does to the bottom layer of `h`, giving `h'`. `ns` are the chosen neighbours. -/
structure BottomStep (M : Metric D) (h h' : Hnsw) (id : UInt64) (vec : Vec) (ns : List UInt64) : Prop where
  cfg : h'.cfg = h.cfg
  keys : h'.nodes.keys = h.nodes.keys ++ [id]
  own : link? h'.nodes id 0 = some ns
  nd : ns.Nodup
  ne : ns ≠ []
  old : ∀ n ∈ ns, n ∈ h.nodes.keys
  rest : ∀ x, x ≠ id → x ∉ ns → link? h'.nodes x 0 = link? h.nodes x 0
  back : ∀ n ∈ ns, ∀ c, link? h.nodes n 0 = some c → ∃ c', link? h'.nodes n 0 = some c' ∧
    (c.length < h.cfg.mMax0 → c' = c ++ [id]) ∧ (∀ x ∈ c', x = id ∨ x ∈ c)
  /-- the neighbours are chosen among what a search of the bottom layer found -/
  pick : ∃ (nodes : AMap UInt64 Vertex) (eps nns : List (Elem D)),
    (∀ x, x ≠ id → link? nodes x 0 = link? h.nodes x 0) ∧ Closed nodes 0 h.cfg.mMax0 (Others nodes id 0) ∧
    (∀ x, Others nodes id 0 x ↔ x ∈ h.nodes.keys) ∧
    DistOK M nodes vec (Others nodes id 0) ∧
    EpsOK M nodes vec (Others nodes id 0) eps ∧ searchLayer M nodes h.cfg.mMax0 vec eps h.cfg.efC 0 = .ok nns ∧
    EpsOK M nodes vec (Others nodes id 0) nns ∧
    selectNeighbors M h.cfg nodes nns h.cfg.m = .ok ns

theorem construct_bottom {M : Metric D} {dim : Nat} (hM : DimOK M dim) {v : UInt64} {vvec : Vec}
    (hvd : vvec.length = dim) :
    ∀ (n : Nat) (h : Hnsw) (eps : List (Elem D)), n < 4294967296 → MInv S h → CfgOK h.cfg → VecOK dim h.nodes →
      (∀ l, l ≤ n → HasLevel h.nodes v l) → (∀ l, l ≤ n → Unlinked h.nodes v l) →
      EpsOK M h.nodes vvec (Others h.nodes v n) eps → eps.length ≤ h.cfg.efC →
      ∃ (h' hm : Hnsw) (eps0 nns : List (Elem D)) (ns : List UInt64),
        h.construct M v vvec (n + 1) eps = .ok h' ∧ MInv S h' ∧ Frame h h' ∧ MInv S hm ∧ Frame h hm ∧
        (∀ x, link? hm.nodes x 0 = link? h.nodes x 0) ∧
        EpsOK M hm.nodes vvec (Others hm.nodes v 0) eps0 ∧
        searchLayer M hm.nodes h.cfg.mMax0 vvec eps0 h.cfg.efC 0 = .ok nns ∧
        EpsOK M hm.nodes vvec (Others hm.nodes v 0) nns ∧
        selectNeighbors M h.cfg hm.nodes nns h.cfg.m = .ok ns ∧ SelOK nns h.cfg.m ns ∧
        link? h'.nodes v 0 = some ns ∧ (∀ x, x ≠ v → x ∉ ns → link? h'.nodes x 0 = link? h.nodes x 0) ∧
        (∀ x ∈ ns, Others h.nodes v 0 x) ∧
        (∀ x ∈ ns, ∀ c, link? h.nodes x 0 = some c → ∃ c', link? h'.nodes x 0 = some c' ∧
          (c.length < h.cfg.mMax0 → c' = c ++ [v]) ∧ (∀ y ∈ c', y = v ∨ y ∈ c)) := by
  intro n
  induction n with
  | zero =>
    intro h eps _ i hcfg hv hvl hu heps hel
    obtain ⟨h1, nns, ns, e1, i1, f1, e2, e3, hn2, hn3, sel, lk1, lkv, hoth, ef⟩ :=
      connectLayer_spec hM hvd (l := 0) (by omega) i hcfg hv (hvl 0 (by omega)) (hu 0 (by omega)) heps hel
    refine ⟨h1, h, eps, nns, ns, ?_, i1, f1, i, Frame.refl h, fun _ => rfl, heps, e2, hn2, e3, sel, lkv,
      fun x a b => lk1 x 0 (Or.inl ⟨a, b⟩), hoth, fun x hx c hc => ef.1 x hx c hc⟩
    unfold Hnsw.construct
    rw [e1, ok_bind]
    rfl
  | succ n ih =>
    intro h eps hn32 i hcfg hv hvl hu heps hel
    obtain ⟨h1, nns, ns, e1, i1, f1, _, _, hn2, hn3, sel, lk1, lkv, hoth, _⟩ :=
      connectLayer_spec hM hvd (l := n + 1) (by omega) i hcfg hv (hvl _ (by omega)) (hu _ (by omega)) heps hel
    obtain ⟨h2, hm, eps0, nns0, ns0, a1, a2, a3, a4, a5, a6, a7, a8, a9, a10, a11, a12, a13, a14, a15⟩ :=
      ih h1 nns (by omega) i1 (by rw [f1.cfg]; exact hcfg) (hv.shape f1.shape)
      (fun l hl => f1.shape.hasLevel (hvl l (by omega)))
      (by
        intro l hl x c hc
        rw [lk1 x l (Or.inr (by omega))] at hc
        exact hu l (by omega) x c hc)
      (by
        apply (f1.shape.epsOK hn2).mono
        rintro x ⟨hx1, hx2⟩
        exact ⟨hx1, f1.shape.hasLevel (hx2.mono (by omega))⟩)
      (by rw [f1.cfg]; exact hn3)
    have l0 : ∀ x, link? h1.nodes x 0 = link? h.nodes x 0 := fun x => lk1 x 0 (Or.inr (by omega))
    rw [f1.cfg] at a8 a10 a11 a15
    refine ⟨h2, hm, eps0, nns0, ns0, ?_, a2, f1.trans a3, a4, f1.trans a5, fun x => by rw [a6, l0], a7, a8, a9, a10, a11,
      a12, fun x b c => by rw [a13 x b c, l0], ?_, ?_⟩
    · unfold Hnsw.construct
      rw [e1, ok_bind]
      exact a1
    · intro x hx; exact others_shape f1.shape.symm (a14 x hx)
    · intro x hx c hc; exact a15 x hx c (by rw [l0]; exact hc)

theorem hasLevel_zero {cfg : Cfg} {nodes : AMap UInt64 Vertex} (g : Graph S cfg nodes) {x : UInt64} :
    HasLevel nodes x 0 ↔ x ∈ nodes.keys := by
  rw [← AMap.get?_isSome_iff]
  constructor
  · rintro ⟨v, hv, _⟩; rw [hv]; rfl
  · intro h
    obtain ⟨v, hv⟩ := Option.isSome_iff_exists.mp h
    exact ⟨v, hv, List.length_pos_iff.mpr (g.idOK x v hv).2⟩

theorem insertNext_bottom {M : Metric D} {dim : Nat} (hM : DimOK M dim) {h : Hnsw} (i : Inv S h) (hcfg : CfgOK h.cfg)
    (hv : VecOK dim h.nodes) (hne : h.nodes ≠ []) {id : UInt64} (hid : id ∉ h.nodes.keys) {vec : Vec}
    (hd : vec.length = dim) {level : Nat} (hl : level < 4294967296) {h' : Hnsw}
    (hr : h.insertNext M vec id level = .ok h') : ∃ ns, BottomStep M h h' id vec ns := by
  obtain ⟨i1, hent, hee, hlv, hun⟩ := isolated_spec i hne hid vec hl
  obtain ⟨epv, d, eps, e1, e2, e3, heps, hel⟩ := descend_insert hM i hcfg hv hne hid hd hl
  have hv1 := vecOK_isolated hv hd id level
  have hcfgC := hcfg.efC
  obtain ⟨h2, hm, eps0, nns, ns, a1, a2, a3, a4, a5, a6, a7, a8, a9, a10, a11, a12, a13, a14, a15⟩ :=
    construct_bottom hM hd (min h.maxLayer level) (h.addIsolated vec id level) eps
      (by omega) i1 hcfg hv1 (fun l hl' => hlv l (by omega)) (fun l _ => hun l) heps
      (by rw [hel]; exact hcfgC)
  have hm1 : ¬ h.cfg.m = 1 := by have := hcfg.m2; omega
  have hred : h.insertNext M vec id level =
      (if h.maxLayer < level then
        .ok { (h2.log (recSetEntryPoint id (UInt32.ofNat level))) with entry := id, maxLayer := level }
      else .ok h2) := by
    unfold Hnsw.insertNext
    rw [if_neg hm1]
    unfold Hnsw.addIsolated at e1 e3 a1
    simp only [Hnsw.log] at e1 e3 a1 ⊢
    rw [e1, ok_bind, e2, ok_bind, e3, ok_bind, a1, ok_bind]; rfl
  have hn : h'.nodes = h2.nodes ∧ h'.cfg = h2.cfg := by
    rw [hred] at hr
    split at hr <;> cases hr <;> exact ⟨rfl, rfl⟩
  have hcf : (h.addIsolated vec id level).cfg = h.cfg := rfl
  rw [hcf] at a8 a10 a11 a15
  have lkI : ∀ x, x ≠ id → link? (h.addIsolated vec id level).nodes x 0 = link? h.nodes x 0 := by
    intro x hx; rw [link?_isolated, if_neg hx]
  have kI := keys_isolated hid vec level
  have hg := i1.good.graph
  have kO : ∀ x, Others (h.addIsolated vec id level).nodes id 0 x ↔ x ∈ h.nodes.keys := by
    intro x
    unfold Others
    rw [hasLevel_zero hg, kI]
    constructor
    · rintro ⟨h1, h2⟩
      rcases List.mem_append.mp h2 with h | h
      · exact h
      · exact absurd (by simpa using h) h1
    · intro hx
      exact ⟨by rintro rfl; exact hid hx, List.mem_append_left _ hx⟩
  refine ⟨ns, ?_⟩
  refine ⟨by rw [hn.2, a3.cfg]; rfl, by rw [hn.1, a3.shape.keys, kI], by rw [hn.1]; exact a12, a11.nd a9.nd,
    a11.ne a9.ne (by have := hcfg.m2; omega), fun n hn' => (kO n).mp (a14 n hn'), ?_, ?_, ?_⟩
  · intro x hx hxn
    rw [hn.1, a13 x hx hxn, lkI x hx]
  · intro x hx c hc
    rw [hn.1]
    have hxid : x ≠ id := (a14 x hx).1
    exact a15 x hx c (by rw [lkI x hxid]; exact hc)
  · have hun' : Unlinked hm.nodes id 0 := by
      intro x c hc
      rw [a6] at hc
      exact hun 0 x c hc
    have hcm : hm.cfg = h.cfg := a5.cfg
    refine ⟨hm.nodes, eps0, nns, fun x hx => by rw [a6, lkI x hx], ?_, ?_, ?_, a7, a8, a9, a10⟩
    · have := closed_others (by rw [hcm]; exact hcfg) a4.good.graph hun'
      rw [hcm] at this; exact this
    · intro x
      rw [← kO]
      exact ⟨others_shape a5.shape.symm, others_shape a5.shape⟩
    · exact distOK_of hM (hv1.shape a5.shape) hd _

end Vectory
