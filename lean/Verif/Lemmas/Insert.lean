import Verif.Lemmas.Graph
/-! `Insert` keeps the invariants and never panics. -/
namespace Vectory
variable {D : Type} {S : Prop}

theorem CfgOK.mMax1 {cfg : Cfg} (c : CfgOK cfg) : 1 ≤ cfg.mMax := by
  have := c.m2; have := c.mM; unfold Cfg.mMax0 at *; omega

theorem CfgOK.deg {cfg : Cfg} (c : CfgOK cfg) (l : Nat) : degBound cfg l ≤ cfg.mMax0 := by
  have := c.mM; unfold degBound Cfg.mMax0 at *; split <;> omega

/-- all stored vectors have dimension `dim`. -/
def VecOK (dim : Nat) (nodes : AMap UInt64 Vertex) : Prop := ∀ id v, nodes.get? id = some v → v.vec.length = dim

theorem VecOK.shape {dim : Nat} {a b : AMap UInt64 Vertex} (h : VecOK dim a) (s : Shape a b) : VecOK dim b := by
  intro id v hv
  obtain ⟨w, hw, _, _, h3⟩ := s.symm.get_some hv
  rw [← h3]; exact h id w hw

theorem VecOK.pair {dim : Nat} {nodes : AMap UInt64 Vertex} {M : Metric D} (h : VecOK dim nodes) (hM : DimOK M dim) :
    ∀ x y vx vy, nodes.get? x = some vx → nodes.get? y = some vy → ∃ d, M.dist vx.vec vy.vec = .ok d :=
  fun x y _ _ hx hy => hM _ _ (h x _ hx) (h y _ hy)

theorem elemsOf_spec (M : Metric D) (nodes : AMap UInt64 Vertex) (nv : Vertex)
    (hM : ∀ y vy, nodes.get? y = some vy → ∃ d, M.dist nv.vec vy.vec = .ok d) :
    ∀ ids : List UInt64, (∀ x ∈ ids, ∃ v, nodes.get? x = some v) →
      ∃ es, elemsOf M nodes nv ids = .ok es ∧ es.map Elem.id = ids ∧
        ∀ e ∈ es, ∃ v, nodes.get? e.id = some v ∧ M.dist nv.vec v.vec = .ok e.dist := by
  intro ids
  induction ids with
  | nil => intro _; exact ⟨[], rfl, rfl, by simp⟩
  | cons x xs ih =>
    intro h
    obtain ⟨v, hv⟩ := h x (by simp)
    obtain ⟨d, hd⟩ := hM x v hv
    obtain ⟨es, h1, h2, h3⟩ := ih (fun y hy => h y (List.mem_cons_of_mem _ hy))
    unfold elemsOf
    rw [nodeAt_of hv, ok_bind, hd, ok_bind, h1, ok_bind]
    refine ⟨_, rfl, by simp [h2], ?_⟩
    intro e he
    rcases List.mem_cons.mp he with rfl | he
    · exact ⟨v, hv, hd⟩
    · exact h3 e he

/-- no list has an id twice or the vertex itself. -/
def Neat (nodes : AMap UInt64 Vertex) : Prop := ∀ x l c, link? nodes x l = some c → c.Nodup ∧ x ∉ c

theorem Neat.upd {a b : AMap UInt64 Vertex} (k : Neat a) {n : UInt64} {l : Nat} {c' : List UInt64}
    (lk : ∀ x l', link? b x l' = if x = n ∧ l' = l then some c' else link? a x l') (h : c'.Nodup ∧ n ∉ c') : Neat b := by
  intro x l' c hc
  rw [lk] at hc
  split at hc
  · rename_i e; obtain ⟨rfl, rfl⟩ := e; cases hc; exact h
  · exact k x l' c hc

theorem linkBack_spec {M : Metric D} {dim : Nat} (hM : DimOK M dim) {v : UInt64} {vvec : Vec} (hvd : vvec.length = dim)
    {l maxConn : Nat} {h : Hnsw} (i : MInv S h) (hcfg : CfgOK h.cfg) (hv : VecOK dim h.nodes) {n : UInt64} (hnv : n ≠ v)
    {c : List UInt64} (hc : link? h.nodes n l = some c) (hvl : HasLevel h.nodes v l) (hvc : v ∉ c)
    (hl32 : l < 4294967296) (hmc : maxConn = if l = 0 then h.cfg.mMax0 else h.cfg.mMax) :
    ∃ h' c', h.linkBack M v vvec l maxConn n = .ok h' ∧ MInv S h' ∧ Frame h h' ∧
      (∀ x l', link? h'.nodes x l' = if x = n ∧ l' = l then some c' else link? h.nodes x l') ∧
      (c.length < maxConn → c' = c ++ [v]) ∧ (∀ x ∈ c', x = v ∨ x ∈ c) ∧ (Neat h.nodes → Neat h'.nodes) := by
  obtain ⟨g1, g3, g4⟩ := i.good.graph.linkOK n l c hc
  obtain ⟨nv, hnvx, hnc⟩ := link?_some hc
  have hb : maxConn ≤ degBound h.cfg l := by unfold degBound; rw [← hmc]; omega
  have hb0 : maxConn ≤ h.cfg.mMax0 := Nat.le_trans hb (hcfg.deg l)
  unfold Hnsw.linkBack
  rw [nodeAt_of hnvx, ok_bind, connsAt_of hnc, ok_bind]
  by_cases hlt : c.length < maxConn
  · rw [if_pos hlt]
    obtain ⟨h', e, i', f, lk⟩ := addConnection_spec i hc hl32 (fun _ => ⟨hvc, hnv⟩) (by omega) hvl
    exact ⟨h', c ++ [v], e, i', f, lk, fun _ => rfl, by
      intro x hx; rcases List.mem_append.mp hx with h | h
      · exact Or.inr h
      · exact Or.inl (by simpa using h), fun k => k.upd lk (by
        obtain ⟨k1, k2⟩ := k n l c hc
        refine ⟨?_, ?_⟩
        · rw [List.nodup_append]
          refine ⟨k1, by simp, ?_⟩
          intro y hy z hz
          rw [List.mem_singleton.mp hz]
          rintro rfl
          exact hvc hy
        · intro hm
          rcases List.mem_append.mp hm with h1 | h1
          · exact k2 h1
          · exact hnv (List.mem_singleton.mp h1))⟩
  · rw [if_neg hlt]
    have hnd : nv.vec.length = dim := hv n nv hnvx
    obtain ⟨d, hd⟩ := hM nv.vec vvec hnd hvd
    rw [hd, ok_bind]
    obtain ⟨es, he1, he2, he3⟩ := elemsOf_spec M h.nodes nv (fun y vy hy => hM _ _ hnd (hv y vy hy)) c
      (fun x hx => by obtain ⟨w, hw, _⟩ := g4 x hx; exact ⟨w, hw⟩)
    rw [he1, ok_bind]
    have hids : ((({ id := v, dist := d } : Elem D) :: es).map Elem.id) = v :: c := by simp [he2]
    obtain ⟨r, hr, sel⟩ := selectNeighbors_spec M h.cfg h.nodes (({ id := v, dist := d } : Elem D) :: es) maxConn
      (hv.pair hM) (by
        intro e he
        rcases List.mem_cons.mp he with rfl | he
        · obtain ⟨w, hw, _⟩ := hvl; exact ⟨w, hw⟩
        · obtain ⟨w, hw, _⟩ := he3 e he; exact ⟨w, hw⟩)
    rw [hr, ok_bind]
    have hsub : ∀ x ∈ r, x = v ∨ x ∈ c := by
      intro x hx
      have := sel.sub x hx
      rw [hids] at this
      exact List.mem_cons.mp this
    have hrl := sel.len
    have hsm := hcfg.small
    obtain ⟨h', e, i', f, lk⟩ := setConnections_spec i (id := n) (l := l) (c := r)
      (hasLevel_iff.mpr ⟨c, hc⟩) hl32 (by omega)
      (fun hS => ⟨sel.nd (by rw [hids]; exact List.nodup_cons.mpr ⟨hvc, (g1 hS).1⟩), by
        intro hn
        rcases hsub n hn with h1 | h1
        · exact hnv h1
        · exact (g1 hS).2 h1⟩)
      (by omega)
      (by
        intro x hx
        rcases hsub x hx with h1 | h1
        · subst h1; exact hvl
        · exact g4 x h1)
    refine ⟨h', r, e, i', f, lk, fun h => absurd h hlt, hsub, fun k => k.upd lk ?_⟩
    obtain ⟨k1, k2⟩ := k n l c hc
    refine ⟨sel.nd (by rw [hids]; exact List.nodup_cons.mpr ⟨hvc, k1⟩), ?_⟩
    intro hn
    rcases hsub n hn with h1 | h1
    · exact hnv h1
    · exact k2 h1

/-- linking back a duplicate-free list of neighbours, none of which links to `v` yet. -/
theorem linkBackAll_spec {M : Metric D} {dim : Nat} (hM : DimOK M dim) {v : UInt64} {vvec : Vec}
    (hvd : vvec.length = dim) {l : Nat} (hl32 : l < 4294967296) (maxConn : Nat) :
    ∀ (ns : List UInt64) (h : Hnsw), MInv S h → CfgOK h.cfg → VecOK dim h.nodes → ns.Nodup → HasLevel h.nodes v l →
      maxConn = (if l = 0 then h.cfg.mMax0 else h.cfg.mMax) →
      (∀ n ∈ ns, n ≠ v ∧ ∃ c, link? h.nodes n l = some c ∧ v ∉ c) →
      ∃ h', ns.foldlM (Hnsw.linkBack M v vvec l maxConn) h = .ok h' ∧ MInv S h' ∧ Frame h h' ∧
        (∀ x l', (x ∉ ns ∨ l' ≠ l) → link? h'.nodes x l' = link? h.nodes x l') ∧
        (∀ n ∈ ns, ∀ c, link? h.nodes n l = some c → ∃ c', link? h'.nodes n l = some c' ∧
          (c.length < maxConn → c' = c ++ [v]) ∧ (∀ x ∈ c', x = v ∨ x ∈ c)) ∧ (Neat h.nodes → Neat h'.nodes) := by
  intro ns
  induction ns with
  | nil => intro h i _ _ _ _ _ _; exact ⟨h, rfl, i, Frame.refl h, fun _ _ _ => rfl, by simp, fun k => k⟩
  | cons n rest ih =>
    intro h i hcfg hv hnd hvl hmc hns
    rw [List.nodup_cons] at hnd
    obtain ⟨hnv, c, hc, hvc⟩ := hns n (by simp)
    obtain ⟨h1, c1, e1, i1, f1, lk1, ap1, sb1, nt1⟩ := linkBack_spec hM hvd i hcfg hv hnv hc hvl hvc hl32 hmc
    obtain ⟨h2, e2, i2, f2, lk2, ef2, nt2⟩ := ih h1 i1 (by rw [f1.cfg]; exact hcfg) (hv.shape f1.shape) hnd.2
      (f1.shape.hasLevel hvl) (by rw [f1.cfg]; exact hmc) (by
        intro x hx
        obtain ⟨a, c', b, d⟩ := hns x (List.mem_cons_of_mem _ hx)
        refine ⟨a, c', ?_, d⟩
        rw [lk1, if_neg (by rintro ⟨rfl, _⟩; exact hnd.1 hx)]
        exact b)
    refine ⟨h2, ?_, i2, f1.trans f2, ?_, ?_, fun k => nt2 (nt1 k)⟩
    · rw [List.foldlM_cons, e1]; exact e2
    · intro x l' hx
      rw [lk2 x l' (by
        rcases hx with h | h
        · left; intro h'; exact h (List.mem_cons_of_mem _ h')
        · exact Or.inr h), lk1, if_neg (by
          rintro ⟨rfl, rfl⟩
          rcases hx with h | h
          · exact h (by simp)
          · exact h rfl)]
    · intro x hx cx hcx
      rcases List.mem_cons.mp hx with rfl | hx'
      · refine ⟨c1, ?_, ?_⟩
        · rw [lk2 x l (Or.inl hnd.1), lk1, if_pos ⟨rfl, rfl⟩]
        · rw [hc] at hcx; cases hcx; exact ⟨ap1, sb1⟩
      · apply ef2 x hx' cx
        rw [lk1, if_neg (by rintro ⟨rfl, _⟩; exact hnd.1 hx')]
        exact hcx

/-- the search region during the insertion of `v`: everything but `v` itself. -/
def Others (nodes : AMap UInt64 Vertex) (v : UInt64) (l : Nat) (x : UInt64) : Prop := x ≠ v ∧ HasLevel nodes x l

/-- nobody links to `v` at layer `l`. -/
def Unlinked (nodes : AMap UInt64 Vertex) (v : UInt64) (l : Nat) : Prop :=
  ∀ x c, link? nodes x l = some c → v ∉ c

theorem closed_others {cfg : Cfg} (hcfg : CfgOK cfg) {nodes : AMap UInt64 Vertex} (g : Graph S cfg nodes) {v : UInt64}
    {l : Nat} (hu : Unlinked nodes v l) : Closed nodes l cfg.mMax0 (Others nodes v l) := by
  rintro x ⟨hx, hl⟩
  obtain ⟨c, hc⟩ := hasLevel_iff.mp hl
  obtain ⟨w, hw, hwc⟩ := link?_some hc
  obtain ⟨_, h3, h4⟩ := g.linkOK x l c hc
  refine ⟨w, c, hw, hwc, Nat.le_trans h3 (hcfg.deg l), ?_⟩
  intro n hn
  refine ⟨?_, h4 n hn⟩
  rintro rfl
  exact hu x c hc hn

theorem closed_all {cfg : Cfg} (hcfg : CfgOK cfg) {nodes : AMap UInt64 Vertex} (g : Graph S cfg nodes) (l : Nat) :
    Closed nodes l cfg.mMax0 (fun x => HasLevel nodes x l) := by
  intro x hl
  obtain ⟨c, hc⟩ := hasLevel_iff.mp hl
  obtain ⟨w, hw, hwc⟩ := link?_some hc
  obtain ⟨_, h3, h4⟩ := g.linkOK x l c hc
  exact ⟨w, c, hw, hwc, Nat.le_trans h3 (hcfg.deg l), h4⟩

theorem distOK_of {M : Metric D} {dim : Nat} (hM : DimOK M dim) {nodes : AMap UInt64 Vertex} (hv : VecOK dim nodes)
    {q : Vec} (hq : q.length = dim) (P : UInt64 → Prop) : DistOK M nodes q P :=
  fun id _ v hg => hM _ _ (hv id v hg) hq

theorem others_shape {a b : AMap UInt64 Vertex} (s : Shape a b) {v : UInt64} {l : Nat} {x : UInt64}
    (h : Others a v l x) : Others b v l x := ⟨h.1, s.hasLevel h.2⟩

/-- everything `connectLayer` establishes. -/
theorem connectLayer_spec {M : Metric D} {dim : Nat} (hM : DimOK M dim) {v : UInt64} {vvec : Vec}
    (hvd : vvec.length = dim) {l : Nat} (hl32 : l < 4294967296) {h : Hnsw} (i : MInv S h) (hcfg : CfgOK h.cfg)
    (hv : VecOK dim h.nodes) (hvl : HasLevel h.nodes v l) (hu : Unlinked h.nodes v l) {eps : List (Elem D)}
    (heps : EpsOK M h.nodes vvec (Others h.nodes v l) eps) (hel : eps.length ≤ h.cfg.efC) :
    ∃ h' nns ns, h.connectLayer M v vvec eps l = .ok (h', nns) ∧ MInv S h' ∧ Frame h h' ∧
      searchLayer M h.nodes h.cfg.mMax0 vvec eps h.cfg.efC l = .ok nns ∧
      selectNeighbors M h.cfg h.nodes nns h.cfg.m = .ok ns ∧
      EpsOK M h.nodes vvec (Others h.nodes v l) nns ∧ nns.length ≤ h.cfg.efC ∧
      SelOK nns h.cfg.m ns ∧
      (∀ x l', ((x ≠ v ∧ x ∉ ns) ∨ l' ≠ l) → link? h'.nodes x l' = link? h.nodes x l') ∧
      link? h'.nodes v l = some ns ∧
      (∀ n ∈ ns, Others h.nodes v l n) ∧
      (∀ n ∈ ns, ∀ c, link? h.nodes n l = some c → ∃ c', link? h'.nodes n l = some c' ∧
          (c.length < (if l = 0 then h.cfg.mMax0 else h.cfg.mMax) → c' = c ++ [v]) ∧ (∀ x ∈ c', x = v ∨ x ∈ c)) ∧
      (Neat h.nodes → Neat h'.nodes) := by
  have hdist := distOK_of hM hv hvd (Others h.nodes v l)
  obtain ⟨nns, hn1, hn2, hn3⟩ := searchLayer_spec M h.nodes h.cfg.mMax0 vvec eps h.cfg.efC l (Others h.nodes v l)
    hcfg.efC (closed_others hcfg i.good.graph hu) hdist heps hel
  obtain ⟨ns, hs1, sel⟩ := selectNeighbors_spec M h.cfg h.nodes nns h.cfg.m (hv.pair hM)
    (fun e he => by obtain ⟨w, hw, _⟩ := hn2.dist e he; exact ⟨w, hw⟩)
  have hoth : ∀ n ∈ ns, Others h.nodes v l n := by
    intro n hn
    obtain ⟨e, he, rfl⟩ := List.mem_map.mp (sel.sub n hn)
    exact hn2.mem e he
  have hsl := sel.len
  have hm := hcfg.mM
  have hsm := hcfg.small
  obtain ⟨h1, e1, i1, f1, lk1⟩ := setConnections_spec i (id := v) (l := l) (c := ns) hvl hl32 (by omega)
    (fun _ => ⟨sel.nd hn2.nd, fun hn => (hoth v hn).1 rfl⟩) (by unfold degBound; omega) (fun n hn => (hoth n hn).2)
  have hmc : (if l = 0 then h.cfg.mMax0 else h.cfg.mMax) = (if l = 0 then h1.cfg.mMax0 else h1.cfg.mMax) := by
    rw [f1.cfg]
  have hlkn : ∀ n, n ∈ ns → link? h1.nodes n l = link? h.nodes n l := by
    intro n hn
    rw [lk1, if_neg (by rintro ⟨rfl, _⟩; exact (hoth n hn).1 rfl)]
  obtain ⟨h2, e2, i2, f2, lk2, ef2, nt2⟩ := linkBackAll_spec hM hvd hl32 (if l = 0 then h1.cfg.mMax0 else h1.cfg.mMax) ns h1 i1
    (by rw [f1.cfg]; exact hcfg) (hv.shape f1.shape) (sel.nd hn2.nd) (f1.shape.hasLevel hvl) rfl (by
      intro n hn
      refine ⟨(hoth n hn).1, ?_⟩
      obtain ⟨c, hc⟩ := hasLevel_iff.mp (hoth n hn).2
      exact ⟨c, by rw [hlkn n hn]; exact hc, hu n c hc⟩)
  refine ⟨h2, nns, ns, ?_, i2, f1.trans f2, hn1, hs1, hn2, hn3, sel, ?_, ?_, hoth, ?_,
    fun k => nt2 (k.upd lk1 ⟨sel.nd hn2.nd, fun hn => (hoth v hn).1 rfl⟩)⟩
  · unfold Hnsw.connectLayer
    rw [hn1, ok_bind, hs1, ok_bind, e1, ok_bind]
    simp only [e2, ok_bind]
  · intro x l' hx
    rw [lk2 x l' (by
      rcases hx with h | h
      · exact Or.inl h.2
      · exact Or.inr h), lk1, if_neg (by
        rintro ⟨rfl, rfl⟩
        rcases hx with h | h
        · exact h.1 rfl
        · exact h rfl)]
  · rw [lk2 v l (Or.inl (fun hn => (hoth v hn).1 rfl)), lk1, if_pos ⟨rfl, rfl⟩]
  · intro n hn c hc
    rw [hmc]
    exact ef2 n hn c (by rw [hlkn n hn]; exact hc)

/-- the construction phase over the layers below `n`. -/
theorem construct_spec {M : Metric D} {dim : Nat} (hM : DimOK M dim) {v : UInt64} {vvec : Vec}
    (hvd : vvec.length = dim) :
    ∀ (n : Nat) (h : Hnsw) (eps : List (Elem D)), n ≤ 4294967296 → MInv S h → CfgOK h.cfg → VecOK dim h.nodes →
      (∀ l, l < n → HasLevel h.nodes v l) → (∀ l, l < n → Unlinked h.nodes v l) →
      (n = 0 ∨ EpsOK M h.nodes vvec (Others h.nodes v (n - 1)) eps) → eps.length ≤ h.cfg.efC →
      ∃ h', h.construct M v vvec n eps = .ok h' ∧ MInv S h' ∧ Frame h h' ∧ (Neat h.nodes → Neat h'.nodes) := by
  intro n
  induction n with
  | zero => intro h eps _ i _ _ _ _ _ _; exact ⟨h, rfl, i, Frame.refl h, fun k => k⟩
  | succ n ih =>
    intro h eps hn32 i hcfg hv hvl hu heps hel
    have heps : EpsOK M h.nodes vvec (Others h.nodes v n) eps := by
      rcases heps with h1 | h1
      · omega
      · exact h1
    obtain ⟨h1, nns, ns, e1, i1, f1, _, _, hn2, hn3, sel, lk1, lkv, hoth, _, nt1⟩ :=
      connectLayer_spec hM hvd (l := n) (by omega) i hcfg hv (hvl n (by omega)) (hu n (by omega)) heps hel
    obtain ⟨h2, e2, i2, f2, nt2⟩ := ih h1 nns (by omega) i1 (by rw [f1.cfg]; exact hcfg) (hv.shape f1.shape)
      (fun l hl => f1.shape.hasLevel (hvl l (by omega)))
      (by
        intro l hl x c hc
        rw [lk1 x l (Or.inr (by omega))] at hc
        exact hu l (by omega) x c hc)
      (by
        by_cases hz : n = 0
        · exact Or.inl hz
        · right
          apply (f1.shape.epsOK hn2).mono
          rintro x ⟨hx1, hx2⟩
          exact ⟨hx1, f1.shape.hasLevel (hx2.mono (by omega))⟩)
      (by rw [f1.cfg]; exact hn3)
    refine ⟨h2, ?_, i2, f1.trans f2, fun k => nt2 (nt1 k)⟩
    unfold Hnsw.construct
    rw [e1, ok_bind]
    exact e2

/-- the full invariant between operations. -/
structure Inv (S : Prop) (h : Hnsw) : Prop where
  m : MInv S h
  top : S → ∀ id l, HasLevel h.nodes id l → l ≤ h.maxLayer
  once : h.once = true → h.nodes ≠ []
  top32 : h.maxLayer < 4294967296

theorem mapVals_nil_iff {m : AMap UInt64 Vertex} : m.mapVals Vertex.strip = [] ↔ m = [] := by
  unfold AMap.mapVals; simp

theorem Inv.first {h : Hnsw} (i : Inv S h) (hn : h.nodes = []) (vec : Vec) (id : UInt64) :
    Inv S (({ h with once := true } : Hnsw).insertFirst vec id) := by
  have hstrip : h.strip.nodes = [] := by simp [Hnsw.strip, hn, AMap.mapVals]
  have gnil : Graph S h.cfg [] := by rw [← hn]; exact i.m.good.graph
  -- first record
  have s1 : MInv S ({ (h.log (recSetEntryPoint id 0)) with entry := id, maxLayer := 0, once := true } : Hnsw) := by
    refine MInv.step (h := h) i.m (recSetEntryPoint id 0) rfl rfl ?_ ⟨i.m.good.graph, Or.inl hn⟩
    rw [restore_setEntryPoint]
    simp [Hnsw.strip, Hnsw.log]
  have hgraph : Graph S h.cfg (h.nodes.set id { id := id, conns := [[]], vec := vec }) := by
    rw [hn]
    refine ⟨by simp [AMap.set, AMap.keys], ?_, ?_⟩
    · intro x v hx
      by_cases h1 : id = x
      · simp [AMap.set, AMap.get?, h1] at hx; subst hx; exact ⟨rfl, by simp⟩
      · simp [AMap.set, AMap.get?, h1] at hx
    · intro x l c hc
      obtain ⟨v, hv, hvc⟩ := link?_some hc
      by_cases h1 : id = x
      · simp [AMap.set, AMap.get?, h1] at hv; subst hv
        have : c = [] := by
          cases l with
          | zero => simpa using hvc.symm
          | succ l => simp at hvc
        subst this; simp
      · simp [AMap.set, AMap.get?, h1] at hv
  have s2 : MInv S (({ h with once := true } : Hnsw).insertFirst vec id) := by
    refine MInv.step s1 (recAddVertex id 0) rfl rfl ?_ ⟨hgraph, Or.inr ?_⟩
    · rw [restore_addVertex]
      simp [Hnsw.strip, Hnsw.log, Hnsw.insertFirst, hn, AMap.set, AMap.mapVals, Vertex.strip]
    · refine ⟨{ id := id, conns := [[]], vec := vec }, ?_, by simp [Hnsw.insertFirst, Hnsw.log]⟩
      simp only [Hnsw.insertFirst, Hnsw.log, AMap.get?_set_self]
  refine ⟨s2, ?_, ?_, by simp [Hnsw.insertFirst, Hnsw.log]⟩
  · rintro _ x l ⟨v, hv, hl⟩
    simp only [Hnsw.insertFirst, Hnsw.log, hn] at hv ⊢
    by_cases h1 : id = x
    · simp [AMap.set, AMap.get?, h1] at hv; subst hv; simp at hl; omega
    · simp [AMap.set, AMap.get?, h1] at hv
  · intro _
    simp [Hnsw.insertFirst, Hnsw.log, hn, AMap.set]

/-- the state right after `wal.addVertex` and `h.nodes[v.id] = &v` (`insert.go:42-46`). -/
def Hnsw.addIsolated (h : Hnsw) (vec : Vec) (id : UInt64) (level : Nat) : Hnsw :=
  { (h.log (recAddVertex id (UInt32.ofNat level))) with
    nodes := h.nodes.set id { id := id, conns := List.replicate (level + 1) [], vec := vec } }

theorem link?_isolated {h : Hnsw} {vec : Vec} {id : UInt64} {level : Nat} (x : UInt64) (l : Nat) :
    link? (h.addIsolated vec id level).nodes x l =
      if x = id then (if l ≤ level then some [] else none) else link? h.nodes x l := by
  unfold link? Hnsw.addIsolated
  dsimp only
  rw [AMap.get?_set]
  by_cases hx : id = x
  · subst hx
    rw [if_pos rfl, if_pos rfl]
    simp only [Option.bind_some]
    rw [List.getElem?_replicate]
    by_cases hl : l ≤ level
    · rw [if_pos (by omega), if_pos hl]
    · rw [if_neg (by omega), if_neg hl]
  · have hx' : ¬ x = id := fun h => hx h.symm
    rw [if_neg hx, if_neg hx']

theorem isolated_spec {h : Hnsw} (i : Inv S h) (hne : h.nodes ≠ []) {id : UInt64} (hid : id ∉ h.nodes.keys) (vec : Vec)
    {level : Nat} (hl : level < 4294967296) :
    MInv S (h.addIsolated vec id level) ∧ HasLevel (h.addIsolated vec id level).nodes h.entry h.maxLayer ∧
    h.entry ≠ id ∧
    (∀ l, l ≤ level → HasLevel (h.addIsolated vec id level).nodes id l) ∧
    (∀ l, Unlinked (h.addIsolated vec id level).nodes id l) := by
  have hent : HasLevel h.nodes h.entry h.maxLayer := by
    rcases i.m.good.entry with h1 | h1
    · exact absurd h1 hne
    · exact h1
  have hkey : ∀ {x l}, HasLevel h.nodes x l → x ∈ h.nodes.keys := by
    rintro x l ⟨v, hv, _⟩
    rw [← AMap.get?_isSome_iff, hv]; rfl
  have hee : h.entry ≠ id := fun e => hid (e ▸ hkey hent)
  have hlev : ∀ {x l}, HasLevel h.nodes x l → HasLevel (h.addIsolated vec id level).nodes x l := by
    intro x l hx
    obtain ⟨c, hc⟩ := hasLevel_iff.mp hx
    rw [hasLevel_iff]
    refine ⟨c, ?_⟩
    rw [link?_isolated, if_neg (by rintro rfl; exact hid (hkey hx))]; exact hc
  have hun : ∀ l, Unlinked (h.addIsolated vec id level).nodes id l := by
    intro l x c hc
    rw [link?_isolated] at hc
    split at hc
    · split at hc
      · cases hc; simp
      · simp at hc
    · intro hm
      exact hid (hkey ((i.m.good.graph.linkOK x l c hc).2.2 id hm))
  have hgraph : Graph S h.cfg (h.addIsolated vec id level).nodes := by
    refine ⟨AMap.keys_set_nodup i.m.good.graph.keysNd _ _, ?_, ?_⟩
    · intro x v hx
      simp only [Hnsw.addIsolated] at hx
      rw [AMap.get?_set] at hx
      split at hx
      · rename_i he; subst he; cases hx; exact ⟨rfl, by simp⟩
      · exact i.m.good.graph.idOK x v hx
    · intro x l c hc
      rw [link?_isolated] at hc
      split at hc
      · split at hc
        · cases hc; simp
        · simp at hc
      · obtain ⟨a, c1, d⟩ := i.m.good.graph.linkOK x l c hc
        exact ⟨a, c1, fun n hn => hlev (d n hn)⟩
  refine ⟨?_, hlev hent, hee, ?_, hun⟩
  · refine MInv.step (h := h) i.m (recAddVertex id (UInt32.ofNat level)) rfl rfl ?_ ⟨hgraph, Or.inr (hlev hent)⟩
    rw [restore_addVertex, toNat_level hl]
    simp only [Hnsw.strip, Hnsw.addIsolated, Hnsw.log, AMap.mapVals_set]
    rfl
  · intro l hl'
    rw [hasLevel_iff]
    exact ⟨[], by rw [link?_isolated, if_pos rfl, if_pos hl']⟩

theorem keys_isolated {h : Hnsw} {id : UInt64} (hid : id ∉ h.nodes.keys) (vec : Vec) (level : Nat) :
    (h.addIsolated vec id level).nodes.keys = h.nodes.keys ++ [id] := by
  simp only [Hnsw.addIsolated]
  rw [AMap.keys_set, if_neg hid]

theorem vecOK_isolated {h : Hnsw} {dim : Nat} (hv : VecOK dim h.nodes) {vec : Vec} (hd : vec.length = dim) (id : UInt64)
    (level : Nat) : VecOK dim (h.addIsolated vec id level).nodes := by
  intro x v hx
  simp only [Hnsw.addIsolated] at hx
  rw [AMap.get?_set] at hx
  split at hx
  · cases hx; exact hd
  · exact hv x v hx

/-- where the construction phase starts: entry points for the layer `min maxLayer level`. -/
theorem descend_insert {M : Metric D} {dim : Nat} (hM : DimOK M dim) {h : Hnsw} (i : Inv S h) (hcfg : CfgOK h.cfg)
    (hv : VecOK dim h.nodes) (hne : h.nodes ≠ []) {id : UInt64} (hid : id ∉ h.nodes.keys) {vec : Vec}
    (hd : vec.length = dim) {level : Nat} (hl : level < 4294967296) :
    ∃ epv d eps, nodeAt (h.addIsolated vec id level).nodes h.entry = .ok epv ∧ M.dist epv.vec vec = .ok d ∧
      descend M (h.addIsolated vec id level).nodes h.cfg.mMax0 vec level (h.maxLayer - level)
        [{ id := h.entry, dist := d }] = .ok eps ∧
      EpsOK M (h.addIsolated vec id level).nodes vec
        (Others (h.addIsolated vec id level).nodes id (min h.maxLayer level)) eps ∧ eps.length = 1 := by
  obtain ⟨i1, hent, hee, hlv, hun⟩ := isolated_spec i hne hid vec hl
  generalize hh1 : h.addIsolated vec id level = h1 at *
  have hv1 : VecOK dim h1.nodes := by rw [← hh1]; exact vecOK_isolated hv hd id level
  have hcfg1 : h1.cfg = h.cfg := by rw [← hh1]; rfl
  obtain ⟨epv, hepv, hepl⟩ := hent
  obtain ⟨d, hdd⟩ := hM epv.vec vec (hv1 _ _ hepv) hd
  have heps0 : EpsOK M h1.nodes vec (Others h1.nodes id h.maxLayer) [{ id := h.entry, dist := d }] := by
    refine ⟨by simp, by simp, ?_, ?_⟩
    · intro e he; simp at he; subst he; exact ⟨hee, epv, hepv, hepl⟩
    · intro e he; simp at he; subst he; exact ⟨epv, hepv, hdd⟩
  by_cases hlm : level ≤ h.maxLayer
  · obtain ⟨r, hr, ho, hl1⟩ := descend_spec M h1.nodes h.cfg.mMax0 vec (fun l => Others h1.nodes id l) level
      (by rintro l x ⟨a, b⟩; exact ⟨a, b.mono (by omega)⟩) (h.maxLayer - level) [{ id := h.entry, dist := d }]
      (by
        intro l _ _
        have := closed_others (by rw [hcfg1]; exact hcfg) i1.good.graph (hun l)
        rw [hcfg1] at this; exact this)
      (fun l _ _ => distOK_of hM hv1 hd _)
      (by rw [Nat.add_sub_cancel' hlm]; exact heps0) rfl
    exact ⟨epv, d, r, nodeAt_of hepv, hdd, hr, by rw [Nat.min_eq_right hlm]; exact ho, hl1⟩
  · have hz : h.maxLayer - level = 0 := by omega
    refine ⟨epv, d, _, nodeAt_of hepv, hdd, by rw [hz]; rfl, ?_, rfl⟩
    rw [Nat.min_eq_left (by omega)]; exact heps0

/-- `Insert` of a later vertex: no panic, invariants kept, exactly the new vertex added. -/
theorem insertNext_spec {M : Metric D} {dim : Nat} (hM : DimOK M dim) {h : Hnsw} (i : Inv S h) (hcfg : CfgOK h.cfg)
    (hv : VecOK dim h.nodes) (hne : h.nodes ≠ []) {id : UInt64} (hid : id ∉ h.nodes.keys) {vec : Vec}
    (hd : vec.length = dim) {level : Nat} (hl : level < 4294967296) :
    ∃ h', h.insertNext M vec id level = .ok h' ∧ Inv S h' ∧ h'.cfg = h.cfg ∧ h'.deleted = h.deleted ∧
      h'.once = h.once ∧ h'.wal.disk = h.wal.disk ∧ Shape (h.addIsolated vec id level).nodes h'.nodes ∧
      h'.entry = (if h.maxLayer < level then id else h.entry) ∧ h'.maxLayer = max h.maxLayer level ∧
      (Neat h.nodes → Neat h'.nodes) := by
  obtain ⟨i1, hent, hee, hlv, hun⟩ := isolated_spec i hne hid vec hl
  obtain ⟨epv, d, eps, e1, e2, e3, heps, hel⟩ := descend_insert hM i hcfg hv hne hid hd hl
  have hv1 := vecOK_isolated hv hd id level
  have hcfgC := hcfg.efC
  obtain ⟨h2, e4, i2, f2, nt2⟩ := construct_spec hM hd (min h.maxLayer level + 1) (h.addIsolated vec id level) eps
    (by omega) i1 hcfg hv1 (fun l hl' => hlv l (by omega)) (fun l _ => hun l) (Or.inr heps)
    (by rw [hel]; exact hcfgC)
  have hm : ¬ h.cfg.m = 1 := by have := hcfg.m2; omega
  have hred : h.insertNext M vec id level =
      (if h.maxLayer < level then
        .ok { (h2.log (recSetEntryPoint id (UInt32.ofNat level))) with entry := id, maxLayer := level }
      else .ok h2) := by
    unfold Hnsw.insertNext
    rw [if_neg hm]
    unfold Hnsw.addIsolated at e1 e3 e4
    simp only [Hnsw.log] at e1 e3 e4 ⊢
    rw [e1, ok_bind, e2, ok_bind, e3, ok_bind, e4, ok_bind]; rfl
  have hsame : S → ∀ {x l}, HasLevel h2.nodes x l → (x = id ∧ l ≤ level) ∨ l ≤ h.maxLayer := by
    intro hS x l hx
    have hx1 := f2.shape.symm.hasLevel hx
    obtain ⟨c, hc⟩ := hasLevel_iff.mp hx1
    rw [link?_isolated] at hc
    split at hc
    · rename_i he
      split at hc
      · rename_i hll; exact Or.inl ⟨he, hll⟩
      · simp at hc
    · exact Or.inr (i.top hS x l (hasLevel_iff.mpr ⟨c, hc⟩))
  have hnt : Neat h.nodes → Neat h2.nodes := by
    intro k
    refine nt2 ?_
    intro x l c hc
    rw [link?_isolated] at hc
    split at hc
    · split at hc
      · cases hc; exact ⟨List.nodup_nil, List.not_mem_nil⟩
      · cases hc
    · exact k x l c hc
  have hne2 : h2.nodes ≠ [] := by
    intro hn
    have := f2.shape.nil_iff.mp hn
    have hk := keys_isolated hid vec level
    rw [this] at hk; simp [AMap.keys] at hk
  rw [hred]
  by_cases hc : h.maxLayer < level
  · rw [if_pos hc]
    have hgo : Good S { (h2.log (recSetEntryPoint id (UInt32.ofNat level))) with entry := id, maxLayer := level } :=
      ⟨i2.good.graph, Or.inr (f2.shape.hasLevel (hlv level (Nat.le_refl _)))⟩
    refine ⟨_, rfl, ⟨?_, ?_, fun _ => hne2, hl⟩, f2.cfg, f2.deleted, f2.once, f2.disk, f2.shape,
      by simp [hc], by simp; omega, hnt⟩
    · refine MInv.step i2 (recSetEntryPoint id (UInt32.ofNat level)) rfl rfl ?_ hgo
      rw [restore_setEntryPoint, toNat_level hl]
      simp [Hnsw.strip, Hnsw.log]
    · intro hS x l hx
      rcases hsame hS hx with h1 | h1
      · exact h1.2
      · exact Nat.le_trans h1 (Nat.le_of_lt hc)
  · rw [if_neg hc]
    refine ⟨h2, rfl, ⟨i2, ?_, fun _ => hne2, by rw [f2.maxLayer]; exact i.top32⟩, f2.cfg, f2.deleted, f2.once, f2.disk,
      f2.shape, by rw [f2.entry]; simp [hc, Hnsw.addIsolated, Hnsw.log], ?_, hnt⟩
    · intro hS x l hx
      rw [f2.maxLayer]
      show l ≤ h.maxLayer
      rcases hsame hS hx with h1 | h1
      · have := h1.2; omega
      · exact h1
    · rw [f2.maxLayer]
      show h.maxLayer = _
      omega

end Vectory
