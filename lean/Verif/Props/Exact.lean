import Verif.Lemmas.Lift
import Verif.Lemmas.SearchMore
import Verif.Props.Search
/-! # How much of the collection a search can find: C22, C23, C24 -/
namespace Vectory
variable {V D : Type}

/-! ## Specification -/

/-- in the bottom layer, `x` has a link to `y`. -/
def Linked (nodes : AMap UInt64 Vertex) (x y : UInt64) : Prop := ∃ c, link? nodes x 0 = some c ∧ y ∈ c

/-- `y` can be reached from `x` along links of the bottom layer (the layer that holds every vector). -/
inductive Reaches (nodes : AMap UInt64 Vertex) : UInt64 → UInt64 → Prop where
  | refl (x : UInt64) : Reaches nodes x x
  | step {x y z : UInt64} : Reaches nodes x y → Linked nodes y z → Reaches nodes x z

/-- the answer to a `k`-nearest query for the vector `q` is exact: at most `k` hits, none twice, sorted, each an object that
`Get` returns, with its true distance; and every object that `Get` returns is a hit, unless there are `k` hits all of which
are at least as near. -/
structure ExactAnswer (L : Lib V D) (c : Coll) (q : Vec) (k : Int) (r : SearchResult V D) : Prop where
  atMost : (r.objects.length : Int) ≤ k
  distinct : (r.objects.map Hit.id).Nodup
  sorted : r.objects.Pairwise (fun a b => Le L.metric.lt a.dist b.dist)
  stored : ∀ hit ∈ r.objects, ∃ x v, c.get L [hit.id] = .ok [x] ∧ x.vec = some v ∧ L.metric.dist v q = .ok hit.dist
  nearest : ∀ (id : UInt64) (x : Object V) (v : Vec) (d : D), c.get L [id] = .ok [x] → x.vec = some v → L.metric.dist v q = .ok d →
    id ∈ r.objects.map Hit.id ∨ ((r.objects.length : Int) = k ∧ ∀ hit ∈ r.objects, Le L.metric.lt hit.dist d)

/-! ## Bottom layers of small collections -/

theorem Reaches.trans {nodes : AMap UInt64 Vertex} {x y z : UInt64} (h1 : Reaches nodes x y) (h2 : Reaches nodes y z) :
    Reaches nodes x z := by
  induction h2 with
  | refl => exact h1
  | step _ hl ih => exact .step ih hl

theorem Reaches.mono {a b : AMap UInt64 Vertex} (h : ∀ x y, Linked a x y → Linked b x y) {x y : UInt64} (r : Reaches a x y) :
    Reaches b x y := by
  induction r with
  | refl => exact .refl _
  | step _ hl ih => exact .step ih (h _ _ hl)

/-- links are mutual and everything reaches everything. -/
structure Connected (nodes : AMap UInt64 Vertex) : Prop where
  both : ∀ x y, Linked nodes x y → Linked nodes y x
  all : ∀ x y, x ∈ nodes.keys → y ∈ nodes.keys → Reaches nodes x y

/-- any two vertices are linked. -/
def Complete (nodes : AMap UInt64 Vertex) : Prop :=
  ∀ x c, link? nodes x 0 = some c → ∀ y ∈ nodes.keys, y ≠ x → y ∈ c

theorem keys_of_link {nodes : AMap UInt64 Vertex} {x : UInt64} {l : Nat} {c : List UInt64} (h : link? nodes x l = some c) :
    x ∈ nodes.keys := by
  obtain ⟨v, hv, _⟩ := link?_some h
  rw [← AMap.get?_isSome_iff, hv]; rfl

/-- a neighbour list has fewer entries than the index has vertices. -/
theorem link_length {cfg : Cfg} {nodes : AMap UInt64 Vertex} (g : Graph True cfg nodes) {x : UInt64} {c : List UInt64}
    (h : link? nodes x 0 = some c) : c.length < nodes.length := by
  obtain ⟨h1, _, h3⟩ := g.linkOK x 0 c h
  have := nodup_length_le (l₁ := x :: c) (l₂ := nodes.keys) (List.nodup_cons.mpr ⟨(h1 trivial).2, (h1 trivial).1⟩) (by
    intro y hy
    rcases List.mem_cons.mp hy with rfl | hy
    · exact keys_of_link h
    · exact (hasLevel_zero g).mp (h3 y hy))
  rw [AMap.length_keys] at this
  simp only [List.length_cons] at this
  omega

theorem connected_single (id : UInt64) (v : Vertex) (h : v.conns = [[]]) : Connected [(id, v)] := by
  have hk : ∀ x, x ∈ AMap.keys [(id, v)] → x = id := by intro x hx; simpa [AMap.keys] using hx
  refine ⟨?_, ?_⟩
  · rintro x y ⟨c, hc, hy⟩
    have hx := hk x (keys_of_link hc)
    subst hx
    simp [link?, AMap.get?, h] at hc
    subst hc; simp at hy
  · intro x y hx hy
    rw [hk x hx, hk y hy]; exact .refl _

theorem complete_single (id : UInt64) (v : Vertex) : Complete [(id, v)] := by
  intro x c hc y hy hne
  have hx := keys_of_link hc
  simp [AMap.keys] at hx hy
  exact absurd (hy.trans hx.symm) hne

/-- what one insert does to the links of the bottom layer as long as every list has room. -/
theorem bottom_links {M : Metric D} {h h' : Hnsw} {id : UInt64} {vec : Vec} {ns : List UInt64} (b : BottomStep M h h' id vec ns)
    (hid : id ∉ h.nodes.keys) (hroom : ∀ x c, link? h.nodes x 0 = some c → c.length < h.cfg.mMax0)
    (hz : ∀ x ∈ h.nodes.keys, ∃ c, link? h.nodes x 0 = some c) :
    ∀ x c', link? h'.nodes x 0 = some c' →
      (x = id ∧ c' = ns) ∨ (x ∈ ns ∧ x ≠ id ∧ ∃ c, link? h.nodes x 0 = some c ∧ c' = c ++ [id]) ∨
      (x ∉ ns ∧ x ≠ id ∧ link? h.nodes x 0 = some c') := by
  intro x c' hc'
  by_cases hx : x = id
  · subst hx; rw [b.own] at hc'; cases hc'; exact Or.inl ⟨rfl, rfl⟩
  · by_cases hn : x ∈ ns
    · obtain ⟨c, hc⟩ := hz x (b.old x hn)
      obtain ⟨c2, h1, h2, _⟩ := b.back x hn c hc
      rw [hc'] at h1; cases h1
      exact Or.inr (Or.inl ⟨hn, hx, c, hc, h2 (hroom x c hc)⟩)
    · rw [b.rest x hx hn] at hc'
      exact Or.inr (Or.inr ⟨hn, hx, hc'⟩)

/-- no list of the bottom layer has an id twice or the vertex itself. -/
def Proper (nodes : AMap UInt64 Vertex) : Prop := ∀ x c, link? nodes x 0 = some c → c.Nodup ∧ x ∉ c

theorem proper_length {S : Prop} {cfg : Cfg} {nodes : AMap UInt64 Vertex} (g : Graph S cfg nodes) (hp : Proper nodes) {x : UInt64}
    {c : List UInt64} (h : link? nodes x 0 = some c) : c.length < nodes.length := by
  obtain ⟨_, _, h3⟩ := g.linkOK x 0 c h
  obtain ⟨h1, h2⟩ := hp x c h
  have := nodup_length_le (l₁ := x :: c) (l₂ := nodes.keys) (List.nodup_cons.mpr ⟨h2, h1⟩) (by
    intro y hy
    rcases List.mem_cons.mp hy with rfl | hy
    · exact keys_of_link h
    · exact (hasLevel_zero g).mp (h3 y hy))
  rw [AMap.length_keys] at this
  simp only [List.length_cons] at this
  omega

theorem proper_single (id : UInt64) (v : Vertex) (h : v.conns = [[]]) : Proper [(id, v)] := by
  intro x c hc
  obtain ⟨w, hw, hwc⟩ := link?_some hc
  have : w = v := by
    simp only [AMap.get?] at hw
    split at hw
    · cases hw; rfl
    · cases hw
  subst this
  rw [h] at hwc
  have : c = [] := by simpa using hwc.symm
  subst this
  exact ⟨List.nodup_nil, List.not_mem_nil⟩

theorem connected_keptS {S : Prop} {M : Metric D} {dim : Nat} (hM : DimOK M dim) :
    KeptS S M dim (fun cfg nodes => nodes.length ≤ cfg.mMax0 + 1 → Proper nodes ∧ Connected nodes) := by
  intro h h' vec id level i hcfg hv hid hd hl hr p hlen
  rcases insert_bottom hM i hcfg hv hid hd hl hr with ⟨_, _, h3⟩ | ⟨ns, b⟩
  · rw [h3]; exact ⟨proper_single _ _ rfl, connected_single _ _ rfl⟩
  · have hl2 : h'.nodes.length = h.nodes.length + 1 := by
      rw [← AMap.length_keys, ← AMap.length_keys, b.keys]; simp
    rw [hl2, b.cfg] at hlen
    obtain ⟨hprop, hold⟩ := p (by omega)
    have g := i.m.good.graph
    have hroom : ∀ x c, link? h.nodes x 0 = some c → c.length < h.cfg.mMax0 := by
      intro x c hc; have := proper_length g hprop hc; omega
    have hz : ∀ x ∈ h.nodes.keys, ∃ c, link? h.nodes x 0 = some c :=
      fun x hx => hasLevel_iff.mp ((hasLevel_zero g).mpr hx)
    have key := bottom_links b hid hroom hz
    have hmono : ∀ x y, Linked h.nodes x y → Linked h'.nodes x y := by
      rintro x y ⟨c, hc, hy⟩
      have hxid : x ≠ id := by rintro rfl; exact hid (keys_of_link hc)
      by_cases hn : x ∈ ns
      · obtain ⟨c2, h1, h2, _⟩ := b.back x hn c hc
        exact ⟨c2, h1, by rw [h2 (hroom x c hc)]; exact List.mem_append_left _ hy⟩
      · exact ⟨c, by rw [b.rest x hxid hn]; exact hc, hy⟩
    have hto : ∀ n ∈ ns, Linked h'.nodes n id := by
      intro n hn
      obtain ⟨c, hc⟩ := hz n (b.old n hn)
      obtain ⟨c2, h1, h2, _⟩ := b.back n hn c hc
      exact ⟨c2, h1, by rw [h2 (hroom n c hc)]; simp⟩
    have hfrom : ∀ n ∈ ns, Linked h'.nodes id n := fun n hn => ⟨ns, b.own, hn⟩
    obtain ⟨n0, hn0⟩ := List.exists_mem_of_ne_nil _ b.ne
    refine ⟨?_, ?_, ?_⟩
    · intro x c' hc'
      rcases key x c' hc' with ⟨rfl, rfl⟩ | ⟨hn, hx, c, hc, rfl⟩ | ⟨hn, hx, hc⟩
      · exact ⟨b.nd, fun hm => hid (b.old _ hm)⟩
      · obtain ⟨a1, a2⟩ := hprop x c hc
        have hidc : id ∉ c := fun hm => hid ((hasLevel_zero g).mp ((g.linkOK x 0 c hc).2.2 id hm))
        refine ⟨?_, ?_⟩
        · rw [List.nodup_append]
          refine ⟨a1, by simp, ?_⟩
          intro y hy z hz
          rw [List.mem_singleton.mp hz]
          rintro rfl
          exact hidc hy
        · intro hm
          rcases List.mem_append.mp hm with h1 | h1
          · exact a2 h1
          · exact hx (List.mem_singleton.mp h1)
      · exact hprop x c' hc
    · rintro x y ⟨c', hc', hy⟩
      rcases key x c' hc' with ⟨rfl, rfl⟩ | ⟨hn, hx, c, hc, rfl⟩ | ⟨hn, hx, hc⟩
      · exact hto y hy
      · rcases List.mem_append.mp hy with h1 | h1
        · exact hmono _ _ (hold.both x y ⟨c, hc, h1⟩)
        · have : y = id := by simpa using h1
          subst this; exact hfrom x hn
      · exact hmono _ _ (hold.both x y ⟨c', hc, hy⟩)
    · have hup : ∀ x ∈ h'.nodes.keys, Reaches h'.nodes x n0 := by
        intro x hx
        rw [b.keys] at hx
        rcases List.mem_append.mp hx with h1 | h1
        · exact (hold.all x n0 h1 (b.old n0 hn0)).mono hmono
        · have : x = id := by simpa using h1
          subst this; exact .step (.refl _) (hfrom n0 hn0)
      have hdown : ∀ x ∈ h'.nodes.keys, Reaches h'.nodes n0 x := by
        intro x hx
        rw [b.keys] at hx
        rcases List.mem_append.mp hx with h1 | h1
        · exact (hold.all n0 x (b.old n0 hn0) h1).mono hmono
        · have : x = id := by simpa using h1
          subst this; exact .step (.refl _) (hto n0 hn0)
      intro x y hx hy
      exact (hup x hx).trans (hdown y hy)

theorem connected_nil (cfg : Cfg) : ([] : AMap UInt64 Vertex).length ≤ cfg.mMax0 + 1 → Proper [] ∧ Connected [] :=
  fun _ => ⟨(by intro x c hc; cases hc), (by rintro x y ⟨c, hc, _⟩; cases hc), (by intro x y hx; cases hx)⟩

theorem complete_kept {M : Metric D} (w : Ord M.lt) {dim : Nat} (hM : DimOK M dim) :
    Kept M dim (fun cfg nodes => cfg.heuristic = false → nodes.length ≤ min cfg.m cfg.efC + 1 → Complete nodes) := by
  intro h h' vec id level i hcfg hv hid hd hl hr p hheu hlen
  rcases insert_bottom hM i hcfg hv hid hd hl hr with ⟨_, _, h3⟩ | ⟨ns, b⟩
  · rw [h3]; exact complete_single _ _
  · have hl2 : h'.nodes.length = h.nodes.length + 1 := by
      rw [← AMap.length_keys, ← AMap.length_keys, b.keys]; simp
    rw [hl2, b.cfg] at hlen
    rw [b.cfg] at hheu
    have hold := p hheu (by omega)
    have g := i.m.good.graph
    have hmM := hcfg.mM
    have hroom : ∀ x c, link? h.nodes x 0 = some c → c.length < h.cfg.mMax0 := by
      intro x c hc; have := link_length g hc; omega
    have hz : ∀ x ∈ h.nodes.keys, ∃ c, link? h.nodes x 0 = some c :=
      fun x hx => hasLevel_iff.mp ((hasLevel_zero g).mpr hx)
    have key := bottom_links b hid hroom hz
    -- the search during the insert finds every vertex, and all of them are chosen
    obtain ⟨nodes, eps, nns, p1, p2, p3, p4, p5, p6, p7, p8⟩ := b.pick
    have hcount : ∀ l : List UInt64, l.Nodup → (∀ x ∈ l, Others nodes id 0 x) → l.length ≤ h.nodes.length := by
      intro l hnd hm
      have := nodup_length_le (l₂ := h.nodes.keys) hnd (fun x hx => (p3 x).mp (hm x hx))
      rw [AMap.length_keys] at this
      exact this
    have hfull := searchLayer_full w hcfg.efC
      (fun l hnd hm => by have := hcount l hnd hm; omega) p2 p4 p5 (by
        intro x c hx hc y hy hne
        rw [p1 x hx.1] at hc
        exact hold x c hc y ((p3 y).mp hy) hne) p6
    have hall : ∀ y ∈ h.nodes.keys, y ∈ ns := by
      have hs : selectNeighborsSimple M nns h.cfg.m = .ok ns := by
        have := p8
        unfold selectNeighbors at this
        rw [hheu] at this
        exact this
      obtain ⟨r, e1, sel, hlen2⟩ := selectSimple_spec M nns h.cfg.m
      rw [hs] at e1; cases e1
      have hnl : nns.length ≤ h.nodes.length := by
        have := hcount (nns.map Elem.id) p7.nd (by
          intro x hx; obtain ⟨e, he, rfl⟩ := List.mem_map.mp hx; exact p7.mem e he)
        simpa using this
      have hnsl : ns.length = nns.length := by rw [hlen2]; omega
      intro y hy
      obtain ⟨e, he, rfl⟩ := hfull y ((p3 y).mpr hy)
      apply Classical.byContradiction
      intro hns
      have := nodup_length_le (l₁ := e.id :: ns) (l₂ := nns.map Elem.id) (List.nodup_cons.mpr ⟨hns, b.nd⟩) (by
        intro x hx
        rcases List.mem_cons.mp hx with rfl | hx
        · exact List.mem_map.mpr ⟨e, he, rfl⟩
        · exact sel.sub x hx)
      simp at this; omega
    intro x c' hc' y hy hne
    rw [b.keys] at hy
    rcases key x c' hc' with ⟨rfl, rfl⟩ | ⟨hn, hx, c, hc, rfl⟩ | ⟨hn, hx, hc⟩
    · rcases List.mem_append.mp hy with h1 | h1
      · exact hall y h1
      · exact absurd (by simpa using h1) hne
    · rcases List.mem_append.mp hy with h1 | h1
      · exact List.mem_append_left _ (hold x c hc y h1 hne)
      · exact List.mem_append_right _ h1
    · exact absurd (hall x (keys_of_link hc)) hn

/-! ## C22 -/

theorem exact_of_complete {S : Prop} {L : Lib V D} {dim : Nat} {X : UInt64 → Prop} {c : Coll} (i : WInv S L dim X c) (w : Ord L.metric.lt)
    (hfull : Complete c.index.nodes) (hn : c.index.nodes.length ≤ c.index.cfg.ef) {o : Object V} {embed : Embed V} {k : Int}
    (he : EmbedOK c embed dim [o]) {r : SearchResult V D} (h : c.semanticSearch L o embed k = .ok r) :
    ∃ q, queryVector embed o = some q ∧ ExactAnswer L c q k r := by
  obtain ⟨o1, es, hc, h1, hd, hk, hne, h2, h4, h5, h6, h7⟩ := coll_search_ok i he h
  obtain ⟨eps, nns, g1, g2, g3, g4, g5, g6⟩ := search_reduce i.dimM i.idx i.cfg i.vecs hne hd hk
  have g := i.idx.m.good.graph
  have hall := searchLayer_full w i.cfg.ef (by
      intro l hnd hm
      have := nodup_length_le (l₂ := c.index.nodes.keys) hnd (fun x hx => (hasLevel_zero g).mp (hm x hx))
      rw [AMap.length_keys] at this
      omega) (closed_all i.cfg g 0) (distOK_of i.dimM i.vecs hd _) g1 (by
      intro x cs hx hcs y hy hxy
      exact hfull x cs hcs y ((hasLevel_zero g).mp hy) hxy) g3
  rw [h2] at g6; cases g6
  obtain ⟨rest, t1, t2, t3, t4, t5⟩ := takeLive_sorted w c.index.deleted (newMinHeap L.metric.lt nns).length k.toNat
    (newMinHeap L.metric.lt nns) (Heap.init_heap w.min nns) (Nat.le_refl _)
  obtain ⟨es', s1, s2, s3, s4, _⟩ := search_spec i.dimM i.idx i.cfg i.vecs hne hd hk
  rw [h2] at s1; cases s1
  have hp : (newMinHeap L.metric.lt nns).Perm nns := Heap.init_perm _ _
  generalize hes : takeLive L.metric c.index.deleted (newMinHeap L.metric.lt nns).length k.toNat
    (newMinHeap L.metric.lt nns) = es at *
  have hl : r.objects.length = es.length := by have := congrArg List.length h5; simpa using this
  refine ⟨_, queryVector_of h1, ⟨by omega, by rw [h5]; exact s4, ?_, ?_, ?_⟩⟩
  · have : (r.objects.map Hit.dist).Pairwise (fun a b => Le L.metric.lt a b) := by
      rw [h6]; exact List.pairwise_map.mpr t2
    exact List.pairwise_map.mp this
  · intro hit hh
    obtain ⟨x, v, a1, a2, a3, a4, a5, _⟩ := h7 hit hh
    exact ⟨x, v, (get_single_some hc).mpr a1, a4, a5⟩
  · intro id x v d hg hxv hdist
    have hgo := (get_single_some hc).mp hg
    obtain ⟨r0, hr0, hs0, hv0⟩ := getObject_eq i id
    rw [hgo] at hr0; cases hr0
    obtain ⟨hko, hkv⟩ := hs0.mp rfl
    have hkn := (vkey_iff i id).mp hkv
    have hnd : id ∉ c.index.deleted := fun hdl => i.del id hdl hko
    obtain ⟨e, hee, hid⟩ := hall id ((hasLevel_zero g).mpr hkn)
    have hmem : e ∈ es ++ rest := t1.mem_iff.mp (hp.mem_iff.mpr hee)
    have hed : e.dist = d := by
      obtain ⟨vx, e1, e2⟩ := g4.dist e hee
      have hvo := (hv0 x rfl).2.1
      rw [hid] at e1
      unfold vecOf at hvo
      rw [e1, hxv] at hvo
      cases hvo
      rw [hdist] at e2; cases e2; rfl
    rcases List.mem_append.mp hmem with hm | hm
    · left; rw [h5]; exact List.mem_map.mpr ⟨e, hm, hid⟩
    · right
      have hlive : e.id ∉ c.index.deleted := by rw [hid]; exact hnd
      refine ⟨?_, ?_⟩
      · have hf : es.length + 1 ≤ ((newMinHeap L.metric.lt nns).filter (fun e => decide (e.id ∉ c.index.deleted))).length := by
          rw [(t1.filter _).length_eq, List.filter_append, List.length_append]
          have h8 : (es.filter (fun e => decide (e.id ∉ c.index.deleted))) = es :=
            List.filter_eq_self.mpr (fun a ha => by simpa using t4 a ha)
          rw [h8]
          have : e ∈ rest.filter (fun e => decide (e.id ∉ c.index.deleted)) :=
            List.mem_filter.mpr ⟨hm, by simpa using hlive⟩
          have := List.length_pos_of_mem this
          omega
        omega
      · intro hit hh
        have : hit.dist ∈ es.map Elem.dist := by rw [← h6]; exact List.mem_map.mpr ⟨hit, hh, rfl⟩
        obtain ⟨a, ha, had⟩ := List.mem_map.mp this
        rw [← had, ← hed]
        exact t3 e hm hlive a ha

/-- exact with the completed comparison is exact. -/
theorem ExactAnswer.uncmp {S : Prop} {L : Lib V D} {dim : Nat} {X : UInt64 → Prop} {c : Coll} (i : WInv S L dim X c) {T : D → Prop} {q : Vec}
    {k : Int} {r : SearchResult V D} (hT : ∀ v d, c.Holds v → L.metric.dist v q = .ok d → T d) (hin : ∀ hit ∈ r.objects, T hit.dist)
    (x : ExactAnswer (L.cmp T) c q k r) : ExactAnswer L c q k r :=
  { atMost := x.atMost
    distinct := x.distinct
    sorted := x.sorted.imp_of_mem (fun ha hb hab => (le_cmp (hin _ ha) (hin _ hb)).mp hab)
    stored := x.stored
    nearest := fun id y v d h1 h2 h3 => by
      rcases x.nearest id y v d h1 h2 h3 with h | ⟨h, g⟩
      · exact Or.inl h
      · exact Or.inr ⟨h, fun hit hh => (le_cmp (hin hit hh) (hT v d (holds_of_get i h1 h2) h3)).mp (g hit hh)⟩ }

theorem exact_ranked {S : Prop} {L : Lib V D} {dim : Nat} {X : UInt64 → Prop} {c : Coll} (i : WInv S L dim X c)
    (hfull : Complete c.index.nodes) (hn : c.index.nodes.length ≤ c.index.cfg.ef) {o : Object V} {embed : Embed V}
    (w : ∀ q, queryVector embed o = some q → Ranks L c q) {k : Int}
    (he : EmbedOK c embed dim [o]) {r : SearchResult V D} (h : c.semanticSearch L o embed k = .ok r) :
    ∃ q, queryVector embed o = some q ∧ ExactAnswer L c q k r := by
  obtain ⟨q, hq, T, hT, wT, hs, hin⟩ := search_completed i he h w
  obtain ⟨q', hq', ex⟩ := exact_of_complete (i.cmp T) wT hfull hn he hs
  rw [hq] at hq'; cases hq'
  exact ⟨q, hq, ex.uncmp i (fun v d hv hd => by rw [hT]; exact ⟨v, hv, hd⟩) hin⟩

/-- C22 (the collection was built with the simple neighbour selection, and no more vectors are indexed than
`min(m, efConstruction) + 1`; the same for any connected graph with `ef` at least the number of indexed vectors is
false, see `C22_not_exact`). If moreover `ef` is at least the number of indexed vectors, every search is exact. -/
theorem C22_small_exact (L : Lib V D) (dim : Nat) (c : Coll) (hr : Reach L dim c)
    (hsimple : c.index.cfg.heuristic = false) (hm : c.index.nodes.length ≤ min c.index.cfg.m c.index.cfg.efC + 1)
    (hef : c.index.nodes.length ≤ c.index.cfg.ef) (o : Object V) (embed : Embed V) (w : ∀ q, queryVector embed o = some q → RanksAll L c q) (k : Int)
    (he : EmbedOK c embed dim [o]) (r : SearchResult V D) (h : c.semanticSearch L o embed k = .ok r) :
    ∃ q, queryVector embed o = some q ∧ ExactAnswer L c q k r := by
  obtain ⟨q, hq, T, _, wT, hrT, _, _⟩ := history_completed hr he h w
  exact exact_ranked hr.inv (hrT.kept (complete_kept wT hrT.inv.dimM) (fun _ _ _ => by intro x c hc; cases hc) hsimple hm) hef
    (fun q hq => (w q hq).ranks) he h

/-- C22 (any reachable collection whose bottom layer links every two vectors, whatever its history). -/
theorem C22_complete_exact (L : Lib V D) (dim : Nat) (c : Coll) (hr : ReachAny L dim c)
    (hfull : ∀ x y, x ∈ c.index.nodes.keys → y ∈ c.index.nodes.keys → x ≠ y → Linked c.index.nodes x y)
    (hef : c.index.nodes.length ≤ c.index.cfg.ef) (o : Object V) (embed : Embed V) (w : ∀ q, queryVector embed o = some q → Ranks L c q) (k : Int)
    (he : EmbedOK c embed dim [o]) (r : SearchResult V D) (h : c.semanticSearch L o embed k = .ok r) :
    ∃ q, queryVector embed o = some q ∧ ExactAnswer L c q k r := by
  refine exact_ranked hr.weak.1 ?_ hef w he h
  intro x cs hc y hy hne
  obtain ⟨c2, h2, h3⟩ := hfull x y (keys_of_link hc) hy (Ne.symm hne)
  rw [hc] at h2; cases h2; exact h3

/-- collections over the demo library with any parameters are reachable. -/
theorem demo_reachC (cfg : Cfg) (hc : CfgOK cfg) (ops : List (Op UInt8)) : Reach demoLib 1 (demoState cfg ops) := by
  have hs : Setup demoLib 1 cfg := ⟨demoJson_ok, fun a b ha hb => demoDist_ok a b (by omega), by decide, hc⟩
  unfold demoState
  cases h : playLegal demoLib 1 (Coll.new cfg ["a"] false) ops with
  | none => exact ⟨cfg, ["a"], false, [], hs, .nil _⟩
  | some r => exact ⟨cfg, ["a"], false, r.2, hs, playLegal_runs _ _ _ _ h⟩

/-- three vectors, one deleted, `m = 2`, `ef = efConstruction = 4`, on two levels. -/
def c22Ops : List (Op UInt8) := [demoInsert 5, demoInsert 18 1, .delete 0 false false, demoInsert 7]

/-- the hypotheses of `C22_small_exact` are met, and the answer is the two live vectors. -/
example : Reach demoLib 1 (demoState demoCfg c22Ops) ∧ (demoState demoCfg c22Ops).index.nodes.length = 3 ∧
    (demoState demoCfg c22Ops).index.cfg = demoCfg ∧ (∀ q, RanksAll demoLib (demoState demoCfg c22Ops) q) ∧
    hitList ((demoState demoCfg c22Ops).semanticSearch demoLib (demoObj 6) noEmbed 3) = some [(2, 1), (1, 12)] :=
  ⟨demo_reach _, by decide +kernel, by decide +kernel, fun _ => demo_ord.on _, by decide +kernel⟩

/-- five vectors on the line, in the order 5, 18, 7, 6, 10; `ef = 10`. -/
def c22Bad : Coll := demoState { m := 2, mMax := 2, efC := 10, ef := 10, heuristic := false }
  [demoInsert 5, demoInsert 18, demoInsert 7, demoInsert 6, demoInsert 10]

/-- C22, negative: `ef` is twice the number of vectors, every vector is reachable from the entry point, nothing was ever
deleted, and still a search does not return the nearest vector: it compares with the last cell of the heap array instead of
the farthest result and stops too early. -/
theorem C22_not_exact : ∃ c : Coll, Reach demoLib 1 c ∧ c.index.nodes.length ≤ c.index.cfg.ef ∧
    (∀ id ∈ c.index.nodes.keys, Reaches c.index.nodes c.index.entry id) ∧ c.index.deleted = [] ∧
    ∃ (r : SearchResult UInt8 Nat), c.semanticSearch demoLib (demoObj 13) noEmbed 10 = .ok r ∧ ¬ ExactAnswer demoLib c [13] 10 r := by
  refine ⟨c22Bad, demo_reachC _ (by constructor <;> decide) _, by decide +kernel, ?_, by decide +kernel, ?_⟩
  · have hk : c22Bad.index.nodes.keys = [0, 1, 2, 3, 4] := by decide +kernel
    have he : c22Bad.index.entry = 0 := by decide +kernel
    have h0 : link? c22Bad.index.nodes 0 0 = some [1, 2, 3] := by decide +kernel
    have h2 : link? c22Bad.index.nodes 2 0 = some [0, 1, 3, 4] := by decide +kernel
    intro id hid
    rw [hk] at hid
    rw [he]
    have l : ∀ y ∈ [1, 2, 3], Reaches c22Bad.index.nodes 0 y := fun y hy => .step (.refl _) ⟨_, h0, hy⟩
    simp at hid
    rcases hid with rfl | rfl | rfl | rfl | rfl
    · exact .refl _
    · exact l _ (by simp)
    · exact l _ (by simp)
    · exact l _ (by simp)
    · exact .step (l 2 (by simp)) ⟨_, h2, by simp⟩
  · cases hs : c22Bad.semanticSearch demoLib (demoObj 13) noEmbed 10 with
    | error e =>
      have : hitList (c22Bad.semanticSearch demoLib (demoObj 13) noEmbed 10) = some [(1, 5), (2, 6), (3, 7), (0, 8)] := by decide +kernel
      rw [hs] at this; cases this
    | ok r =>
      refine ⟨r, rfl, ?_⟩
      have hh : hitList (c22Bad.semanticSearch demoLib (demoObj 13) noEmbed 10) = some [(1, 5), (2, 6), (3, 7), (0, 8)] := by decide +kernel
      rw [hs] at hh
      simp only [hitList, Option.some.injEq] at hh
      intro ex
      have hg : (match c22Bad.get demoLib [4] with
          | .ok [x] => x.vec == some [10]
          | _ => false) = true := by decide +kernel
      cases hgg : c22Bad.get demoLib [4] with
      | error e => rw [hgg] at hg; cases hg
      | ok l =>
        rw [hgg] at hg
        match l, hg with
        | [x], hg =>
          have hv : x.vec = some [10] := by simpa using hg
          have hids : r.objects.map Hit.id = [1, 2, 3, 0] := by
            have := congrArg (List.map Prod.fst) hh
            simpa [List.map_map, Function.comp_def] using this
          have hlen : r.objects.length = 4 := by have := congrArg List.length hids; simpa using this
          rcases ex.nearest 4 x [10] 3 hgg hv rfl with h1 | h1
          · rw [hids] at h1; simp at h1
          · rw [hlen] at h1; exact absurd h1.1 (by decide)

/-! ## C23 -/

/-- C23 (no more than `2·mMax + 1` vectors indexed, any neighbour selection, any levels; without the bound it is false,
see `C23_unreachable`). Every indexed vector is reachable from the entry point, and from every other vector. -/
theorem C23_reachable (L : Lib V D) (dim : Nat) (c : Coll) (hr : Reach L dim c)
    (hn : c.index.nodes.length ≤ c.index.cfg.mMax0 + 1) (id : UInt64) (x : Object V) (hg : c.get L [id] = .ok [x]) :
    Reaches c.index.nodes c.index.entry id ∧ ∀ y ∈ c.index.nodes.keys, Reaches c.index.nodes y id := by
  have i := hr.inv
  have con := (hr.kept (connected_keptS i.dimM) connected_nil hn).2
  have hc : c.closed = false := by
    cases hcl : c.closed with
    | false => rfl
    | true => unfold Coll.get at hg; rw [hcl] at hg; cases hg
  have hgo := (get_single_some hc).mp hg
  obtain ⟨r0, hr0, hs0, _⟩ := getObject_eq i id
  rw [hgo] at hr0; cases hr0
  have hkn := (vkey_iff i id).mp (hs0.mp rfl).2
  refine ⟨con.all _ _ ?_ hkn, fun y hy => con.all y id hy hkn⟩
  rcases i.idx.m.good.entry with h1 | h1
  · rw [h1] at hkn; cases hkn
  · exact (hasLevel_zero i.idx.m.good.graph).mp (h1.mono (Nat.zero_le _))

/-- the hypotheses are met with the heuristic selection, five vectors on three levels and `2·mMax = 4`. -/
example : Reach demoLib 1 (demoState { demoCfg with heuristic := true } [demoInsert 5, demoInsert 18 2, demoInsert 7, demoInsert 6 1, demoInsert 10]) ∧
    (demoState { demoCfg with heuristic := true } [demoInsert 5, demoInsert 18 2, demoInsert 7, demoInsert 6 1, demoInsert 10]).index.nodes.length = 5 ∧
    (match (demoState { demoCfg with heuristic := true } [demoInsert 5, demoInsert 18 2, demoInsert 7, demoInsert 6 1, demoInsert 10]).get demoLib [4] with
      | .ok [x] => x.vec == some [10]
      | _ => false) = true :=
  ⟨demo_reachC _ (by constructor <;> decide) _, by decide +kernel, by decide +kernel⟩

theorem unreachable_of {nodes : AMap UInt64 Vertex} {x y : UInt64} (hxy : x ≠ y)
    (h : ∀ p ∈ nodes, ∀ c ∈ p.2.conns, y ∉ c) : ¬ Reaches nodes x y := by
  intro r
  cases r with
  | refl => exact hxy rfl
  | step _ hl =>
    obtain ⟨c, hc, hy⟩ := hl
    obtain ⟨v, hv, hvc⟩ := link?_some hc
    exact h _ (AMap.mem_of_get? hv) c (List.mem_of_getElem? hvc) hy

/-- four vectors on the line, in the order 0, 1, 100, 2, with `m = 2` and `mMax = 1`. -/
def c23Bad : Coll := demoState { m := 2, mMax := 1, efC := 10, ef := 10, heuristic := false }
  [demoInsert 0, demoInsert 1, demoInsert 100, demoInsert 2]

/-- C23, negative: an object that was inserted successfully and never deleted has no incoming link any more (pruning dropped
them all), and no search returns it, not even one for its own vector with `k` and `ef` larger than the collection. -/
theorem C23_unreachable : ∃ (c : Coll) (id : UInt64), Reach demoLib 1 c ∧ c.index.deleted = [] ∧
    (∃ x, c.get demoLib [id] = .ok [x] ∧ x.vec = some [100]) ∧ ¬ Reaches c.index.nodes c.index.entry id ∧
    ∃ r, c.semanticSearch demoLib (demoObj 100) noEmbed 10 = .ok r ∧ id ∉ r.objects.map Hit.id := by
  refine ⟨c23Bad, 2, demo_reachC _ (by constructor <;> decide) _, by decide +kernel, ?_, ?_, ?_⟩
  · have hg : (match c23Bad.get demoLib [2] with
        | .ok [x] => x.vec == some [100]
        | _ => false) = true := by decide +kernel
    cases hgg : c23Bad.get demoLib [2] with
    | error e => rw [hgg] at hg; cases hg
    | ok l =>
      rw [hgg] at hg
      match l, hg with
      | [x], hg => exact ⟨x, rfl, by simpa using hg⟩
  · exact unreachable_of (by decide +kernel) (by decide +kernel)
  · have hh : hitList (c23Bad.semanticSearch demoLib (demoObj 100) noEmbed 10) = some [(3, 98), (1, 99), (0, 100)] := by decide +kernel
    cases hs : c23Bad.semanticSearch demoLib (demoObj 100) noEmbed 10 with
    | error e => rw [hs] at hh; cases hh
    | ok r =>
      rw [hs] at hh
      simp only [hitList, Option.some.injEq] at hh
      have hids : r.objects.map Hit.id = [3, 1, 0] := by
        have := congrArg (List.map Prod.fst) hh
        simpa [List.map_map, Function.comp_def] using this
      exact ⟨r, rfl, by rw [hids]; simp⟩

/-! ## C24 -/

/-- C24 (collections built with the simple neighbour selection, with at most `min(m, efConstruction) + 1` indexed
vectors, `ef` at least that number; in general it is false, see `C24_hidden`). If `k` different objects can be got, a search
for `k` returns `k` hits, whatever was deleted. -/
theorem C24_deletes_hide_nothing (L : Lib V D) (dim : Nat) (c : Coll) (hr : Reach L dim c)
    (hsimple : c.index.cfg.heuristic = false) (hm : c.index.nodes.length ≤ min c.index.cfg.m c.index.cfg.efC + 1)
    (hef : c.index.nodes.length ≤ c.index.cfg.ef) (o : Object V) (embed : Embed V) (w : ∀ q, queryVector embed o = some q → RanksAll L c q)
    (ids : List UInt64) (hnd : ids.Nodup)
    (hlive : ∀ id ∈ ids, ∃ x, c.get L [id] = .ok [x]) (he : EmbedOK c embed dim [o]) (r : SearchResult V D)
    (h : c.semanticSearch L o embed ids.length = .ok r) : r.objects.length = ids.length := by
  obtain ⟨q, hq, ex⟩ := C22_small_exact L dim c hr hsimple hm hef o embed w ids.length he r h
  have hle := ex.atMost
  obtain ⟨o1, es, hc, h1, hd, _⟩ := coll_search_ok hr.inv he h
  have hqd : q.length = dim := by have := queryVector_of h1; rw [hq] at this; cases this; exact hd
  by_cases hk : (r.objects.length : Int) = ids.length
  · omega
  · have : ids.length ≤ (r.objects.map Hit.id).length := by
      apply nodup_length_le hnd
      intro id hid
      obtain ⟨x, hx⟩ := hlive id hid
      obtain ⟨r0, hr0, _, hv0⟩ := getObject_eq hr.inv id
      rw [(get_single_some hc).mp hx] at hr0; cases hr0
      obtain ⟨_, a2, a3⟩ := hv0 x rfl
      obtain ⟨v, hv⟩ := Option.isSome_iff_exists.mp a3
      rw [hv] at a2
      have hvd : v.length = dim := by
        unfold vecOf at a2
        cases hn : c.index.nodes.get? id with
        | none => rw [hn] at a2; cases a2
        | some vx => rw [hn] at a2; cases a2; exact hr.inv.vecs id vx hn
      obtain ⟨d, hdd⟩ := hr.inv.dimM v q hvd hqd
      rcases ex.nearest id x v d hx hv hdd with h2 | h2
      · exact h2
      · exact absurd h2.1 hk
    simp at this
    omega

/-- the hypotheses are met: two live objects, one deleted. -/
example : Reach demoLib 1 (demoState demoCfg c22Ops) ∧ (∀ q, RanksAll demoLib (demoState demoCfg c22Ops) q) ∧
    ((demoState demoCfg c22Ops).get demoLib [1]).toOption.isSome ∧ ((demoState demoCfg c22Ops).get demoLib [2]).toOption.isSome ∧
    (hitList ((demoState demoCfg c22Ops).semanticSearch demoLib (demoObj 5) noEmbed 2)).map List.length = some 2 :=
  ⟨demo_reach _, fun _ => demo_ord.on _, by decide +kernel, by decide +kernel, by decide +kernel⟩

/-- three vectors 0, 1, 2 and `ef = 2`; 0 and 1 are deleted. -/
def c24Bad : Coll := demoState { m := 2, mMax := 2, efC := 10, ef := 2, heuristic := false }
  [demoInsert 0, demoInsert 1, demoInsert 2, .delete 0 false false, .delete 1 false false]

/-- C24, negative: deleted objects keep their places in the result list of the index (`ef` entries), so `ef` deleted objects near
the query hide a live object: the search for one neighbour returns none, although the object is reachable and can be got. -/
theorem C24_hidden : ∃ (c : Coll) (id : UInt64), Reach demoLib 1 c ∧ (∃ x, c.get demoLib [id] = .ok [x]) ∧
    Reaches c.index.nodes c.index.entry id ∧
    ∃ r, c.semanticSearch demoLib (demoObj 0) noEmbed 1 = .ok r ∧ r.objects = [] := by
  refine ⟨c24Bad, 2, demo_reachC _ (by constructor <;> decide) _, ?_, ?_, ?_⟩
  · have hg : (match c24Bad.get demoLib [2] with
        | .ok [_] => true
        | _ => false) = true := by decide +kernel
    cases hgg : c24Bad.get demoLib [2] with
    | error e => rw [hgg] at hg; cases hg
    | ok l =>
      rw [hgg] at hg
      match l, hg with
      | [x], _ => exact ⟨x, rfl⟩
  · have he : c24Bad.index.entry = 0 := by decide +kernel
    have h0 : link? c24Bad.index.nodes 0 0 = some [1, 2] := by decide +kernel
    rw [he]
    exact .step (.refl _) ⟨_, h0, by simp⟩
  · have hh : hitList (c24Bad.semanticSearch demoLib (demoObj 0) noEmbed 1) = some [] := by decide +kernel
    cases hs : c24Bad.semanticSearch demoLib (demoObj 0) noEmbed 1 with
    | error e => rw [hs] at hh; cases hh
    | ok r =>
      rw [hs] at hh
      simp only [hitList, Option.some.injEq, List.map_eq_nil_iff] at hh
      exact ⟨r, rfl, hh⟩

end Vectory
