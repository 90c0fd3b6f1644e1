import Verif.Lemmas.SearchAll
import Verif.Props.Exact
/-! # What the defect of `Peek` costs: C22 and C24 for the repaired search -/
namespace Vectory
variable {V D : Type}

theorem exact_ord {S : Prop} {L : Lib V D} {dim : Nat} {X : UInt64 → Prop} {c : Coll} (i : WInv S L dim X c) (w : Ord L.metric.lt)
    (hfull : ∀ x ∈ c.index.nodes.keys, ∀ (id : UInt64) (o : Object V), c.get L [id] = .ok [o] → Reaches c.index.nodes x id) (hn : c.index.nodes.length ≤ c.index.cfg.ef) {o : Object V} {embed : Embed V} {k : Int}
    (he : EmbedOK c embed dim [o]) {r : SearchResult V D} (h : c.semanticSearchR L o embed k = .ok r) :
    ∃ q, queryVector embed o = some q ∧ ExactAnswer L c q k r := by
  obtain ⟨o1, es, hc, h1, hd, hk, hne, h2, h4, h5, h6, h7⟩ := coll_search_okR i he h
  obtain ⟨eps, nns, g1, g2, g3, g4, g5, g6⟩ := search_reduceR i.dimM i.idx i.cfg i.vecs hne hd hk
  have g := i.idx.m.good.graph
  obtain ⟨q1, q2⟩ := searchLayerR_all w i.cfg.ef (by
      intro l hnd hm
      have := nodup_length_le (l₂ := c.index.nodes.keys) hnd (fun x hx => (hasLevel_zero g).mp (hm x hx))
      rw [AMap.length_keys] at this
      omega) (closed_all i.cfg g 0) (distOK_of i.dimM i.vecs hd _) g1 g3
  have hall : ∀ (id : UInt64) (o : Object V), c.get L [id] = .ok [o] → ∃ e ∈ nns, e.id = id := by
    intro id o hg
    obtain ⟨e0, he0⟩ := List.exists_mem_of_ne_nil _ g1.ne
    have hr : ∀ y, Reaches c.index.nodes e0.id y → y ∈ nns.map Elem.id := by
      intro y hy
      induction hy with
      | refl => exact q1 e0 he0
      | step _ hl ih =>
        obtain ⟨cs, hcs, hm⟩ := hl
        exact q2 _ ih cs hcs _ hm
    obtain ⟨e, h1, h2⟩ := List.mem_map.mp (hr id (hfull e0.id ((hasLevel_zero g).mp (g1.mem e0 he0)) id o hg))
    exact ⟨e, h1, h2⟩
  rw [h2] at g6; cases g6
  obtain ⟨rest, t1, t2, t3, t4, t5⟩ := takeLive_sorted w c.index.deleted (newMinHeap L.metric.lt nns).length k.toNat
    (newMinHeap L.metric.lt nns) (Heap.init_heap w.min nns) (Nat.le_refl _)
  obtain ⟨es', s1, s2, s3, s4, _⟩ := search_specR i.dimM i.idx i.cfg i.vecs hne hd hk
  rw [h2] at s1; cases s1
  have hp : (newMinHeap L.metric.lt nns).Perm nns := Heap.init_perm _ _
  generalize hes : takeLive L.metric c.index.deleted (newMinHeap L.metric.lt nns).length k.toNat
    (newMinHeap L.metric.lt nns) = es at *
  have hl : r.objects.length = es.length := by have := congrArg List.length h5; simpa using this
  refine ⟨_, queryVector_of h1, ⟨by omega, by rw [h5]; exact s4, ?_, ?_, ?_⟩⟩
  · have : (r.objects.map Hit.dist).Pairwise (fun a b => Le L.metric.lt a b) := by
      rw [h6]; exact List.pairwise_map.mpr t2
    exact List.pairwise_map.mp this
  · intro hit hh
    obtain ⟨x, v, a1, a2, a3, a4, a5, _⟩ := h7 hit hh
    exact ⟨x, v, (get_single_some hc).mpr a1, a4, a5⟩
  · intro id x v d hg hxv hdist
    have hgo := (get_single_some hc).mp hg
    obtain ⟨r0, hr0, hs0, hv0⟩ := getObject_eq i id
    rw [hgo] at hr0; cases hr0
    obtain ⟨hko, hkv⟩ := hs0.mp rfl
    have hkn := (vkey_iff i id).mp hkv
    have hnd : id ∉ c.index.deleted := fun hdl => i.del id hdl hko
    obtain ⟨e, hee, hid⟩ := hall id x hg
    have hmem : e ∈ es ++ rest := t1.mem_iff.mp (hp.mem_iff.mpr hee)
    have hed : e.dist = d := by
      obtain ⟨vx, e1, e2⟩ := g4.dist e hee
      have hvo := (hv0 x rfl).2.1
      rw [hid] at e1
      unfold vecOf at hvo
      rw [e1, hxv] at hvo
      cases hvo
      rw [hdist] at e2; cases e2; rfl
    rcases List.mem_append.mp hmem with hm | hm
    · left; rw [h5]; exact List.mem_map.mpr ⟨e, hm, hid⟩
    · right
      have hlive : e.id ∉ c.index.deleted := by rw [hid]; exact hnd
      refine ⟨?_, ?_⟩
      · have hf : es.length + 1 ≤ ((newMinHeap L.metric.lt nns).filter (fun e => decide (e.id ∉ c.index.deleted))).length := by
          rw [(t1.filter _).length_eq, List.filter_append, List.length_append]
          have h8 : (es.filter (fun e => decide (e.id ∉ c.index.deleted))) = es :=
            List.filter_eq_self.mpr (fun a ha => by simpa using t4 a ha)
          rw [h8]
          have : e ∈ rest.filter (fun e => decide (e.id ∉ c.index.deleted)) :=
            List.mem_filter.mpr ⟨hm, by simpa using hlive⟩
          have := List.length_pos_of_mem this
          omega
        omega
      · intro hit hh
        have : hit.dist ∈ es.map Elem.dist := by rw [← h6]; exact List.mem_map.mpr ⟨hit, hh, rfl⟩
        obtain ⟨a, ha, had⟩ := List.mem_map.mp this
        rw [← had, ← hed]
        exact t3 e hm hlive a ha

theorem exact_of_reachable {S : Prop} {L : Lib V D} {dim : Nat} {X : UInt64 → Prop} {c : Coll} (i : WInv S L dim X c)
    (hfull : ∀ x ∈ c.index.nodes.keys, ∀ (id : UInt64) (o : Object V), c.get L [id] = .ok [o] → Reaches c.index.nodes x id)
    (hn : c.index.nodes.length ≤ c.index.cfg.ef) {o : Object V} {embed : Embed V}
    (w : ∀ q, queryVector embed o = some q → Ranks L c q) {k : Int}
    (he : EmbedOK c embed dim [o]) {r : SearchResult V D} (h : c.semanticSearchR L o embed k = .ok r) :
    ∃ q, queryVector embed o = some q ∧ ExactAnswer L c q k r := by
  obtain ⟨o1, es, hc, h1, hd, hk, hne, h2, h4, h5, h6, h7⟩ := coll_search_okR i he h
  have hq := queryVector_of h1
  have hT : ∀ v d, c.Holds v → L.metric.dist v (o1.vec.getD []) = .ok d →
      (fun d => ∃ v, c.Holds v ∧ L.metric.dist v (o1.vec.getD []) = .ok d) d := fun v d hv hd => ⟨v, hv, hd⟩
  have hs : c.semanticSearchR (L.cmp (fun d => ∃ v, c.Holds v ∧ L.metric.dist v (o1.vec.getD []) = .ok d)) o embed k = .ok r := by
    rw [semanticSearchR_cmp i k, h]
    intro os hos x hx v d hv hvd
    rw [h1] at hos; cases hos
    simp at hx; subst hx
    exact ⟨v, hv, hvd⟩
  have hin : ∀ hit ∈ r.objects, (fun d => ∃ v, c.Holds v ∧ L.metric.dist v (o1.vec.getD []) = .ok d) hit.dist := by
    intro hit hh
    obtain ⟨x, v, g1, g2, g3, g4, g5, _⟩ := h7 hit hh
    exact ⟨v, holds_of_get i ((get_single_some hc).mpr g1) g4, g5⟩
  obtain ⟨q', hq', ex⟩ := exact_ord (i.cmp _) (cmp_ord (w _ hq)) hfull hn he hs
  rw [hq] at hq'; cases hq'
  exact ⟨_, hq, ex.uncmp i hT hin⟩

theorem w22_with_peek (L : Lib V D) (dim : Nat) (c : Coll) {S : Prop} (i : WInv S L dim (fun _ => True) c)
    (hfull : ∀ x ∈ c.index.nodes.keys, ∀ (id : UInt64) (o : Object V), c.get L [id] = .ok [o] → Reaches c.index.nodes x id)
    (hef : c.index.nodes.length ≤ c.index.cfg.ef) (o : Object V) (embed : Embed V) (w : ∀ q, queryVector embed o = some q → Ranks L c q) (k : Int)
    (he : EmbedOK c embed dim [o]) (r : SearchResult V D) (h : c.semanticSearchR L o embed k = .ok r) :
    ∃ q, queryVector embed o = some q ∧ ExactAnswer L c q k r :=
  exact_of_reachable i hfull hef w he h

/-- **C22, the repaired search.** If `MaxHeap.Peek` returned the root of the heap (`Model/SearchFixed.lean`), then in every collection
reached by calls, failing writes, crashes and reopens of the program as it is, every search with `ef` at least the number of indexed
vectors would be exact, provided every stored object can be reached along links from every vector. -/
theorem C22_with_peek (L : Lib V D) (dim : Nat) (c : Coll) (hr : ReachAny L dim c)
    (hfull : ∀ x ∈ c.index.nodes.keys, ∀ (id : UInt64) (o : Object V), c.get L [id] = .ok [o] → Reaches c.index.nodes x id)
    (hef : c.index.nodes.length ≤ c.index.cfg.ef) (o : Object V) (embed : Embed V) (w : ∀ q, queryVector embed o = some q → Ranks L c q) (k : Int)
    (he : EmbedOK c embed dim [o]) (r : SearchResult V D) (h : c.semanticSearchR L o embed k = .ok r) :
    ∃ q, queryVector embed o = some q ∧ ExactAnswer L c q k r :=
  w22_with_peek L dim c hr.weak.1 hfull hef o embed w k he r h

/-- **C22, the repaired search in collections of up to `2·mMax + 1` vectors**, with either neighbour selection and any levels: every
search with `ef` at least the number of vectors would be exact. -/
theorem C22_with_peek_small (L : Lib V D) (dim : Nat) (c : Coll) (hr : Reach L dim c)
    (hn : c.index.nodes.length ≤ c.index.cfg.mMax0 + 1) (hef : c.index.nodes.length ≤ c.index.cfg.ef)
    (o : Object V) (embed : Embed V) (w : ∀ q, queryVector embed o = some q → Ranks L c q) (k : Int) (he : EmbedOK c embed dim [o]) (r : SearchResult V D)
    (h : c.semanticSearchR L o embed k = .ok r) : ∃ q, queryVector embed o = some q ∧ ExactAnswer L c q k r :=
  C22_with_peek L dim c hr.any (fun x hx id o hg => (C23_reachable L dim c hr hn id o hg).2 x hx) hef o embed w k he r h

/-- an exact answer to a query for `k` has `k` hits if `k` objects are stored. -/
theorem exact_count {S : Prop} {L : Lib V D} {dim : Nat} {X : UInt64 → Prop} {c : Coll} (i : WInv S L dim X c) (hc : c.closed = false)
    {q : Vec} (hqd : q.length = dim) {ids : List UInt64} (hnd : ids.Nodup) (hlive : ∀ id ∈ ids, ∃ x, c.get L [id] = .ok [x])
    {r : SearchResult V D} (ex : ExactAnswer L c q ids.length r) : r.objects.length = ids.length := by
  have hle := ex.atMost
  by_cases hk : (r.objects.length : Int) = ids.length
  · omega
  · have : ids.length ≤ (r.objects.map Hit.id).length := by
      apply nodup_length_le hnd
      intro id hid
      obtain ⟨x, hx⟩ := hlive id hid
      obtain ⟨r0, hr0, _, hv0⟩ := getObject_eq i id
      rw [(get_single_some hc).mp hx] at hr0; cases hr0
      obtain ⟨_, a2, a3⟩ := hv0 x rfl
      obtain ⟨v, hv⟩ := Option.isSome_iff_exists.mp a3
      rw [hv] at a2
      have hvd : v.length = dim := by
        unfold vecOf at a2
        cases hn : c.index.nodes.get? id with
        | none => rw [hn] at a2; cases a2
        | some vx => rw [hn] at a2; cases a2; exact i.vecs id vx hn
      obtain ⟨d, hdd⟩ := i.dimM v q hvd hqd
      rcases ex.nearest id x v d hx hv hdd with h2 | h2
      · exact h2
      · exact absurd h2.1 hk
    simp at this
    omega

/-- **C24, the repaired search**: under the same conditions deletions would hide nothing. If `k` different objects can be got, a search
for `k` returns `k` hits. -/
theorem C24_with_peek (L : Lib V D) (dim : Nat) (c : Coll) (hr : ReachAny L dim c)
    (hfull : ∀ x ∈ c.index.nodes.keys, ∀ (id : UInt64) (o : Object V), c.get L [id] = .ok [o] → Reaches c.index.nodes x id)
    (hef : c.index.nodes.length ≤ c.index.cfg.ef) (o : Object V) (embed : Embed V) (w : ∀ q, queryVector embed o = some q → Ranks L c q)
    (ids : List UInt64) (hnd : ids.Nodup)
    (hlive : ∀ id ∈ ids, ∃ x, c.get L [id] = .ok [x]) (he : EmbedOK c embed dim [o]) (r : SearchResult V D)
    (h : c.semanticSearchR L o embed ids.length = .ok r) : r.objects.length = ids.length := by
  obtain ⟨q, hq, ex⟩ := C22_with_peek L dim c hr hfull hef o embed w ids.length he r h
  obtain ⟨o1, es, hc, h1, hd, _⟩ := coll_search_okR hr.weak.1 he h
  have hqd : q.length = dim := by have := queryVector_of h1; rw [hq] at this; cases this; exact hd
  exact exact_count hr.weak.1 hc hqd hnd hlive ex

/-- the hypotheses of `C22_with_peek_small` are met by the collection of `C22_not_exact`, and the repaired search finds the nearest
vector that the search of the program misses. -/
example : Reach demoLib 1 c22Bad ∧ (∀ q, Ranks demoLib c22Bad q) ∧ c22Bad.index.nodes.length = 5 ∧ c22Bad.index.cfg.mMax0 = 4 ∧ c22Bad.index.cfg.ef = 10 ∧
    hitList (c22Bad.semanticSearchR demoLib (demoObj 13) noEmbed 10) = some [(4, 3), (1, 5), (2, 6), (3, 7), (0, 8)] ∧
    hitList (c22Bad.semanticSearch demoLib (demoObj 13) noEmbed 10) = some [(1, 5), (2, 6), (3, 7), (0, 8)] :=
  ⟨demo_reachC _ (by constructor <;> decide) _, fun _ => demo_ord.on _, by decide +kernel, by decide +kernel, by decide +kernel, by decide +kernel, by decide +kernel⟩

end Vectory
