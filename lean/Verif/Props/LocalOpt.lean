import Verif.Lemmas.LocalOpt
import Verif.Props.Exact
/-! # The best hit of a search is a local optimum: C73 -/
namespace Vectory
variable {V D : Type}

theorem o_best_hit {L : Lib V D} {dim : Nat} {X : UInt64 → Prop} {S : Prop} {c : Coll} (i : WInv S L dim X c) (w : Ord L.metric.lt)
    {o : Object V} {embed : Embed V} {k : Int} (he : EmbedOK c embed dim [o]) {r : SearchResult V D}
    (h : c.semanticSearch L o embed k = .ok r) {q : Vec} (hq : queryVector embed o = some q) {hit : Hit V D} {rest : List (Hit V D)}
    (hr : r.objects = hit :: rest)
    (hdel : ∀ id ∈ c.index.deleted, ∀ v d, c.index.nodes.get? id = some v → L.metric.dist v.vec q = .ok d → Le L.metric.lt hit.dist d) :
    ∀ cs, link? c.index.nodes hit.id 0 = some cs → ∀ y ∈ cs, ∀ v d, c.index.nodes.get? y = some v → L.metric.dist v.vec q = .ok d →
      Le L.metric.lt hit.dist d := by
  obtain ⟨o1, es, hc, h1, hd, hk, hne, h2, h4, h5, h6, h7⟩ := coll_search_ok i he h
  have hq1 := queryVector_of h1
  rw [hq] at hq1; cases hq1
  obtain ⟨eps, nns, g1, g2, g3, g4, g5, g6⟩ := search_reduce i.dimM i.idx i.cfg i.vecs hne hd hk
  have g := i.idx.m.good.graph
  have hopt := searchLayer_opt w i.cfg.ef (by have := i.cfg.ef; omega) (closed_all i.cfg g 0) (distOK_of i.dimM i.vecs hd _) g1 g3
  rw [h2] at g6; cases g6
  obtain ⟨rst, t1, t2, t3, t4, t5⟩ := takeLive_sorted w c.index.deleted (newMinHeap L.metric.lt nns).length k.toNat
    (newMinHeap L.metric.lt nns) (Heap.init_heap w.min nns) (Nat.le_refl _)
  have hp : (newMinHeap L.metric.lt nns).Perm nns := Heap.init_perm _ _
  generalize hes : takeLive L.metric c.index.deleted (newMinHeap L.metric.lt nns).length k.toNat
    (newMinHeap L.metric.lt nns) = es at *
  rw [hr] at h5 h6
  cases es with
  | nil => cases h5
  | cons e es =>
    have e1 : hit.id = e.id := by simpa using congrArg List.head? h5
    have e2 : hit.dist = e.dist := by simpa using congrArg List.head? h6
    have hee : e ∈ nns := hp.mem_iff.mp (t1.mem_iff.mpr (by simp))
    have hmin : ∀ m ∈ nns, Le L.metric.lt e.dist m.dist := by
      intro m hm
      by_cases hdm : m.id ∈ c.index.deleted
      · obtain ⟨v, v1, v2⟩ := g4.dist m hm
        have := hdel m.id hdm v m.dist v1 v2
        rw [e2] at this; exact this
      · rcases List.mem_append.mp (t1.mem_iff.mp (hp.mem_iff.mpr hm)) with h8 | h8
        · rcases List.mem_cons.mp h8 with rfl | h8
          · exact Le.refl w _
          · exact (List.pairwise_cons.mp t2).1 m h8
        · exact t3 m h8 hdm e (by simp)
    intro cs hcs y hy v d hv hdd
    rw [e1] at hcs
    rw [e2]
    exact hopt e hee hmin cs hcs y hy v d hv hdd

theorem best_hit {L : Lib V D} {dim : Nat} {X : UInt64 → Prop} {S : Prop} {c : Coll} (i : WInv S L dim X c)
    {o : Object V} {embed : Embed V} (w : ∀ q, queryVector embed o = some q → Ranks L c q) {k : Int} (he : EmbedOK c embed dim [o])
    {r : SearchResult V D}
    (h : c.semanticSearch L o embed k = .ok r) {q : Vec} (hq : queryVector embed o = some q) {hit : Hit V D} {rest : List (Hit V D)}
    (hr : r.objects = hit :: rest)
    (hdel : ∀ id ∈ c.index.deleted, ∀ v d, c.index.nodes.get? id = some v → L.metric.dist v.vec q = .ok d → Le L.metric.lt hit.dist d) :
    ∀ cs, link? c.index.nodes hit.id 0 = some cs → ∀ y ∈ cs, ∀ v d, c.index.nodes.get? y = some v → L.metric.dist v.vec q = .ok d →
      Le L.metric.lt hit.dist d := by
  obtain ⟨q', hq', T, hT, wT, hs, hin⟩ := search_completed i he h w
  rw [hq] at hq'; cases hq'
  have hh : T hit.dist := hin hit (by rw [hr]; simp)
  have hn : ∀ (id : UInt64) (v : Vertex) (d : D), c.index.nodes.get? id = some v → L.metric.dist v.vec q = .ok d → T d := by
    intro id v d hv hd; rw [hT]; exact ⟨v.vec, i.holds id v hv, hd⟩
  intro cs hcs y hy v d hv hd
  exact (le_cmp hh (hn y v d hv hd)).mp (o_best_hit (i.cmp T) wT he hs hq hr
    (fun id hid v d hv hd => (le_cmp hh (hn id v d hv hd)).mpr (hdel id hid v d hv hd)) cs hcs y hy v d hv hd)

theorem w73_best_hit (L : Lib V D) (dim : Nat) (c : Coll) {S : Prop} (i : WInv S L dim (fun _ => True) c)
    (o : Object V) (embed : Embed V) (w : ∀ q, queryVector embed o = some q → Ranks L c q) (k : Int) (he : EmbedOK c embed dim [o]) (r : SearchResult V D)
    (h : c.semanticSearch L o embed k = .ok r) (q : Vec) (hq : queryVector embed o = some q) (hit : Hit V D) (rest : List (Hit V D))
    (hh : r.objects = hit :: rest)
    (hdel : ∀ id ∈ c.index.deleted, ∀ v d, c.index.nodes.get? id = some v → L.metric.dist v.vec q = .ok d → Le L.metric.lt hit.dist d)
    (y : UInt64) (hy : Linked c.index.nodes hit.id y) (x : Object V) (v : Vec) (d : D) (hg : c.get L [y] = .ok [x])
    (hv : x.vec = some v) (hd : L.metric.dist v q = .ok d) : Le L.metric.lt hit.dist d := by
  obtain ⟨cs, h1, h2⟩ := hy
  obtain ⟨vx, h3⟩ := Option.isSome_iff_exists.mp (AMap.get?_isSome_iff c.index.nodes y |>.mpr
    ((hasLevel_zero i.idx.m.good.graph).mp ((i.idx.m.good.graph.linkOK _ _ _ h1).2.2 y h2)))
  have hc : c.closed = false := (coll_search_ok i he h).choose_spec.choose_spec.1
  obtain ⟨r0, hr0, _, hv0⟩ := getObject_eq i y
  rw [(get_single_some hc).mp hg] at hr0; cases hr0
  have h4 := (hv0 x rfl).2.1
  unfold vecOf at h4
  rw [h3, hv] at h4
  cases h4
  exact best_hit i w he h hq hh hdel cs h1 y h2 vx d h3 hd

/-- **C73.** In every collection reached by calls, failing writes, crashes and reopens, for any parameters and any `k`: if no deleted
vector is nearer to the query than the first hit, then no vector to which the index links the first hit is nearer to the query. -/
theorem C73_best_hit (L : Lib V D) (dim : Nat) (c : Coll) (hr : ReachAny L dim c)
    (o : Object V) (embed : Embed V) (w : ∀ q, queryVector embed o = some q → Ranks L c q) (k : Int) (he : EmbedOK c embed dim [o]) (r : SearchResult V D)
    (h : c.semanticSearch L o embed k = .ok r) (q : Vec) (hq : queryVector embed o = some q) (hit : Hit V D) (rest : List (Hit V D))
    (hh : r.objects = hit :: rest)
    (hdel : ∀ id ∈ c.index.deleted, ∀ v d, c.index.nodes.get? id = some v → L.metric.dist v.vec q = .ok d → Le L.metric.lt hit.dist d)
    (y : UInt64) (hy : Linked c.index.nodes hit.id y) (x : Object V) (v : Vec) (d : D) (hg : c.get L [y] = .ok [x])
    (hv : x.vec = some v) (hd : L.metric.dist v q = .ok d) : Le L.metric.lt hit.dist d :=
  w73_best_hit L dim c hr.weak.1 o embed w k he r h q hq hit rest hh hdel y hy x v d hg hv hd

theorem o73_small_nearest (L : Lib V D) (dim : Nat) (c : Coll) (hr : Reach L dim c) (w : Ord L.metric.lt)
    (hsimple : c.index.cfg.heuristic = false) (hm : c.index.nodes.length ≤ min c.index.cfg.m c.index.cfg.efC + 1)
    (hdel : c.index.deleted = []) (o : Object V) (embed : Embed V) (k : Int) (hk : 0 < k)
    (he : EmbedOK c embed dim [o]) (r : SearchResult V D) (h : c.semanticSearch L o embed k = .ok r) (q : Vec)
    (hq : queryVector embed o = some q) :
    ∃ hit rest, r.objects = hit :: rest ∧ ∀ (id : UInt64) (x : Object V) (v : Vec) (d : D), c.get L [id] = .ok [x] → x.vec = some v →
      L.metric.dist v q = .ok d → Le L.metric.lt hit.dist d := by
  have i := hr.inv
  have full : Complete c.index.nodes := hr.kept (complete_kept w i.dimM) (fun _ _ _ => by intro x c hc; cases hc) hsimple hm
  obtain ⟨o1, es, hc, h1, hd, hk', hne, h2, h4, h5, h6, h7⟩ := coll_search_ok i he h
  have hpos : r.objects ≠ [] := by
    obtain ⟨eps, nns, g1, g2, g3, g4, g5, g6⟩ := search_reduce i.dimM i.idx i.cfg i.vecs hne hd hk'
    rw [h2] at g6; cases g6
    obtain ⟨rst, t1, t2, t3, t4, t5⟩ := takeLive_sorted w c.index.deleted (newMinHeap L.metric.lt nns).length k.toNat
      (newMinHeap L.metric.lt nns) (Heap.init_heap w.min nns) (Nat.le_refl _)
    have hp : (newMinHeap L.metric.lt nns).Perm nns := Heap.init_perm _ _
    have hl : (newMinHeap L.metric.lt nns).length ≠ 0 := by
      rw [hp.length_eq]
      exact fun h0 => g4.ne (List.eq_nil_of_length_eq_zero h0)
    intro hnil
    rw [hnil] at h5
    have h8 := congrArg List.length h5
    simp only [List.map_nil, List.length_nil, List.length_map] at h8
    rw [t5, hdel] at h8
    rw [List.filter_eq_self.mpr (by simp)] at h8
    omega
  match hro : r.objects, hpos with
  | hit :: rest, _ =>
    refine ⟨hit, rest, rfl, ?_⟩
    intro id x v d hg hv hdd
    have hgo := (get_single_some hc).mp hg
    obtain ⟨r0, hr0, hs0, hv0⟩ := getObject_eq i id
    rw [hgo] at hr0; cases hr0
    have hkn := (vkey_iff i id).mp (hs0.mp rfl).2
    obtain ⟨vx, h3⟩ := Option.isSome_iff_exists.mp (AMap.get?_isSome_iff c.index.nodes id |>.mpr hkn)
    have h8 := (hv0 x rfl).2.1
    unfold vecOf at h8
    rw [h3, hv] at h8
    cases h8
    obtain ⟨x2, v2, a1, a2, a3, a4, a5, a6⟩ := h7 hit (by rw [hro]; simp)
    obtain ⟨r2, hr2, hs2, hv2⟩ := getObject_eq i hit.id
    rw [a1] at hr2; cases hr2
    have hkh := (vkey_iff i hit.id).mp (hs2.mp rfl).2
    by_cases hid : id = hit.id
    · subst hid
      obtain ⟨b1, b2, b3⟩ := hv2 x2 rfl
      unfold vecOf at b2
      rw [h3, a4] at b2
      cases b2
      have hq1 := queryVector_of h1
      rw [hq] at hq1; cases hq1
      rw [hdd] at a5; cases a5
      exact Le.refl w _
    · obtain ⟨cs, hcs⟩ := hasLevel_iff.mp ((hasLevel_zero i.idx.m.good.graph).mpr hkh)
      exact o_best_hit i w he h hq hro (by rw [hdel]; intro id hid; cases hid) cs hcs id (full hit.id cs hcs id hkn hid) vx d h3 hdd

/-- **C73, small collections.** Simple neighbour selection, nothing deleted and at most `min(m, efConstruction) + 1` objects: whatever
`ef` is, every search for at least one neighbour finds one, and the first hit is a nearest object of the whole collection. -/
theorem C73_small_nearest (L : Lib V D) (dim : Nat) (c : Coll) (hr : Reach L dim c)
    (hsimple : c.index.cfg.heuristic = false) (hm : c.index.nodes.length ≤ min c.index.cfg.m c.index.cfg.efC + 1)
    (hdel : c.index.deleted = []) (o : Object V) (embed : Embed V)
    (w : ∀ q, queryVector embed o = some q → RanksAll L c q) (k : Int) (hk : 0 < k)
    (he : EmbedOK c embed dim [o]) (r : SearchResult V D) (h : c.semanticSearch L o embed k = .ok r) (q : Vec)
    (hq : queryVector embed o = some q) :
    ∃ hit rest, r.objects = hit :: rest ∧ ∀ (id : UInt64) (x : Object V) (v : Vec) (d : D), c.get L [id] = .ok [x] → x.vec = some v →
      L.metric.dist v q = .ok d → Le L.metric.lt hit.dist d := by
  obtain ⟨q', hq', T, hT, wT, hrT, hs, hin⟩ := history_completed hr he h w
  rw [hq] at hq'; cases hq'
  obtain ⟨hit, rest, h1, h2⟩ := o73_small_nearest (L.cmp T) dim c hrT wT hsimple hm hdel o embed k hk he r hs q hq
  refine ⟨hit, rest, h1, fun id x v d hg hv hd => ?_⟩
  exact (le_cmp (hin hit (by rw [h1]; simp)) (hT v d (holds_of_get hr.inv hg hv) hd)).mp (h2 id x v d hg hv hd)

/-- six vectors on the line, on up to three levels, `ef = 2`, heuristic selection. -/
def c73Coll : Coll := demoState { m := 2, mMax := 1, efC := 2, ef := 2, heuristic := true }
  [demoInsert 9, demoInsert 25 1, demoInsert 19, demoInsert 3 2, demoInsert 30, demoInsert 12]

/-- the hypotheses of `C73_best_hit` are met: six objects, the first hit of a search for 20 is 19, with a link. -/
example : ReachAny demoLib 1 c73Coll ∧ (∀ q, Ranks demoLib c73Coll q) ∧ c73Coll.index.deleted = [] ∧ Linked c73Coll.index.nodes 2 1 ∧
    hitList (c73Coll.semanticSearch demoLib (demoObj 20) noEmbed 1) = some [(2, 1)] :=
  ⟨(demo_reachC _ (by constructor <;> decide) _).any, fun _ => demo_ord.on _, by decide +kernel,
    ⟨((link? c73Coll.index.nodes 2 0).getD []), by decide +kernel, by decide +kernel⟩, by decide +kernel⟩

/-- the hypotheses of `C73_small_nearest` are met: three objects, `ef = 1`. -/
example : Reach demoLib 1 (demoState { m := 2, mMax := 1, efC := 2, ef := 1, heuristic := false } [demoInsert 9, demoInsert 25 1, demoInsert 19]) ∧
    (∀ c q, RanksAll demoLib c q) ∧
    (demoState { m := 2, mMax := 1, efC := 2, ef := 1, heuristic := false } [demoInsert 9, demoInsert 25 1, demoInsert 19]).index.nodes.length = 3 ∧
    (demoState { m := 2, mMax := 1, efC := 2, ef := 1, heuristic := false } [demoInsert 9, demoInsert 25 1, demoInsert 19]).index.deleted = [] ∧
    hitList ((demoState { m := 2, mMax := 1, efC := 2, ef := 1, heuristic := false } [demoInsert 9, demoInsert 25 1, demoInsert 19]).semanticSearch
      demoLib (demoObj 0) noEmbed 1) = some [(0, 9)] :=
  ⟨demo_reachC _ (by constructor <;> decide) _, fun _ _ => demo_ord.on _, by decide +kernel, by decide +kernel, by decide +kernel⟩

/-- three vectors 9, 25, 19; `ef = 2`; 9 is deleted. -/
def c73Bad : Coll := demoState { m := 2, mMax := 1, efC := 2, ef := 2, heuristic := false }
  [demoInsert 9, demoInsert 25, demoInsert 19, .delete 0 false false]

/-- C73, the hypothesis about deleted vectors is needed: two live objects 25 and 19 linked with each other, and the search for the one
nearest to 0 returns 25. -/
theorem C73_deleted_spoil : ∃ (c : Coll) (r : SearchResult UInt8 Nat), Reach demoLib 1 c ∧
    c.semanticSearch demoLib (demoObj 0) noEmbed 1 = .ok r ∧ r.objects.map (fun h => (h.id, h.dist)) = [(1, 25)] ∧
    Linked c.index.nodes 1 2 ∧ ∃ x, c.get demoLib [2] = .ok [x] ∧ x.vec = some [19] := by
  have hh : hitList (c73Bad.semanticSearch demoLib (demoObj 0) noEmbed 1) = some [(1, 25)] := by decide +kernel
  cases hs : c73Bad.semanticSearch demoLib (demoObj 0) noEmbed 1 with
  | error e => rw [hs] at hh; cases hh
  | ok r =>
    rw [hs] at hh
    simp only [hitList, Option.some.injEq] at hh
    refine ⟨c73Bad, r, demo_reachC _ (by constructor <;> decide) _, hs, hh,
      ⟨((link? c73Bad.index.nodes 1 0).getD []), by decide +kernel, by decide +kernel⟩, ?_⟩
    have hg : (match c73Bad.get demoLib [2] with
        | .ok [x] => x.vec == some [19]
        | _ => false) = true := by decide +kernel
    cases hgg : c73Bad.get demoLib [2] with
    | error e => rw [hgg] at hg; cases hg
    | ok l =>
      rw [hgg] at hg
      match l, hg with
      | [x], hg => exact ⟨x, rfl, by simpa using hg⟩

end Vectory
