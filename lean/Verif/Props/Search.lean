import Verif.Lemmas.SearchMore
import Verif.Lemmas.Crash
import Verif.Spec.Demo
import Verif.Lemmas.SwapColl
/-! # Searches: C16, C17, C18, C21 -/
namespace Vectory
variable {V D : Type}

/-- the vector a query is answered for: the caller's own, or the embedder's first answer (spec, independent of the code). -/
def queryVector (embed : Embed V) (o : Object V) : Option Vec :=
  match o.vec with
  | some v => some v
  | none =>
    match embed [o] with
    | .ok (v :: _) => some (v.getD [])
    | _ => none

theorem queryVector_of {c : Coll} {embed : Embed V} {o o1 : Object V}
    (h : embedObjectsIfNeeded c embed [o] = .ok (.ok [o1])) : queryVector embed o = some (o1.vec.getD []) := by
  unfold embedObjectsIfNeeded at h
  split at h
  · split at h
    · cases h
    · rename_i hs
      cases h
      cases hv : o.vec with
      | none => simp [hv] at hs
      | some v => unfold queryVector; rw [hv]; rfl
  · cases hv : o.vec with
    | some v =>
      simp only [List.filter, hv, Option.isNone] at h
      cases he : embed [] with
      | error e => rw [he] at h; cases h
      | ok resp =>
        rw [he] at h
        simp only [assignVectors, hv, ok_bind] at h
        cases h
        unfold queryVector; rw [hv]; rfl
    | none =>
      simp only [List.filter, hv, Option.isNone] at h
      cases he : embed [o] with
      | error e => rw [he] at h; cases h
      | ok resp =>
        rw [he] at h
        cases resp with
        | nil => simp only [assignVectors, hv] at h; cases h
        | cons v resp =>
          simp only [assignVectors, hv, ok_bind] at h
          cases h
          unfold queryVector; rw [hv, he]

theorem o16_well_formed (L : Lib V D) (dim : Nat) (c : Coll) {S : Prop} {X : UInt64 → Prop} (i : WInv S L dim X c) (w : Ord L.metric.lt) (o : Object V)
    (embed : Embed V) (k : Int) (he : EmbedOK c embed dim [o]) (r : SearchResult V D)
    (h : c.semanticSearch L o embed k = .ok r) :
    (r.objects.length : Int) ≤ k ∧ r.objects.length ≤ c.index.cfg.ef ∧ (r.objects.map Hit.id).Nodup ∧
    r.objects.Pairwise (fun a b => Le L.metric.lt a.dist b.dist) ∧ r.hits = r.objects.length := by
  obtain ⟨o1, es, hc, h1, hd, hk, hne, h2, h4, h5, h6, _⟩ := coll_search_ok i he h
  obtain ⟨es', s1, s2, s3, s4, _⟩ := search_spec i.dimM i.idx i.cfg i.vecs hne hd hk
  rw [h2] at s1; cases s1
  have hl : r.objects.length = es.length := by have := congrArg List.length h5; simpa using this
  obtain ⟨eps, nns, _, _, _, _, _, hs⟩ := search_reduce i.dimM i.idx i.cfg i.vecs hne hd hk
  rw [h2] at hs
  refine ⟨by omega, by omega, by rw [h5]; exact s4, ?_, by omega⟩
  have hsort := (takeLive_sorted w c.index.deleted (newMinHeap L.metric.lt nns).length k.toNat (newMinHeap L.metric.lt nns)
    (Heap.init_heap w.min nns) (Nat.le_refl _))
  obtain ⟨_, _, hp, _⟩ := hsort
  cases hs
  have : (r.objects.map Hit.dist).Pairwise (fun a b => Le L.metric.lt a b) := by
    rw [h6]; exact List.pairwise_map.mpr hp
  exact List.pairwise_map.mp this


theorem w17_true_distance (L : Lib V D) (dim : Nat) (c : Coll) {S : Prop} {X : UInt64 → Prop} (i : WInv S L dim X c) (o : Object V) (embed : Embed V) (k : Int)
    (he : EmbedOK c embed dim [o]) (r : SearchResult V D) (h : c.semanticSearch L o embed k = .ok r) :
    ∃ q, queryVector embed o = some q ∧
      ∀ hit ∈ r.objects, ∃ x v, c.get L [hit.id] = .ok [x] ∧ x.vec = some v ∧ L.metric.dist v q = .ok hit.dist := by
  obtain ⟨o1, es, hc, h1, hd, hk, hne, h2, _, _, _, h7⟩ := coll_search_ok i he h
  refine ⟨_, queryVector_of h1, fun hit hh => ?_⟩
  obtain ⟨x, v, g1, g2, g3, g4, g5, _⟩ := h7 hit hh
  exact ⟨x, v, (get_single_some hc).mpr g1, g4, g5⟩


/-- C17: every hit carries the distance, by the collection's distance function, between the vector that `Get` returns for
that id and the query vector. -/
theorem C17_true_distance (L : Lib V D) (dim : Nat) (c : Coll) (hr : ReachAny L dim c) (o : Object V) (embed : Embed V) (k : Int)
    (he : EmbedOK c embed dim [o]) (r : SearchResult V D) (h : c.semanticSearch L o embed k = .ok r) :
    ∃ q, queryVector embed o = some q ∧
      ∀ hit ∈ r.objects, ∃ x v, c.get L [hit.id] = .ok [x] ∧ x.vec = some v ∧ L.metric.dist v q = .ok hit.dist :=
  w17_true_distance L dim c hr.weak.1 o embed k he r h

theorem w18_hits_live (L : Lib V D) (dim : Nat) (c : Coll) {S : Prop} {X : UInt64 → Prop} (i : WInv S L dim X c) (o : Object V) (embed : Embed V)
    (k : Int) (he : EmbedOK c embed dim [o]) (r : SearchResult V D) (h : c.semanticSearch L o embed k = .ok r) :
    r.hits = r.objects.length ∧
    ∃ q, queryVector embed o = some q ∧
      ∀ hit ∈ r.objects, ∃ x v, c.get L [hit.id] = .ok [x] ∧ x.id = hit.id ∧ x.props = hit.props ∧ x.vec = some v ∧
        L.metric.dist v q = .ok hit.dist := by
  obtain ⟨o1, es, hc, h1, hd, hk, hne, h2, h4, h5, _, h7⟩ := coll_search_ok i he h
  have hl : r.objects.length = es.length := by have := congrArg List.length h5; simpa using this
  refine ⟨by omega, _, queryVector_of h1, fun hit hh => ?_⟩
  obtain ⟨x, v, g1, g2, g3, g4, g5, _⟩ := h7 hit hh
  exact ⟨x, v, (get_single_some hc).mpr g1, g2, g3.symm, g4, g5⟩


/-- C18 (every history of calls, storage errors, crashes and reopens): when a search succeeds, `Hits` is the number of objects;
each returned object is stored now, with the properties shown, and its distance is its own. (After a crash inside `Delete`
some searches do not succeed but panic: `C32_search_panics`.) -/
theorem C18_hits_live (L : Lib V D) (dim : Nat) (c : Coll) (hr : ReachAny L dim c) (o : Object V) (embed : Embed V)
    (k : Int) (he : EmbedOK c embed dim [o]) (r : SearchResult V D) (h : c.semanticSearch L o embed k = .ok r) :
    r.hits = r.objects.length ∧
    ∃ q, queryVector embed o = some q ∧
      ∀ hit ∈ r.objects, ∃ x v, c.get L [hit.id] = .ok [x] ∧ x.id = hit.id ∧ x.props = hit.props ∧ x.vec = some v ∧
        L.metric.dist v q = .ok hit.dist :=
  w18_hits_live L dim c hr.weak.1 o embed k he r h

/-- a vector that `Get` shows is one the collection holds. -/
theorem holds_of_get {S : Prop} {L : Lib V D} {dim : Nat} {X : UInt64 → Prop} {c : Coll} (i : WInv S L dim X c) {id : UInt64}
    {x : Object V} {v : Vec} (hg : c.get L [id] = .ok [x]) (hv : x.vec = some v) : c.Holds v := by
  have hc : c.closed = false := by
    cases hcl : c.closed with
    | false => rfl
    | true => unfold Coll.get at hg; rw [hcl] at hg; cases hg
  obtain ⟨r0, hr0, _, hv0⟩ := getObject_eq i id
  rw [(get_single_some hc).mp hg] at hr0; cases hr0
  refine ⟨id, ?_⟩
  rw [i.vstore id, (hv0 x rfl).2.1, hv]

/-- a search whose distances can be compared is the same with a comparison that is a weak order on all distances. -/
theorem search_completed {S : Prop} {L : Lib V D} {dim : Nat} {X : UInt64 → Prop} {c : Coll} (i : WInv S L dim X c) {o : Object V}
    {embed : Embed V} {k : Int} (he : EmbedOK c embed dim [o]) {r : SearchResult V D} (h : c.semanticSearch L o embed k = .ok r)
    (w : ∀ q, queryVector embed o = some q → Ranks L c q) :
    ∃ q, queryVector embed o = some q ∧ ∃ T : D → Prop, T = (fun d => ∃ v, c.Holds v ∧ L.metric.dist v q = .ok d) ∧
      Ord (L.cmp T).metric.lt ∧ c.semanticSearch (L.cmp T) o embed k = .ok r ∧ ∀ hit ∈ r.objects, T hit.dist := by
  obtain ⟨o1, es, hc, h1, hd, hk, hne, h2, h4, h5, h6, _⟩ := coll_search_ok i he h
  refine ⟨_, queryVector_of h1, _, rfl, cmp_ord (w _ (queryVector_of h1)), ?_, ?_⟩
  · rw [semanticSearch_cmp i k, h]
    intro os hos x hx v d hv hvd
    rw [h1] at hos; cases hos
    simp at hx; subst hx
    exact ⟨v, hv, hvd⟩
  · obtain ⟨q, hq, hh⟩ := w17_true_distance L dim c i o embed k he r h
    rw [queryVector_of h1] at hq; cases hq
    intro hit hhit
    obtain ⟨x, v, g1, g2, g3⟩ := hh hit hhit
    exact ⟨v, holds_of_get i g1 g2, g3⟩

/-- the same for a whole history: the collection is also reached with the completed comparison. -/
theorem history_completed {L : Lib V D} {dim : Nat} {c : Coll} (hr : Reach L dim c) {o : Object V}
    {embed : Embed V} {k : Int} (he : EmbedOK c embed dim [o]) {r : SearchResult V D} (h : c.semanticSearch L o embed k = .ok r)
    (w : ∀ q, queryVector embed o = some q → RanksAll L c q) :
    ∃ q, queryVector embed o = some q ∧ ∃ T : D → Prop, (∀ v d, c.Holds v → L.metric.dist v q = .ok d → T d) ∧
      Ord (L.cmp T).metric.lt ∧ Reach (L.cmp T) dim c ∧ c.semanticSearch (L.cmp T) o embed k = .ok r ∧ ∀ hit ∈ r.objects, T hit.dist := by
  have i := hr.inv
  obtain ⟨o1, es, hc, h1, hd, hk, hne, h2, h4, h5, h6, _⟩ := coll_search_ok i he h
  refine ⟨_, queryVector_of h1, _, ?_, cmp_ord (w _ (queryVector_of h1)), ?_, ?_, ?_⟩
  · exact fun v d hv hvd => ⟨v, _, hv, Or.inr rfl, hvd⟩
  · exact hr.cmp (fun v x d hv hx hvx => ⟨v, x, hv, Or.inl hx, hvx⟩)
  · rw [semanticSearch_cmp i k, h]
    intro os hos x hx v d hv hvd
    rw [h1] at hos; cases hos
    simp at hx; subst hx
    exact ⟨v, _, hv, Or.inr rfl, hvd⟩
  · obtain ⟨q, hq, hh⟩ := w17_true_distance L dim c i o embed k he r h
    rw [queryVector_of h1] at hq; cases hq
    intro hit hhit
    obtain ⟨x, v, g1, g2, g3⟩ := hh hit hhit
    exact ⟨v, _, holds_of_get i g1 g2, Or.inr rfl, g3⟩

theorem w16_well_formed (L : Lib V D) (dim : Nat) (c : Coll) {S : Prop} {X : UInt64 → Prop} (i : WInv S L dim X c) (o : Object V)
    (embed : Embed V) (w : ∀ q, queryVector embed o = some q → Ranks L c q) (k : Int) (he : EmbedOK c embed dim [o]) (r : SearchResult V D)
    (h : c.semanticSearch L o embed k = .ok r) :
    (r.objects.length : Int) ≤ k ∧ r.objects.length ≤ c.index.cfg.ef ∧ (r.objects.map Hit.id).Nodup ∧
    r.objects.Pairwise (fun a b => Le L.metric.lt a.dist b.dist) ∧ r.hits = r.objects.length := by
  obtain ⟨q, hq, T, hT, wT, hs, hin⟩ := search_completed i he h w
  obtain ⟨a1, a2, a3, a4, a5⟩ := o16_well_formed (L.cmp T) dim c (i.cmp T) wT o embed k he r hs
  refine ⟨a1, a2, a3, ?_, a5⟩
  refine List.Pairwise.imp_of_mem ?_ a4
  intro a b ha hb hab
  exact (le_cmp (hin a ha) (hin b hb)).mp hab

/-- C16: on every reachable collection, a search for `k` neighbours returns at most `k` and at most `ef` hits, no id twice,
in order of non-decreasing distance; the count `Hits` agrees. (`w`: the distances of the stored vectors to the query can be compared with
each other; for `float32` this means that none of them is NaN, see `Props/Ieee.lean`.) -/
theorem C16_well_formed (L : Lib V D) (dim : Nat) (c : Coll) (hr : ReachAny L dim c) (o : Object V)
    (embed : Embed V) (w : ∀ q, queryVector embed o = some q → Ranks L c q) (k : Int) (he : EmbedOK c embed dim [o]) (r : SearchResult V D)
    (h : c.semanticSearch L o embed k = .ok r) :
    (r.objects.length : Int) ≤ k ∧ r.objects.length ≤ c.index.cfg.ef ∧ (r.objects.map Hit.id).Nodup ∧
    r.objects.Pairwise (fun a b => Le L.metric.lt a.dist b.dist) ∧ r.hits = r.objects.length :=
  w16_well_formed L dim c hr.weak.1 o embed w k he r h

theorem w16_without_order (L : Lib V D) (dim : Nat) (c : Coll) {S : Prop} {X : UInt64 → Prop} (i : WInv S L dim X c) (o : Object V) (embed : Embed V) (k : Int)
    (he : EmbedOK c embed dim [o]) (r : SearchResult V D) (h : c.semanticSearch L o embed k = .ok r) :
    (r.objects.length : Int) ≤ k ∧ r.objects.length ≤ c.index.cfg.ef ∧ (r.objects.map Hit.id).Nodup ∧ r.hits = r.objects.length := by
  obtain ⟨o1, es, hc, h1, hd, hk, hne, h2, h4, h5, h6, _⟩ := coll_search_ok i he h
  obtain ⟨es', s1, s2, s3, s4, _⟩ := search_spec i.dimM i.idx i.cfg i.vecs hne hd hk
  rw [h2] at s1; cases s1
  have hl : r.objects.length = es.length := by have := congrArg List.length h5; simpa using this
  exact ⟨by omega, by omega, by rw [h5]; exact s4, by omega⟩

/-- C16 with incomparable distances (NaN): still at most `k` and at most `ef` hits, no id twice, and the count agrees. -/
theorem C16_without_order (L : Lib V D) (dim : Nat) (c : Coll) (hr : ReachAny L dim c) (o : Object V) (embed : Embed V) (k : Int)
    (he : EmbedOK c embed dim [o]) (r : SearchResult V D) (h : c.semanticSearch L o embed k = .ok r) :
    (r.objects.length : Int) ≤ k ∧ r.objects.length ≤ c.index.cfg.ef ∧ (r.objects.map Hit.id).Nodup ∧ r.hits = r.objects.length :=
  w16_without_order L dim c hr.weak.1 o embed k he r h

/-- six objects on three levels, two of them deleted, one insert failed after it wrote the object. -/
def c16Ops : List (Op UInt8) :=
  [demoInsert 1, demoInsert 9 2, demoInsert 4, .delete 0 false false, demoInsert 6 1,
   .insert (demoObj 5) noEmbed { put := .vectors } false, demoInsert 2, demoInsert 7, .delete 2 false false]

theorem demo_embedOK (c : Coll) (h : c.hasEmbedder = false) (x : UInt32) : EmbedOK c (noEmbed (V := UInt8)) 1 [demoObj x] := by
  refine ⟨.ok [demoObj x], ?_, ?_⟩
  · unfold embedObjectsIfNeeded; rw [h]; rfl
  · intro os h o ho; cases h; simp at ho; subst ho; rfl

/-- ids and distances of the hits. -/
def hitList (r : Except Abort (SearchResult V D)) : Option (List (UInt64 × D)) :=
  match r with
  | .ok r => some (r.objects.map (fun h => (h.id, h.dist)))
  | .error _ => none

example : ReachAny demoLib 1 (demoState demoCfg c16Ops) ∧ EmbedOK (demoState demoCfg c16Ops) (noEmbed (V := UInt8)) 1 [demoObj 5] ∧
    (∀ q, Ranks demoLib (demoState demoCfg c16Ops) q) ∧
    hitList ((demoState demoCfg c16Ops).semanticSearch demoLib (demoObj 5) noEmbed 3) = some [(3, 1), (6, 2), (1, 4)] :=
  ⟨(demo_reach _).any, demo_embedOK _ (by decide +kernel) 5, fun _ => demo_ord.on _, by decide +kernel⟩

/-! ## C21 -/

theorem o21_locally_optimal (L : Lib V D) (dim : Nat) (c : Coll) {S : Prop} {X : UInt64 → Prop} (i : WInv S L dim X c) (w : Ord L.metric.lt) (o : Object V)
    (embed : Embed V) (k : Int) (he : EmbedOK c embed dim [o]) (r : SearchResult V D) (hit : Hit V D) (hits : List (Hit V D))
    (h : c.semanticSearch L o embed k = .ok r) (hh : r.objects = hit :: hits) :
    ∃ q, queryVector embed o = some q ∧
    ∃ (b : UInt64) (vb : Vertex) (db : D) (links : List UInt64), AMap.get? c.index.nodes b = some vb ∧
      L.metric.dist vb.vec q = .ok db ∧ vb.conns[0]? = some links ∧ Le L.metric.lt db hit.dist ∧
      (∀ n ∈ links, ∀ (vn : Vertex) (dn : D), AMap.get? c.index.nodes n = some vn → L.metric.dist vn.vec q = .ok dn →
        Le L.metric.lt db dn) ∧
      (b = hit.id ∨ b ∈ c.index.deleted) := by
  obtain ⟨o1, es, hc, h1, hd, hk, hne, h2, _, h5, h6, _⟩ := coll_search_ok i he h
  refine ⟨_, queryVector_of h1, ?_⟩
  obtain ⟨eps, nns, ho, hl1, hsl, hn2, hn3, hs⟩ := search_reduce i.dimM i.idx i.cfg i.vecs hne hd hk
  have hord := searchLayer_order w (by have := i.cfg.ef; omega) (closed_all i.cfg i.idx.m.good.graph 0) (distOK_of i.dimM i.vecs hd _) ho
    (by have := i.cfg.ef; omega) hsl
  rw [h2] at hs
  -- the root of the final heap
  have hheap : Heap.IsHeap (minLess L.metric.lt) (newMinHeap L.metric.lt nns) := Heap.init_heap w.min nns
  have hperm : (newMinHeap L.metric.lt nns).Perm nns := Heap.init_perm _ _
  generalize hH : newMinHeap L.metric.lt nns = H at *
  have hHne : H ≠ [] := by
    intro hnil; rw [hnil] at hperm; exact hn2.ne (List.nil_perm.mp hperm)
  obtain ⟨b, rest, hpop, _⟩ := Heap.pop_eq (minLess L.metric.lt) H hHne
  obtain ⟨_, hmin⟩ := Heap.pop_heap w.min H hheap b rest hpop
  have hbm : b ∈ nns := hperm.subset ((Heap.pop_perm _ _ _ _ hpop).symm.subset (List.mem_cons_self ..))
  obtain ⟨vb, hvb, hdb⟩ := hn2.dist b hbm
  obtain ⟨v0, hv0, hl0⟩ := hn2.mem b hbm
  rw [hvb] at hv0; cases hv0
  obtain ⟨links, hlinks⟩ : ∃ links, vb.conns[0]? = some links := ⟨_, List.getElem?_eq_getElem hl0⟩
  have hes : es ≠ [] := by
    intro hnil; rw [hnil, hh] at h5; cases h5
  refine ⟨b.id, vb, b.dist, links, hvb, hdb, hlinks, ?_, ?_, ?_⟩
  · -- first hit is in the heap
    cases hs
    obtain ⟨_, ⟨rst, hp⟩, _⟩ := takeLive_spec L.metric c.index.deleted H.length k.toNat H
    have : hit.dist ∈ (takeLive L.metric c.index.deleted H.length k.toNat H).map Elem.dist := by
      rw [← h6, hh]; simp
    obtain ⟨e, hem, hed⟩ := List.mem_map.mp this
    have := hmin e (hp.symm.subset (List.mem_append_left _ hem))
    rw [← hed]; exact this
  · intro n hn vn dn hvn hdn
    exact hord.1 b hbm (fun e' he' => hmin e' (hperm.symm.subset he')) vb links hvb hlinks n hn dn ⟨vn, hvn, hdn⟩
  · cases hs
    rw [hh] at h5
    have hlen : 0 < H.length := by cases H with
      | nil => exact absurd rfl hHne
      | cons => simp
    obtain ⟨f, hf⟩ : ∃ f, H.length = f + 1 := ⟨H.length - 1, by omega⟩
    rw [hf] at h5 hes
    cases hkk : k.toNat with
    | zero => rw [hkk] at hes; exact absurd rfl hes
    | succ k' =>
      rw [hkk] at h5
      unfold takeLive at h5
      rw [hpop] at h5
      dsimp only at h5
      split at h5
      · rename_i hdel; exact Or.inr hdel
      · left; simp at h5; exact h5.1.symm


theorem w21_locally_optimal (L : Lib V D) (dim : Nat) (c : Coll) {S : Prop} {X : UInt64 → Prop} (i : WInv S L dim X c) (o : Object V)
    (embed : Embed V) (w : ∀ q, queryVector embed o = some q → Ranks L c q) (k : Int) (he : EmbedOK c embed dim [o]) (r : SearchResult V D)
    (hit : Hit V D) (hits : List (Hit V D)) (h : c.semanticSearch L o embed k = .ok r) (hh : r.objects = hit :: hits) :
    ∃ q, queryVector embed o = some q ∧
    ∃ (b : UInt64) (vb : Vertex) (db : D) (links : List UInt64), AMap.get? c.index.nodes b = some vb ∧
      L.metric.dist vb.vec q = .ok db ∧ vb.conns[0]? = some links ∧ Le L.metric.lt db hit.dist ∧
      (∀ n ∈ links, ∀ (vn : Vertex) (dn : D), AMap.get? c.index.nodes n = some vn → L.metric.dist vn.vec q = .ok dn →
        Le L.metric.lt db dn) ∧
      (b = hit.id ∨ b ∈ c.index.deleted) := by
  obtain ⟨q, hq, T, hT, wT, hs, hin⟩ := search_completed i he h w
  obtain ⟨q', hq', b, vb, db, links, b1, b2, b3, b4, b5, b6⟩ :=
    o21_locally_optimal (L.cmp T) dim c (i.cmp T) wT o embed k he r hit hits hs hh
  rw [hq] at hq'; cases hq'
  have hdb : T db := by rw [hT]; exact ⟨vb.vec, i.holds b vb b1, b2⟩
  refine ⟨q, hq, b, vb, db, links, b1, b2, b3, (le_cmp hdb (hin hit (by rw [hh]; simp))).mp b4, ?_, b6⟩
  intro n hn vn dn hvn hdn
  exact (le_cmp hdb (by rw [hT]; exact ⟨vn.vec, i.holds n vn hvn, hdn⟩)).mp (b5 n hn vn dn hvn hdn)

/-- C21: let `hit` be the first hit. There is an indexed vector `b`, at least as close as `hit`, such that no bottom-layer
neighbour of `b` is strictly closer to the query than `b`; and `b` is `hit` itself unless `b` was deleted. -/
theorem C21_locally_optimal (L : Lib V D) (dim : Nat) (c : Coll) (hr : ReachAny L dim c) (o : Object V)
    (embed : Embed V) (w : ∀ q, queryVector embed o = some q → Ranks L c q) (k : Int) (he : EmbedOK c embed dim [o])
    (r : SearchResult V D) (hit : Hit V D) (hits : List (Hit V D))
    (h : c.semanticSearch L o embed k = .ok r) (hh : r.objects = hit :: hits) :
    ∃ q, queryVector embed o = some q ∧
    ∃ (b : UInt64) (vb : Vertex) (db : D) (links : List UInt64), AMap.get? c.index.nodes b = some vb ∧
      L.metric.dist vb.vec q = .ok db ∧ vb.conns[0]? = some links ∧ Le L.metric.lt db hit.dist ∧
      (∀ n ∈ links, ∀ (vn : Vertex) (dn : D), AMap.get? c.index.nodes n = some vn → L.metric.dist vn.vec q = .ok dn →
        Le L.metric.lt db dn) ∧
      (b = hit.id ∨ b ∈ c.index.deleted) :=
  w21_locally_optimal L dim c hr.weak.1 o embed w k he r hit hits h hh

example : ∃ r hit hits, (demoState demoCfg c16Ops).semanticSearch demoLib (demoObj 5) noEmbed 3 = .ok r ∧ r.objects = hit :: hits ∧
    hits.length = 2 := ⟨_, _, _, rfl, rfl, rfl⟩

theorem o21_nothing_evaluated_is_closer (L : Lib V D) (dim : Nat) (c : Coll) {S : Prop} {X : UInt64 → Prop} (i : WInv S L dim X c) (w : Ord L.metric.lt)
    (o : Object V) (embed : Embed V) (k : Int) (he : EmbedOK c embed dim [o]) (r : SearchResult V D)
    (h : c.semanticSearch L o embed k = .ok r) :
    ∃ (q : Vec) (d : D) (epv : Vertex) (eps : List (Elem D)) (s : SL D),
      queryVector embed o = some q ∧
      AMap.get? c.index.nodes c.index.entry = some epv ∧ L.metric.dist epv.vec q = .ok d ∧
      descend L.metric c.index.nodes c.index.cfg.mMax0 q 0 c.index.maxLayer [{ id := c.index.entry, dist := d }] = .ok eps ∧
      searchLoop L.metric c.index.nodes c.index.cfg.mMax0 q c.index.cfg.ef 0 (c.index.nodes.length + eps.length + 1)
        { visited := eps.map Elem.id, cands := newMinHeap L.metric.lt eps, nn := newMaxHeap L.metric.lt eps } = .ok s ∧
      (∀ hit ∈ r.objects, ∃ e ∈ s.nn, e.id = hit.id ∧ e.dist = hit.dist) ∧
      (∀ x ∈ s.visited, ∀ (vx : Vertex) (dx : D), AMap.get? c.index.nodes x = some vx → L.metric.dist vx.vec q = .ok dx →
        ∃ e ∈ s.nn, Le L.metric.lt e.dist dx) ∧
      (∀ e ∈ eps, e.id ∈ s.visited) := by
  obtain ⟨o1, es, hc, h1, hd, hk, hne, h2, _, h5, h6, _⟩ := coll_search_ok i he h
  have hef := i.cfg.ef
  have hsr := h2
  unfold Hnsw.search at hsr
  rw [if_neg (by omega)] at hsr
  obtain ⟨epv, he1, hsr⟩ := (bind_ok_iff _ _ _).mp hsr
  obtain ⟨d, he2, hsr⟩ := (bind_ok_iff _ _ _).mp hsr
  obtain ⟨eps, he3, hsr⟩ := (bind_ok_iff _ _ _).mp hsr
  obtain ⟨nns, he4, hsr⟩ := (bind_ok_iff _ _ _).mp hsr
  have hent : HasLevel c.index.nodes c.index.entry c.index.maxLayer := by
    rcases i.idx.m.good.entry with h1 | h1
    · exact absurd h1 hne
    · exact h1
  have hepv := nodeAt_eq_ok.mp he1
  have heps0 : EpsOK L.metric c.index.nodes (o1.vec.getD []) (fun x => HasLevel c.index.nodes x c.index.maxLayer)
      [{ id := c.index.entry, dist := d }] := by
    refine ⟨by simp, by simp, ?_, ?_⟩
    · intro e he; simp at he; subst he; exact hent
    · intro e he; simp at he; subst he; exact ⟨epv, hepv, he2⟩
  obtain ⟨eps', hr', ho, hl1⟩ := descend_spec L.metric c.index.nodes c.index.cfg.mMax0 (o1.vec.getD [])
      (fun l x => HasLevel c.index.nodes x l) 0
      (fun l x hx => hx.mono (by omega)) c.index.maxLayer [{ id := c.index.entry, dist := d }]
      (fun l _ _ => closed_all i.cfg i.idx.m.good.graph l)
      (fun l _ _ => distOK_of i.dimM i.vecs hd _)
      (by simpa using heps0) rfl
  rw [he3] at hr'; cases hr'
  unfold searchLayer at he4
  rw [if_neg (by omega)] at he4
  obtain ⟨s, hs, hn⟩ := (bind_ok_iff _ _ _).mp he4
  cases hn
  obtain ⟨fin, hvis⟩ := searchLoop_order w (by omega) (closed_all i.cfg i.idx.m.good.graph 0) (distOK_of i.dimM i.vecs hd _) _ _ s
    (sinv_init L.metric c.index.nodes _ c.index.cfg.ef _ eps ho (by omega)) (oinv_init w ho) hs
  refine ⟨_, d, epv, eps, s, queryVector_of h1, hepv, he2, he3, hs, ?_, ?_, ?_⟩
  · intro hit hh
    obtain ⟨j, hj, hjj⟩ := List.getElem_of_mem hh
    have hl : r.objects.length = es.length := by have := congrArg List.length h5; simpa using this
    have hid : es[j].id = hit.id := by
      have := congrArg (fun l => l[j]?) h5
      simp only [List.getElem?_map, List.getElem?_eq_getElem hj, List.getElem?_eq_getElem (hl ▸ hj : j < es.length), hjj] at this
      simpa using this.symm
    have hdi : es[j].dist = hit.dist := by
      have := congrArg (fun l => l[j]?) h6
      simp only [List.getElem?_map, List.getElem?_eq_getElem hj, List.getElem?_eq_getElem (hl ▸ hj : j < es.length), hjj] at this
      simpa using this.symm
    cases hsr
    obtain ⟨_, ⟨rst, hp⟩, _⟩ := takeLive_spec L.metric c.index.deleted (newMinHeap L.metric.lt s.nn).length k.toNat (newMinHeap L.metric.lt s.nn)
    exact ⟨_, (Heap.init_perm _ _).subset (hp.symm.subset (List.mem_append_left _ (List.getElem_mem _))), hid, hdi⟩
  · exact fun x hx vx dx g1 g2 => fin.best x hx dx ⟨vx, g1, g2⟩
  · exact fun e hem => hvis _ (List.mem_map_of_mem hem)


theorem w21_nothing_evaluated_is_closer (L : Lib V D) (dim : Nat) (c : Coll) {S : Prop} {X : UInt64 → Prop} (i : WInv S L dim X c)
    (o : Object V) (embed : Embed V) (w : ∀ q, queryVector embed o = some q → Ranks L c q) (k : Int) (he : EmbedOK c embed dim [o])
    (r : SearchResult V D) (h : c.semanticSearch L o embed k = .ok r) :
    ∃ (q : Vec) (d : D) (epv : Vertex) (eps : List (Elem D)) (s : SL D),
      queryVector embed o = some q ∧
      AMap.get? c.index.nodes c.index.entry = some epv ∧ L.metric.dist epv.vec q = .ok d ∧
      descend L.metric c.index.nodes c.index.cfg.mMax0 q 0 c.index.maxLayer [{ id := c.index.entry, dist := d }] = .ok eps ∧
      searchLoop L.metric c.index.nodes c.index.cfg.mMax0 q c.index.cfg.ef 0 (c.index.nodes.length + eps.length + 1)
        { visited := eps.map Elem.id, cands := newMinHeap L.metric.lt eps, nn := newMaxHeap L.metric.lt eps } = .ok s ∧
      (∀ hit ∈ r.objects, ∃ e ∈ s.nn, e.id = hit.id ∧ e.dist = hit.dist) ∧
      (∀ x ∈ s.visited, ∀ (vx : Vertex) (dx : D), AMap.get? c.index.nodes x = some vx → L.metric.dist vx.vec q = .ok dx →
        ∃ e ∈ s.nn, Le L.metric.lt e.dist dx) ∧
      (∀ e ∈ eps, e.id ∈ s.visited) := by
  obtain ⟨q, hq, T, hT, wT, hs, hin⟩ := search_completed i he h w
  obtain ⟨q', d, epv, eps, s, hq', b1, b2, b3, b4, b5, b6, b7⟩ :=
    o21_nothing_evaluated_is_closer (L.cmp T) dim c (i.cmp T) wT o embed k he r hs
  rw [hq] at hq'; cases hq'
  have g : SameOn (fun x => x = q) c.Holds T L.metric (L.cmp T).metric :=
    sameOn_cmp L (fun v x dd hv hx hdd => by subst hx; rw [hT]; exact ⟨v, hv, hdd⟩)
  have e0 : ElemsIn T [({ id := c.index.entry, dist := d } : Elem D)] := by
    intro e he; simp at he; subst he
    rw [hT]; exact ⟨epv.vec, i.holds _ epv b1, b2⟩
  obtain ⟨d1, d2⟩ := descend_swap g i.holds c.index.cfg.mMax0 rfl 0 c.index.maxLayer e0
  rw [d1] at b3
  have e1 := d2 eps b3
  rw [newMinHeap_swap g e1, newMaxHeap_swap g e1] at b4
  obtain ⟨l1, l2⟩ := searchLoop_swap g i.holds c.index.cfg.mMax0 rfl c.index.cfg.ef 0 (c.index.nodes.length + eps.length + 1)
    (s := { visited := eps.map Elem.id, cands := newMinHeap L.metric.lt eps, nn := newMaxHeap L.metric.lt eps })
    ⟨e1.perm (Heap.init_perm _ _), e1.perm (Heap.init_perm _ _)⟩
  rw [l1] at b4
  refine ⟨q, d, epv, eps, s, hq, b1, b2, b3, b4, b5, ?_, b7⟩
  intro x hx vx dx hvx hdx
  obtain ⟨e, he1, he2⟩ := b6 x hx vx dx hvx hdx
  exact ⟨e, he1, (le_cmp ((l2 s b4).2 e he1) (by rw [hT]; exact ⟨vx.vec, i.holds x vx hvx, hdx⟩)).mp he2⟩

/-- C21: no vector the search evaluated is strictly closer to the query than the best one it kept. `s` is the state in which
the bottom-layer loop (`search.go:65-107`) of this search stops; `s.visited` are the ids whose distance it computed; all
hits come from `s.nn`. -/
theorem C21_nothing_evaluated_is_closer (L : Lib V D) (dim : Nat) (c : Coll) (hr : ReachAny L dim c)
    (o : Object V) (embed : Embed V) (w : ∀ q, queryVector embed o = some q → Ranks L c q) (k : Int) (he : EmbedOK c embed dim [o]) (r : SearchResult V D)
    (h : c.semanticSearch L o embed k = .ok r) :
    ∃ (q : Vec) (d : D) (epv : Vertex) (eps : List (Elem D)) (s : SL D),
      queryVector embed o = some q ∧
      AMap.get? c.index.nodes c.index.entry = some epv ∧ L.metric.dist epv.vec q = .ok d ∧
      descend L.metric c.index.nodes c.index.cfg.mMax0 q 0 c.index.maxLayer [{ id := c.index.entry, dist := d }] = .ok eps ∧
      searchLoop L.metric c.index.nodes c.index.cfg.mMax0 q c.index.cfg.ef 0 (c.index.nodes.length + eps.length + 1)
        { visited := eps.map Elem.id, cands := newMinHeap L.metric.lt eps, nn := newMaxHeap L.metric.lt eps } = .ok s ∧
      (∀ hit ∈ r.objects, ∃ e ∈ s.nn, e.id = hit.id ∧ e.dist = hit.dist) ∧
      (∀ x ∈ s.visited, ∀ (vx : Vertex) (dx : D), AMap.get? c.index.nodes x = some vx → L.metric.dist vx.vec q = .ok dx →
        ∃ e ∈ s.nn, Le L.metric.lt e.dist dx) ∧
      (∀ e ∈ eps, e.id ∈ s.visited) :=
  w21_nothing_evaluated_is_closer L dim c hr.weak.1 o embed w k he r h

example : ReachAny demoLib 1 (demoState demoCfg c16Ops) ∧
    ∃ r, (demoState demoCfg c16Ops).semanticSearch demoLib (demoObj 5) noEmbed 3 = .ok r := ⟨(demo_reach _).any, _, rfl⟩

end Vectory
