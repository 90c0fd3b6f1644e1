import Verif.Lemmas.MMHeap
import Verif.Lemmas.Basic
import Verif.Lemmas.Order
import Verif.Model.DiskAnn
namespace Vectory.DiskAnn
open Vectory (Elem Metric Ord DimOK)
variable {D : Type}

/-- the graph is sound: every vertex is stored under its own id, has a vector of the right dimension and the object id 0, and links only
to stored vertices other than itself. -/
structure GOK (g : Graph) (dim : Nat) : Prop where
  nd : (AMap.keys g).Nodup
  key : ∀ k v, g.get? k = some v → v.id = k
  vec : ∀ k v, g.get? k = some v → v.vector.length = dim
  obj : ∀ k v, g.get? k = some v → v.objId = 0
  closed : ∀ k v, g.get? k = some v → ∀ n ∈ v.neighbors, n ∈ AMap.keys g
  noself : ∀ k v, g.get? k = some v → k ∉ v.neighbors

/-- `e` carries the true distance of its vertex to `q`. -/
def True' (M : Metric D) (g : Graph) (q : Vec) (e : Elem D) : Prop :=
  ∃ v, g.get? e.id = some v ∧ M.dist v.vector q = .ok e.dist

theorem vertexAt_of {g : Graph} {id : UInt64} {v : Vertex} (h : g.get? id = some v) : vertexAt g id = .ok v := by
  unfold vertexAt; rw [h]

theorem get_of_mem {g : Graph} {id : UInt64} (h : id ∈ AMap.keys g) : ∃ v, g.get? id = some v := by
  rw [← AMap.get?_isSome_iff] at h
  exact Option.isSome_iff_exists.mp h

theorem mem_of_get {g : Graph} {id : UInt64} {v : Vertex} (h : g.get? id = some v) : id ∈ AMap.keys g := by
  rw [← AMap.get?_isSome_iff, h]; rfl

theorem mm_pop {lt : Elem D → Elem D → Bool} (w : Heap.WeakOrder lt) (l : List (Elem D)) :
    (l = [] ∧ MMHeap.pop lt l = none) ∨ ∃ x rest, MMHeap.pop lt l = some (x, rest) ∧ l.Perm (x :: rest) := by
  cases l with
  | nil =>
    left
    refine ⟨rfl, ?_⟩
    have h : MMHeap.down lt (Heap.swap ([] : List (Elem D)) 0 (([] : List (Elem D)).length - 1)) 0 (([] : List (Elem D)).length - 1) = [] :=
      List.perm_nil.mp ((MMHeap.down_perm lt _ _ _).trans (Heap.swap_perm _ _ _))
    unfold MMHeap.pop; simp only [h]; rfl
  | cons a l =>
    right
    obtain ⟨x, rest, h, _, hp, _⟩ := MMHeap.pop_spec w a (a :: l) (by simp)
    exact ⟨x, rest, h, hp⟩

/-- `trim` does not fail, keeps a part and gets the length down. -/
theorem trim_spec {M : Metric D} (w : Ord M.lt) (ls : Nat) : ∀ n (l : List (Elem D)), l.length ≤ n →
    ∃ l', trim M ls n l = .ok l' ∧ (∀ e ∈ l', e ∈ l) ∧ l'.length = min ls l.length := by
  intro n
  induction n with
  | zero =>
    intro l hl
    refine ⟨l, rfl, fun e h => h, by omega⟩
  | succ n ih =>
    intro l hl
    unfold trim
    by_cases hlt : ls < l.length
    · rw [if_pos hlt]
      have hne : l ≠ [] := by rintro rfl; simp at hlt
      obtain ⟨a, ha⟩ := List.exists_mem_of_ne_nil l hne
      obtain ⟨x, rest, h, hp, _⟩ := MMHeap.popMax_spec w.min a l hne
      rw [h]
      have hlen := hp.length_eq
      simp only [List.length_cons] at hlen
      obtain ⟨l', h1, h2, h3⟩ := ih rest (by omega)
      exact ⟨l', h1, fun e he => hp.symm.subset (List.mem_cons_of_mem _ (h2 e he)), by omega⟩
    · rw [if_neg hlt]
      exact ⟨l, rfl, fun e h => h, by omega⟩

theorem pushNeighbor_spec {M : Metric D} (w : Ord M.lt) {g : Graph} {dim : Nat} (hd : DimOK M dim) (G : GOK g dim) {q : Vec}
    (hq : q.length = dim) (ls : Nat) (l : List (Elem D)) (n : UInt64) (hn : n ∈ AMap.keys g)
    (hl : ∀ e ∈ l, True' M g q e) :
    ∃ l', pushNeighbor M g q ls l n = .ok l' ∧ (∀ e ∈ l', True' M g q e) ∧ l'.length ≤ l.length + 1 := by
  obtain ⟨v, hv⟩ := get_of_mem hn
  obtain ⟨d, hdd⟩ := hd v.vector q (G.vec n v hv) hq
  have hp := MMHeap.push_perm (minLess M.lt) l { id := n, dist := d }
  obtain ⟨l', h1, h2, h3⟩ := trim_spec w ls _ (MMHeap.push (minLess M.lt) l { id := n, dist := d }) (Nat.le_refl _)
  refine ⟨l', ?_, ?_, ?_⟩
  · unfold pushNeighbor
    rw [vertexAt_of hv]; simp only [ok_bind, hdd]; exact h1
  · intro e he
    rcases List.mem_cons.mp (hp.subset (h2 e he)) with rfl | h
    · exact ⟨v, hv, hdd⟩
    · exact hl e h
  · have := hp.length_eq; simp at this; omega

theorem pushAll_spec {M : Metric D} (w : Ord M.lt) {g : Graph} {dim : Nat} (hd : DimOK M dim) (G : GOK g dim) {q : Vec}
    (hq : q.length = dim) (ls : Nat) : ∀ (ns : List UInt64) (l : List (Elem D)), (∀ n ∈ ns, n ∈ AMap.keys g) →
    (∀ e ∈ l, True' M g q e) →
    ∃ l', ns.foldlM (pushNeighbor M g q ls) l = .ok l' ∧ (∀ e ∈ l', True' M g q e) ∧ l'.length ≤ l.length + ns.length := by
  intro ns
  induction ns with
  | nil => intro l _ hl; exact ⟨l, rfl, hl, by simp⟩
  | cons n ns ih =>
    intro l hn hl
    obtain ⟨l1, h1, h2, h3⟩ := pushNeighbor_spec w hd G hq ls l n (hn n (List.mem_cons_self ..)) hl
    obtain ⟨l2, k1, k2, k3⟩ := ih l1 (fun x hx => hn x (List.mem_cons_of_mem _ hx)) h2
    refine ⟨l2, ?_, k2, by simp; omega⟩
    rw [List.foldlM_cons, h1]; exact k1

/-- links of the vertices whose (cut) id has not been visited. -/
def openLinks (g : Graph) (visited : List UInt32) : Nat :=
  (g.map (fun p => if p.1.toUInt32 ∈ visited then 0 else p.2.neighbors.length)).sum

theorem openLinks_nil (g : Graph) : openLinks g [] = links g := by
  unfold openLinks links; simp

theorem openLinks_cons_le (g : Graph) (x : UInt32) (vis : List UInt32) : openLinks g (x :: vis) ≤ openLinks g vis := by
  unfold openLinks
  induction g with
  | nil => simp
  | cons p g ih =>
    simp only [List.map_cons, List.sum_cons]
    have : (if p.1.toUInt32 ∈ x :: vis then 0 else p.2.neighbors.length) ≤ (if p.1.toUInt32 ∈ vis then 0 else p.2.neighbors.length) := by
      by_cases h : p.1.toUInt32 ∈ vis
      · rw [if_pos h, if_pos (List.mem_cons_of_mem _ h)]; exact Nat.le_refl _
      · rw [if_neg h]; split <;> omega
    omega

theorem openLinks_cons (g : Graph) (k : UInt64) (v : Vertex) (vis : List UInt32) (h : (k, v) ∈ g) (hk : k.toUInt32 ∉ vis) :
    openLinks g (k.toUInt32 :: vis) + v.neighbors.length ≤ openLinks g vis := by
  induction g with
  | nil => cases h
  | cons p g ih =>
    rcases List.mem_cons.mp h with rfl | h
    · have := openLinks_cons_le g k.toUInt32 vis
      unfold openLinks at *
      simp only [List.map_cons, List.sum_cons]
      rw [if_pos (List.mem_cons_self ..), if_neg hk]
      omega
    · have := ih h
      unfold openLinks at *
      simp only [List.map_cons, List.sum_cons]
      have : (if p.1.toUInt32 ∈ k.toUInt32 :: vis then 0 else p.2.neighbors.length) ≤ (if p.1.toUInt32 ∈ vis then 0 else p.2.neighbors.length) := by
        by_cases h : p.1.toUInt32 ∈ vis
        · rw [if_pos h, if_pos (List.mem_cons_of_mem _ h)]; exact Nat.le_refl _
        · rw [if_neg h]; split <;> omega
      omega

structure SInv (M : Metric D) (g : Graph) (del : List UInt32) (q : Vec) (st : SearchState D) : Prop where
  res : ∀ e ∈ st.results, True' M g q e
  found : ∀ e ∈ st.found, True' M g q e ∧ ∃ v, g.get? e.id = some v ∧ v.objId ∉ del
  seen : ∀ e ∈ st.found, e.id.toUInt32 ∈ st.visited
  nd : (st.found.map (fun e => e.id.toUInt32)).Nodup

theorem searchLoop_spec {M : Metric D} (w : Ord M.lt) {g : Graph} {dim : Nat} (hd : DimOK M dim) (G : GOK g dim) {q : Vec}
    (hq : q.length = dim) (ls : Nat) (del : List UInt32) : ∀ fuel (st : SearchState D), SInv M g del q st →
    st.results.length + openLinks g st.visited < fuel →
    ∃ st', searchLoop M g del q ls fuel st = .ok st' ∧ SInv M g del q st' ∧ (∀ x ∈ st.visited, x ∈ st'.visited) ∧
      (∀ e ∈ st.found, e ∈ st'.found) := by
  intro fuel
  induction fuel with
  | zero => intro st _ h; omega
  | succ fuel ih =>
    intro st I hf
    unfold searchLoop
    rcases mm_pop w.min st.results with ⟨_, h⟩ | ⟨e, rest, h, hp⟩
    · rw [h]; exact ⟨st, rfl, I, fun x hx => hx, fun e he => he⟩
    · rw [h]
      dsimp only
      have hlen := hp.length_eq
      simp only [List.length_cons] at hlen
      have hrest : ∀ x ∈ rest, True' M g q x := fun x hx => I.res x (hp.symm.subset (List.mem_cons_of_mem _ hx))
      by_cases hv : e.id.toUInt32 ∈ st.visited
      · rw [if_pos hv]
        obtain ⟨st', a, b, c, d⟩ := ih { st with results := rest } ⟨hrest, I.found, I.seen, I.nd⟩ (by dsimp only; omega)
        exact ⟨st', a, b, c, d⟩
      · rw [if_neg hv]
        have het : True' M g q e := I.res e (hp.symm.subset (List.mem_cons_self ..))
        obtain ⟨v, hg, hdv⟩ := het
        rw [vertexAt_of hg]
        simp only [ok_bind]
        obtain ⟨l', h1, h2, h3⟩ := pushAll_spec w hd G hq ls v.neighbors rest (G.closed e.id v hg) hrest
        rw [h1]
        simp only [ok_bind]
        have hopen := openLinks_cons g e.id v st.visited (AMap.mem_of_get? hg) hv
        obtain ⟨st', a, b, c, d⟩ := ih (SearchState.mk l' (e.id.toUInt32 :: st.visited)
            (if v.objId ∈ del then st.found else st.found ++ [e])) (by
              refine ⟨h2, ?_, ?_, ?_⟩
              · intro x hx
                dsimp only at hx
                split at hx
                · exact I.found x hx
                · rename_i hdel
                  rcases List.mem_append.mp hx with hx | hx
                  · exact I.found x hx
                  · rcases List.mem_singleton.mp hx with rfl
                    exact ⟨⟨v, hg, hdv⟩, v, hg, hdel⟩
              · intro x hx
                dsimp only at hx ⊢
                split at hx
                · exact List.mem_cons_of_mem _ (I.seen x hx)
                · rcases List.mem_append.mp hx with hx | hx
                  · exact List.mem_cons_of_mem _ (I.seen x hx)
                  · rcases List.mem_singleton.mp hx with rfl
                    exact List.mem_cons_self ..
              · dsimp only
                split
                · exact I.nd
                · rw [List.map_append, List.nodup_append]
                  refine ⟨I.nd, by simp, ?_⟩
                  intro a ha b hb hab
                  obtain ⟨x, hx, rfl⟩ := List.mem_map.mp ha
                  simp only [List.map_cons, List.map_nil, List.mem_singleton] at hb
                  exact hv (hb ▸ hab ▸ I.seen x hx)) (by dsimp only; omega)
        refine ⟨st', a, b, fun x hx => c x (List.mem_cons_of_mem _ hx), fun x hx => d x ?_⟩
        dsimp only
        split
        · exact hx
        · exact List.mem_append_left _ hx

theorem init_single {lt : Elem D → Elem D → Bool} (e : Elem D) : MMHeap.init lt [e] = [e] :=
  List.perm_singleton.mp (MMHeap.init_perm lt [e])

/-- what a search visits. -/
structure Found (M : Metric D) (g : Graph) (del : List UInt32) (q : Vec) (found : List (Elem D)) : Prop where
  ok : ∀ e ∈ found, True' M g q e ∧ ∃ v, g.get? e.id = some v ∧ v.objId ∉ del
  nd : (found.map (fun e => e.id.toUInt32)).Nodup

theorem visit_spec {M : Metric D} (w : Ord M.lt) {mi : MemIndex} {dim : Nat} (hd : DimOK M dim) (G : GOK mi.graph dim)
    (hs : mi.s ∈ AMap.keys mi.graph) (hw : mi.wired = true) {q : Vec} (hq : q.length = dim) (ls : Nat) (del : List UInt32) :
    ∃ found, mi.visit M del q ls = .ok found ∧ Found M mi.graph del q found := by
  obtain ⟨v, hv⟩ := get_of_mem hs
  obtain ⟨d, hdd⟩ := hd v.vector q (G.vec _ v hv) hq
  obtain ⟨st, h1, h2, _⟩ := searchLoop_spec w hd G hq ls del (links mi.graph + 2)
    { results := MMHeap.init (minLess M.lt) [{ id := mi.s, dist := d }], visited := [], found := [] }
    ⟨by
      intro e he
      rw [init_single] at he
      rcases List.mem_singleton.mp he with rfl
      exact ⟨v, hv, hdd⟩, fun e he => (nomatch he), fun e he => (nomatch he), List.nodup_nil⟩
    (by dsimp only; rw [init_single, openLinks_nil]; simp; omega)
  refine ⟨st.found, ?_, h2.found, h2.nd⟩
  unfold MemIndex.visit
  rw [vertexAt_of hv]
  simp only [ok_bind, hw, Bool.true_eq_false, if_false, hdd, h1]

/-! ## pruning -/

theorem ownNeighbors_spec {M : Metric D} {g : Graph} {dim : Nat} (hd : DimOK M dim) (G : GOK g dim) (v : Vertex)
    (hv : v.vector.length = dim) : ∀ ns, (∀ n ∈ ns, n ∈ AMap.keys g) →
    ∃ es, ownNeighbors M g v ns = .ok es ∧ es.map Elem.id = ns := by
  intro ns
  induction ns with
  | nil => intro _; exact ⟨[], rfl, rfl⟩
  | cons n ns ih =>
    intro hn
    obtain ⟨nv, hnv⟩ := get_of_mem (hn n (List.mem_cons_self ..))
    obtain ⟨d, hdd⟩ := hd v.vector nv.vector hv (G.vec _ nv hnv)
    obtain ⟨es, h1, h2⟩ := ih (fun x hx => hn x (List.mem_cons_of_mem _ hx))
    refine ⟨{ id := n, dist := d } :: es, ?_, by simp [h2]⟩
    unfold ownNeighbors
    rw [vertexAt_of hnv]; simp only [ok_bind, hdd, h1]

theorem distancesTo_spec {M : Metric D} {g : Graph} {dim : Nat} (hd : DimOK M dim) (G : GOK g dim) (v : Vertex)
    (hv : v.vector.length = dim) : ∀ ns, (∀ n ∈ ns, n ∈ AMap.keys g) →
    ∃ es, distancesTo M g v ns = .ok es ∧ es.map Elem.id = ns := by
  intro ns
  induction ns with
  | nil => intro _; exact ⟨[], rfl, rfl⟩
  | cons n ns ih =>
    intro hn
    obtain ⟨nv, hnv⟩ := get_of_mem (hn n (List.mem_cons_self ..))
    obtain ⟨d, hdd⟩ := hd nv.vector v.vector (G.vec _ nv hnv) hv
    obtain ⟨es, h1, h2⟩ := ih (fun x hx => hn x (List.mem_cons_of_mem _ hx))
    refine ⟨{ id := n, dist := d } :: es, ?_, by simp [h2]⟩
    unfold distancesTo
    rw [vertexAt_of hnv]; simp only [ok_bind, hdd, h1]

theorem closeTo_spec {M : Metric D} (close : D → D → Bool) {g : Graph} {dim : Nat} (hd : DimOK M dim) (G : GOK g dim) (m : UInt64)
    (hm : m ∈ AMap.keys g) : ∀ cs : List (Elem D), (∀ c ∈ cs, c.id ∈ AMap.keys g) →
    ∃ r, closeTo M close g m cs = .ok r ∧ (∀ x ∈ r, ∃ c ∈ cs, c.id = x) ∧
      (∀ mv d, g.get? m = some mv → M.dist mv.vector mv.vector = .ok d → ∀ c ∈ cs, c.id = m → close d c.dist = true → m ∈ r) := by
  intro cs
  induction cs with
  | nil => intro _; exact ⟨[], rfl, fun x hx => (nomatch hx), fun _ _ _ _ c hc => (nomatch hc)⟩
  | cons c cs ih =>
    intro hc
    obtain ⟨mv, hmv⟩ := get_of_mem hm
    obtain ⟨cv, hcv⟩ := get_of_mem (hc c (List.mem_cons_self ..))
    obtain ⟨d, hdd⟩ := hd mv.vector cv.vector (G.vec _ mv hmv) (G.vec _ cv hcv)
    obtain ⟨r, h1, h2, h3⟩ := ih (fun x hx => hc x (List.mem_cons_of_mem _ hx))
    have hid : cv.id = c.id := G.key _ cv hcv
    refine ⟨if close d c.dist then cv.id :: r else r, ?_, ?_, ?_⟩
    · unfold closeTo
      rw [vertexAt_of hmv, vertexAt_of hcv]; simp only [ok_bind, hdd, h1]
    · intro x hx
      split at hx
      · rcases List.mem_cons.mp hx with rfl | hx
        · exact ⟨c, List.mem_cons_self .., hid.symm⟩
        · obtain ⟨c', a, b⟩ := h2 x hx; exact ⟨c', List.mem_cons_of_mem _ a, b⟩
      · obtain ⟨c', a, b⟩ := h2 x hx; exact ⟨c', List.mem_cons_of_mem _ a, b⟩
    · intro mv' d' hmv' hd' c' hc' hcm hcl
      rw [hmv] at hmv'; cases hmv'
      rcases List.mem_cons.mp hc' with rfl | hc'
      · rw [hcm, hmv] at hcv; cases hcv
        rw [hdd] at hd'; cases hd'
        rw [if_pos hcl, G.key _ mv hmv]; exact List.mem_cons_self ..
      · have := h3 mv d' hmv hd' c' hc' hcm hcl
        split
        · exact List.mem_cons_of_mem _ this
        · exact this

/-- what `robustPrune` returns: ids of candidates that are not excluded; the first one is nearest among the candidates that are not
excluded. -/
structure PruneOK (lt : D → D → Bool) (cands : List (Elem D)) (dropped : List UInt64) (r : List UInt64) : Prop where
  sub : ∀ x ∈ r, ∃ c ∈ cands, c.id = x
  out : ∀ x ∈ r, x ∉ dropped
  first : ∀ x, r.head? = some x → ∃ c ∈ cands, c.id = x ∧ ∀ c' ∈ cands, c'.id ∉ dropped → lt c'.dist c.dist = false
  ne : r = [] → ∀ c ∈ cands, c.id ∈ dropped

theorem pruneLoop_spec {M : Metric D} (w : Ord M.lt) (close : D → D → Bool) {g : Graph} {dim : Nat} (hd : DimOK M dim) (G : GOK g dim)
    (full : Bool) : ∀ fuel (l : List (Elem D)) (dropped : List UInt64), l.length ≤ fuel → Heap.IsHeap (minLess M.lt) l →
    (∀ c ∈ l, c.id ∈ AMap.keys g) →
    ∃ r, pruneLoop M close g full fuel l dropped = .ok r ∧ PruneOK M.lt l dropped r ∧ (full = true → r.length ≤ 1) ∧
      ((∀ c ∈ l, ∀ v d, g.get? c.id = some v → M.dist v.vector v.vector = .ok d → close d c.dist = true) → r.Nodup) ∧
      ((l.map Elem.id).Nodup → r.Nodup) := by
  intro fuel
  induction fuel with
  | zero =>
    intro l dropped hl _ _
    have : l = [] := List.length_eq_zero_iff.mp (by omega)
    subst this
    exact ⟨[], rfl, ⟨fun x hx => (nomatch hx), fun x hx => (nomatch hx), fun x hx => (nomatch hx), fun _ c hc => (nomatch hc)⟩,
      fun _ => by simp, fun _ => List.nodup_nil, fun _ => List.nodup_nil⟩
  | succ fuel ih =>
    intro l dropped hl hh hk
    unfold pruneLoop
    cases hp : Heap.pop (minLess M.lt) l with
    | none =>
      have := (Heap.pop_none _ l).mp hp
      subst this
      exact ⟨[], rfl, ⟨fun x hx => (nomatch hx), fun x hx => (nomatch hx), fun x hx => (nomatch hx), fun _ c hc => (nomatch hc)⟩,
        fun _ => by simp, fun _ => List.nodup_nil, fun _ => List.nodup_nil⟩
    | some r =>
      obtain ⟨e, rest⟩ := r
      dsimp only
      have hperm := Heap.pop_perm _ l e rest hp
      obtain ⟨hheap, hmin⟩ := Heap.pop_heap w.min l hh e rest hp
      have hlen := hperm.length_eq
      simp only [List.length_cons] at hlen
      have hrl : ∀ c ∈ rest, c ∈ l := fun c hc => hperm.symm.subset (List.mem_cons_of_mem _ hc)
      have hel : e ∈ l := hperm.symm.subset (List.mem_cons_self ..)
      have hnd : (l.map Elem.id).Nodup → (rest.map Elem.id).Nodup ∧ e.id ∉ rest.map Elem.id := by
        intro h
        have h2 := (hperm.map Elem.id).nodup_iff.mp h
        simp only [List.map_cons, List.nodup_cons] at h2
        exact ⟨h2.2, h2.1⟩
      by_cases hdr : e.id ∈ dropped
      · rw [if_pos hdr]
        obtain ⟨r, h1, h2, h3, h4, h5⟩ := ih rest dropped (by omega) hheap (fun c hc => hk c (hrl c hc))
        refine ⟨r, h1, ⟨?_, h2.out, ?_, ?_⟩, h3, fun h => h4 (fun c hc => h c (hrl c hc)), fun h => h5 (hnd h).1⟩
        · intro x hx; obtain ⟨c, a, b⟩ := h2.sub x hx; exact ⟨c, hrl c a, b⟩
        · intro x hx
          obtain ⟨c, a, b, d⟩ := h2.first x hx
          refine ⟨c, hrl c a, b, fun c' hc' hnn => ?_⟩
          rcases List.mem_cons.mp (hperm.subset hc') with rfl | hc'
          · exact absurd hdr hnn
          · exact d c' hc' hnn
        · intro he c hc
          rcases List.mem_cons.mp (hperm.subset hc) with rfl | hc
          · exact hdr
          · exact h2.ne he c hc
      · rw [if_neg hdr]
        have hfirst : ∃ c ∈ l, c.id = e.id ∧ ∀ c' ∈ l, c'.id ∉ dropped → M.lt c'.dist c.dist = false :=
          ⟨e, hel, rfl, fun c' hc' _ => hmin c' hc'⟩
        cases full with
        | true =>
          simp only [if_true]
          refine ⟨[e.id], rfl, ⟨?_, ?_, ?_, fun h => (nomatch h)⟩, fun _ => by simp, fun _ => by simp, fun _ => by simp⟩
          · intro x hx; rcases List.mem_singleton.mp hx with rfl; exact ⟨e, hel, rfl⟩
          · intro x hx; rcases List.mem_singleton.mp hx with rfl; exact hdr
          · intro x hx; simp only [List.head?_cons, Option.some.injEq] at hx; subst hx; exact hfirst
        | false =>
          simp only [Bool.false_eq_true, if_false]
          obtain ⟨more, m1, m2, m3⟩ := closeTo_spec close hd G e.id (hk e hel) rest (fun c hc => hk c (hrl c hc))
          rw [m1]
          simp only [ok_bind]
          obtain ⟨r, h1, h2, _, h4, h5⟩ := ih rest (more ++ dropped) (by omega) hheap (fun c hc => hk c (hrl c hc))
          rw [h1]
          simp only [ok_bind]
          refine ⟨e.id :: r, rfl, ⟨?_, ?_, ?_, fun h => (nomatch h)⟩, fun h => (nomatch h), ?_, ?_⟩
          · intro x hx
            rcases List.mem_cons.mp hx with rfl | hx
            · exact ⟨e, hel, rfl⟩
            · obtain ⟨c, a, b⟩ := h2.sub x hx; exact ⟨c, hrl c a, b⟩
          · intro x hx
            rcases List.mem_cons.mp hx with rfl | hx
            · exact hdr
            · exact fun h => h2.out x hx (List.mem_append_right _ h)
          · intro x hx; simp only [List.head?_cons, Option.some.injEq] at hx; subst hx; exact hfirst
          · intro h
            refine List.nodup_cons.mpr ⟨fun hin => ?_, h4 (fun c hc => h c (hrl c hc))⟩
            obtain ⟨c, hc, hce⟩ := h2.sub _ hin
            obtain ⟨v, hv⟩ := get_of_mem (hk e hel)
            obtain ⟨d, hdd⟩ := hd v.vector v.vector (G.vec _ v hv) (G.vec _ v hv)
            have := m3 v d hv hdd c hc hce (h c (hrl c hc) v d (hce ▸ hv) hdd)
            exact h2.out _ hin (List.mem_append_left _ this)
          · intro h
            refine List.nodup_cons.mpr ⟨fun hin => ?_, h5 (hnd h).1⟩
            obtain ⟨c, hc, hce⟩ := h2.sub _ hin
            exact (hnd h).2 (hce ▸ List.mem_map_of_mem hc)

theorem robustPrune_spec {M : Metric D} (w : Ord M.lt) (close : D → D → Bool) {g : Graph} {dim : Nat} (hd : DimOK M dim) (G : GOK g dim)
    (maxDegree : UInt32) (v : Vertex) (hv : v.vector.length = dim) (hn : ∀ n ∈ v.neighbors, n ∈ AMap.keys g) (cands : List (Elem D))
    (hc : ∀ c ∈ cands, c.id ∈ AMap.keys g) :
    ∃ own r, robustPrune M close g maxDegree v cands = .ok r ∧ ownNeighbors M g v v.neighbors = .ok own ∧
      own.map Elem.id = v.neighbors ∧ PruneOK M.lt (cands ++ own) [v.id] r ∧
      (v.neighbors.length = maxDegree.toNat → r.length ≤ 1) ∧
      ((∀ c ∈ cands ++ own, ∀ v d, g.get? c.id = some v → M.dist v.vector v.vector = .ok d → close d c.dist = true) → r.Nodup) ∧
      (((cands ++ own).map Elem.id).Nodup → r.Nodup) := by
  obtain ⟨own, h1, h2⟩ := ownNeighbors_spec hd G v hv v.neighbors hn
  have hperm : (newMinHeap M.lt (cands ++ own)).Perm (cands ++ own) := Heap.init_perm _ _
  have hk : ∀ c ∈ cands ++ own, c.id ∈ AMap.keys g := by
    intro c hcm
    rcases List.mem_append.mp hcm with h | h
    · exact hc c h
    · exact hn _ (h2 ▸ List.mem_map_of_mem h)
  obtain ⟨r, a1, a2, a3, a4, a5⟩ := pruneLoop_spec w close hd G (v.neighbors.length == maxDegree.toNat) _ (newMinHeap M.lt (cands ++ own))
    [v.id] (Nat.le_refl _) (Heap.init_heap w.min _) (fun c hcm => hk c (hperm.subset hcm))
  refine ⟨own, r, ?_, h1, h2, ?_, ?_, ?_, ?_⟩
  · unfold robustPrune; rw [h1]; simp only [ok_bind]; exact a1
  · refine ⟨?_, a2.out, ?_, fun he c hcm => a2.ne he c (hperm.symm.subset hcm)⟩
    · intro x hx; obtain ⟨c, p, q⟩ := a2.sub x hx; exact ⟨c, hperm.subset p, q⟩
    · intro x hx
      obtain ⟨c, p, q, s⟩ := a2.first x hx
      exact ⟨c, hperm.subset p, q, fun c' hc' => s c' (hperm.symm.subset hc')⟩
  · intro h; exact a3 (by simp [h])
  · intro h; exact a4 (fun c hcm => h c (hperm.subset hcm))
  · intro h; exact a5 ((hperm.map Elem.id).nodup_iff.mpr h)

/-! ## insertion -/

/-- replacing a vertex by one with other (sound) neighbours keeps the graph sound. -/
theorem GOK.setNeighbors {g : Graph} {dim : Nat} (G : GOK g dim) {k : UInt64} {v : Vertex} (hv : g.get? k = some v) (ns : List UInt64)
    (hc : ∀ n ∈ ns, n ∈ AMap.keys g) (hs : k ∉ ns) :
    GOK (g.set k { v with neighbors := ns }) dim ∧ AMap.keys (g.set k { v with neighbors := ns }) = AMap.keys g := by
  have hk : AMap.keys (g.set k { v with neighbors := ns }) = AMap.keys g := by
    rw [AMap.keys_set, if_pos (mem_of_get hv)]
  have sp : ∀ x u, (g.set k { v with neighbors := ns }).get? x = some u →
      (x = k ∧ u = { v with neighbors := ns }) ∨ g.get? x = some u := by
    intro x u h
    rw [AMap.get?_set] at h
    split at h
    · left; rename_i hx; cases h; exact ⟨hx.symm, rfl⟩
    · right; exact h
  refine ⟨⟨hk ▸ G.nd, ?_, ?_, ?_, ?_, ?_⟩, hk⟩
  · intro x u h
    rcases sp x u h with ⟨rfl, rfl⟩ | h
    · exact G.key _ v hv
    · exact G.key x u h
  · intro x u h
    rcases sp x u h with ⟨rfl, rfl⟩ | h
    · exact G.vec _ v hv
    · exact G.vec x u h
  · intro x u h
    rcases sp x u h with ⟨rfl, rfl⟩ | h
    · exact G.obj _ v hv
    · exact G.obj x u h
  · intro x u h n hn
    rw [hk]
    rcases sp x u h with ⟨rfl, rfl⟩ | h
    · exact hc n hn
    · exact G.closed x u h n hn
  · intro x u h
    rcases sp x u h with ⟨rfl, rfl⟩ | h
    · exact hs
    · exact G.noself x u h

/-- the vectors under every id. -/
def vecs (g : Graph) (k : UInt64) : Option Vec := (g.get? k).map Vertex.vector

theorem vecs_set {g : Graph} {k : UInt64} {v : Vertex} (hv : g.get? k = some v) (ns : List UInt64) :
    vecs (g.set k { v with neighbors := ns }) = vecs g := by
  funext x
  unfold vecs
  rw [AMap.get?_set]
  split
  · rename_i h; subst h; rw [hv]; rfl
  · rfl

theorem linkBack_spec {M : Metric D} (w : Ord M.lt) (close : D → D → Bool) {g : Graph} {dim : Nat} (hd : DimOK M dim) (G : GOK g dim)
    (maxDegree : UInt32) (id n : UInt64) (hid : id ∈ AMap.keys g) (hn : n ∈ AMap.keys g) (hne : n ≠ id) :
    ∃ g', linkBack M close maxDegree id g n = .ok g' ∧ GOK g' dim ∧ AMap.keys g' = AMap.keys g ∧ vecs g' = vecs g := by
  obtain ⟨nb, hnb⟩ := get_of_mem hn
  have hc1 : ∀ x ∈ nb.neighbors ++ [id], x ∈ AMap.keys g := by
    intro x hx
    rcases List.mem_append.mp hx with h | h
    · exact G.closed n nb hnb x h
    · rcases List.mem_singleton.mp h with rfl; exact hid
  have hs1 : n ∉ nb.neighbors ++ [id] := by
    intro h
    rcases List.mem_append.mp h with h | h
    · exact G.noself n nb hnb h
    · exact hne (List.mem_singleton.mp h)
  obtain ⟨G1, hk1⟩ := G.setNeighbors hnb _ hc1 hs1
  have hget : (g.set n { nb with neighbors := nb.neighbors ++ [id] }).get? n = some { nb with neighbors := nb.neighbors ++ [id] } :=
    AMap.get?_set_self _ _ _
  have hv1 := vecs_set hnb (nb.neighbors ++ [id])
  unfold linkBack
  rw [vertexAt_of hnb]
  simp only [ok_bind]
  split
  · have hvl : ({ nb with neighbors := nb.neighbors ++ [id] } : Vertex).vector.length = dim := G.vec n nb hnb
    obtain ⟨ds, a1, a2⟩ := distancesTo_spec hd G1 { nb with neighbors := nb.neighbors ++ [id] } hvl (nb.neighbors ++ [id])
      (fun x hx => by rw [hk1]; exact hc1 x hx)
    rw [a1]
    simp only [ok_bind]
    obtain ⟨own, r, b1, b2, b3, b4, _⟩ := robustPrune_spec w close hd G1 maxDegree { nb with neighbors := nb.neighbors ++ [id] } hvl
      (fun x hx => by rw [hk1]; exact hc1 x hx) ds (fun c hc => by rw [hk1]; exact hc1 _ (a2 ▸ List.mem_map_of_mem hc))
    rw [b1]
    simp only [ok_bind]
    have hr : ∀ x ∈ r, x ∈ nb.neighbors ++ [id] := by
      intro x hx
      obtain ⟨c, hc, rfl⟩ := b4.sub x hx
      rcases List.mem_append.mp hc with h | h
      · rw [← a2]; exact List.mem_map_of_mem h
      · have : c.id ∈ own.map Elem.id := List.mem_map_of_mem h
        rw [b3] at this; exact this
    obtain ⟨G2, hk2⟩ := G1.setNeighbors hget r (fun x hx => by rw [hk1]; exact hc1 x (hr x hx)) (fun h => hs1 (hr _ h))
    exact ⟨_, rfl, G2, by rw [hk2, hk1], by rw [vecs_set hget r, hv1]⟩
  · exact ⟨_, rfl, G1, hk1, hv1⟩

theorem linkAll_spec {M : Metric D} (w : Ord M.lt) (close : D → D → Bool) {dim : Nat} (hd : DimOK M dim)
    (maxDegree : UInt32) (id : UInt64) : ∀ (ns : List UInt64) (g : Graph), GOK g dim → id ∈ AMap.keys g →
    (∀ n ∈ ns, n ∈ AMap.keys g ∧ n ≠ id) →
    ∃ g', ns.foldlM (linkBack M close maxDegree id) g = .ok g' ∧ GOK g' dim ∧ AMap.keys g' = AMap.keys g ∧ vecs g' = vecs g := by
  intro ns
  induction ns with
  | nil => intro g G _ _; exact ⟨g, rfl, G, rfl, rfl⟩
  | cons n ns ih =>
    intro g G hid hn
    obtain ⟨h1, h2⟩ := hn n (List.mem_cons_self ..)
    obtain ⟨g1, a1, a2, a3, a4⟩ := linkBack_spec w close hd G maxDegree id n hid h1 h2
    obtain ⟨g2, b1, b2, b3, b4⟩ := ih g1 a2 (a3 ▸ hid) (fun x hx => a3 ▸ hn x (List.mem_cons_of_mem _ hx))
    refine ⟨g2, ?_, b2, b3.trans a3, b4.trans a4⟩
    rw [List.foldlM_cons, a1]; exact b1

theorem GOK.add {g : Graph} {dim : Nat} (G : GOK g dim) (id : UInt64) (hid : id ∉ AMap.keys g) (vec : Vec) (hv : vec.length = dim) :
    GOK (g.set id { id := id, vector := vec }) dim ∧ AMap.keys (g.set id { id := id, vector := vec }) = AMap.keys g ++ [id] := by
  have hk : AMap.keys (g.set id { id := id, vector := vec }) = AMap.keys g ++ [id] := by
    rw [AMap.keys_set, if_neg hid]
  have sp : ∀ x u, (g.set id { id := id, vector := vec }).get? x = some u →
      (x = id ∧ u = { id := id, vector := vec }) ∨ g.get? x = some u := by
    intro x u h
    rw [AMap.get?_set] at h
    split at h
    · left; rename_i hx; cases h; exact ⟨hx.symm, rfl⟩
    · right; exact h
  refine ⟨⟨AMap.keys_set_nodup G.nd _ _, ?_, ?_, ?_, ?_, ?_⟩, hk⟩
  · intro x u h
    rcases sp x u h with ⟨rfl, rfl⟩ | h
    · rfl
    · exact G.key x u h
  · intro x u h
    rcases sp x u h with ⟨rfl, rfl⟩ | h
    · exact hv
    · exact G.vec x u h
  · intro x u h
    rcases sp x u h with ⟨rfl, rfl⟩ | h
    · rfl
    · exact G.obj x u h
  · intro x u h n hn
    rw [hk]
    rcases sp x u h with ⟨rfl, rfl⟩ | h
    · cases hn
    · exact List.mem_append_left _ (G.closed x u h n hn)
  · intro x u h
    rcases sp x u h with ⟨rfl, rfl⟩ | h
    · exact fun h => (nomatch h)
    · exact G.noself x u h

theorem connect_spec {M : Metric D} (w : Ord M.lt) (close : D → D → Bool) {mi : MemIndex} {dim : Nat} (hd : DimOK M dim)
    (G : GOK mi.graph dim) (hs : mi.s ∈ AMap.keys mi.graph) (hw : mi.wired = true) (del : List UInt32) (vec : Vec) (hv : vec.length = dim)
    (ls : Nat) (id : UInt64) (hid : id ∉ AMap.keys mi.graph) :
    ∃ mi', mi.connect M close del vec ls id = .ok mi' ∧ mi' = { mi with graph := mi'.graph } ∧ GOK mi'.graph dim ∧
      AMap.keys mi'.graph = AMap.keys mi.graph ++ [id] ∧
      (∀ k, vecs mi'.graph k = if k = id then some vec else vecs mi.graph k) := by
  obtain ⟨G1, hk1⟩ := G.add id hid vec hv
  have hget : (mi.graph.set id { id := id, vector := vec }).get? id = some { id := id, vector := vec } := AMap.get?_set_self _ _ _
  obtain ⟨found, f1, f2⟩ := visit_spec (mi := { mi with graph := mi.graph.set id { id := id, vector := vec } }) w hd G1
    (by dsimp only; rw [hk1]; exact List.mem_append_left _ hs) hw hv ls del
  have hfk : ∀ c ∈ found, c.id ∈ AMap.keys (mi.graph.set id { id := id, vector := vec }) := by
    intro c hc
    obtain ⟨⟨v, h, _⟩, _⟩ := f2.ok c hc
    exact mem_of_get h
  obtain ⟨own, r, b1, b2, b3, b4, _⟩ := robustPrune_spec w close hd G1 mi.maxDegree { id := id, vector := vec } hv
    (fun n hn => (nomatch hn)) found hfk
  have hown : own = [] := List.map_eq_nil_iff.mp b3
  subst hown
  have hr : ∀ x ∈ r, x ∈ AMap.keys (mi.graph.set id { id := id, vector := vec }) ∧ x ≠ id := by
    intro x hx
    obtain ⟨c, hc, rfl⟩ := b4.sub x hx
    rw [List.append_nil] at hc
    exact ⟨hfk c hc, fun h => b4.out _ hx (by rw [h]; exact List.mem_singleton.mpr rfl)⟩
  obtain ⟨G2, hk2⟩ := G1.setNeighbors hget r (fun x hx => (hr x hx).1) (fun h => (hr _ h).2 rfl)
  obtain ⟨g3, c1, c2, c3, c4⟩ := linkAll_spec w close hd mi.maxDegree id r
    ((mi.graph.set id { id := id, vector := vec }).set id { id := id, vector := vec, neighbors := r }) G2
    (by rw [hk2, hk1]; simp) (fun x hx => by rw [hk2]; exact hr x hx)
  refine ⟨{ mi with graph := g3 }, ?_, rfl, c2, by dsimp only; rw [c3, hk2, hk1], ?_⟩
  · unfold MemIndex.connect
    dsimp only
    rw [f1]
    simp only [ok_bind]
    rw [b1]
    simp only [ok_bind]
    rw [c1]
    rfl
  · intro k
    dsimp only
    rw [c4, vecs_set hget r]
    unfold vecs
    rw [AMap.get?_set]
    by_cases h : id = k
    · rw [if_pos h, if_pos h.symm]; rfl
    · rw [if_neg h, if_neg (fun e => h e.symm)]

/-! ## the final pops -/

theorem popK_spec {M : Metric D} (w : Ord M.lt) : ∀ k (l : List (Elem D)), Heap.IsHeap (minLess M.lt) l →
    ∃ left, l.Perm (popK (minLess M.lt) k l ++ left) ∧ (popK (minLess M.lt) k l).length = min k l.length ∧
      (popK (minLess M.lt) k l).Pairwise (fun a b => M.lt b.dist a.dist = false) ∧
      (∀ a ∈ popK (minLess M.lt) k l, ∀ b ∈ left, M.lt b.dist a.dist = false) := by
  intro k
  induction k with
  | zero => intro l _; exact ⟨l, by simp [popK], by simp [popK], by simp [popK], fun a h => (nomatch h)⟩
  | succ k ih =>
    intro l hl
    unfold popK
    cases hp : Heap.pop (minLess M.lt) l with
    | none =>
      have := (Heap.pop_none _ l).mp hp
      subst this
      exact ⟨[], by simp, by simp, by simp, fun a h => (nomatch h)⟩
    | some r =>
      obtain ⟨e, rest⟩ := r
      have hperm := Heap.pop_perm _ l e rest hp
      obtain ⟨hheap, hmin⟩ := Heap.pop_heap w.min l hl e rest hp
      obtain ⟨left, a1, a2, a3, a4⟩ := ih rest hheap
      have hlen := hperm.length_eq
      simp only [List.length_cons] at hlen
      dsimp only
      have hrl : ∀ x ∈ rest, x ∈ l := fun x hx => hperm.symm.subset (List.mem_cons_of_mem _ hx)
      refine ⟨left, hperm.trans (a1.cons e), by simp only [List.length_cons]; omega, ?_, ?_⟩
      · refine List.pairwise_cons.mpr ⟨fun b hb => ?_, a3⟩
        exact hmin b (hrl b (a1.symm.subset (List.mem_append_left _ hb)))
      · intro a ha b hb
        rcases List.mem_cons.mp ha with rfl | ha
        · exact hmin b (hrl b (a1.symm.subset (List.mem_append_right _ hb)))
        · exact a4 a ha b hb

/-! ## merging -/

/-- on an ordered min-max heap, `trim` keeps the smallest elements. -/
theorem trim_mm {M : Metric D} (w : Ord M.lt) (d : Elem D) (k : Nat) : ∀ n (l : List (Elem D)), l.length ≤ n →
    MMHeap.IsMM (minLess M.lt) d l →
    ∃ out dropped, trim M k n l = .ok out ∧ l.Perm (out ++ dropped) ∧ out.length = min k l.length ∧
      ∀ a ∈ out, ∀ b ∈ dropped, M.lt b.dist a.dist = false := by
  intro n
  induction n with
  | zero =>
    intro l hl _
    exact ⟨l, [], rfl, by simp, by omega, fun _ _ _ h => (nomatch h)⟩
  | succ n ih =>
    intro l hl hm
    unfold trim
    by_cases hlt : k < l.length
    · rw [if_pos hlt]
      have hne : l ≠ [] := by rintro rfl; simp at hlt
      obtain ⟨x, rest, h, hp, hx⟩ := MMHeap.popMax_spec w.min d l hne
      obtain ⟨hm', hmax⟩ := hx hm
      rw [h]
      have hlen := hp.length_eq
      simp only [List.length_cons] at hlen
      obtain ⟨out, dr, h1, h2, h3, h4⟩ := ih rest (by omega) hm'
      refine ⟨out, x :: dr, h1, ?_, by omega, ?_⟩
      · exact hp.trans ((h2.cons x).trans List.perm_middle.symm)
      · intro a ha b hb
        rcases List.mem_cons.mp hb with rfl | hb
        · exact hmax a (hp.symm.subset (List.mem_cons_of_mem _ (h2.symm.subset (List.mem_append_left _ ha))))
        · exact h4 a ha b hb
    · rw [if_neg hlt]
      exact ⟨l, [], rfl, by simp, by omega, fun _ _ _ h => (nomatch h)⟩

end Vectory.DiskAnn
