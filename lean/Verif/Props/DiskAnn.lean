import Verif.Lemmas.DiskAnn
/-! # The in-memory DiskANN index: C49, C58, C59, C60, C61

The package is not used by the rest of vectory; its own entry points are `MemoryIndex.insert`, `MemoryIndex.search` and
`DiskAnn.Search`. -/
namespace Vectory
open DiskAnn
variable {D : Type}

/-- the memory indexes that can exist: a new one, after any inserts (with fresh ids, as `DiskAnn.Insert` hands them out, any list sizes
and any deletions in between), and after it was made read-only. -/
inductive Built (M : Metric D) (close : D → D → Bool) (firstId : UInt64) (maxDegree dim : UInt32) : MemIndex → Prop where
  | new : Built M close firstId maxDegree dim (newMemIndex firstId maxDegree dim)
  | insert {mi mi' : MemIndex} {del : List UInt32} {vec : Vec} {listSize : Nat} {id : UInt64} :
      Built M close firstId maxDegree dim mi → id ∉ AMap.keys mi.graph → mi.insert M close del vec listSize id = .ok mi' →
      Built M close firstId maxDegree dim mi'
  | readOnly {mi : MemIndex} : Built M close firstId maxDegree dim mi → Built M close firstId maxDegree dim { mi with readOnly := true }

namespace DiskAnn

structure BInv (dim maxDegree : UInt32) (firstId : UInt64) (mi : MemIndex) : Prop where
  g : GOK mi.graph dim.toNat
  wired : mi.wired = true
  dim : mi.dim = dim
  deg : mi.maxDegree = maxDegree
  first : mi.firstId = firstId
  fresh : mi.once = false → mi.graph = [] ∧ mi.s = 0
  start : mi.once = true → mi.s ∈ AMap.keys mi.graph

theorem liftE_ok {A : Type} {x : Except Panic A} {a : A} (h : x = .ok a) : liftE x = .ok a := by rw [h]; rfl

theorem insert_spec {M : Metric D} (w : Ord M.lt) (close : D → D → Bool) {dim maxDegree : UInt32} {firstId : UInt64}
    (hd : DimOK M dim.toNat) {mi : MemIndex} (I : BInv dim maxDegree firstId mi) (hro : mi.readOnly = false) (del : List UInt32)
    (vec : Vec) (hv : vec.length = dim.toNat) (ls : Nat) (id : UInt64) (hid : id ∉ AMap.keys mi.graph) :
    ∃ mi', mi.insert M close del vec ls id = .ok mi' ∧ BInv dim maxDegree firstId mi' ∧ mi'.readOnly = false ∧
      AMap.keys mi'.graph = AMap.keys mi.graph ++ [id] ∧
      (∀ k, vecs mi'.graph k = if k = id then some vec else vecs mi.graph k) := by
  unfold MemIndex.insert
  rw [if_neg (by simp [hro]), if_neg (by rw [I.dim]; simp [hv]), if_neg (by simp [I.wired])]
  cases ho : mi.once with
  | false =>
    obtain ⟨hg, hs⟩ := I.fresh ho
    simp only [if_true]
    rw [if_pos hg]
    obtain ⟨G1, hk1⟩ := I.g.add id hid vec hv
    refine ⟨_, rfl, ⟨G1, I.wired, I.dim, I.deg, I.first, fun h => (nomatch h), fun _ => ?_⟩, hro, hk1, ?_⟩
    · dsimp only; rw [if_pos hs, hk1]; simp
    · intro k
      dsimp only
      unfold vecs
      rw [AMap.get?_set]
      by_cases h : id = k
      · rw [if_pos h, if_pos h.symm]; rfl
      · rw [if_neg h, if_neg (fun e => h e.symm)]
  | true =>
    simp only [Bool.true_eq_false, if_false]
    obtain ⟨mi', h1, h2, h3, h4, h5⟩ := connect_spec w close hd I.g (I.start ho) I.wired del vec hv ls id hid
    refine ⟨mi', liftE_ok h1, ?_, by rw [h2]; exact hro, h4, h5⟩
    refine ⟨h3, by rw [h2]; exact I.wired, by rw [h2]; exact I.dim, by rw [h2]; exact I.deg, by rw [h2]; exact I.first, ?_, ?_⟩
    · intro h; rw [h2] at h; simp only at h; rw [ho] at h; cases h
    · intro _
      rw [h4]
      have : mi'.s = mi.s := by rw [h2]
      rw [this]; exact List.mem_append_left _ (I.start ho)

theorem insert_ok {M : Metric D} (close : D → D → Bool) {mi mi' : MemIndex} {del : List UInt32} {vec : Vec} {ls : Nat} {id : UInt64}
    (h : mi.insert M close del vec ls id = .ok mi') : mi.readOnly = false ∧ vec.length = mi.dim.toNat := by
  unfold MemIndex.insert at h
  split at h
  · cases h
  · rename_i h1
    split at h
    · cases h
    · rename_i h2
      exact ⟨by simpa using h1, by simpa using h2⟩

theorem built_inv {M : Metric D} (w : Ord M.lt) {close : D → D → Bool} {dim maxDegree : UInt32} {firstId : UInt64}
    (hd : DimOK M dim.toNat) {mi : MemIndex} (b : Built M close firstId maxDegree dim mi) : BInv dim maxDegree firstId mi := by
  induction b with
  | new =>
    exact ⟨⟨List.nodup_nil, fun _ _ h => (nomatch h), fun _ _ h => (nomatch h), fun _ _ h => (nomatch h), fun _ _ h => (nomatch h),
      fun _ _ h => (nomatch h)⟩, rfl, rfl, rfl, rfl, fun _ => ⟨rfl, rfl⟩, fun h => (nomatch h)⟩
  | insert _ hid h ih =>
    obtain ⟨h1, h2⟩ := insert_ok close h
    rw [ih.dim] at h2
    obtain ⟨mi'', a, b, _⟩ := insert_spec w close hd ih h1 _ _ h2 _ _ hid
    rw [h] at a; cases a; exact b
  | readOnly _ ih => exact ⟨ih.g, ih.wired, ih.dim, ih.deg, ih.first, ih.fresh, ih.start⟩

end DiskAnn

/-- C59: inserting a vector of the index's dimension under a fresh id succeeds in every reachable index that is not read-only, adds
exactly that id and that vector and leaves every other vector alone. -/
theorem C59_insert_succeeds {M : Metric D} (w : Ord M.lt) {close : D → D → Bool} {dim maxDegree : UInt32} {firstId : UInt64}
    (hd : DimOK M dim.toNat) {mi : MemIndex} (b : Built M close firstId maxDegree dim mi) (hro : mi.readOnly = false)
    (del : List UInt32) (vec : Vec) (hv : vec.length = dim.toNat) (listSize : Nat) (id : UInt64) (hid : id ∉ AMap.keys mi.graph) :
    ∃ mi', mi.insert M close del vec listSize id = .ok mi' ∧ AMap.keys mi'.graph = AMap.keys mi.graph ++ [id] ∧
      (∀ k, (mi'.graph.get? k).map Vertex.vector = if k = id then some vec else (mi.graph.get? k).map Vertex.vector) := by
  obtain ⟨mi', h1, _, _, h4, h5⟩ := DiskAnn.insert_spec w close hd (DiskAnn.built_inv w hd b) hro del vec hv listSize id hid
  exact ⟨mi', h1, h4, h5⟩

/-- C59: a read-only index refuses every insert, and a vector of another dimension is refused. -/
theorem C59_insert_refused {M : Metric D} (close : D → D → Bool) (mi : MemIndex) (del : List UInt32) (vec : Vec) (listSize : Nat)
    (id : UInt64) :
    (mi.readOnly = true → mi.insert M close del vec listSize id = .error .readOnly) ∧
    (mi.readOnly = false → vec.length ≠ mi.dim.toNat → mi.insert M close del vec listSize id = .error .dimension) := by
  constructor
  · intro h; unfold MemIndex.insert; rw [if_pos h]
  · intro h1 h2; unfold MemIndex.insert; rw [if_neg (by simp [h1]), if_pos h2]

/-- C59: in every reachable index every link leads to a stored vertex other than itself. -/
theorem C59_graph_sound {M : Metric D} (w : Ord M.lt) {close : D → D → Bool} {dim maxDegree : UInt32} {firstId : UInt64}
    (hd : DimOK M dim.toNat) {mi : MemIndex} (b : Built M close firstId maxDegree dim mi) (k : UInt64) (v : DiskAnn.Vertex)
    (hv : mi.graph.get? k = some v) :
    v.id = k ∧ v.vector.length = dim.toNat ∧ k ∉ v.neighbors ∧ ∀ n ∈ v.neighbors, (mi.graph.get? n).isSome = true := by
  have I := (DiskAnn.built_inv w hd b).g
  exact ⟨I.key k v hv, I.vec k v hv, I.noself k v hv, fun n hn => (AMap.get?_isSome_iff _ _).mpr (I.closed k v hv n hn)⟩

namespace DiskAnn

/-- the search of a sound, non-empty index. -/
theorem search_sound_inv {M : Metric D} (w : Ord M.lt) {dim maxDegree : UInt32} {firstId : UInt64}
    (hd : DimOK M dim.toNat) {mi : MemIndex} (I : BInv dim maxDegree firstId mi) (hne : mi.graph ≠ []) (del : List UInt32)
    (q : Vec) (hq : q.length = dim.toNat) (k listSize : Nat) :
    ∃ hits, mi.search M del q k listSize = .ok hits ∧ hits.length ≤ k ∧ (hits.map Elem.id).Nodup ∧
      hits.Pairwise (fun a b => M.lt b.dist a.dist = false) ∧
      ∀ e ∈ hits, ∃ v, mi.graph.get? e.id = some v ∧ M.dist v.vector q = .ok e.dist ∧ v.objId ∉ del := by
  have ho : mi.once = true := by
    cases h : mi.once with
    | true => rfl
    | false => exact absurd (I.fresh h).1 hne
  obtain ⟨found, f1, f2⟩ := DiskAnn.visit_spec w hd I.g (I.start ho) I.wired hq listSize del
  obtain ⟨left, a1, a2, a3, _⟩ := DiskAnn.popK_spec w k (newMinHeap M.lt found) (Heap.init_heap w.min _)
  have hperm : (newMinHeap M.lt found).Perm found := Heap.init_perm _ _
  have hsub : ∀ e ∈ DiskAnn.popK (minLess M.lt) k (newMinHeap M.lt found), e ∈ found := fun e he =>
    hperm.subset (a1.symm.subset (List.mem_append_left _ he))
  refine ⟨_, by unfold MemIndex.search; rw [f1]; rfl, by omega, ?_, a3, ?_⟩
  · have h1 : ((newMinHeap M.lt found).map (fun e => e.id.toUInt32)).Nodup := (hperm.map _).nodup_iff.mpr f2.nd
    have h2 := (a1.map (fun e : Elem D => e.id.toUInt32)).nodup_iff.mp h1
    rw [List.map_append] at h2
    have h3 := (List.nodup_append.mp h2).1
    have h4 : (DiskAnn.popK (minLess M.lt) k (newMinHeap M.lt found)).map (fun e => e.id.toUInt32) =
        ((DiskAnn.popK (minLess M.lt) k (newMinHeap M.lt found)).map Elem.id).map UInt64.toUInt32 := by
      rw [List.map_map]; rfl
    rw [h4] at h3
    exact (List.pairwise_map.mp h3).imp (fun h e => h (by rw [e]))
  · intro e he
    obtain ⟨⟨v, h1, h2⟩, v', h3, h4⟩ := f2.ok e (hsub e he)
    rw [h1] at h3; cases h3
    exact ⟨v, h1, h2, h4⟩

end DiskAnn

/-- C58: a search of a reachable, non-empty index returns without panicking; every hit is a stored vertex with its true distance to
the query and an object id that is not deleted; no vertex occurs twice; hits are ordered by distance; there are at most `k`. -/
theorem C58_search_sound {M : Metric D} (w : Ord M.lt) {close : D → D → Bool} {dim maxDegree : UInt32} {firstId : UInt64}
    (hd : DimOK M dim.toNat) {mi : MemIndex} (b : Built M close firstId maxDegree dim mi) (hne : mi.graph ≠ []) (del : List UInt32)
    (q : Vec) (hq : q.length = dim.toNat) (k listSize : Nat) :
    ∃ hits, mi.search M del q k listSize = .ok hits ∧ hits.length ≤ k ∧ (hits.map Elem.id).Nodup ∧
      hits.Pairwise (fun a b => M.lt b.dist a.dist = false) ∧
      ∀ e ∈ hits, ∃ v, mi.graph.get? e.id = some v ∧ M.dist v.vector q = .ok e.dist ∧ v.objId ∉ del :=
  DiskAnn.search_sound_inv w hd (DiskAnn.built_inv w hd b) hne del q hq k listSize

/-- C58: an empty index cannot be searched: the start vertex does not exist and the search panics. `NewDiskAnn` starts with such an
index. -/
theorem C58_empty_panics (M : Metric D) (firstId : UInt64) (maxDegree dim : UInt32) (del : List UInt32) (q : Vec) (k listSize : Nat) :
    (newMemIndex firstId maxDegree dim).search M del q k listSize = .error .nilDeref := rfl

namespace DiskAnn

theorem searchLoop_del {M : Metric D} {g : Graph} (hobj : ∀ k v, g.get? k = some v → v.objId = 0) {q : Vec} {ls : Nat}
    {del del' : List UInt32} (h : (0 : UInt32) ∈ del ↔ (0 : UInt32) ∈ del') : ∀ fuel (st : SearchState D),
    searchLoop M g del q ls fuel st = searchLoop M g del' q ls fuel st := by
  intro fuel
  induction fuel with
  | zero => intro st; rfl
  | succ fuel ih =>
    intro st
    unfold searchLoop
    cases MMHeap.pop (minLess M.lt) st.results with
    | none => rfl
    | some r =>
      obtain ⟨e, rest⟩ := r
      dsimp only
      split
      · exact ih _
      · unfold vertexAt
        cases hg : g.get? e.id with
        | none => rfl
        | some v =>
          simp only [ok_bind, hobj _ v hg]
          have : (if (0 : UInt32) ∈ del then st.found else st.found ++ [e]) = (if (0 : UInt32) ∈ del' then st.found else st.found ++ [e]) := by
            by_cases h0 : (0 : UInt32) ∈ del
            · rw [if_pos h0, if_pos (h.mp h0)]
            · rw [if_neg h0, if_neg (fun h1 => h0 (h.mpr h1))]
          rw [this]
          congr 1
          funext l
          exact ih _

end DiskAnn

/-- C60 is false: the object id given to `insert` is not stored, so a deletion hides either nothing or everything. Whatever was
inserted, and whatever set of object ids is deleted: if 0 is not among them the search returns exactly what it returns with nothing
deleted; if 0 is among them it returns nothing. -/
theorem C60_deletes_ignored {M : Metric D} (w : Ord M.lt) {close : D → D → Bool} {dim maxDegree : UInt32} {firstId : UInt64}
    (hd : DimOK M dim.toNat) {mi : MemIndex} (b : Built M close firstId maxDegree dim mi) (hne : mi.graph ≠ []) (del : List UInt32)
    (q : Vec) (hq : q.length = dim.toNat) (k listSize : Nat) :
    ((0 : UInt32) ∉ del → mi.search M del q k listSize = mi.search M [] q k listSize) ∧
    ((0 : UInt32) ∈ del → mi.search M del q k listSize = .ok []) := by
  have I := DiskAnn.built_inv w hd b
  constructor
  · intro h0
    unfold MemIndex.search MemIndex.visit
    simp only [DiskAnn.searchLoop_del I.g.obj (del := del) (del' := []) (by simp [h0])]
  · intro h0
    obtain ⟨hits, h1, _, _, _, h5⟩ := C58_search_sound w hd b hne del q hq k listSize
    rw [h1]
    cases hits with
    | nil => rfl
    | cons e hits =>
      obtain ⟨v, a, _, c⟩ := h5 e (List.mem_cons_self ..)
      rw [I.g.obj _ v a] at c
      exact absurd h0 c

/-- C49: what the pruning of a vertex `v` (present neighbours `v.neighbors`) over any candidates returns: stored vertices other than `v`
taken from the candidates and the present neighbours, a nearest one of those first, and none only if there was nothing else than `v`
itself. Exactly which ones: `C49_prune_exact`. The degree bound is false: `C49_degree_exceeded`, `C49_degree_unbounded`. -/
theorem C49_prune_sound {M : Metric D} (w : Ord M.lt) {close : D → D → Bool} {dim maxDegree : UInt32} {firstId : UInt64}
    (hd : DimOK M dim.toNat) {mi : MemIndex} (b : Built M close firstId maxDegree dim mi) (v : DiskAnn.Vertex)
    (hv : v.vector.length = dim.toNat) (hn : ∀ n ∈ v.neighbors, n ∈ AMap.keys mi.graph) (cands : List (Elem D))
    (hc : ∀ c ∈ cands, c.id ∈ AMap.keys mi.graph) :
    ∃ own r, DiskAnn.robustPrune M close mi.graph maxDegree v cands = .ok r ∧ own.map Elem.id = v.neighbors ∧
      (∀ x ∈ r, x ≠ v.id ∧ ∃ c ∈ cands ++ own, c.id = x) ∧
      (∀ x, r.head? = some x → ∃ c ∈ cands ++ own, c.id = x ∧ ∀ c' ∈ cands ++ own, c'.id ≠ v.id → M.lt c'.dist c.dist = false) ∧
      (r = [] → ∀ c ∈ cands ++ own, c.id = v.id) := by
  obtain ⟨own, r, h1, _, h3, h4, _⟩ := DiskAnn.robustPrune_spec w close hd (DiskAnn.built_inv w hd b).g maxDegree v hv hn cands hc
  refine ⟨own, r, h1, h3, fun x hx => ⟨fun h => h4.out x hx (by simp [h]), h4.sub x hx⟩, ?_, fun h c hcm => ?_⟩
  · intro x hx
    obtain ⟨c, a, b, d⟩ := h4.first x hx
    exact ⟨c, a, b, fun c' hc' hne => d c' hc' (by simp [hne])⟩
  · simpa using h4.ne h c hcm

/-- C49: pruning returns no vertex twice, provided a vertex counts as close to itself (true of the Euclidean distance, where
`threshold * 0 <= d`). -/
theorem C49_prune_distinct {M : Metric D} (w : Ord M.lt) {close : D → D → Bool} {dim maxDegree : UInt32} {firstId : UInt64}
    (hd : DimOK M dim.toNat) {mi : MemIndex} (b : Built M close firstId maxDegree dim mi)
    (self : ∀ x d c, M.dist x x = .ok d → close d c = true) (v : DiskAnn.Vertex)
    (hv : v.vector.length = dim.toNat) (hn : ∀ n ∈ v.neighbors, n ∈ AMap.keys mi.graph) (cands : List (Elem D))
    (hc : ∀ c ∈ cands, c.id ∈ AMap.keys mi.graph) :
    ∃ r, DiskAnn.robustPrune M close mi.graph maxDegree v cands = .ok r ∧ r.Nodup := by
  obtain ⟨own, r, h1, _, _, _, _, h6, _⟩ := DiskAnn.robustPrune_spec w close hd (DiskAnn.built_inv w hd b).g maxDegree v hv hn cands hc
  exact ⟨r, h1, h6 (fun c _ x d _ hdd => self x.vector d c.dist hdd)⟩

/-- C61, for a DiskANN index without read-only parts: the result of `DiskAnn.Search` is the best `k` of what the read-write index
found; in general, merging keeps the `k` smallest if the first result is a smallest one. Excluded: the other cases, for which it is
false (`C61_first_always_kept`). -/
theorem C61_merge {M : Metric D} (w : Ord M.lt) (k : Nat) (results : List (Elem D))
    (h : ∀ x, results.head? = some x → ∀ y ∈ results, M.lt y.dist x.dist = false) :
    ∃ out dropped, DiskAnn.merge M k results = .ok out ∧ results.Perm (out ++ dropped) ∧ out.length = min k results.length ∧
      ∀ a ∈ out, ∀ b ∈ dropped, M.lt b.dist a.dist = false := by
  cases results with
  | nil => exact ⟨[], [], by
      have e : MMHeap.init (minLess M.lt) ([] : List (Elem D)) = [] := List.perm_nil.mp (MMHeap.init_perm _ [])
      unfold DiskAnn.merge; rw [e]; rfl, by simp, by simp, fun _ h => (nomatch h)⟩
  | cons x rs =>
    have hperm := MMHeap.init_perm (minLess M.lt) (x :: rs)
    obtain ⟨out, dr, h1, h2, h3, h4⟩ := DiskAnn.trim_mm w x k _ (MMHeap.init (minLess M.lt) (x :: rs)) (Nat.le_refl _)
      (MMHeap.init_mm w.min x _ (fun y hy => h x rfl y hy))
    exact ⟨out, dr, h1, hperm.symm.trans h2, by rw [h3, hperm.length_eq], h4⟩

namespace DiskAnn

theorem popMax_root {lt : Elem D → Elem D → Bool} (w : Heap.WeakOrder lt) (d : Elem D) (l : List (Elem D)) (hl : 2 ≤ l.length) :
    ∃ x rest, MMHeap.popMax lt l = some (x, rest) ∧ rest.length = l.length - 1 ∧ MMHeap.val d rest 0 = MMHeap.val d l 0 := by
  have hi : MMHeap.indexOfMax lt l l.length < l.length ∧ 1 ≤ MMHeap.indexOfMax lt l l.length := by
    unfold MMHeap.indexOfMax; split
    · omega
    · split <;> omega
  obtain ⟨rest, h1, h2, h3, h4, _⟩ := MMHeap.cut_spec w d l _ hi.1
  refine ⟨MMHeap.val d l (MMHeap.indexOfMax lt l l.length), rest, by unfold MMHeap.popMax; simp only [h1, h2], h4, ?_⟩
  have : MMHeap.val d (MMHeap.down lt (Heap.swap l (MMHeap.indexOfMax lt l l.length) (l.length - 1)) (MMHeap.indexOfMax lt l l.length)
      (l.length - 1)) 0 = MMHeap.val d l 0 := by
    rw [MMHeap.down_frame w d _ _ _ _ (by rw [Heap.swap_length]; omega) (Or.inr (by omega)),
      MMHeap.val_swap _ _ _ _ _ hi.1 (by omega), if_neg (by omega), if_neg (by omega)]
  rw [h3, MMHeap.val_append_left _ _ _ _ (by omega)] at this
  exact this

theorem trim_root {M : Metric D} (w : Ord M.lt) (d : Elem D) (k : Nat) (hk : 1 ≤ k) : ∀ n (l : List (Elem D)), l.length ≤ n → l ≠ [] →
    ∃ out, trim M k n l = .ok out ∧ out.length = min k l.length ∧ MMHeap.val d out 0 = MMHeap.val d l 0 := by
  intro n
  induction n with
  | zero => intro l hl hne; exact absurd (List.length_eq_zero_iff.mp (by omega)) hne
  | succ n ih =>
    intro l hl hne
    unfold trim
    by_cases hlt : k < l.length
    · rw [if_pos hlt]
      obtain ⟨x, rest, h1, h2, h3⟩ := popMax_root w.min d l (by omega)
      rw [h1]
      obtain ⟨out, a1, a2, a3⟩ := ih rest (by omega) (by intro h; rw [h] at h2; simp at h2; omega)
      exact ⟨out, a1, by omega, a3.trans h3⟩
    · rw [if_neg hlt]
      exact ⟨l, rfl, by omega, rfl⟩

end DiskAnn

/-- C61 is false in general: whatever the partial results are, the first one (the nearest in the read-write index) survives every merge,
however far it is. -/
theorem C61_first_always_kept {M : Metric D} (w : Ord M.lt) (k : Nat) (hk : 1 ≤ k) (x : Elem D) (rs : List (Elem D)) :
    ∃ out, DiskAnn.merge M k (x :: rs) = .ok out ∧ out.head? = some x ∧ out.length = min k (rs.length + 1) := by
  have hperm := MMHeap.init_perm (minLess M.lt) (x :: rs)
  have hne : MMHeap.init (minLess M.lt) (x :: rs) ≠ [] := by
    intro h; have := hperm.length_eq; rw [h] at this; simp at this
  obtain ⟨out, h1, h2, h3⟩ := DiskAnn.trim_root w x k hk _ (MMHeap.init (minLess M.lt) (x :: rs)) (Nat.le_refl _) hne
  have hl := hperm.length_eq
  simp only [List.length_cons] at hl
  refine ⟨out, h1, ?_, by rw [h2, hl]⟩
  rw [(MMHeap.init_order w.min x (x :: rs)).2] at h3
  have hpos : 0 < out.length := by omega
  cases out with
  | nil => simp at hpos
  | cons y out => exact congrArg some h3

/-- C61, consequence: with `k = 1` `DiskAnn.Search` returns the best hit of the read-write index alone; the read-only indexes, which hold
all earlier inserts, are ignored even when they contain nearer vectors. -/
theorem C61_one_ignores_readonly {M : Metric D} (w : Ord M.lt) (rw' : MemIndex) (ro : List MemIndex) (del : List UInt32) (q : Vec)
    (listSize : Nat) (x : Elem D) (rest : List (Elem D)) (h : rw'.search M del q 1 listSize = .ok (x :: rest)) (out : List (Elem D))
    (ho : DiskAnn.daSearch M rw' ro del q 1 listSize = .ok out) : out = [x] := by
  unfold DiskAnn.daSearch at ho
  rw [h] at ho
  simp only [ok_bind] at ho
  rw [bind_ok_iff] at ho
  obtain ⟨bs, _, ho⟩ := ho
  obtain ⟨out', h1, h2, h3⟩ := C61_first_always_kept w 1 (Nat.le_refl _) x (rest ++ bs.flatten)
  rw [List.cons_append, h1] at ho
  cases ho
  have hl : out.length = 1 := by omega
  cases out with
  | nil => cases h2
  | cons y out =>
    simp only [List.head?_cons, Option.some.injEq] at h2
    subst h2
    simp only [List.length_cons] at hl
    rw [List.length_eq_zero_iff.mp (show out.length = 0 by omega)]

/-! ## concrete indexes -/

/-- one-dimensional vectors, distance `|a - b|`. -/
def lineMetric : Metric Nat where
  lt a b := decide (a < b)
  dist a b :=
    match a, b with
    | [x], [y] => .ok ((x.toNat - y.toNat) + (y.toNat - x.toNat))
    | _, _ => .error .indexOutOfRange

theorem line_ord : Ord lineMetric.lt := ⟨fun a b h => by simp [lineMetric] at *; omega, fun a b c h1 h2 => by simp [lineMetric] at *; omega⟩

theorem line_dim : DimOK lineMetric 1 := by
  intro a b ha hb
  obtain ⟨x, rfl⟩ := List.length_eq_one_iff.mp ha
  obtain ⟨y, rfl⟩ := List.length_eq_one_iff.mp hb
  exact ⟨_, rfl⟩

/-- inserts `(id, x)` one after the other, nothing deleted, list size 10, threshold `t`. -/
def lineIndex (t : Nat) (firstId : UInt64) (maxDegree : UInt32) : List (UInt64 × UInt32) → Except DiskAnn.Fail MemIndex
  | [] => .ok (newMemIndex firstId maxDegree 1)
  | p :: ps => do
    let mi ← lineIndex t firstId maxDegree ps
    mi.insert lineMetric (fun d c => decide (t * d ≤ c)) [] [p.2] 10 p.1

/-- whether ids are fresh at each insert. -/
def freshIds : List (UInt64 × UInt32) → Bool
  | [] => true
  | p :: ps => freshIds ps && !(ps.map Prod.fst).contains p.1

theorem line_built (t : Nat) (firstId : UInt64) (maxDegree : UInt32) : ∀ (ps : List (UInt64 × UInt32)) (mi : MemIndex),
    freshIds ps = true → lineIndex t firstId maxDegree ps = .ok mi →
    Built lineMetric (fun d c => decide (t * d ≤ c)) firstId maxDegree 1 mi ∧ (∀ x ∈ AMap.keys mi.graph, x ∈ ps.map Prod.fst) := by
  intro ps
  induction ps with
  | nil => intro mi _ h; cases h; exact ⟨.new, fun x hx => (nomatch hx)⟩
  | cons p ps ih =>
    intro mi hf h
    unfold lineIndex at h
    rw [bind_ok_iff] at h
    obtain ⟨mi0, h0, h1⟩ := h
    simp only [freshIds, Bool.and_eq_true] at hf
    obtain ⟨b, hk⟩ := ih mi0 hf.1 h0
    have hid : p.1 ∉ AMap.keys mi0.graph := fun hc => by
      have h2 := hf.2
      rw [Bool.not_eq_true', List.contains_iff_mem.mpr (hk _ hc)] at h2
      cases h2
    refine ⟨.insert b hid h1, ?_⟩
    obtain ⟨h2, h3⟩ := DiskAnn.insert_ok _ h1
    have I := DiskAnn.built_inv (dim := 1) line_ord line_dim b
    obtain ⟨mi'', a1, _, _, a4, _⟩ := DiskAnn.insert_spec (dim := 1) line_ord _ line_dim I h2 [] [p.2] rfl 10 p.1 hid
    rw [h1] at a1; cases a1
    rw [a4]
    intro x hx
    rcases List.mem_append.mp hx with hx | hx
    · exact List.mem_cons_of_mem _ (hk x hx)
    · rcases List.mem_singleton.mp hx with rfl; exact List.mem_cons_self ..

/-- neighbours of vertex `k`. -/
def neighborsOf (mi : MemIndex) (k : UInt64) : List UInt64 := ((mi.graph.get? k).map DiskAnn.Vertex.neighbors).getD []

/-- C49's degree bound is false: with maximal degree 2, five inserts give vertices of degree 4 (the loop compares the length of the old
list with the bound, not that of the new one). -/
theorem C49_degree_exceeded :
    ∃ mi : MemIndex, Built lineMetric (fun d c => decide (9 * d ≤ c)) 1 2 1 mi ∧ mi.maxDegree = 2 ∧
      ∃ k, (neighborsOf mi k).length = 4 := by
  have h : ∃ mi, lineIndex 9 1 2 [(5, 50), (4, 40), (3, 30), (2, 20), (1, 10)] = .ok mi ∧ mi.maxDegree = 2 ∧
      (neighborsOf mi 5).length = 4 := ⟨_, rfl, by decide +kernel, by decide +kernel⟩
  obtain ⟨mi, h1, h2, h3⟩ := h
  exact ⟨mi, (line_built 9 1 2 _ mi (by decide) h1).1, h2, 5, h3⟩

/-- C61's failure on two real indexes: the read-only one holds the vector 100, the read-write one the vector 500; asked for the
nearest to 100, the merge returns 500. -/
theorem C61_witness :
    ∃ rw' ro : MemIndex, Built lineMetric (fun d c => decide (2 * d ≤ c)) 3 2 1 rw' ∧ Built lineMetric (fun d c => decide (2 * d ≤ c)) 1 2 1 ro ∧
      (match ro.search lineMetric [] [100] 1 10 with | .ok l => l.map (fun e => (e.id, e.dist)) | .error _ => []) = [(1, 0)] ∧
      (match DiskAnn.daSearch lineMetric rw' [ro] [] [100] 1 10 with | .ok l => l.map (fun e => (e.id, e.dist)) | .error _ => []) = [(3, 400)] := by
  have h : ∃ rw' ro, lineIndex 2 3 2 [(3, 500)] = .ok rw' ∧ lineIndex 2 1 2 [(2, 130), (1, 100)] = .ok ro ∧
      (match ro.search lineMetric [] [100] 1 10 with | .ok l => l.map (fun e => (e.id, e.dist)) | .error _ => []) = [(1, 0)] ∧
      (match DiskAnn.daSearch lineMetric rw' [ro] [] [100] 1 10 with | .ok l => l.map (fun e => (e.id, e.dist)) | .error _ => []) = [(3, 400)] :=
    ⟨_, _, rfl, rfl, by decide +kernel, by decide +kernel⟩
  obtain ⟨rw', ro, h1, h2, h3, h4⟩ := h
  exact ⟨rw', ro, (line_built 2 3 2 _ rw' (by decide) h1).1, (line_built 2 1 2 _ ro (by decide) h2).1, h3, h4⟩

-- the hypotheses of C58–C60 are met by an index of five vertices; its search finds the nearest three
example : ∃ mi : MemIndex, Built lineMetric (fun d c => decide (2 * d ≤ c)) 1 2 1 mi ∧ mi.graph.length = 5 ∧ mi.readOnly = false ∧
    (match mi.search lineMetric [7] [32] 3 10 with | .ok l => l.map (fun e => (e.id, e.dist)) | .error _ => []) = [(3, 2), (4, 8), (2, 12)] := by
  have h : ∃ mi, lineIndex 2 1 2 [(5, 50), (4, 40), (3, 30), (2, 20), (1, 10)] = .ok mi ∧ mi.graph.length = 5 ∧ mi.readOnly = false ∧
      (match mi.search lineMetric [7] [32] 3 10 with | .ok l => l.map (fun e => (e.id, e.dist)) | .error _ => []) = [(3, 2), (4, 8), (2, 12)] :=
    ⟨_, rfl, by decide +kernel, by decide +kernel, by decide +kernel⟩
  obtain ⟨mi, h1, h2, h3, h4⟩ := h
  exact ⟨mi, (line_built 2 1 2 _ mi (by decide) h1).1, h2, h3, h4⟩

-- a vertex is close to itself in this metric
example : ∀ x d c, lineMetric.dist x x = .ok d → decide (2 * d ≤ c) = true := by
  intro x d c h
  match x, h with
  | [a], h =>
    have : d = 0 := by
      have h' : (Except.ok ((a.toNat - a.toNat) + (a.toNat - a.toNat)) : Except Panic Nat) = .ok d := h
      injection h' with h'; omega
    subst this; simp

-- merging a list whose first element is a minimum
example : (match DiskAnn.merge lineMetric 2 [⟨1, 1⟩, ⟨2, 9⟩, ⟨3, 4⟩, ⟨4, 6⟩] with | .ok l => l.map Elem.dist | .error _ => []) = [1, 4] := by
  decide +kernel

end Vectory
