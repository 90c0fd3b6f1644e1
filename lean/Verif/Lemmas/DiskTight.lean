import Verif.Lemmas.DiskReach
/-! # Small DiskANN parts stay connected -/
namespace Vectory.DiskAnn
open Vectory (Elem Metric Ord DimOK)
variable {D : Type}

/-- no list names a vertex twice, and every vertex can be reached from the start. -/
structure Tight (g : Graph) (s : UInt64) : Prop where
  nd : ∀ k v, g.get? k = some v → v.neighbors.Nodup
  all : ∀ k ∈ AMap.keys g, Path g s k

theorem Path.grow {g g' : Graph} (h : ∀ k v, g.get? k = some v → ∃ v', g'.get? k = some v' ∧ ∀ x ∈ v.neighbors, x ∈ v'.neighbors)
    {a b : UInt64} (p : Path g a b) : Path g' a b := by
  induction p with
  | refl => exact .refl
  | step _ hb hc ih =>
    obtain ⟨v', h1, h2⟩ := h _ _ hb
    exact .step ih h1 (h2 _ hc)

theorem linkBack_plain {M : Metric D} (close : D → D → Bool) {g : Graph} {maxDegree : UInt32} {id n : UInt64} {nb : Vertex}
    (hn : g.get? n = some nb) (hb : nb.neighbors.length + 1 ≤ maxDegree.toNat) :
    linkBack M close maxDegree id g n = .ok (g.set n { nb with neighbors := nb.neighbors ++ [id] }) := by
  unfold linkBack
  rw [vertexAt_of hn]
  simp only [ok_bind]
  rw [if_neg (by simp; omega)]

theorem room {g : Graph} {dim : Nat} (G : GOK g dim) {id n : UInt64} {v : Vertex} (hv : g.get? n = some v) (hid : id ∈ AMap.keys g)
    (hne : n ≠ id) (hnd : v.neighbors.Nodup) (hni : id ∉ v.neighbors) : v.neighbors.length + 2 ≤ g.length := by
  have h1 : (n :: id :: v.neighbors).Nodup := by
    refine List.nodup_cons.mpr ⟨?_, List.nodup_cons.mpr ⟨hni, hnd⟩⟩
    intro h
    rcases List.mem_cons.mp h with h | h
    · exact hne h
    · exact G.noself _ _ hv h
  have h2 := nodup_length_le h1 (l₂ := AMap.keys g) (by
    intro x hx
    rcases List.mem_cons.mp hx with rfl | hx
    · exact mem_of_get hv
    · rcases List.mem_cons.mp hx with rfl | hx
      · exact hid
      · exact G.closed _ _ hv x hx)
  rw [AMap.length_keys] at h2
  simpa using h2

theorem linkAll_plain {M : Metric D} (close : D → D → Bool) {dim : Nat} (maxDegree : UInt32) (id : UInt64) :
    ∀ (ns : List UInt64) (g : Graph), GOK g dim → id ∈ AMap.keys g → (∀ n ∈ ns, n ∈ AMap.keys g ∧ n ≠ id) → ns.Nodup →
    (∀ k v, g.get? k = some v → v.neighbors.Nodup) → (∀ n ∈ ns, ∀ v, g.get? n = some v → id ∉ v.neighbors) →
    g.length ≤ maxDegree.toNat + 1 →
    ∃ g', ns.foldlM (linkBack M close maxDegree id) g = .ok g' ∧ (∀ k v, g'.get? k = some v → v.neighbors.Nodup) ∧
      (∀ k v, g.get? k = some v → ∃ v', g'.get? k = some v' ∧ ∀ x ∈ v.neighbors, x ∈ v'.neighbors) ∧
      (∀ n ∈ ns, ∃ v, g'.get? n = some v ∧ id ∈ v.neighbors) := by
  intro ns
  induction ns with
  | nil => intro g _ _ _ _ h _ _; exact ⟨g, rfl, h, fun k v hv => ⟨v, hv, fun x hx => hx⟩, fun n hn => (nomatch hn)⟩
  | cons n ns ih =>
    intro g G hid hn hnd hnb hni hlen
    obtain ⟨h1, h2⟩ := hn n (List.mem_cons_self ..)
    obtain ⟨nb, hg⟩ := get_of_mem h1
    have hnn := hni n (List.mem_cons_self ..) nb hg
    have hroom := room G hg hid h2 (hnb _ _ hg) hnn
    have hc1 : ∀ x ∈ nb.neighbors ++ [id], x ∈ AMap.keys g := by
      intro x hx
      rcases List.mem_append.mp hx with h | h
      · exact G.closed n nb hg x h
      · rcases List.mem_singleton.mp h with rfl; exact hid
    have hs1 : n ∉ nb.neighbors ++ [id] := by
      intro h
      rcases List.mem_append.mp h with h | h
      · exact G.noself n nb hg h
      · exact h2 (List.mem_singleton.mp h)
    obtain ⟨G1, hk1⟩ := G.setNeighbors hg _ hc1 hs1
    have hget : ∀ x, (g.set n { nb with neighbors := nb.neighbors ++ [id] }).get? x =
        if n = x then some { nb with neighbors := nb.neighbors ++ [id] } else g.get? x := fun x => AMap.get?_set _ _ _ _
    obtain ⟨hnn1, hnd1⟩ := List.nodup_cons.mp hnd
    obtain ⟨g', a1, a2, a3, a4⟩ := ih (g.set n { nb with neighbors := nb.neighbors ++ [id] }) G1 (by rw [hk1]; exact hid)
      (fun m hm => by rw [hk1]; exact hn m (List.mem_cons_of_mem _ hm)) hnd1
      (by
        intro k v hv
        rw [hget] at hv
        split at hv
        · cases hv
          refine List.nodup_append.mpr ⟨hnb _ _ hg, by simp, ?_⟩
          intro a ha b hb hab
          rcases List.mem_singleton.mp hb with rfl
          exact hnn (hab ▸ ha)
        · exact hnb k v hv)
      (by
        intro m hm v hv
        rw [hget] at hv
        split at hv
        · rename_i hnm; exact absurd (hnm ▸ hm) hnn1
        exact hni m (List.mem_cons_of_mem _ hm) v hv)
      (by rw [← AMap.length_keys, hk1, AMap.length_keys]; exact hlen)
    refine ⟨g', ?_, a2, ?_, ?_⟩
    · rw [List.foldlM_cons, linkBack_plain close hg (by omega)]; exact a1
    · intro k v hv
      by_cases hkn : n = k
      · subst hkn
        rw [hg] at hv; cases hv
        obtain ⟨v', b1, b2⟩ := a3 n { nb with neighbors := nb.neighbors ++ [id] } (by rw [hget, if_pos rfl])
        exact ⟨v', b1, fun x hx => b2 x (List.mem_append_left _ hx)⟩
      · exact a3 k v (by rw [hget, if_neg hkn]; exact hv)
    · intro m hm
      rcases List.mem_cons.mp hm with rfl | hm
      · obtain ⟨v', b1, b2⟩ := a3 m { nb with neighbors := nb.neighbors ++ [id] } (by rw [hget, if_pos rfl])
        exact ⟨v', b1, b2 id (by simp)⟩
      · exact a4 m hm

theorem connect_tight {M : Metric D} (w : Ord M.lt) (close : D → D → Bool) {mi mi' : MemIndex} {dim : Nat} (hd : DimOK M dim)
    (G : GOK mi.graph dim) (hs : mi.s ∈ AMap.keys mi.graph) (hw : mi.wired = true) (del : List UInt32) (h0 : (0 : UInt32) ∉ del)
    (vec : Vec) (hv : vec.length = dim) (ls : Nat) (id : UInt64) (hid : id ∉ AMap.keys mi.graph) (T : Tight mi.graph mi.s)
    (hlen : mi.graph.length ≤ mi.maxDegree.toNat) (h : mi.connect M close del vec ls id = .ok mi') :
    Tight mi'.graph mi'.s := by
  obtain ⟨G1, hk1⟩ := G.add id hid vec hv
  have hget : (mi.graph.set id { id := id, vector := vec }).get? id = some { id := id, vector := vec } := AMap.get?_set_self _ _ _
  obtain ⟨found, f1, f2, e, he, hes⟩ := visit_entry (mi := { mi with graph := mi.graph.set id { id := id, vector := vec } }) w hd G1
    (by dsimp only; rw [hk1]; exact List.mem_append_left _ hs) hw hv ls del h0
  have hfk : ∀ c ∈ found, c.id ∈ AMap.keys (mi.graph.set id { id := id, vector := vec }) := by
    intro c hc
    obtain ⟨⟨v, h, _⟩, _⟩ := f2.ok c hc
    exact mem_of_get h
  have hfnd : (found.map Elem.id).Nodup := by
    have h4 : found.map (fun e => e.id.toUInt32) = (found.map Elem.id).map UInt64.toUInt32 := by rw [List.map_map]; rfl
    have h3 := f2.nd
    rw [h4] at h3
    exact (List.pairwise_map.mp h3).imp (fun h e => h (by rw [e]))
  obtain ⟨own, r, b1, b2, b3, b4, _, _, b7⟩ := robustPrune_spec w close hd G1 mi.maxDegree { id := id, vector := vec } hv
    (fun n hn => (nomatch hn)) found hfk
  have hown : own = [] := List.map_eq_nil_iff.mp b3
  subst hown
  rw [List.append_nil] at b4 b7
  have hrnd := b7 hfnd
  have hr : ∀ x ∈ r, x ∈ AMap.keys (mi.graph.set id { id := id, vector := vec }) ∧ x ≠ id := by
    intro x hx
    obtain ⟨c, hc, rfl⟩ := b4.sub x hx
    exact ⟨hfk c hc, fun h => b4.out _ hx (by rw [h]; exact List.mem_singleton.mpr rfl)⟩
  have hrne : r ≠ [] := by
    intro hr0
    have := List.mem_singleton.mp (b4.ne hr0 e he)
    rw [hes] at this
    dsimp only at this
    rw [this] at hs
    exact hid hs
  obtain ⟨G2, hk2⟩ := G1.setNeighbors hget r (fun x hx => (hr x hx).1) (fun h => (hr _ h).2 rfl)
  have hg2 : ∀ x, ((mi.graph.set id { id := id, vector := vec }).set id { id := id, vector := vec, neighbors := r }).get? x =
      if id = x then some { id := id, vector := vec, neighbors := r } else mi.graph.get? x := by
    intro x
    rw [AMap.get?_set]
    split
    · rfl
    · rename_i hne; rw [AMap.get?_set, if_neg hne]
  obtain ⟨g3, c1, c2, c3, c4⟩ := linkAll_plain (M := M) close mi.maxDegree id r
    ((mi.graph.set id { id := id, vector := vec }).set id { id := id, vector := vec, neighbors := r }) G2
    (by rw [hk2, hk1]; simp) (fun x hx => by rw [hk2]; exact hr x hx) hrnd
    (by
      intro k v hkv
      rw [hg2] at hkv
      split at hkv
      · cases hkv; exact hrnd
      · exact T.nd k v hkv)
    (by
      intro n hn v hnv
      rw [hg2, if_neg (fun h => (hr n hn).2 h.symm)] at hnv
      exact fun h => hid (G.closed n v hnv id h))
    (by
      have h1 : (mi.graph.set id { id := id, vector := vec }).length = mi.graph.length + 1 := by
        rw [← AMap.length_keys, hk1, List.length_append, AMap.length_keys]; rfl
      rw [← AMap.length_keys, hk2, AMap.length_keys, h1]; omega)
  have hk3 : AMap.keys g3 = AMap.keys mi.graph ++ [id] := by
    obtain ⟨g4, d1, _, d3, _⟩ := linkAll_spec w close hd mi.maxDegree id r
      ((mi.graph.set id { id := id, vector := vec }).set id { id := id, vector := vec, neighbors := r }) G2
      (by rw [hk2, hk1]; simp) (fun x hx => by rw [hk2]; exact hr x hx)
    rw [c1] at d1; cases d1
    rw [d3, hk2, hk1]
  have hmi : mi' = { mi with graph := g3 } := by
    unfold MemIndex.connect at h
    dsimp only at h
    rw [f1] at h
    simp only [ok_bind] at h
    rw [b1] at h
    simp only [ok_bind] at h
    rw [c1] at h
    cases h; rfl
  subst hmi
  have grow : ∀ k v, mi.graph.get? k = some v → ∃ v', g3.get? k = some v' ∧ ∀ x ∈ v.neighbors, x ∈ v'.neighbors := by
    intro k v hkv
    refine c3 k v ?_
    rw [hg2, if_neg]
    · exact hkv
    · rintro rfl; exact hid (mem_of_get hkv)
  refine ⟨c2, fun k hk => ?_⟩
  dsimp only at hk ⊢
  rw [hk3] at hk
  rcases List.mem_append.mp hk with hk | hk
  · exact (T.all k hk).grow grow
  · rcases List.mem_singleton.mp hk with rfl
    obtain ⟨n, hn⟩ := List.exists_mem_of_ne_nil r hrne
    obtain ⟨v, hv1, hv2⟩ := c4 n hn
    have hnk : n ∈ AMap.keys mi.graph := by
      have := (hr n hn).1
      rw [hk1] at this
      rcases List.mem_append.mp this with h | h
      · exact h
      · exact absurd (List.mem_singleton.mp h) (hr n hn).2
    exact .step ((T.all n hnk).grow grow) hv1 hv2

/-- inserting into a small part keeps it connected. -/
theorem insert_tight {M : Metric D} (w : Ord M.lt) (close : D → D → Bool) {dim maxDegree : UInt32} {firstId : UInt64}
    (hd : DimOK M dim.toNat) {mi mi' : MemIndex} (I : BInv dim maxDegree firstId mi) (del : List UInt32) (h0 : (0 : UInt32) ∉ del)
    (vec : Vec) (ls : Nat) (id : UInt64) (hid : id ∉ AMap.keys mi.graph) (T : Tight mi.graph mi.s)
    (hlen : mi.graph.length ≤ maxDegree.toNat) (h : mi.insert M close del vec ls id = .ok mi') : Tight mi'.graph mi'.s := by
  unfold MemIndex.insert at h
  split at h
  · cases h
  · split at h
    · cases h
    · rename_i hv
      rw [if_neg (by simp [I.wired])] at h
      cases ho : mi.once with
      | false =>
        obtain ⟨hg, hs⟩ := I.fresh ho
        rw [ho, if_pos rfl] at h
        dsimp only at h
        rw [if_pos hg] at h
        cases h
        dsimp only
        rw [if_pos hs, hg]
        have hsp : ∀ k v, AMap.get? (AMap.set ([] : Graph) id { id := id, vector := vec }) k = some v → k = id ∧ v = { id := id, vector := vec } := by
          intro k v hk
          rw [AMap.get?_set] at hk
          split at hk
          · rename_i h; cases hk; exact ⟨h.symm, rfl⟩
          · cases hk
        refine ⟨?_, ?_⟩
        · intro k v hk; obtain ⟨_, rfl⟩ := hsp k v hk; exact List.nodup_nil
        · intro k hk
          obtain ⟨v, hv⟩ := get_of_mem hk
          obtain ⟨rfl, _⟩ := hsp k v hv
          exact .refl
      | true =>
        rw [ho, if_neg (by simp)] at h
        cases hc : mi.connect M close del vec ls id with
        | error e => rw [hc] at h; cases h
        | ok m =>
          rw [hc] at h; cases h
          exact connect_tight w close hd I.g (I.start ho) I.wired del h0 vec (by rw [← I.dim]; exact Decidable.not_not.mp hv) ls id hid T
            (by rw [I.deg]; exact hlen) hc

theorem links_le {g : Graph} {dim : Nat} (G : GOK g dim) {s : UInt64} (T : Tight g s) : links g + g.length ≤ g.length * g.length := by
  have key : ∀ l : Graph, (∀ p ∈ l, p ∈ g) → links l + l.length ≤ l.length * g.length := by
    intro l
    induction l with
    | nil => intro _; simp [links]
    | cons p l ih =>
      intro h
      have h1 := ih (fun x hx => h x (List.mem_cons_of_mem _ hx))
      have hg := AMap.get?_of_mem G.nd (h p (List.mem_cons_self ..))
      have h2 : p.2.neighbors.length + 1 ≤ g.length := by
        have := nodup_length_le (List.nodup_cons.mpr ⟨G.noself _ _ hg, T.nd _ _ hg⟩) (l₂ := AMap.keys g) (by
          intro x hx
          rcases List.mem_cons.mp hx with rfl | hx
          · exact mem_of_get hg
          · exact G.closed _ _ hg x hx)
        rw [AMap.length_keys] at this
        simpa using this
      unfold links at *
      simp only [List.map_cons, List.sum_cons, List.length_cons, Nat.add_mul]
      omega
  exact key g (fun p hp => hp)

end Vectory.DiskAnn
