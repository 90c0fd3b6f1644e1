import Verif.Model.DiskSnap
import Verif.Lemmas.Codec
import Verif.Props.DiskAnn
/-! # DiskANN snapshots: C48

Writing an index to disk and reading it back should give the same graph and metadata. The metadata always comes back, and an index
without links completely (`C48_roundtrip`); a vertex with two links never does (`C48_two_links_lost`). Exactly which graphs come back:
`C48_restored_iff` (`Props/DiskSnapExact.lean`). -/
namespace Vectory
open DiskAnn

namespace DiskAnn

theorem insertId_perm (a : UInt64) (l : List UInt64) : (insertId a l).Perm (a :: l) := by
  induction l with
  | nil => exact .refl _
  | cons b l ih =>
    unfold insertId
    split
    · exact .refl _
    · exact (ih.cons b).trans (.swap a b l)

theorem insertId_sorted (a : UInt64) {l : List UInt64} (h : l.Pairwise (· ≤ ·)) : (insertId a l).Pairwise (· ≤ ·) := by
  induction l with
  | nil => simp [insertId]
  | cons b l ih =>
    rw [List.pairwise_cons] at h
    unfold insertId
    split
    · rename_i hab
      rw [List.pairwise_cons, List.pairwise_cons]
      refine ⟨fun x hx => ?_, h⟩
      rcases List.mem_cons.mp hx with rfl | hx
      · exact hab
      · exact UInt64.le_trans hab (h.1 x hx)
    · rename_i hab
      rw [List.pairwise_cons]
      refine ⟨fun x hx => ?_, ih h.2⟩
      rcases List.mem_cons.mp ((insertId_perm a l).subset hx) with rfl | hx
      · exact (UInt64.le_total b x).resolve_right hab
      · exact h.1 x hx

theorem sortedIds_perm (g : Graph) : (sortedIds g).Perm (AMap.keys g) := by
  unfold sortedIds
  induction AMap.keys g with
  | nil => exact .refl _
  | cons a l ih => exact (insertId_perm a _).trans (ih.cons a)

theorem sortedIds_sorted (g : Graph) : (sortedIds g).Pairwise (· ≤ ·) := by
  unfold sortedIds
  induction AMap.keys g with
  | nil => exact .nil
  | cons a l ih => exact insertId_sorted a ih

/-- the ids `first, first + 1, …`. -/
def idsFrom (first : UInt64) (n : Nat) : List UInt64 := (List.range n).map (fun i => first + UInt64.ofNat i)

theorem toNat_add {first : UInt64} {i n : Nat} (hi : i < n) (h : first.toNat + n ≤ 18446744073709551616) :
    (first + UInt64.ofNat i).toNat = first.toNat + i := by
  rw [UInt64.toNat_add, UInt64.toNat_ofNat']
  have : i % 18446744073709551616 = i := Nat.mod_eq_of_lt (by have := first.toNat_lt; omega)
  show (first.toNat + i % 18446744073709551616) % 18446744073709551616 = _
  rw [this, Nat.mod_eq_of_lt (by omega)]

theorem idsFrom_sorted {first : UInt64} {n : Nat} (h : first.toNat + n ≤ 18446744073709551616) : (idsFrom first n).Pairwise (· < ·) := by
  unfold idsFrom
  rw [List.pairwise_map]
  refine List.Pairwise.imp_of_mem ?_ (List.pairwise_lt_range (n := n))
  intro a b ha hb hab
  rw [List.mem_range] at ha hb
  rw [UInt64.lt_iff_toNat_lt, toNat_add ha h, toNat_add hb h]
  omega

theorem sortedIds_eq {g : Graph} {first : UInt64} (h : first.toNat + g.length ≤ 18446744073709551616)
    (hp : (AMap.keys g).Perm (idsFrom first g.length)) : sortedIds g = idsFrom first g.length := by
  refine ((sortedIds_perm g).trans hp).eq_of_pairwise (le := fun a b => a ≤ b) (fun a b _ _ h1 h2 => UInt64.le_antisymm h1 h2) (sortedIds_sorted g)
    ((idsFrom_sorted h).imp (fun hab => ?_))
  exact UInt64.le_of_lt hab

theorem idsFrom_append (first : UInt64) (a b : Nat) : idsFrom first (a + b) = idsFrom first a ++ idsFrom (first + UInt64.ofNat a) b := by
  unfold idsFrom
  rw [List.range_add, List.map_append, List.map_map]
  congr 1
  apply List.map_congr_left
  intro i _
  show first + UInt64.ofNat (a + i) = _
  rw [UInt64.ofNat_add, UInt64.add_assoc]

theorem idsFrom_length (first : UInt64) (n : Nat) : (idsFrom first n).length = n := by simp [idsFrom]

/-! ## vertices -/

theorem flatMap_put32_length (l : List UInt32) : (l.flatMap putUint32).length = 4 * l.length := by
  induction l with
  | nil => rfl
  | cons a l ih => rw [List.flatMap_cons, List.length_append, ih, List.length_cons]; show 4 + _ = _; omega

theorem uint64_zeros (r : Bytes) : uint64 (putUint32 0 ++ (putUint32 0 ++ r)) = .ok 0 := rfl

/-- a linkless vertex reads back, with what follows left over. -/
theorem deserialize_serialize {v : Vertex} {dim deg : UInt32} (hn : v.neighbors = []) (hv : v.vector.length = dim.toNat)
    (hd : 2 ≤ deg.toNat) (r : Bytes) :
    deserialize v.id (serialize v deg ++ r) dim deg = .ok (v, 4 * (1 + dim.toNat + deg.toNat)) ∧
      (serialize v deg ++ r).drop (4 * (1 + dim.toNat + deg.toNat)) = r := by
  obtain ⟨m, hm⟩ : ∃ m, deg.toNat = m + 2 := ⟨deg.toNat - 2, by omega⟩
  have hs : serialize v deg ++ r = putUint32 v.objId ++ (v.vector.flatMap putUint32 ++
      (putUint32 0 ++ (putUint32 0 ++ ((List.replicate m 0).flatMap putUint32 ++ r)))) := by
    unfold serialize
    rw [hn, hm]
    simp only [List.flatMap_nil, List.append_nil, List.length_nil, Nat.sub_zero, List.replicate_succ, List.flatMap_cons, List.append_assoc]
  have hl := flatMap_put32_length v.vector
  have hdrop : ∀ t : Bytes, (putUint32 v.objId ++ (v.vector.flatMap putUint32 ++ t)).drop (4 + 4 * dim.toNat) = t := by
    intro t
    rw [← List.drop_drop, drop_put32, List.drop_left' (by rw [hl, hv])]
  constructor
  · rw [hs]
    unfold deserialize
    rw [uint32_put, drop_put32, hdrop, ← hv, readFloats_flatMap, hm]
    unfold readNeighbors
    rw [uint64_zeros]
    cases v
    cases hn
    simp only [ok_bind, if_true]
    congr 2
    omega
  · rw [hs, show 4 * (1 + dim.toNat + deg.toNat) = (4 + 4 * dim.toNat) + (8 + 4 * m) by omega, ← List.drop_drop, hdrop, ← List.drop_drop,
      show (8 : Nat) = 4 + 4 from rfl, ← List.drop_drop, drop_put32, drop_put32, List.drop_left' (by rw [flatMap_put32_length]; simp)]

/-- the vertices `vs` on a page, read back one after the other. -/
theorem deserializeVertices_spec {dim deg : UInt32} (hd : 2 ≤ deg.toNat) (r : Bytes) : ∀ (vs : List Vertex) (first : UInt64) (g : Graph),
    (∀ v ∈ vs, v.neighbors = [] ∧ v.vector.length = dim.toNat) → vs.map Vertex.id = idsFrom first vs.length →
    deserializeVertices dim deg vs.length first (vs.flatMap (fun v => serialize v deg) ++ r) g =
      .ok (vs.foldl (fun g v => AMap.set g v.id v) g) := by
  intro vs
  induction vs with
  | nil => intro _ _ _ _; rfl
  | cons v vs ih =>
    intro first g h hid
    have h1 := h v (List.mem_cons_self ..)
    have hids : v.id = first ∧ vs.map Vertex.id = idsFrom (first + 1) vs.length := by
      rw [List.length_cons, Nat.add_comm, idsFrom_append] at hid
      have e : idsFrom first 1 = [first] := by simp [idsFrom]
      rw [e, List.map_cons, List.singleton_append, List.cons.injEq] at hid
      exact hid
    rw [List.flatMap_cons, List.append_assoc, List.length_cons]
    unfold deserializeVertices
    obtain ⟨a, b⟩ := deserialize_serialize (deg := deg) h1.1 h1.2 hd (vs.flatMap (fun v => serialize v deg) ++ r)
    rw [hids.1] at a
    rw [a]
    simp only [ok_bind]
    rw [b, ih (first + 1) _ (fun x hx => h x (List.mem_cons_of_mem _ hx)) hids.2, List.foldl_cons, hids.1]

theorem serialize_length {v : Vertex} {dim deg : UInt32} (hn : v.neighbors = []) (hv : v.vector.length = dim.toNat) :
    (serialize v deg).length = 4 * (1 + dim.toNat + deg.toNat) := by
  unfold serialize
  rw [hn, List.length_append, List.length_append, List.length_append, flatMap_put32_length, flatMap_put32_length]
  simp [putUint32, hv]
  omega

theorem flatMap_serialize_length {dim deg : UInt32} : ∀ vs : List Vertex, (∀ v ∈ vs, v.neighbors = [] ∧ v.vector.length = dim.toNat) →
    (vs.flatMap (fun v => serialize v deg)).length = vs.length * (4 * (1 + dim.toNat + deg.toNat)) := by
  intro vs
  induction vs with
  | nil => intro _; simp
  | cons v vs ih =>
    intro h
    have h1 := h v (List.mem_cons_self ..)
    rw [List.flatMap_cons, List.length_append, serialize_length h1.1 h1.2, ih (fun x hx => h x (List.mem_cons_of_mem _ hx)), List.length_cons]
    generalize 4 * (1 + dim.toNat + deg.toNat) = b
    rw [Nat.succ_mul, Nat.add_comm]

/-- the stored vertices with the ids `first …`. -/
theorem mapM_vertexAt {g : Graph} (hkey : ∀ k v, g.get? k = some v → v.id = k) : ∀ ids : List UInt64, (∀ i ∈ ids, i ∈ AMap.keys g) →
    ∃ vs, ids.mapM (vertexAt g) = .ok vs ∧ vs.map Vertex.id = ids ∧ ∀ v ∈ vs, g.get? v.id = some v := by
  intro ids
  induction ids with
  | nil => intro _; exact ⟨[], rfl, rfl, fun _ h => (nomatch h)⟩
  | cons i ids ih =>
    intro h
    obtain ⟨vs, h1, h2, h3⟩ := ih (fun x hx => h x (List.mem_cons_of_mem _ hx))
    obtain ⟨v, hv⟩ := Option.isSome_iff_exists.mp ((AMap.get?_isSome_iff g i).mpr (h i (List.mem_cons_self ..)))
    have hid := hkey i v hv
    refine ⟨v :: vs, ?_, by rw [List.map_cons, hid, h2], ?_⟩
    · rw [List.mapM_cons]
      have : vertexAt g i = .ok v := by unfold vertexAt; rw [hv]
      rw [this, h1]; rfl
    · intro x hx
      rcases List.mem_cons.mp hx with rfl | hx
      · rw [hid]; exact hv
      · exact h3 x hx

/-- the hypotheses of the positive result. -/
structure Linkless (mi : MemIndex) : Prop where
  deg : 2 ≤ mi.maxDegree.toNat
  /-- a vertex fits on a page -/
  fits : 4 * (1 + mi.dim.toNat + mi.maxDegree.toNat) ≤ 4096
  nd : (AMap.keys mi.graph).Nodup
  /-- ids are consecutive from `firstId` on, as `DiskAnn.Insert` hands them out -/
  ids : (AMap.keys mi.graph).Perm ((List.range mi.graph.length).map (fun i => mi.firstId + UInt64.ofNat i))
  count : mi.graph.length < 4294967296
  last : mi.firstId.toNat + mi.graph.length ≤ 18446744073709551616
  key : ∀ k v, mi.graph.get? k = some v → v.id = k
  vec : ∀ k v, mi.graph.get? k = some v → v.vector.length = mi.dim.toNat
  noLinks : ∀ k v, mi.graph.get? k = some v → v.neighbors = []

theorem bytes_eq {dim deg : UInt32} (h : 4 * (1 + dim.toNat + deg.toNat) < 4294967296) :
    (4 * (1 + dim + deg) : UInt32).toNat = 4 * (1 + dim.toNat + deg.toNat) := by
  rw [UInt32.toNat_mul, UInt32.toNat_add, UInt32.toNat_add]
  show (4 * (((1 + dim.toNat) % 4294967296 + deg.toNat) % 4294967296)) % 4294967296 = _
  omega

theorem perPage_eq {dim deg : UInt32} (h : 4 * (1 + dim.toNat + deg.toNat) < 4294967296) :
    perPage dim deg = .ok (4096 / (4 * (1 + dim.toNat + deg.toNat))) := by
  unfold perPage
  have hb := bytes_eq h
  have h0 : (4 * (1 + dim + deg) : UInt32) ≠ 0 := by
    intro e; rw [e] at hb; have : (0 : UInt32).toNat = 0 := rfl; omega
  simp only [if_neg h0, hb]
  rfl

/-- one page of consecutive vertices: it can be written, and reading it adds those vertices. -/
theorem page_spec {mi : MemIndex} (L : Linkless mi) (n : Nat) (hn : n ≤ 4096 / (4 * (1 + mi.dim.toNat + mi.maxDegree.toNat))) (first : UInt64)
    (hids : ∀ i ∈ idsFrom first n, i ∈ AMap.keys mi.graph) :
    ∃ (p : Bytes) (vs : List Vertex), serializeVertices mi.graph (idsFrom first n) mi.maxDegree = .ok p ∧ vs.map Vertex.id = idsFrom first n ∧
      (∀ v ∈ vs, mi.graph.get? v.id = some v) ∧
      ∀ g, deserializeVertices mi.dim mi.maxDegree n first p g = .ok (vs.foldl (fun g v => AMap.set g v.id v) g) := by
  obtain ⟨vs, h1, h2, h3⟩ := mapM_vertexAt L.key _ hids
  have hlen : vs.length = n := by have := congrArg List.length h2; rw [List.length_map, idsFrom_length] at this; exact this
  have hall : ∀ v ∈ vs, v.neighbors = [] ∧ v.vector.length = mi.dim.toNat := fun v hv =>
    ⟨L.noLinks _ v (h3 v hv), L.vec _ v (h3 v hv)⟩
  have hb := flatMap_serialize_length (deg := mi.maxDegree) vs hall
  have hle : (vs.flatMap (fun v => serialize v mi.maxDegree)).length ≤ 4096 := by
    rw [hb, hlen]
    exact Nat.le_trans (Nat.mul_le_mul_right _ hn) (Nat.div_mul_le_self _ _)
  refine ⟨vs.flatMap (fun v => serialize v mi.maxDegree) ++ List.replicate (pageSize - (vs.flatMap (fun v => serialize v mi.maxDegree)).length) 0,
    vs, ?_, h2, h3, ?_⟩
  · unfold serializeVertices
    rw [h1]
    simp only [ok_bind]
    unfold page
    rw [if_pos (show _ ≤ pageSize from hle)]
  · intro g
    have := deserializeVertices_spec L.deg (List.replicate (pageSize - (vs.flatMap (fun v => serialize v mi.maxDegree)).length) 0) vs first g hall
      (by rw [h2, hlen])
    rw [hlen] at this
    exact this

theorem foldl_get {G : Graph} : ∀ (vs : List Vertex) (g : Graph), (∀ v ∈ vs, G.get? v.id = some v) → ∀ k,
    (vs.foldl (fun g v => AMap.set g v.id v) g).get? k = if k ∈ vs.map Vertex.id then G.get? k else g.get? k := by
  intro vs
  induction vs with
  | nil => intro g _ k; simp
  | cons v vs ih =>
    intro g h k
    rw [List.foldl_cons, ih _ (fun x hx => h x (List.mem_cons_of_mem _ hx)), List.map_cons]
    by_cases hk : k ∈ vs.map Vertex.id
    · rw [if_pos hk, if_pos (List.mem_cons_of_mem _ hk)]
    · rw [if_neg hk, AMap.get?_set]
      by_cases he : v.id = k
      · subst he; rw [if_pos rfl, if_pos (List.mem_cons_self ..)]; exact (h v (List.mem_cons_self ..)).symm
      · rw [if_neg he, if_neg]; intro hm
        rcases List.mem_cons.mp hm with e | hm
        · exact he e.symm
        · exact hk hm

theorem full_spec {mi : MemIndex} (L : Linkless mi) (per : Nat) (hper : per = 4096 / (4 * (1 + mi.dim.toNat + mi.maxDegree.toNat))) :
    ∀ (n extra : Nat) (first : UInt64), (∀ i ∈ idsFrom first (n * per + extra), i ∈ AMap.keys mi.graph) →
    ∃ (ps : List Bytes) (vs : List Vertex),
      fullPages mi.graph mi.maxDegree per n (idsFrom first (n * per + extra)) = .ok (ps, idsFrom (first + UInt64.ofNat (n * per)) extra) ∧
      ps.length = n ∧ vs.map Vertex.id = idsFrom first (n * per) ∧ (∀ v ∈ vs, mi.graph.get? v.id = some v) ∧
      ∀ (file : List Bytes) (i : Nat) (g : Graph), (∀ j < n, file[i + j]? = ps[j]?) →
        readPages file mi.dim mi.maxDegree per n i first g =
          .ok (vs.foldl (fun g v => AMap.set g v.id v) g, first + UInt64.ofNat (n * per)) := by
  intro n
  induction n with
  | zero =>
    intro extra first _
    refine ⟨[], [], ?_, rfl, by simp [idsFrom], fun _ h => (nomatch h), ?_⟩
    · unfold fullPages; simp
    · intro file i g _; unfold readPages; simp
  | succ n ih =>
    intro extra first hall
    rw [show (n + 1) * per + extra = per + (n * per + extra) by rw [Nat.succ_mul]; omega, idsFrom_append] at hall ⊢
    obtain ⟨p, vs, h1, h2, h3, h4⟩ := page_spec L per (by omega) first (fun i hi => hall i (List.mem_append_left _ hi))
    obtain ⟨ps, ws, k1, k2, k3, k4, k5⟩ := ih extra (first + UInt64.ofNat per) (fun i hi => hall i (List.mem_append_right _ hi))
    have hoff : first + UInt64.ofNat per + UInt64.ofNat (n * per) = first + UInt64.ofNat ((n + 1) * per) := by
      rw [UInt64.add_assoc, ← UInt64.ofNat_add, Nat.succ_mul, Nat.add_comm]
    refine ⟨p :: ps, vs ++ ws, ?_, by rw [List.length_cons, k2], ?_, ?_, ?_⟩
    · unfold fullPages
      rw [List.take_left' (idsFrom_length _ _), h1, List.drop_left' (idsFrom_length _ _), ok_bind, k1, hoff]
      rfl
    · rw [List.map_append, h2, k3, ← idsFrom_append]
      congr 1; rw [Nat.succ_mul, Nat.add_comm]
    · intro v hv
      rcases List.mem_append.mp hv with hv | hv
      · exact h3 v hv
      · exact k4 v hv
    · intro file i g hf
      unfold readPages
      have hp : readPage file i = .ok p := by
        unfold readPage
        have := hf 0 (by omega)
        simp only [Nat.add_zero, List.getElem?_cons_zero] at this
        rw [this]
      have hrest : ∀ j < n, file[i + 1 + j]? = ps[j]? := by
        intro j hj
        have := hf (j + 1) (by omega)
        rw [List.getElem?_cons_succ] at this
        rw [← this]; congr 1; omega
      rw [hp, ok_bind, h4 g]
      show readPages file mi.dim mi.maxDegree per n (i + 1) (first + UInt64.ofNat per) _ = _
      rw [k5 file (i + 1) _ hrest, hoff, List.foldl_append]

theorem low_bytes (n : Nat) : n % 4294967296 = n % 256 + 256 * (n / 256 % 256) + 65536 * (n / 65536 % 256) + 16777216 * (n / 16777216 % 256) := by
  omega

/-- the high half of `m` followed by the low half of `n` is `n` only if `n` is 0. -/
theorem shifted {m n : Nat} (hn : n < 2 ^ 64) (hm : m < 4294967296)
    (h : (m / 4294967296 % 256 % 2 ^ 8 + 256 * (m / 1099511627776 % 256 % 2 ^ 8) + 65536 * (m / 281474976710656 % 256 % 2 ^ 8) +
      16777216 * (m / 72057594037927936 % 256 % 2 ^ 8) + 4294967296 * (n % 256 % 2 ^ 8) + 1099511627776 * (n / 256 % 256 % 2 ^ 8) +
      281474976710656 * (n / 65536 % 256 % 2 ^ 8) + 72057594037927936 * (n / 16777216 % 256 % 2 ^ 8)) % 2 ^ 64 = n) : n = 0 := by
  rw [Nat.div_eq_of_lt (show m < 4294967296 from hm), Nat.div_eq_of_lt (show m < 1099511627776 by omega),
    Nat.div_eq_of_lt (show m < 281474976710656 by omega), Nat.div_eq_of_lt (show m < 72057594037927936 by omega)] at h
  have e := low_bytes n
  generalize n % 256 = b0 at h e
  generalize n / 256 % 256 = b1 at h e
  generalize n / 65536 % 256 = b2 at h e
  generalize n / 16777216 % 256 = b3 at h e
  omega

theorem meta_read (mi : MemIndex) (r : Bytes) :
    let p := serializeMetadata mi ++ r
    uint32 p = .ok mi.dim ∧ uint32 (p.drop 4) = .ok mi.maxDegree ∧ uint64 (p.drop 8) = .ok mi.firstId ∧
      uint32 (p.drop 16) = .ok (UInt32.ofNat mi.graph.length) ∧ uint64 (p.drop 20) = .ok mi.s := by
  have e : serializeMetadata mi ++ r = putUint32 mi.dim ++ (putUint32 mi.maxDegree ++ (putUint64 mi.firstId ++
      (putUint32 (UInt32.ofNat mi.graph.length) ++ (putUint64 mi.s ++ r)))) := by
    unfold serializeMetadata; simp only [List.append_assoc]
  dsimp only
  rw [e]
  exact ⟨uint32_put _ _, uint32_put _ _, uint64_put _ _, uint32_put _ _, uint64_put _ _⟩

/-- the metadata page. -/
theorem meta_page (mi : MemIndex) : ∃ r, page (serializeMetadata mi) = .ok (serializeMetadata mi ++ r) := by
  unfold page
  have : (serializeMetadata mi).length = 28 := rfl
  rw [if_pos (by rw [this]; decide)]
  exact ⟨_, rfl⟩

end DiskAnn

/-- C48, indexes without links: written to a file and read back, the index has the same vertices and the same metadata.
Which indexes with links come back: `C48_restored_iff`. -/
theorem C48_roundtrip {mi : MemIndex} (L : Linkless mi) :
    ∃ file mi', writeIndex mi = .ok file ∧ readIndex file = .ok mi' ∧ (∀ k, mi'.graph.get? k = mi.graph.get? k) ∧
      mi'.dim = mi.dim ∧ mi'.maxDegree = mi.maxDegree ∧ mi'.firstId = mi.firstId ∧ mi'.s = mi.s ∧ mi'.size.toNat = mi.graph.length := by
  obtain ⟨r, hm⟩ := DiskAnn.meta_page mi
  obtain ⟨m1, m2, m3, m4, m5⟩ := DiskAnn.meta_read mi r
  have hpp := DiskAnn.perPage_eq (dim := mi.dim) (deg := mi.maxDegree) (by have := L.fits; omega)
  generalize hper : 4096 / (4 * (1 + mi.dim.toNat + mi.maxDegree.toNat)) = per at hpp
  have hpos : per ≠ 0 := by
    have := Nat.div_pos L.fits (by omega : 0 < 4 * (1 + mi.dim.toNat + mi.maxDegree.toNat))
    omega
  have hsz : (UInt32.ofNat mi.graph.length).toNat = mi.graph.length := by
    rw [UInt32.toNat_ofNat']; exact Nat.mod_eq_of_lt L.count
  have hsorted := DiskAnn.sortedIds_eq L.last L.ids
  have hsplit : mi.graph.length / per * per + mi.graph.length % per = mi.graph.length := by
    rw [Nat.mul_comm]; exact Nat.div_add_mod ..
  have hmem : ∀ i ∈ DiskAnn.idsFrom mi.firstId (mi.graph.length / per * per + mi.graph.length % per), i ∈ AMap.keys mi.graph := by
    rw [hsplit]; intro i hi; exact L.ids.symm.subset hi
  obtain ⟨ps, vs, f1, f2, f3, f4, f5⟩ := DiskAnn.full_spec L per hper.symm (mi.graph.length / per) (mi.graph.length % per) mi.firstId hmem
  have hgk : ∀ k, mi.graph.get? k = if k ∈ AMap.keys mi.graph then mi.graph.get? k else none := by
    intro k
    by_cases hk : k ∈ AMap.keys mi.graph
    · rw [if_pos hk]
    · rw [if_neg hk]; exact (AMap.get?_none_iff _ _).mpr hk
  have hkeys : ∀ k, k ∈ AMap.keys mi.graph ↔ k ∈ DiskAnn.idsFrom mi.firstId mi.graph.length := fun k => L.ids.mem_iff
  by_cases hr : mi.graph.length % per = 0
  · refine ⟨(DiskAnn.serializeMetadata mi ++ r) :: ps, ⟨vs.foldl (fun g v => AMap.set g v.id v) [], false, false, mi.s, mi.dim, mi.maxDegree, mi.firstId, false, UInt32.ofNat mi.graph.length⟩, ?_, ?_, ?_, rfl, rfl, rfl, rfl, hsz⟩
    · unfold writeIndex
      rw [hm, ok_bind, hpp, ok_bind, if_neg hpos, hsorted, DiskAnn.idsFrom_length]
      rw [hsplit] at f1
      rw [f1, ok_bind]; dsimp only; rw [if_pos hr]
    · unfold readIndex
      have : DiskAnn.readPage ((DiskAnn.serializeMetadata mi ++ r) :: ps) 0 = .ok (DiskAnn.serializeMetadata mi ++ r) := rfl
      simp only [this, ok_bind, m1, m2, m3, m4, m5, DiskAnn.liftE_ok rfl, DiskAnn.liftE_ok hpp, if_neg hpos, hsz]
      rw [f5 _ 1 [] (fun j _ => by rw [Nat.add_comm, List.getElem?_cons_succ])]
      simp only [ok_bind, if_pos hr]
    · intro k
      dsimp only
      rw [DiskAnn.foldl_get vs [] f4, f3, hgk k]
      rw [hr, Nat.add_zero] at hsplit
      rw [hsplit]
      by_cases hk : k ∈ AMap.keys mi.graph
      · rw [if_pos hk, if_pos ((hkeys k).mp hk)]
      · rw [if_neg hk, if_neg (fun h => hk ((hkeys k).mpr h))]; rfl
  · obtain ⟨p, ws, g1, g2, g3, g4⟩ := DiskAnn.page_spec L (mi.graph.length % per)
      (by rw [hper]; exact Nat.le_of_lt (Nat.mod_lt _ (Nat.pos_of_ne_zero hpos)))
      (mi.firstId + UInt64.ofNat (mi.graph.length / per * per)) (fun i hi => hmem i (by
        rw [DiskAnn.idsFrom_append]; exact List.mem_append_right _ hi))
    refine ⟨(DiskAnn.serializeMetadata mi ++ r) :: ps ++ [p],
      ⟨ws.foldl (fun g v => AMap.set g v.id v) (vs.foldl (fun g v => AMap.set g v.id v) []), false, false, mi.s, mi.dim, mi.maxDegree, mi.firstId, false, UInt32.ofNat mi.graph.length⟩, ?_, ?_, ?_, rfl, rfl, rfl, rfl, hsz⟩
    · unfold writeIndex
      rw [hm, ok_bind, hpp, ok_bind, if_neg hpos, hsorted, DiskAnn.idsFrom_length]
      rw [hsplit] at f1
      rw [f1, ok_bind]
      dsimp only
      rw [if_neg hr]
      rw [List.take_of_length_le (by rw [DiskAnn.idsFrom_length]; exact Nat.le_refl _), g1]
      rfl
    · unfold readIndex
      have : DiskAnn.readPage ((DiskAnn.serializeMetadata mi ++ r) :: ps ++ [p]) 0 = .ok (DiskAnn.serializeMetadata mi ++ r) := rfl
      simp only [this, ok_bind, m1, m2, m3, m4, m5, DiskAnn.liftE_ok rfl, DiskAnn.liftE_ok hpp, if_neg hpos, hsz]
      rw [f5 _ 1 [] (fun j hj => by
        rw [Nat.add_comm, List.cons_append, List.getElem?_cons_succ, List.getElem?_append_left (by rw [f2]; exact hj)])]
      have hp : DiskAnn.readPage ((DiskAnn.serializeMetadata mi ++ r) :: ps ++ [p]) (mi.graph.length / per + 1) = .ok p := by
        unfold DiskAnn.readPage
        rw [List.cons_append, List.getElem?_cons_succ, List.getElem?_append_right (by rw [f2]; exact Nat.le_refl _), f2, Nat.sub_self]
        rfl
      simp only [ok_bind, if_neg hr, hp, DiskAnn.liftE_ok (g4 _)]
    · intro k
      dsimp only
      rw [← List.foldl_append, DiskAnn.foldl_get (vs ++ ws) [] (fun v hv => (List.mem_append.mp hv).elim (f4 v) (g3 v)), List.map_append, f3, g2,
        ← DiskAnn.idsFrom_append, hsplit, hgk k]
      by_cases hk : k ∈ AMap.keys mi.graph
      · rw [if_pos hk, if_pos ((hkeys k).mp hk)]
      · rw [if_neg hk, if_neg (fun h => hk ((hkeys k).mpr h))]; rfl

/-- C48: whatever the index, if the file can be written and read at all, its metadata come back. -/
theorem C48_metadata {mi mi' : MemIndex} {file : List Bytes} (h : writeIndex mi = .ok file) (h' : readIndex file = .ok mi') :
    mi'.dim = mi.dim ∧ mi'.maxDegree = mi.maxDegree ∧ mi'.firstId = mi.firstId ∧ mi'.s = mi.s ∧
      mi'.size = UInt32.ofNat mi.graph.length := by
  obtain ⟨r, hm⟩ := DiskAnn.meta_page mi
  obtain ⟨m1, m2, m3, m4, m5⟩ := DiskAnn.meta_read mi r
  have hf : DiskAnn.readPage file 0 = .ok (DiskAnn.serializeMetadata mi ++ r) := by
    unfold writeIndex at h
    rw [hm, ok_bind, bind_ok_iff] at h
    obtain ⟨per, _, h⟩ := h
    split at h
    · cases h
    · rw [bind_ok_iff] at h
      obtain ⟨⟨full, rest⟩, _, h⟩ := h
      dsimp only at h
      split at h
      · cases h; rfl
      · rw [bind_ok_iff] at h
        obtain ⟨last, _, h⟩ := h
        cases h; rfl
  unfold readIndex at h'
  simp only [hf, ok_bind, m1, m2, m3, m4, m5, DiskAnn.liftE_ok rfl] at h'
  rw [bind_ok_iff] at h'
  obtain ⟨per, _, h'⟩ := h'
  split at h'
  · cases h'
  · rw [bind_ok_iff] at h'
    obtain ⟨⟨g, id⟩, _, h'⟩ := h'
    dsimp only at h'
    split at h'
    · cases h'; exact ⟨rfl, rfl, rfl, rfl, rfl⟩
    · rw [bind_ok_iff] at h'
      obtain ⟨p, _, h'⟩ := h'
      rw [bind_ok_iff] at h'
      obtain ⟨g2, _, h'⟩ := h'
      cases h'; exact ⟨rfl, rfl, rfl, rfl, rfl⟩

/-- C48 is false: a neighbour takes eight bytes when written and four when read, so no vertex with two links (to ids below 2^32 and
different from 0) comes back from its own bytes, whatever follows them. -/
theorem C48_two_links_lost {v v' : DiskAnn.Vertex} {dim deg : UInt32} {a b : UInt64} {ns : List UInt64} {id : UInt64} {r : Bytes} {k : Nat}
    (hn : v.neighbors = a :: b :: ns) (hv : v.vector.length = dim.toNat) (ha : a ≠ 0) (ha' : a < 4294967296) (hb : b ≠ 0)
    (h : DiskAnn.deserialize id (DiskAnn.serialize v deg ++ r) dim deg = .ok (v', k)) : v'.neighbors ≠ v.neighbors := by
  obtain ⟨t, hs⟩ : ∃ t, DiskAnn.serialize v deg ++ r = putUint32 v.objId ++ (v.vector.flatMap putUint32 ++ (putUint64 a ++ (putUint64 b ++ t))) := by
    unfold DiskAnn.serialize
    rw [hn]
    simp only [List.flatMap_cons, List.append_assoc]
    exact ⟨_, rfl⟩
  rw [hs] at h
  unfold DiskAnn.deserialize at h
  have hdrop : ∀ t : Bytes, (putUint32 v.objId ++ (v.vector.flatMap putUint32 ++ t)).drop (4 + 4 * dim.toNat) = t := by
    intro t
    rw [← List.drop_drop, drop_put32, List.drop_left' (by rw [DiskAnn.flatMap_put32_length, hv])]
  rw [uint32_put, drop_put32, hdrop, ← hv, readFloats_flatMap] at h
  simp only [ok_bind] at h
  rw [bind_ok_iff] at h
  obtain ⟨⟨l, n⟩, h1, h2⟩ := h
  simp only [Except.ok.injEq, Prod.mk.injEq] at h2
  rw [← h2.1, hn]
  dsimp only
  intro he
  subst he
  cases hd : deg.toNat with
  | zero => rw [hd] at h1; simp [DiskAnn.readNeighbors] at h1
  | succ m =>
    rw [hd] at h1
    unfold DiskAnn.readNeighbors at h1
    rw [uint64_put, ok_bind, if_neg ha, bind_ok_iff] at h1
    obtain ⟨⟨l2, n2⟩, h3, h4⟩ := h1
    simp only [Except.ok.injEq, Prod.mk.injEq, List.cons.injEq, true_and] at h4
    obtain ⟨rfl, _⟩ := h4
    cases m with
    | zero => simp [DiskAnn.readNeighbors] at h3
    | succ m =>
      unfold DiskAnn.readNeighbors at h3
      rw [bind_ok_iff] at h3
      obtain ⟨x, h5, h6⟩ := h3
      split at h6
      · simp at h6
      · rw [bind_ok_iff] at h6
        obtain ⟨⟨l3, n3⟩, _, h7⟩ := h6
        simp only [Except.ok.injEq, Prod.mk.injEq, List.cons.injEq] at h7
        obtain ⟨⟨rfl, _⟩, _⟩ := h7
        apply hb
        apply UInt64.toNat_inj.mp
        have h8 : uint64 ((putUint64 a ++ (putUint64 x ++ t)).drop 4) = .ok x := h5
        simp only [putUint64, List.cons_append, List.nil_append, List.drop_succ_cons, List.drop_zero, uint64, Except.ok.injEq] at h8
        have h9 := congrArg UInt64.toNat h8
        simp only [UInt64.toNat_ofNat', UInt8.toNat_ofNat'] at h9
        have hx := x.toNat_lt
        have haa : a.toNat < 4294967296 := UInt64.lt_iff_toNat_lt.mp ha'
        show x.toNat = 0
        exact DiskAnn.shifted hx haa h9

/-- C48 is false: an index whose vertices do not fit on a page (`4 * (1 + dim + maxDegree) > 4096`, so every index of dimension 1024 or
more) cannot be written: the division by the number of vertices per page panics. -/
theorem C48_large_vertices_panic {mi : MemIndex} (h : 4096 < 4 * (1 + mi.dim.toNat + mi.maxDegree.toNat))
    (h' : 4 * (1 + mi.dim.toNat + mi.maxDegree.toNat) < 4294967296) : writeIndex mi = .error .divByZero := by
  obtain ⟨r, hm⟩ := DiskAnn.meta_page mi
  unfold writeIndex
  rw [hm, ok_bind, DiskAnn.perPage_eq h', ok_bind, if_pos (Nat.div_eq_of_lt h)]

/-- C48 is false: an index read from disk can be neither searched nor extended: its distance function is a nil pointer. -/
theorem C48_read_index_unusable {D : Type} (M : Metric D) (close : D → D → Bool) {file : List Bytes} {mi : MemIndex} (h : readIndex file = .ok mi)
    (del : List UInt32) (q : Vec) (k listSize : Nat) (id : UInt64) :
    mi.search M del q k listSize = .error .nilDeref ∧
      (q.length = mi.dim.toNat → mi.insert M close del q listSize id = .error (.panic .nilDeref)) := by
  have hw : mi.wired = false ∧ mi.readOnly = false := by
    unfold readIndex at h
    simp only [bind_ok_iff] at h
    obtain ⟨p, _, dim, _, deg, _, first, _, size, _, s, _, per, _, h⟩ := h
    split at h
    · cases h
    · rw [bind_ok_iff] at h
      obtain ⟨⟨g, id⟩, _, h⟩ := h
      dsimp only at h
      split at h
      · cases h; exact ⟨rfl, rfl⟩
      · rw [bind_ok_iff] at h
        obtain ⟨p, _, h⟩ := h
        rw [bind_ok_iff] at h
        obtain ⟨g2, _, h⟩ := h
        cases h; exact ⟨rfl, rfl⟩
  constructor
  · unfold MemIndex.search MemIndex.visit DiskAnn.vertexAt
    cases mi.graph.get? mi.s with
    | none => rfl
    | some v => simp only [ok_bind, if_pos hw.1]; rfl
  · intro hq
    unfold MemIndex.insert
    rw [if_neg (by simp [hw.2]), if_neg (by simp [hq]), if_pos (by simp [hw.1])]

/-- save and load. -/
def saveLoad (mi : MemIndex) : Option MemIndex :=
  match writeIndex mi with
  | .ok file =>
    match readIndex file with
    | .ok mi' => some mi'
    | .error _ => none
  | .error _ => none

/-- C48's failure on a real index: three vectors inserted, saved and loaded; vertex 2 comes back with another vector and other links. -/
theorem C48_witness :
    ∃ mi mi' : MemIndex, Built lineMetric (fun d c => decide (2 * d ≤ c)) 1 2 1 mi ∧ saveLoad mi = some mi' ∧
      mi.graph.get? 2 = some { id := 2, neighbors := [1, 3], vector := [20] } ∧
      mi'.graph.get? 2 = some { id := 2, neighbors := [4294967316, 1], vector := [0] } := by
  have h : ∃ mi, lineIndex 2 1 2 [(3, 30), (2, 20), (1, 10)] = .ok mi ∧
      mi.graph.get? 2 = some { id := 2, neighbors := [1, 3], vector := [20] } ∧
      ((saveLoad mi).bind (fun m => m.graph.get? 2)) = some { id := 2, neighbors := [4294967316, 1], vector := [0] } :=
    ⟨_, rfl, by decide +kernel, by decide +kernel⟩
  obtain ⟨mi, h1, h2, h3⟩ := h
  obtain ⟨mi', h4, h5⟩ := Option.bind_eq_some_iff.mp h3
  exact ⟨mi, mi', (line_built 2 1 2 _ mi (by decide) h1).1, h4, h2, h5⟩

/-- a linkless index of 300 vertices on three pages: an index of that many vectors inserted while everything counts as deleted. -/
def linkless300 : MemIndex :=
  { newMemIndex 7 4 3 with graph := (List.range 300).map (fun i => (7 + UInt64.ofNat i, { id := 7 + UInt64.ofNat i, vector := [1, 2, UInt32.ofNat i] })) }

-- the hypotheses of the positive theorem are met by an index on several pages
example : Linkless linkless300 := by
  have hk : AMap.keys linkless300.graph = DiskAnn.idsFrom 7 300 := by
    unfold linkless300 AMap.keys DiskAnn.idsFrom; rw [List.map_map]; rfl
  have hl : linkless300.graph.length = 300 := by simp [linkless300]
  have hg : ∀ k v, linkless300.graph.get? k = some v → v.id = k ∧ v.vector.length = 3 ∧ v.neighbors = [] := by
    intro k v h
    have := AMap.mem_of_get? h
    unfold linkless300 at this
    obtain ⟨i, _, e⟩ := List.mem_map.mp this
    cases e
    exact ⟨rfl, rfl, rfl⟩
  refine ⟨by decide, by decide, ?_, ?_, by rw [hl]; decide, by rw [hl]; decide, fun k v h => (hg k v h).1, fun k v h => (hg k v h).2.1,
    fun k v h => (hg k v h).2.2⟩
  · rw [hk]
    exact (DiskAnn.idsFrom_sorted (first := 7) (n := 300) (by decide)).imp (fun h e => by rw [e] at h; exact absurd h (UInt64.lt_irrefl _))
  · rw [hk, hl]; exact .refl _

-- an index of dimension 1024
example : writeIndex (newMemIndex 1 4 1024) = .error .divByZero := C48_large_vertices_panic (by decide) (by decide)

-- a built index that meets the hypothesis of `C48_read_index_unusable`
example : ∃ file mi, readIndex file = .ok mi := ⟨_, _, (C48_roundtrip (mi := newMemIndex 1 4 3)
  ⟨by decide, by decide, .nil, .refl _, by decide, by decide, fun _ _ h => (nomatch h), fun _ _ h => (nomatch h), fun _ _ h => (nomatch h)⟩).choose_spec.choose_spec.2.1⟩

end Vectory
