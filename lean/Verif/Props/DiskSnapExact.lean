import Verif.Props.DiskSnap
/-! # C48, exactly: which indexes come back from a snapshot file -/
namespace Vectory
open DiskAnn

namespace DiskAnn

/-- a vertex `deserialize` may see: object id 0, the right dimension, links to ids between 1 and 2^32 - 1. -/
structure Plain (dim : UInt32) (v : Vertex) : Prop where
  obj : v.objId = 0
  vec : v.vector.length = dim.toNat
  links : ∀ n ∈ v.neighbors, n ≠ 0 ∧ n < 4294967296

/-- a vertex of zeros without links. -/
def Blank (v : Vertex) : Prop := v.neighbors = [] ∧ ∀ x ∈ v.vector, x = 0

/-- the vertices of one page, in order, that come back. -/
def PageGood (vs : List Vertex) : Prop :=
  (∀ v ∈ vs, v.neighbors.length ≤ 1) ∧ vs.Pairwise (fun a b => a.neighbors ≠ [] → Blank b)

theorem drop_head {dim : UInt32} {a : UInt32} {w : List UInt32} (hw : w.length = dim.toNat) (t : Bytes) :
    (putUint32 a ++ (w.flatMap putUint32 ++ t)).drop (4 + 4 * dim.toNat) = t := by
  rw [← List.drop_drop, drop_put32, List.drop_left' (by rw [flatMap_put32_length, hw])]

/-- what `deserialize` does with words. -/
theorem deserialize_words {id : UInt64} {dim deg : UInt32} {a : UInt32} {w : List UInt32} (hw : w.length = dim.toNat) (t : Bytes) :
    deserialize id (putUint32 a ++ (w.flatMap putUint32 ++ t)) dim deg =
      (readNeighbors deg.toNat t).map (fun p => ({ id := id, objId := a, neighbors := p.1, vector := w }, 4 + 4 * dim.toNat + p.2)) := by
  unfold deserialize
  rw [uint32_put, drop_put32, drop_head hw, ← hw, readFloats_flatMap]
  simp only [ok_bind]
  cases readNeighbors deg.toNat t with
  | ok p => obtain ⟨ns, k⟩ := p; rfl
  | error e => rfl

theorem serialize_words (v : Vertex) (deg : UInt32) (r : Bytes) : serialize v deg ++ r = putUint32 v.objId ++ (v.vector.flatMap putUint32 ++
    (v.neighbors.flatMap putUint64 ++ ((List.replicate (deg.toNat - v.neighbors.length) 0).flatMap putUint32 ++ r))) := by
  unfold serialize; simp only [List.append_assoc]

theorem high_zero {n : UInt64} (h : n < 4294967296) : (putUint64 n).drop 4 = putUint32 0 := by
  have hn : n.toNat < 4294967296 := UInt64.lt_iff_toNat_lt.mp h
  have e1 : n.toNat / 4294967296 = 0 := Nat.div_eq_of_lt hn
  have e2 : n.toNat / 1099511627776 = 0 := Nat.div_eq_of_lt (by omega)
  have e3 : n.toNat / 281474976710656 = 0 := Nat.div_eq_of_lt (by omega)
  have e4 : n.toNat / 72057594037927936 = 0 := Nat.div_eq_of_lt (by omega)
  simp only [putUint64, List.drop_succ_cons, List.drop_zero, e1, e2, e3, e4]
  rfl

/-- an aligned vertex with one link reads back; the next one is read four bytes too early. -/
theorem one_link {v : Vertex} {dim deg : UInt32} (p : Plain dim v) (h1 : v.neighbors.length = 1) (hd : 2 ≤ deg.toNat) (r : Bytes) :
    deserialize v.id (serialize v deg ++ r) dim deg = .ok (v, 4 * (1 + dim.toNat + deg.toNat)) ∧
      (serialize v deg ++ r).drop (4 * (1 + dim.toNat + deg.toNat)) = putUint32 0 ++ r := by
  obtain ⟨n, hn⟩ := List.length_eq_one_iff.mp h1
  obtain ⟨n0, n1⟩ := p.links n (by rw [hn]; simp)
  obtain ⟨m, hm⟩ : ∃ m, deg.toNat = m + 2 := ⟨deg.toNat - 2, by omega⟩
  have hz := high_zero n1
  have hs := serialize_words v deg r
  rw [hn, hm] at hs
  simp only [List.flatMap_cons, List.flatMap_nil, List.append_nil, List.length_cons, List.length_nil, Nat.zero_add, Nat.add_sub_cancel,
    show m + 2 - 1 = m + 1 from rfl, List.replicate_succ, List.append_assoc] at hs
  have h8 : (putUint64 n).length = 8 := rfl
  have hd4 : ∀ t : Bytes, (putUint64 n ++ t).drop 4 = putUint32 0 ++ t := by
    intro t; rw [List.drop_append_of_le_length (by rw [h8]; decide), hz]
  constructor
  · rw [hs, deserialize_words p.vec, hm]
    have : readNeighbors (m + 2) (putUint64 n ++ (putUint32 0 ++ ((List.replicate m 0).flatMap putUint32 ++ r))) = .ok ([n], 4 * (m + 2)) := by
      unfold readNeighbors
      rw [uint64_put, ok_bind, if_neg n0, hd4]
      unfold readNeighbors
      rw [uint64_zeros]
      simp only [ok_bind, if_true]
      congr 2
      omega
    rw [this]
    cases v
    cases hn
    simp only [Except.map]
    congr 2
    omega
  · rw [hs, hm, show 4 * (1 + dim.toNat + (m + 2)) = (4 + 4 * dim.toNat) + (4 + (4 + 4 * m)) by omega, ← List.drop_drop,
      drop_head p.vec, ← List.drop_drop, hd4]
    rw [← List.drop_drop, drop_put32]
    have : ∀ m : Nat, ((putUint32 0 ++ ((List.replicate m 0).flatMap putUint32 ++ r)).drop (4 * m)) = putUint32 0 ++ r := by
      intro m
      have e : putUint32 0 ++ ((List.replicate m 0).flatMap putUint32 ++ r) = (List.replicate m 0).flatMap putUint32 ++ (putUint32 0 ++ r) := by
        rw [← List.append_assoc, ← List.append_assoc]
        congr 1
        have : (List.replicate (m + 1) (0 : UInt32)).flatMap putUint32 = putUint32 0 ++ (List.replicate m 0).flatMap putUint32 := by
          rw [List.replicate_succ, List.flatMap_cons]
        rw [← this, List.replicate_succ', List.flatMap_append]
        simp
      rw [e, List.drop_left' (by rw [flatMap_put32_length]; simp)]
    exact this m

theorem zeros_words (k : Nat) (t : Bytes) : putUint32 0 ++ ((List.replicate k 0).flatMap putUint32 ++ t) =
    (List.replicate k 0).flatMap putUint32 ++ (putUint32 0 ++ t) := by
  rw [← List.append_assoc, ← List.append_assoc]
  congr 1
  have : (List.replicate (k + 1) (0 : UInt32)).flatMap putUint32 = putUint32 0 ++ (List.replicate k 0).flatMap putUint32 := by
    rw [List.replicate_succ, List.flatMap_cons]
  rw [← this, List.replicate_succ', List.flatMap_append]
  simp

/-- a blank vertex read four bytes too early. -/
theorem blank_shifted {v : Vertex} {dim deg : UInt32} (p : Plain dim v) (hb : Blank v) (hd : 2 ≤ deg.toNat) (r : Bytes) :
    deserialize v.id (putUint32 0 ++ (serialize v deg ++ r)) dim deg = .ok (v, 4 * (1 + dim.toNat + deg.toNat)) ∧
      (putUint32 0 ++ (serialize v deg ++ r)).drop (4 * (1 + dim.toNat + deg.toNat)) = putUint32 0 ++ r := by
  obtain ⟨hn, hz⟩ := hb
  have hvec : v.vector = List.replicate dim.toNat 0 := by rw [← p.vec]; exact List.eq_replicate_iff.mpr ⟨rfl, hz⟩
  have hser : putUint32 0 ++ (serialize v deg ++ r) = serialize v deg ++ (putUint32 0 ++ r) := by
    rw [serialize_words, serialize_words, hn, p.obj, hvec]
    simp only [List.flatMap_nil, List.nil_append, List.length_nil, Nat.sub_zero]
    rw [← zeros_words deg.toNat, ← zeros_words dim.toNat]
  obtain ⟨a, b⟩ := deserialize_serialize (deg := deg) hn p.vec hd (putUint32 0 ++ r)
  rw [hser]
  exact ⟨a, b⟩

theorem shift_zero {vec : List UInt32} {x : UInt32} (h : 0 :: vec = vec ++ [x]) : (∀ y ∈ vec, y = 0) ∧ x = 0 := by
  induction vec with
  | nil => simp at h; exact ⟨fun y hy => (nomatch hy), h.symm⟩
  | cons a vec ih =>
    rw [List.cons_append, List.cons.injEq] at h
    obtain ⟨rfl, h⟩ := h
    obtain ⟨i1, i2⟩ := ih h
    exact ⟨fun y hy => (List.mem_cons.mp hy).elim (fun h => h) (i1 y), i2⟩

/-- a vertex read four bytes too early comes back only if it is blank. -/
theorem shifted_back {v : Vertex} {dim deg : UInt32} (p : Plain dim v) (hd : 2 ≤ deg.toNat) {r : Bytes} {k : Nat} {id : UInt64}
    (h : deserialize id (putUint32 0 ++ (serialize v deg ++ r)) dim deg = .ok (v, k)) : Blank v := by
  rw [serialize_words, p.obj] at h
  obtain ⟨w, x, hw⟩ : ∃ w x, (0 : UInt32) :: v.vector = w ++ [x] := by
    rcases List.eq_nil_or_concat ((0 : UInt32) :: v.vector) with h | ⟨w, x, h⟩
    · cases h
    · exact ⟨w, x, by rw [h, List.concat_eq_append]⟩
  have hwl : w.length = dim.toNat := by
    have := congrArg List.length hw
    rw [List.length_cons, List.length_append, p.vec] at this
    simpa using this.symm
  have e : ∀ t, putUint32 0 ++ (v.vector.flatMap putUint32 ++ t) = w.flatMap putUint32 ++ (putUint32 x ++ t) := by
    intro t
    rw [← List.append_assoc, ← List.append_assoc]
    congr 1
    rw [← List.flatMap_cons, hw, List.flatMap_append]; simp
  rw [e, deserialize_words hwl] at h
  cases hr : readNeighbors deg.toNat (putUint32 x ++ (v.neighbors.flatMap putUint64 ++
      ((List.replicate (deg.toNat - v.neighbors.length) 0).flatMap putUint32 ++ r))) with
  | error q => rw [hr] at h; cases h
  | ok q =>
    obtain ⟨ns, j⟩ := q
    rw [hr] at h
    simp only [Except.map, Except.ok.injEq, Prod.mk.injEq] at h
    have hvec : w = v.vector := by rw [← h.1]
    have hns : ns = v.neighbors := by rw [← h.1]
    rw [hvec] at hw
    obtain ⟨z1, z2⟩ := shift_zero hw
    refine ⟨?_, z1⟩
    subst z2
    cases hn : v.neighbors with
    | nil => rfl
    | cons n rest =>
      exfalso
      obtain ⟨n0, n1⟩ := p.links n (by rw [hn]; simp)
      obtain ⟨m, hm⟩ : ∃ m, deg.toNat = m + 1 := ⟨deg.toNat - 1, by omega⟩
      rw [hn] at hr hns
      rw [hm] at hr
      unfold readNeighbors at hr
      rw [bind_ok_iff] at hr
      obtain ⟨y, h5, h6⟩ := hr
      have hy : y = n := by
        split at h6
        · simp only [Except.ok.injEq, Prod.mk.injEq] at h6; rw [← h6.1] at hns; cases hns
        · rw [bind_ok_iff] at h6
          obtain ⟨⟨l3, n3⟩, _, h7⟩ := h6
          simp only [Except.ok.injEq, Prod.mk.injEq] at h7
          rw [← h7.1] at hns
          exact (List.cons.inj hns).1
      subst hy
      apply n0
      apply UInt64.toNat_inj.mp
      rw [List.flatMap_cons, List.append_assoc] at h5
      generalize rest.flatMap putUint64 ++ ((List.replicate (m + 1 - (y :: rest).length) 0).flatMap putUint32 ++ r) = t at h5
      have h8 : uint64 ((putUint64 0 ++ (putUint64 y ++ t)).drop 4) = .ok y := h5
      simp only [putUint64, List.cons_append, List.nil_append, List.drop_succ_cons, List.drop_zero, uint64, Except.ok.injEq] at h8
      have h9 := congrArg UInt64.toNat h8
      simp only [UInt64.toNat_ofNat', UInt8.toNat_ofNat'] at h9
      show y.toNat = 0
      exact shifted (m := (0 : UInt64).toNat) y.toNat_lt (by decide) h9

/-! ## a page -/

/-- the bytes left over by earlier vertices of the page. -/
def slack (s : Bool) : Bytes := if s then putUint32 0 else []

theorem ids_cons {first : UInt64} {v : Vertex} {vs : List Vertex} (hid : (v :: vs).map Vertex.id = idsFrom first (v :: vs).length) :
    v.id = first ∧ vs.map Vertex.id = idsFrom (first + 1) vs.length := by
  rw [List.length_cons, Nat.add_comm, idsFrom_append] at hid
  have e : idsFrom first 1 = [first] := by simp [idsFrom]
  rw [e, List.map_cons, List.singleton_append, List.cons.injEq] at hid
  exact hid

theorem page_back {dim deg : UInt32} (hd : 2 ≤ deg.toNat) (r : Bytes) : ∀ (vs : List Vertex) (s : Bool) (first : UInt64) (g : Graph),
    (∀ v ∈ vs, Plain dim v) → PageGood vs → (s = true → ∀ v ∈ vs, Blank v) → vs.map Vertex.id = idsFrom first vs.length →
    deserializeVertices dim deg vs.length first (slack s ++ (vs.flatMap (fun v => serialize v deg) ++ r)) g =
      .ok (vs.foldl (fun g v => AMap.set g v.id v) g) := by
  intro vs
  induction vs with
  | nil => intro _ _ _ _ _ _ _; rfl
  | cons v vs ih =>
    intro s first g hp hg hs hid
    obtain ⟨hid1, hid2⟩ := ids_cons hid
    have p := hp v (List.mem_cons_self ..)
    have hg2 : PageGood vs := ⟨fun x hx => hg.1 x (List.mem_cons_of_mem _ hx), (List.pairwise_cons.mp hg.2).2⟩
    have hp2 : ∀ v ∈ vs, Plain dim v := fun x hx => hp x (List.mem_cons_of_mem _ hx)
    rw [List.flatMap_cons, List.append_assoc, List.length_cons]
    unfold deserializeVertices
    -- the bytes left over after this vertex
    obtain ⟨s', a, b, c⟩ : ∃ s', deserialize first (slack s ++ (serialize v deg ++ (vs.flatMap (fun v => serialize v deg) ++ r))) dim deg =
        .ok (v, 4 * (1 + dim.toNat + deg.toNat)) ∧
        (slack s ++ (serialize v deg ++ (vs.flatMap (fun v => serialize v deg) ++ r))).drop (4 * (1 + dim.toNat + deg.toNat)) =
          slack s' ++ (vs.flatMap (fun v => serialize v deg) ++ r) ∧ (s' = true → ∀ v ∈ vs, Blank v) := by
      rw [← hid1]
      cases s with
      | true =>
        obtain ⟨a, b⟩ := blank_shifted p (hs rfl v (List.mem_cons_self ..)) hd (vs.flatMap (fun v => serialize v deg) ++ r)
        exact ⟨true, a, b, fun _ x hx => hs rfl x (List.mem_cons_of_mem _ hx)⟩
      | false =>
        cases hn : v.neighbors with
        | nil =>
          obtain ⟨a, b⟩ := deserialize_serialize (deg := deg) hn p.vec hd (vs.flatMap (fun v => serialize v deg) ++ r)
          exact ⟨false, a, b, fun h => (nomatch h)⟩
        | cons n ns =>
          have h1 : v.neighbors.length = 1 := by
            have := hg.1 v (List.mem_cons_self ..)
            rw [hn] at this ⊢; simp at this ⊢; exact this
          obtain ⟨a, b⟩ := one_link p h1 hd (vs.flatMap (fun v => serialize v deg) ++ r)
          exact ⟨true, a, b, fun _ x hx => (List.pairwise_cons.mp hg.2).1 x hx (by rw [hn]; simp)⟩
    rw [a]
    simp only [ok_bind]
    rw [b, ih s' (first + 1) _ hp2 hg2 c hid2, List.foldl_cons, hid1]

/-- reading a page touches only its own ids. -/
theorem page_frame {dim deg : UInt32} : ∀ n (first : UInt64) (b : Bytes) (g g' : Graph), deserializeVertices dim deg n first b g = .ok g' →
    ∀ k, k ∉ idsFrom first n → g'.get? k = g.get? k := by
  intro n
  induction n with
  | zero => intro first b g g' h k _; cases h; rfl
  | succ n ih =>
    intro first b g g' h k hk
    unfold deserializeVertices at h
    rw [bind_ok_iff] at h
    obtain ⟨⟨v, j⟩, _, h⟩ := h
    rw [Nat.add_comm, idsFrom_append] at hk
    have e : idsFrom first 1 = [first] := by simp [idsFrom]
    rw [e, List.singleton_append, List.mem_cons] at hk
    rw [ih _ _ _ _ h k (fun hc => hk (Or.inr hc)), AMap.get?_set, if_neg (fun e => hk (Or.inl e.symm))]

theorem idsFrom_nodup {first : UInt64} {n : Nat} (h : first.toNat + n ≤ 18446744073709551616) : (idsFrom first n).Nodup :=
  (idsFrom_sorted h).imp (fun h e => by rw [e] at h; exact absurd h (UInt64.lt_irrefl _))

theorem page_only {dim deg : UInt32} (hd : 2 ≤ deg.toNat) (r : Bytes) : ∀ (vs : List Vertex) (s : Bool) (first : UInt64) (g g' : Graph),
    (∀ v ∈ vs, Plain dim v) → vs.map Vertex.id = idsFrom first vs.length → (idsFrom first vs.length).Nodup →
    deserializeVertices dim deg vs.length first (slack s ++ (vs.flatMap (fun v => serialize v deg) ++ r)) g = .ok g' →
    (∀ v ∈ vs, g'.get? v.id = some v) → PageGood vs ∧ (s = true → ∀ v ∈ vs, Blank v) := by
  intro vs
  induction vs with
  | nil => intro _ _ _ _ _ _ _ _ _; exact ⟨⟨fun v hv => (nomatch hv), List.Pairwise.nil⟩, fun _ v hv => (nomatch hv)⟩
  | cons v vs ih =>
    intro s first g g' hp hid hnd h hback
    obtain ⟨hid1, hid2⟩ := ids_cons hid
    have p := hp v (List.mem_cons_self ..)
    have hp2 : ∀ v ∈ vs, Plain dim v := fun x hx => hp x (List.mem_cons_of_mem _ hx)
    rw [← hid, List.map_cons, List.nodup_cons, hid2] at hnd
    rw [List.flatMap_cons, List.append_assoc, List.length_cons] at h
    unfold deserializeVertices at h
    rw [bind_ok_iff] at h
    obtain ⟨⟨u, j⟩, h1, h2⟩ := h
    dsimp only at h2
    have hu : u = v := by
      have := page_frame _ _ _ _ _ h2 first (by have := hnd.1; rwa [hid1] at this)
      rw [AMap.get?_set_self, ← hid1, hback v (List.mem_cons_self ..)] at this
      exact (Option.some.inj this).symm
    subst hu
    have back2 : ∀ v ∈ vs, g'.get? v.id = some v := fun x hx => hback x (List.mem_cons_of_mem _ hx)
    cases s with
    | true =>
      have hb := shifted_back p hd h1
      obtain ⟨a, b⟩ := blank_shifted p hb hd (vs.flatMap (fun v => serialize v deg) ++ r)
      rw [hid1] at a
      change deserialize first (putUint32 0 ++ _) dim deg = _ at h1
      rw [a] at h1; cases h1
      change deserializeVertices dim deg vs.length (first + 1) ((putUint32 0 ++ _).drop _) _ = _ at h2
      rw [b] at h2
      obtain ⟨i1, i2⟩ := ih true (first + 1) _ g' hp2 hid2 hnd.2 h2 back2
      refine ⟨⟨?_, List.pairwise_cons.mpr ⟨fun x hx _ => i2 rfl x hx, i1.2⟩⟩, fun _ x hx => ?_⟩
      · intro x hx
        rcases List.mem_cons.mp hx with rfl | hx
        · rw [hb.1]; simp
        · exact i1.1 x hx
      · rcases List.mem_cons.mp hx with rfl | hx
        · exact hb
        · exact i2 rfl x hx
    | false =>
      refine ⟨?_, fun h => (nomatch h)⟩
      change deserialize first (serialize u deg ++ _) dim deg = _ at h1
      change deserializeVertices dim deg vs.length (first + 1) ((serialize u deg ++ _).drop _) _ = _ at h2
      match hn : u.neighbors with
      | [] =>
        obtain ⟨a, b⟩ := deserialize_serialize (deg := deg) hn p.vec hd (vs.flatMap (fun v => serialize v deg) ++ r)
        rw [hid1] at a
        rw [a] at h1; cases h1
        rw [b] at h2
        obtain ⟨i1, _⟩ := ih false (first + 1) _ g' hp2 hid2 hnd.2 h2 back2
        refine ⟨?_, List.pairwise_cons.mpr ⟨fun x _ hc => absurd hn hc, i1.2⟩⟩
        intro x hx
        rcases List.mem_cons.mp hx with rfl | hx
        · rw [hn]; simp
        · exact i1.1 x hx
      | [n] =>
        have h1' : u.neighbors.length = 1 := by rw [hn]; rfl
        obtain ⟨a, b⟩ := one_link p h1' hd (vs.flatMap (fun v => serialize v deg) ++ r)
        rw [hid1] at a
        rw [a] at h1; cases h1
        rw [b] at h2
        obtain ⟨i1, i2⟩ := ih true (first + 1) _ g' hp2 hid2 hnd.2 h2 back2
        refine ⟨?_, List.pairwise_cons.mpr ⟨fun x hx _ => i2 rfl x hx, i1.2⟩⟩
        intro x hx
        rcases List.mem_cons.mp hx with rfl | hx
        · omega
        · exact i1.1 x hx
      | a :: b :: ns =>
        exfalso
        obtain ⟨a0, a1⟩ := p.links a (by rw [hn]; simp)
        obtain ⟨b0, _⟩ := p.links b (by rw [hn]; simp)
        exact C48_two_links_lost hn p.vec a0 a1 b0 h1 rfl

/-- the bytes of a page. -/
theorem page_bytes {dim deg : UInt32} (hd : 2 ≤ deg.toNat) : ∀ vs : List Vertex, (∀ v ∈ vs, Plain dim v) → (∀ v ∈ vs, v.neighbors.length ≤ 1) →
    (vs.flatMap (fun v => serialize v deg)).length =
      vs.length * (4 * (1 + dim.toNat + deg.toNat)) + 4 * (vs.filter (fun v => v.neighbors ≠ [])).length := by
  intro vs
  induction vs with
  | nil => intro _ _; simp
  | cons v vs ih =>
    intro hp h1
    rw [List.flatMap_cons, List.length_append, ih (fun x hx => hp x (List.mem_cons_of_mem _ hx)) (fun x hx => h1 x (List.mem_cons_of_mem _ hx))]
    have p := hp v (List.mem_cons_self ..)
    have hl := h1 v (List.mem_cons_self ..)
    have hlen : (serialize v deg).length = 4 * (1 + dim.toNat + deg.toNat) + 4 * v.neighbors.length := by
      have e : (v.neighbors.flatMap putUint64).length = 8 * v.neighbors.length := by
        generalize v.neighbors = ns
        induction ns with
        | nil => rfl
        | cons a ns ih => rw [List.flatMap_cons, List.length_append, ih, List.length_cons]; show 8 + _ = _; omega
      unfold serialize
      rw [List.length_append, List.length_append, List.length_append, flatMap_put32_length, flatMap_put32_length, e, p.vec]
      simp only [List.length_replicate]
      show 4 + _ + _ + _ = _
      omega
    rw [hlen, List.length_cons]
    generalize 4 * (1 + dim.toNat + deg.toNat) = B
    rw [Nat.add_mul vs.length 1 B, Nat.one_mul]
    cases hn : v.neighbors with
    | nil => rw [List.filter_cons_of_neg (by simp [hn])]; simp only [List.length_nil, List.length_cons]; omega
    | cons n ns =>
      have : ns = [] := by rw [hn] at hl; simp at hl; exact hl
      subst this
      rw [List.filter_cons_of_pos (by simp [hn])]; simp only [List.length_nil, List.length_cons]; omega

theorem page_linked {vs : List Vertex} (h : vs.Pairwise (fun a b => a.neighbors ≠ [] → Blank b)) :
    (vs.filter (fun v => v.neighbors ≠ [])).length ≤ 1 := by
  induction vs with
  | nil => simp
  | cons v vs ih =>
    obtain ⟨h1, h2⟩ := List.pairwise_cons.mp h
    by_cases hn : v.neighbors = []
    · rw [List.filter_cons_of_neg (by simp [hn])]; exact ih h2
    · rw [List.filter_cons_of_pos (by simp [hn])]
      have : vs.filter (fun v => v.neighbors ≠ []) = [] := by
        rw [List.filter_eq_nil_iff]
        intro x hx
        simp [(h1 x hx hn).1]
      rw [this]; simp

/-! ## the file -/

/-- the pages of a file: the first id and the number of vertices of each. -/
def chunks (per : Nat) (extra : Nat) : Nat → UInt64 → List (UInt64 × Nat)
  | 0, first => if extra = 0 then [] else [(first, extra)]
  | q + 1, first => (first, per) :: chunks per extra q (first + UInt64.ofNat per)

/-- the pages read one after the other. -/
def readAll (dim deg : UInt32) : List (UInt64 × Nat) → List Bytes → Graph → Except Panic Graph
  | c :: cs, p :: ps, g => do
    let g ← deserializeVertices dim deg c.2 c.1 p g
    readAll dim deg cs ps g
  | _, _, g => .ok g

theorem mapM_nil' {A B : Type} (f : A → Except Panic B) : ([] : List A).mapM f = .ok [] := rfl

theorem mapM_ok_length {A B : Type} {f : A → Except Panic B} : ∀ (l : List A) (r : List B), l.mapM f = .ok r → r.length = l.length := by
  intro l
  induction l with
  | nil => intro r h; cases h; rfl
  | cons a l ih =>
    intro r h
    rw [List.mapM_cons, bind_ok_iff] at h
    obtain ⟨b, _, h⟩ := h
    rw [bind_ok_iff] at h
    obtain ⟨bs, h1, h⟩ := h
    cases h
    rw [List.length_cons, ih bs h1, List.length_cons]

theorem write_body (g : Graph) (deg : UInt32) (per extra : Nat) : ∀ q (first : UInt64),
    ((fullPages g deg per q (idsFrom first (q * per + extra))) >>= fun x =>
      if extra = 0 then (.ok x.1 : Except Panic (List Bytes)) else (serializeVertices g (x.2.take extra) deg) >>= fun last => .ok (x.1 ++ [last])) =
    (chunks per extra q first).mapM (fun c => serializeVertices g (idsFrom c.1 c.2) deg) := by
  intro q
  induction q with
  | zero =>
    intro first
    unfold fullPages chunks
    rw [ok_bind, Nat.zero_mul, Nat.zero_add]
    by_cases h : extra = 0
    · rw [if_pos h, if_pos h]; rfl
    · rw [if_neg h, if_neg h, List.mapM_cons]
      dsimp only
      rw [List.take_of_length_le (by rw [idsFrom_length]; exact Nat.le_refl _)]
      cases serializeVertices g (idsFrom first extra) deg <;> rfl
  | succ q ih =>
    intro first
    rw [show (q + 1) * per + extra = per + (q * per + extra) by rw [Nat.succ_mul]; omega, idsFrom_append]
    unfold fullPages chunks
    rw [List.mapM_cons, ← ih (first + UInt64.ofNat per), List.take_left' (idsFrom_length _ _), List.drop_left' (idsFrom_length _ _)]
    dsimp only
    cases serializeVertices g (idsFrom first per) deg with
    | error e => rfl
    | ok p =>
      rw [ok_bind, ok_bind]
      cases fullPages g deg per q (idsFrom (first + UInt64.ofNat per) (q * per + extra)) with
      | error e => rfl
      | ok x =>
        obtain ⟨ps, rest⟩ := x
        rw [ok_bind, ok_bind, ok_bind]
        dsimp only
        by_cases h : extra = 0
        · rw [if_pos h, if_pos h, ok_bind]; rfl
        · rw [if_neg h, if_neg h]
          cases serializeVertices g (rest.take extra) deg <;> rfl

theorem liftE_bind {A B : Type} (x : Except Panic A) (f : A → Except Panic B) : liftE (x >>= f) = liftE x >>= fun a => liftE (f a) := by
  cases x <;> rfl

theorem read_body (file : List Bytes) (dim deg : UInt32) (per extra : Nat) : ∀ q (first : UInt64) (i : Nat) (ps : List Bytes) (g : Graph),
    ps.length = (chunks per extra q first).length → (∀ j : Nat, j < ps.length → file[i + j]? = ps[j]?) →
    ((readPages file dim deg per q i first g) >>= fun x => if extra = 0 then (.ok x.1 : Except Fail Graph) else
      readPage file (i + q) >>= fun p => liftE (deserializeVertices dim deg extra x.2 p x.1)) =
    liftE (readAll dim deg (chunks per extra q first) ps g) := by
  intro q
  induction q with
  | zero =>
    intro first i ps g hl hf
    unfold readPages chunks at *
    rw [ok_bind]
    by_cases h : extra = 0
    · rw [if_pos h] at hl ⊢
      rw [if_pos h]
      rw [List.length_eq_zero_iff.mp hl]; rfl
    · rw [if_neg h] at hl ⊢
      rw [if_neg h]
      obtain ⟨p, rfl⟩ := List.length_eq_one_iff.mp hl
      have := hf 0 (by simp)
      simp only [Nat.add_zero, List.getElem?_cons_zero] at this
      unfold readPage
      rw [Nat.add_zero, this, ok_bind]
      unfold readAll
      dsimp only
      cases deserializeVertices dim deg extra first p g <;> rfl
  | succ q ih =>
    intro first i ps g hl hf
    unfold readPages
    unfold chunks at hl ⊢
    cases ps with
    | nil => cases hl
    | cons p ps =>
      have h0 := hf 0 (by simp)
      simp only [Nat.add_zero, List.getElem?_cons_zero] at h0
      have hp : readPage file i = .ok p := by unfold readPage; rw [h0]
      rw [hp, ok_bind]
      unfold readAll
      rw [liftE_bind]
      dsimp only
      cases hdv : deserializeVertices dim deg per first p g with
      | error e => rfl
      | ok g1 =>
        show (readPages file dim deg per q (i + 1) (first + UInt64.ofNat per) g1 >>= _) = liftE (readAll dim deg (chunks per extra q (first + UInt64.ofNat per)) ps g1)
        rw [← ih (first + UInt64.ofNat per) (i + 1) ps g1 (by simpa using hl) (fun j hj => by
          have := hf (j + 1) (by simpa using hj)
          rw [List.getElem?_cons_succ] at this
          rw [← this]; congr 1; omega)]
        rw [show i + 1 + q = i + (q + 1) by omega]

/-- the vertices of the pages, page by page, come back. -/
def ChunkGood (G : Graph) (dim deg : UInt32) (c : UInt64 × Nat) : Prop :=
  ∀ vs : List Vertex, vs.map Vertex.id = idsFrom c.1 c.2 → (∀ v ∈ vs, G.get? v.id = some v) →
    PageGood vs ∧ ((∃ v ∈ vs, v.neighbors ≠ []) → c.2 * (4 * (1 + dim.toNat + deg.toNat)) + 4 ≤ 4096)

theorem chunks_iff {G : Graph} {dim deg : UInt32} (hd : 2 ≤ deg.toNat) (hkey : ∀ k v, G.get? k = some v → v.id = k)
    (hpl : ∀ k v, G.get? k = some v → Plain dim v) : ∀ (cs : List (UInt64 × Nat)) (g : Graph),
    (cs.flatMap (fun c => idsFrom c.1 c.2)).Nodup → (∀ c ∈ cs, ∀ k ∈ idsFrom c.1 c.2, k ∈ AMap.keys G) →
    (∀ c ∈ cs, c.2 * (4 * (1 + dim.toNat + deg.toNat)) ≤ 4096) →
    ((∃ ps g', cs.mapM (fun c => serializeVertices G (idsFrom c.1 c.2) deg) = .ok ps ∧ readAll dim deg cs ps g = .ok g' ∧
      (∀ k, g'.get? k = if k ∈ cs.flatMap (fun c => idsFrom c.1 c.2) then G.get? k else g.get? k)) ↔
    ∀ c ∈ cs, ChunkGood G dim deg c) := by
  intro cs
  induction cs with
  | nil =>
    intro g _ _ _
    constructor
    · intro _ c hc; cases hc
    · intro _; exact ⟨[], g, rfl, rfl, fun k => by simp⟩
  | cons c cs ih =>
    intro g hnd hin hfit
    rw [List.flatMap_cons, List.nodup_append] at hnd
    obtain ⟨nd1, nd2, nd3⟩ := hnd
    obtain ⟨vs, v1, v2, v3⟩ := mapM_vertexAt hkey _ (hin c (List.mem_cons_self ..))
    have hlen : vs.length = c.2 := by
      have := congrArg List.length v2; rw [List.length_map, idsFrom_length] at this; exact this
    have vp : ∀ v ∈ vs, Plain dim v := fun v hv => hpl _ v (v3 v hv)
    have hser : serializeVertices G (idsFrom c.1 c.2) deg = page (vs.flatMap (fun v => serialize v deg)) := by
      unfold serializeVertices; rw [v1, ok_bind]
    have huniq : ∀ vs' : List Vertex, vs'.map Vertex.id = idsFrom c.1 c.2 → (∀ v ∈ vs', G.get? v.id = some v) → vs' = vs := by
      intro vs' h1 h2
      rw [← v2] at h1
      clear v1 v2 hlen vp hser
      induction vs' generalizing vs with
      | nil => cases vs with
        | nil => rfl
        | cons _ _ => cases h1
      | cons a vs' ih =>
        cases vs with
        | nil => cases h1
        | cons b vs =>
          rw [List.map_cons, List.map_cons, List.cons.injEq] at h1
          have ha := h2 a (List.mem_cons_self ..)
          have hb := v3 b (List.mem_cons_self ..)
          rw [h1.1, hb] at ha
          rw [← Option.some.inj ha, ih vs (fun x hx => v3 x (List.mem_cons_of_mem _ hx)) h1.2 (fun x hx => h2 x (List.mem_cons_of_mem _ hx))]
    have hids : vs.map Vertex.id = idsFrom c.1 vs.length := by rw [hlen]; exact v2
    rw [List.mapM_cons, hser]
    constructor
    · rintro ⟨ps, g', h1, h2, h3⟩
      rw [bind_ok_iff] at h1
      obtain ⟨p, p1, h1⟩ := h1
      rw [bind_ok_iff] at h1
      obtain ⟨ps', p2, h1⟩ := h1
      cases h1
      unfold page at p1
      have hle : (vs.flatMap (fun v => serialize v deg)).length ≤ pageSize := by
        rcases Nat.lt_or_ge pageSize (vs.flatMap (fun v => serialize v deg)).length with h | h
        · rw [if_neg (by omega)] at p1; cases p1
        · exact h
      rw [if_pos hle] at p1
      cases p1
      unfold readAll at h2
      rw [bind_ok_iff] at h2
      obtain ⟨g1, r1, r2⟩ := h2
      -- later pages do not touch the ids of this one
      have later : ∀ (cs : List (UInt64 × Nat)) (ps : List Bytes) (g g' : Graph), readAll dim deg cs ps g = .ok g' →
          ∀ k, k ∉ cs.flatMap (fun c => idsFrom c.1 c.2) → g'.get? k = g.get? k := by
        intro cs
        induction cs with
        | nil => intro ps g g' h k _; unfold readAll at h; cases h; rfl
        | cons c cs ih =>
          intro ps g g' h k hk
          cases ps with
          | nil => unfold readAll at h; cases h; rfl
          | cons p ps =>
            unfold readAll at h
            rw [bind_ok_iff] at h
            obtain ⟨g2, a, b⟩ := h
            rw [List.flatMap_cons, List.mem_append] at hk
            rw [ih ps g2 g' b k (fun h => hk (Or.inr h)), page_frame _ _ _ _ _ a k (fun h => hk (Or.inl h))]
      have hback : ∀ v ∈ vs, g1.get? v.id = some v := by
        intro v hv
        have hm : v.id ∈ idsFrom c.1 c.2 := by rw [← v2]; exact List.mem_map_of_mem hv
        rw [← later cs ps' g1 g' r2 v.id (fun h => nd3 _ hm _ h rfl), h3, if_pos (by rw [List.flatMap_cons]; exact List.mem_append_left _ hm)]
        exact v3 v hv
      rw [← hlen] at r1
      have hgood := (page_only hd _ vs false c.1 g g1 vp hids (by rw [hlen]; exact nd1) r1 hback).1
      intro c' hc'
      rcases List.mem_cons.mp hc' with rfl | hc'
      · intro vs' a1 a2
        rw [huniq vs' a1 a2]
        refine ⟨hgood, fun ⟨v, hv, hne⟩ => ?_⟩
        have hb := page_bytes hd vs vp hgood.1
        have : 1 ≤ (vs.filter (fun v => v.neighbors ≠ [])).length :=
          List.length_pos_iff_exists_mem.mpr ⟨v, by simp [hv, hne]⟩
        rw [hlen] at hb
        have hle' : (vs.flatMap (fun v => serialize v deg)).length ≤ 4096 := hle
        omega
      · refine (ih g1 nd2 (fun c hc => hin c (List.mem_cons_of_mem _ hc)) (fun c hc => hfit c (List.mem_cons_of_mem _ hc))).mp
          ⟨ps', g', p2, r2, fun k => ?_⟩ c' hc'
        by_cases hk : k ∈ cs.flatMap (fun c => idsFrom c.1 c.2)
        · rw [if_pos hk, h3, if_pos (by rw [List.flatMap_cons]; exact List.mem_append_right _ hk)]
        · rw [if_neg hk]; exact later cs ps' g1 g' r2 k hk
    · intro h
      obtain ⟨hg, hl⟩ := h c (List.mem_cons_self ..) vs v2 v3
      have hb := page_bytes hd vs vp hg.1
      have hle : (vs.flatMap (fun v => serialize v deg)).length ≤ pageSize := by
        show _ ≤ 4096
        have hone := page_linked hg.2
        rw [hlen] at hb
        have hf := hfit c (List.mem_cons_self ..)
        rcases Nat.eq_zero_or_pos (vs.filter (fun v => v.neighbors ≠ [])).length with h0 | h0
        · omega
        · obtain ⟨v, hv⟩ := List.length_pos_iff_exists_mem.mp h0
          rw [List.mem_filter] at hv
          have := hl ⟨v, hv.1, by simpa using hv.2⟩
          omega
      obtain ⟨ps, g', q1, q2, q3⟩ := (ih (vs.foldl (fun g v => AMap.set g v.id v) g) nd2 (fun c hc => hin c (List.mem_cons_of_mem _ hc))
        (fun c hc => hfit c (List.mem_cons_of_mem _ hc))).mpr (fun c' hc' => h c' (List.mem_cons_of_mem _ hc'))
      refine ⟨(vs.flatMap (fun v => serialize v deg) ++
        List.replicate (pageSize - (vs.flatMap (fun v => serialize v deg)).length) 0) :: ps, g', ?_, ?_, ?_⟩
      · unfold page
        rw [if_pos hle, ok_bind, q1, ok_bind]
        rfl
      · unfold readAll
        have := page_back hd (List.replicate (pageSize - (vs.flatMap (fun v => serialize v deg)).length) 0) vs false c.1 g vp hg
          (fun h => (nomatch h)) hids
        rw [hlen] at this
        change deserializeVertices dim deg c.2 c.1 (vs.flatMap _ ++ _) g = _ at this
        rw [this, ok_bind]
        exact q2
      · intro k
        rw [q3, foldl_get vs g v3, v2, List.flatMap_cons]
        by_cases h1 : k ∈ cs.flatMap (fun c => idsFrom c.1 c.2)
        · rw [if_pos h1, if_pos (List.mem_append_right _ h1)]
        · rw [if_neg h1]
          by_cases h2 : k ∈ idsFrom c.1 c.2
          · rw [if_pos h2, if_pos (List.mem_append_left _ h2)]
          · rw [if_neg h2, if_neg (fun h => (List.mem_append.mp h).elim h2 h1)]

theorem chunks_mem {per extra : Nat} (he : extra < per) : ∀ q (first : UInt64) (c : UInt64 × Nat),
    c ∈ chunks per extra q first ↔
      ∃ j, j * per < q * per + extra ∧ c = (first + UInt64.ofNat (j * per), min per (q * per + extra - j * per)) := by
  intro q
  induction q with
  | zero =>
    intro first c
    unfold chunks
    by_cases h : extra = 0
    · rw [if_pos h]
      constructor
      · intro hc; cases hc
      · rintro ⟨j, h1, _⟩; omega
    · rw [if_neg h, List.mem_singleton]
      constructor
      · rintro rfl; exact ⟨0, by omega, by simp; omega⟩
      · rintro ⟨j, h1, rfl⟩
        have : j = 0 := by
          rcases Nat.eq_zero_or_pos j with h | h
          · exact h
          · have := Nat.mul_le_mul_right per h; omega
        subst this; simp; omega
  | succ q ih =>
    intro first c
    unfold chunks
    rw [List.mem_cons, ih]
    constructor
    · rintro (rfl | ⟨j, h1, rfl⟩)
      · refine ⟨0, ?_, ?_⟩
        · rw [Nat.zero_mul, Nat.succ_mul]; omega
        · rw [Nat.zero_mul, Nat.succ_mul, Nat.min_eq_left (by omega)]; simp
      · refine ⟨j + 1, ?_, ?_⟩
        · rw [Nat.succ_mul, Nat.succ_mul]; omega
        · rw [Nat.succ_mul, Nat.succ_mul, UInt64.add_assoc, ← UInt64.ofNat_add, Nat.add_comm per (j * per)]
          congr 2; omega
    · rintro ⟨j, h1, rfl⟩
      cases j with
      | zero => left; rw [Nat.zero_mul, Nat.succ_mul, Nat.min_eq_left (by omega)]; simp
      | succ j =>
        right
        rw [Nat.succ_mul, Nat.succ_mul] at h1
        refine ⟨j, by omega, ?_⟩
        rw [Nat.succ_mul, Nat.succ_mul, UInt64.add_assoc, ← UInt64.ofNat_add, Nat.add_comm per (j * per)]
        congr 2; omega

theorem chunks_ids {per extra : Nat} : ∀ q (first : UInt64),
    (chunks per extra q first).flatMap (fun c => idsFrom c.1 c.2) = idsFrom first (q * per + extra) := by
  intro q
  induction q with
  | zero =>
    intro first
    unfold chunks
    by_cases h : extra = 0
    · rw [if_pos h, h]; simp [idsFrom]
    · rw [if_neg h]; simp
  | succ q ih =>
    intro first
    unfold chunks
    rw [List.flatMap_cons, ih, show (q + 1) * per + extra = per + (q * per + extra) by rw [Nat.succ_mul]; omega,
      idsFrom_append first per]

end DiskAnn

/-- an index `DiskAnn.Insert` can have built, small enough to be written: consecutive ids from `firstId` on, below 2^32; at least two links
allowed; a vertex fits on a page. -/
structure Savable (mi : MemIndex) : Prop where
  deg : 2 ≤ mi.maxDegree.toNat
  fits : 4 * (1 + mi.dim.toNat + mi.maxDegree.toNat) ≤ 4096
  ids : (AMap.keys mi.graph).Perm ((List.range mi.graph.length).map (fun i => mi.firstId + UInt64.ofNat i))
  count : mi.graph.length < 4294967296
  last : mi.firstId.toNat + mi.graph.length ≤ 18446744073709551616
  key : ∀ k v, mi.graph.get? k = some v → v.id = k
  vec : ∀ k v, mi.graph.get? k = some v → v.vector.length = mi.dim.toNat
  obj : ∀ k v, mi.graph.get? k = some v → v.objId = 0
  links : ∀ k v, mi.graph.get? k = some v → ∀ n ∈ v.neighbors, n ≠ 0 ∧ n < 4294967296

/-- C48, exactly: an index written to a file and read back has the same graph if and only if every vertex with a link has just one, there
are four bytes to spare on its page, and all later vertices on that page have no links and a vector of zeros. (`i`-th vertex: the one with
id `firstId + i`; a page holds `4096 / (4 * (1 + dim + maxDegree))` vertices.) -/
theorem C48_restored_iff {mi : MemIndex} (S : Savable mi) (per : Nat) (hper : per = 4096 / (4 * (1 + mi.dim.toNat + mi.maxDegree.toNat))) :
    (∃ file mi', writeIndex mi = .ok file ∧ readIndex file = .ok mi' ∧ ∀ k, mi'.graph.get? k = mi.graph.get? k) ↔
    ∀ i v, i < mi.graph.length → mi.graph.get? (mi.firstId + UInt64.ofNat i) = some v → v.neighbors ≠ [] →
      v.neighbors.length = 1 ∧
      min per (mi.graph.length - i / per * per) * (4 * (1 + mi.dim.toNat + mi.maxDegree.toNat)) + 4 ≤ 4096 ∧
      ∀ j u, i < j → j < mi.graph.length → j / per = i / per → mi.graph.get? (mi.firstId + UInt64.ofNat j) = some u →
        u.neighbors = [] ∧ ∀ x ∈ u.vector, x = 0 := by
  obtain ⟨r, hm⟩ := DiskAnn.meta_page mi
  obtain ⟨m1, m2, m3, m4, m5⟩ := DiskAnn.meta_read mi r
  have hpp := DiskAnn.perPage_eq (dim := mi.dim) (deg := mi.maxDegree) (by have := S.fits; omega)
  rw [← hper] at hpp
  have hpos : per ≠ 0 := by
    have := Nat.div_pos S.fits (by omega : 0 < 4 * (1 + mi.dim.toNat + mi.maxDegree.toNat))
    omega
  have hsz : (UInt32.ofNat mi.graph.length).toNat = mi.graph.length := by
    rw [UInt32.toNat_ofNat']; exact Nat.mod_eq_of_lt S.count
  have hsorted := DiskAnn.sortedIds_eq S.last S.ids
  have hsplit : mi.graph.length / per * per + mi.graph.length % per = mi.graph.length := by
    rw [Nat.mul_comm]; exact Nat.div_add_mod ..
  have hlt : mi.graph.length % per < per := Nat.mod_lt _ (Nat.pos_of_ne_zero hpos)
  have hkeys : ∀ k, k ∈ AMap.keys mi.graph ↔ k ∈ DiskAnn.idsFrom mi.firstId mi.graph.length := fun k => S.ids.mem_iff
  have hcids := DiskAnn.chunks_ids (per := per) (extra := mi.graph.length % per) (mi.graph.length / per) mi.firstId
  have hcmem := DiskAnn.chunks_mem hlt (mi.graph.length / per) mi.firstId
  have hwb := DiskAnn.write_body mi.graph mi.maxDegree per (mi.graph.length % per) (mi.graph.length / per) mi.firstId
  rw [hsplit] at hcids hcmem hwb
  generalize hcs : DiskAnn.chunks per (mi.graph.length % per) (mi.graph.length / per) mi.firstId = cs at hcids hcmem hwb
  have hplain : ∀ k v, mi.graph.get? k = some v → Plain mi.dim v := fun k v h => ⟨S.obj k v h, S.vec k v h, S.links k v h⟩
  have hfit : ∀ c ∈ cs, c.2 * (4 * (1 + mi.dim.toNat + mi.maxDegree.toNat)) ≤ 4096 := by
    intro c hc
    obtain ⟨j, _, rfl⟩ := (hcmem c).mp hc
    refine Nat.le_trans (Nat.mul_le_mul_right _ (Nat.min_le_left ..)) ?_
    rw [hper]; exact Nat.div_mul_le_self _ _
  have main := DiskAnn.chunks_iff (G := mi.graph) (dim := mi.dim) S.deg S.key hplain cs [] (by rw [hcids]; exact DiskAnn.idsFrom_nodup S.last)
    (fun c hc k hk => (hkeys k).mpr (by rw [← hcids]; exact List.mem_flatMap.mpr ⟨c, hc, hk⟩)) hfit
  have hget : ∀ k, (if k ∈ cs.flatMap (fun c => DiskAnn.idsFrom c.1 c.2) then mi.graph.get? k else AMap.get? ([] : DiskAnn.Graph) k) =
      mi.graph.get? k := by
    intro k
    rw [hcids]
    by_cases hk : k ∈ DiskAnn.idsFrom mi.firstId mi.graph.length
    · rw [if_pos hk]
    · rw [if_neg hk]
      exact ((AMap.get?_none_iff _ _).mpr (fun h => hk ((hkeys k).mp h))).symm
  simp only [hget] at main
  -- writing and reading in terms of the pages
  have hwrite : writeIndex mi = cs.mapM (fun c => DiskAnn.serializeVertices mi.graph (DiskAnn.idsFrom c.1 c.2) mi.maxDegree) >>= fun ps =>
      .ok ((DiskAnn.serializeMetadata mi ++ r) :: ps) := by
    rw [← hwb]
    unfold writeIndex
    rw [hm, ok_bind, hpp, ok_bind, if_neg hpos, hsorted, DiskAnn.idsFrom_length]
    cases DiskAnn.fullPages mi.graph mi.maxDegree per (mi.graph.length / per) (DiskAnn.idsFrom mi.firstId mi.graph.length) with
    | error e => rfl
    | ok x =>
      obtain ⟨full, rest⟩ := x
      rw [ok_bind, ok_bind]
      dsimp only
      by_cases hr : mi.graph.length % per = 0
      · rw [if_pos hr, if_pos hr]; rfl
      · rw [if_neg hr, if_neg hr]
        cases DiskAnn.serializeVertices mi.graph (rest.take (mi.graph.length % per)) mi.maxDegree <;> rfl
  have hread : ∀ ps : List Bytes, ps.length = cs.length → ∀ (P : DiskAnn.Graph → Prop),
      (∃ mi', readIndex ((DiskAnn.serializeMetadata mi ++ r) :: ps) = .ok mi' ∧ P mi'.graph) ↔
      ∃ g', DiskAnn.readAll mi.dim mi.maxDegree cs ps [] = .ok g' ∧ P g' := by
    intro ps hl P
    have hrb := DiskAnn.read_body ((DiskAnn.serializeMetadata mi ++ r) :: ps) mi.dim mi.maxDegree per (mi.graph.length % per)
      (mi.graph.length / per) mi.firstId 1 ps [] (by rw [hl, hcs]) (fun j _ => by rw [Nat.add_comm, List.getElem?_cons_succ])
    rw [hcs] at hrb
    have h0 : DiskAnn.readPage ((DiskAnn.serializeMetadata mi ++ r) :: ps) 0 = .ok (DiskAnn.serializeMetadata mi ++ r) := rfl
    have hri : readIndex ((DiskAnn.serializeMetadata mi ++ r) :: ps) =
        (DiskAnn.liftE (DiskAnn.readAll mi.dim mi.maxDegree cs ps [])).map (fun g =>
          ⟨g, false, false, mi.s, mi.dim, mi.maxDegree, mi.firstId, false, UInt32.ofNat mi.graph.length⟩) := by
      rw [← hrb]
      unfold readIndex
      simp only [h0, ok_bind, m1, m2, m3, m4, m5, DiskAnn.liftE_ok rfl, DiskAnn.liftE_ok hpp, if_neg hpos, hsz]
      cases DiskAnn.readPages ((DiskAnn.serializeMetadata mi ++ r) :: ps) mi.dim mi.maxDegree per (mi.graph.length / per) 1 mi.firstId [] with
      | error e => rfl
      | ok x =>
        obtain ⟨g, id⟩ := x
        rw [ok_bind, ok_bind]
        dsimp only
        by_cases hr : mi.graph.length % per = 0
        · rw [if_pos hr, if_pos hr]; rfl
        · rw [if_neg hr, if_neg hr, Nat.add_comm 1]
          cases DiskAnn.readPage ((DiskAnn.serializeMetadata mi ++ r) :: ps) (mi.graph.length / per + 1) with
          | error e => rfl
          | ok p =>
            rw [ok_bind, ok_bind]
            cases DiskAnn.deserializeVertices mi.dim mi.maxDegree (mi.graph.length % per) id p g <;> rfl
    rw [hri]
    cases DiskAnn.readAll mi.dim mi.maxDegree cs ps [] with
    | error e =>
      constructor
      · rintro ⟨_, h, _⟩; cases h
      · rintro ⟨_, h, _⟩; cases h
    | ok g =>
      constructor
      · rintro ⟨_, h, h2⟩; cases h; exact ⟨g, rfl, h2⟩
      · rintro ⟨_, h, h2⟩; cases h; exact ⟨_, rfl, h2⟩
  have hleft : (∃ file mi', writeIndex mi = .ok file ∧ readIndex file = .ok mi' ∧ ∀ k, mi'.graph.get? k = mi.graph.get? k) ↔
      ∃ ps g', cs.mapM (fun c => DiskAnn.serializeVertices mi.graph (DiskAnn.idsFrom c.1 c.2) mi.maxDegree) = .ok ps ∧
        DiskAnn.readAll mi.dim mi.maxDegree cs ps [] = .ok g' ∧ ∀ k, AMap.get? g' k = mi.graph.get? k := by
    rw [hwrite]
    constructor
    · rintro ⟨file, mi', h1, h2, h3⟩
      rw [bind_ok_iff] at h1
      obtain ⟨ps, h0, h1⟩ := h1
      cases h1
      obtain ⟨g', a, b⟩ := (hread ps (DiskAnn.mapM_ok_length _ _ h0) (fun g => ∀ k, AMap.get? g k = mi.graph.get? k)).mp ⟨mi', h2, h3⟩
      exact ⟨ps, g', h0, a, b⟩
    · rintro ⟨ps, g', h0, a, b⟩
      obtain ⟨mi', c, d⟩ := (hread ps (DiskAnn.mapM_ok_length _ _ h0) (fun g => ∀ k, AMap.get? g k = mi.graph.get? k)).mpr ⟨g', a, b⟩
      exact ⟨_, mi', by rw [h0, ok_bind], c, d⟩
  rw [hleft, main]
  -- page by page, in terms of positions
  have hidx : ∀ (j n t : Nat) (vs : List DiskAnn.Vertex), vs.map DiskAnn.Vertex.id = DiskAnn.idsFrom (mi.firstId + UInt64.ofNat (j * per)) n →
      ∀ v, vs[t]? = some v → v.id = mi.firstId + UInt64.ofNat (j * per + t) ∧ t < n := by
    intro j n t vs h v hv
    have := congrArg (fun l => l[t]?) h
    simp only [List.getElem?_map, hv, Option.map_some] at this
    unfold DiskAnn.idsFrom at this
    rw [List.getElem?_map] at this
    cases hr : (List.range n)[t]? with
    | none => rw [hr] at this; cases this
    | some t' =>
      rw [hr] at this
      obtain ⟨h1, h2⟩ := List.getElem?_eq_some_iff.mp hr
      simp only [List.getElem_range, List.length_range] at h1 h2
      subst h2
      rw [UInt64.ofNat_add, ← UInt64.add_assoc]
      exact ⟨Option.some.inj this, h1⟩
  have hdiv : ∀ j t, t < per → (j * per + t) / per = j := by
    intro j t ht
    rw [Nat.mul_comm, Nat.mul_add_div (Nat.pos_of_ne_zero hpos), Nat.div_eq_of_lt ht, Nat.add_zero]
  constructor
  · intro h i v hi hv hne
    have hdm : i / per * per + i % per = i := by rw [Nat.mul_comm]; exact Nat.div_add_mod ..
    have hmlt : i % per < per := Nat.mod_lt _ (Nat.pos_of_ne_zero hpos)
    have hc := (hcmem (mi.firstId + UInt64.ofNat (i / per * per), min per (mi.graph.length - i / per * per))).mpr ⟨i / per, by omega, rfl⟩
    have hg := h _ hc
    obtain ⟨vs, _, v2, v3⟩ := DiskAnn.mapM_vertexAt S.key (DiskAnn.idsFrom (mi.firstId + UInt64.ofNat (i / per * per))
      (min per (mi.graph.length - i / per * per))) (fun k hk => (hkeys k).mpr (by rw [← hcids]; exact List.mem_flatMap.mpr ⟨_, hc, hk⟩))
    obtain ⟨g1, g2⟩ := hg vs v2 v3
    have hlen : vs.length = min per (mi.graph.length - i / per * per) := by
      have := congrArg List.length v2; rw [List.length_map, DiskAnn.idsFrom_length] at this; exact this
    have at_ : ∀ t u, i / per * per + t < mi.graph.length → t < per → mi.graph.get? (mi.firstId + UInt64.ofNat (i / per * per + t)) = some u →
        vs[t]? = some u := by
      intro t u h1 h2 h3
      have ht : t < vs.length := by rw [hlen]; omega
      have hx := List.getElem?_eq_getElem ht
      have hid := (hidx _ _ t vs v2 _ hx).1
      have := v3 _ (List.getElem_mem ht)
      rw [hid, h3] at this
      rw [hx, Option.some.inj this]
    have hv' := at_ (i % per) v (by omega) hmlt (by rw [hdm]; exact hv)
    have hvm := List.mem_of_getElem? hv'
    refine ⟨?_, g2 ⟨v, hvm, hne⟩, ?_⟩
    · have := g1.1 v hvm
      have := List.length_pos_iff.mpr hne
      omega
    · intro j u hij hj hpg hu
      have hjm : j / per * per + j % per = j := by rw [Nat.mul_comm]; exact Nat.div_add_mod ..
      rw [hpg] at hjm
      have hu' := at_ (j % per) u (by omega) (Nat.mod_lt _ (Nat.pos_of_ne_zero hpos)) (by rw [hjm]; exact hu)
      obtain ⟨a1, a2⟩ := List.getElem?_eq_some_iff.mp hv'
      obtain ⟨b1, b2⟩ := List.getElem?_eq_some_iff.mp hu'
      have := List.pairwise_iff_getElem.mp g1.2 (i % per) (j % per) a1 b1 (by omega)
      rw [a2, b2] at this
      exact this hne
  · intro h c hc vs v2 v3
    obtain ⟨j, hj, rfl⟩ := (hcmem c).mp hc
    dsimp only at v2
    have at_ : ∀ (t : Nat) (u : DiskAnn.Vertex), vs[t]? = some u →
        t < per ∧ j * per + t < mi.graph.length ∧ mi.graph.get? (mi.firstId + UInt64.ofNat (j * per + t)) = some u := by
      intro t u hu
      obtain ⟨h1, h2⟩ := hidx j _ t vs v2 u hu
      exact ⟨by omega, by omega, by rw [← h1]; exact v3 u (List.mem_of_getElem? hu)⟩
    refine ⟨⟨?_, ?_⟩, ?_⟩
    · intro v hv
      obtain ⟨t, ht⟩ := List.mem_iff_getElem?.mp hv
      obtain ⟨_, a, b⟩ := at_ t v ht
      by_cases hne : v.neighbors = []
      · rw [hne]; simp
      · have := (h _ v a b hne).1; omega
    · rw [List.pairwise_iff_getElem]
      intro s t hs ht hst hne
      obtain ⟨a0, a1, a2⟩ := at_ s _ (List.getElem?_eq_getElem hs)
      obtain ⟨b0, b1, b2⟩ := at_ t _ (List.getElem?_eq_getElem ht)
      exact (h _ _ a1 a2 hne).2.2 (j * per + t) _ (by omega) b1 (by rw [hdiv j s a0, hdiv j t b0]) b2
    · rintro ⟨v, hv, hne⟩
      obtain ⟨t, ht⟩ := List.mem_iff_getElem?.mp hv
      obtain ⟨a0, a, b⟩ := at_ t v ht
      have := (h _ v a b hne).2.1
      rw [hdiv j t a0] at this
      exact this

/-- C48, consequence: if two vertices with links share a page, the graph does not come back. -/
theorem C48_linked_neighbours_lost {mi : MemIndex} (S : Savable mi) {i j : Nat} {v u : DiskAnn.Vertex} (hij : i < j) (hj : j < mi.graph.length)
    (hp : j / (4096 / (4 * (1 + mi.dim.toNat + mi.maxDegree.toNat))) = i / (4096 / (4 * (1 + mi.dim.toNat + mi.maxDegree.toNat))))
    (hv : mi.graph.get? (mi.firstId + UInt64.ofNat i) = some v) (hu : mi.graph.get? (mi.firstId + UInt64.ofNat j) = some u)
    (hvn : v.neighbors ≠ []) (hun : u.neighbors ≠ []) :
    ¬ ∃ file mi', writeIndex mi = .ok file ∧ readIndex file = .ok mi' ∧ ∀ k, mi'.graph.get? k = mi.graph.get? k := by
  rw [C48_restored_iff S _ rfl]
  intro h
  exact hun ((h i v (by omega) hv hvn).2.2 j u hij hj hp hu).1

/-- whether a small index is savable. -/
def savableB (mi : MemIndex) : Bool :=
  decide (2 ≤ mi.maxDegree.toNat) && decide (4 * (1 + mi.dim.toNat + mi.maxDegree.toNat) ≤ 4096) &&
  decide (AMap.keys mi.graph = (List.range mi.graph.length).map (fun i => mi.firstId + UInt64.ofNat i)) &&
  decide (mi.graph.length < 4294967296) && decide (mi.firstId.toNat + mi.graph.length ≤ 18446744073709551616) &&
  mi.graph.all (fun p => decide (p.2.id = p.1) && decide (p.2.vector.length = mi.dim.toNat) && decide (p.2.objId = 0) &&
    p.2.neighbors.all (fun n => decide (n ≠ 0) && decide (n < 4294967296)))

theorem savableB_sound {mi : MemIndex} (h : savableB mi = true) : Savable mi := by
  unfold savableB at h
  simp only [Bool.and_eq_true, decide_eq_true_eq, List.all_eq_true] at h
  obtain ⟨⟨⟨⟨⟨h1, h2⟩, h3⟩, h4⟩, h5⟩, h6⟩ := h
  have hm : ∀ k v, mi.graph.get? k = some v → (k, v) ∈ mi.graph := fun k v h => AMap.mem_of_get? h
  exact ⟨h1, h2, by rw [h3], h4, h5, fun k v h => (h6 _ (hm k v h)).1.1.1, fun k v h => (h6 _ (hm k v h)).1.1.2,
    fun k v h => (h6 _ (hm k v h)).1.2, fun k v h => (h6 _ (hm k v h)).2⟩

-- two vectors inserted (each links to the other) do not survive a snapshot
example : ∃ mi : MemIndex, Built lineMetric (fun d c => decide (2 * d ≤ c)) 1 2 1 mi ∧ Savable mi ∧ mi.graph.length = 2 ∧
    ¬ ∃ file mi', writeIndex mi = .ok file ∧ readIndex file = .ok mi' ∧ ∀ k, mi'.graph.get? k = mi.graph.get? k := by
  have h : ∃ mi, lineIndex 2 1 2 [(2, 20), (1, 10)] = .ok mi ∧ savableB mi = true ∧ mi.graph.length = 2 ∧ mi.firstId = 1 ∧ mi.dim = 1 ∧
      mi.maxDegree = 2 ∧ mi.graph.get? 1 = some { id := 1, neighbors := [2], vector := [10] } ∧
      mi.graph.get? 2 = some { id := 2, neighbors := [1], vector := [20] } :=
    ⟨_, rfl, by decide +kernel, by decide +kernel, by decide +kernel, by decide +kernel, by decide +kernel, by decide +kernel, by decide +kernel⟩
  obtain ⟨mi, h1, h2, h3, h4, h5, h6, h7, h8⟩ := h
  refine ⟨mi, (line_built 2 1 2 _ mi (by decide) h1).1, savableB_sound h2, h3, ?_⟩
  refine C48_linked_neighbours_lost (savableB_sound h2) (i := 0) (j := 1) (by decide) (by rw [h3]; decide) ?_ (by rw [h4]; exact h7)
    (by rw [h4]; exact h8) (by simp) (by simp)
  rw [h5, h6]; decide

-- two vertices that link to each other survive if each has a page of its own (dimension 600): the condition is met
example : ∃ mi : MemIndex, Savable mi ∧ mi.graph.length = 2 ∧ (∀ k v, mi.graph.get? k = some v → v.neighbors ≠ []) ∧
    ∃ file mi', writeIndex mi = .ok file ∧ readIndex file = .ok mi' ∧ ∀ k, mi'.graph.get? k = mi.graph.get? k := by
  have hs : savableB { newMemIndex 1 2 600 with
      graph := [(1, { id := 1, neighbors := [2], vector := List.replicate 600 7 }), (2, { id := 2, neighbors := [1], vector := List.replicate 600 8 })] } = true := by
    decide +kernel
  have h2 : 4 * (1 + (600 : UInt32).toNat + (2 : UInt32).toNat) = 2412 := by decide
  have key : ∀ i, min 1 (2 - i / 1 * 1) * 2412 + 4 ≤ 4096 := fun i => by
    have := Nat.mul_le_mul_right 2412 (Nat.min_le_left 1 (2 - i / 1 * 1))
    exact Nat.le_trans (Nat.add_le_add_right this 4) (by decide)
  refine ⟨_, savableB_sound hs, rfl, ?_, ?_⟩
  · intro k v h
    have := AMap.mem_of_get? h
    simp only [List.mem_cons, List.not_mem_nil, or_false, Prod.mk.injEq] at this
    rcases this with ⟨rfl, rfl⟩ | ⟨rfl, rfl⟩ <;> simp
  · rw [C48_restored_iff (savableB_sound hs) 1 (by decide)]
    intro i v hi hv hne
    have hm := AMap.mem_of_get? hv
    simp only [List.mem_cons, List.not_mem_nil, or_false, Prod.mk.injEq] at hm
    simp only [List.length_cons, List.length_nil] at hi
    refine ⟨?_, ?_, ?_⟩
    · rcases hm with ⟨_, e⟩ | ⟨_, e⟩ <;> rw [e] <;> rfl
    · show min 1 (2 - i / 1 * 1) * (4 * (1 + (600 : UInt32).toNat + (2 : UInt32).toNat)) + 4 ≤ 4096
      rw [h2]; exact key i
    · intro j u hij _ hp; rw [Nat.div_one, Nat.div_one] at hp; exact absurd hij (by rw [hp]; exact Nat.lt_irrefl _)

end Vectory
