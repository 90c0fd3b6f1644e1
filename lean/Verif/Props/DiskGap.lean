import Verif.Props.DiskSnap
import Verif.Props.DiskInsFail
/-! # C48: the ids in a file -/
namespace Vectory
open DiskAnn

namespace DiskAnn

theorem keys_set_iff (g : Graph) (k : UInt64) (v : Vertex) (x : UInt64) : x ∈ AMap.keys (g.set k v) ↔ x ∈ AMap.keys g ∨ x = k := by
  rw [← AMap.get?_isSome_iff, ← AMap.get?_isSome_iff]
  by_cases h : x = k
  · subst h; rw [AMap.get?_set_self]; simp
  · rw [AMap.get?_set_ne _ _ _ _ (fun e => h e.symm)]; simp [h]

theorem ofNat_succ_add (a : UInt64) (i : Nat) : a + 1 + UInt64.ofNat i = a + UInt64.ofNat (i + 1) := by
  rw [UInt64.ofNat_add, UInt64.add_assoc, UInt64.add_comm 1]; rfl

theorem deserializeVertices_keys {dim deg : UInt32} : ∀ (n : Nat) (id : UInt64) (b : Bytes) (g g' : Graph),
    deserializeVertices dim deg n id b g = .ok g' → ∀ x, x ∈ AMap.keys g' ↔ x ∈ AMap.keys g ∨ ∃ i, i < n ∧ x = id + UInt64.ofNat i := by
  intro n
  induction n with
  | zero => intro id b g g' h x; cases h; simp
  | succ n ih =>
    intro id b g g' h x
    unfold deserializeVertices at h
    obtain ⟨⟨v, k⟩, _, h⟩ := (bind_ok_iff _ _ _).mp h
    rw [ih _ _ _ _ h x, keys_set_iff]
    constructor
    · rintro ((h | rfl) | ⟨i, hi, rfl⟩)
      · exact Or.inl h
      · exact Or.inr ⟨0, by omega, by simp⟩
      · exact Or.inr ⟨i + 1, by omega, ofNat_succ_add id i⟩
    · rintro (h | ⟨i, hi, rfl⟩)
      · exact Or.inl (Or.inl h)
      · cases i with
        | zero => exact Or.inl (Or.inr (by simp))
        | succ i => exact Or.inr ⟨i, by omega, (ofNat_succ_add id i).symm⟩

theorem liftE_ok_iff {A : Type} {x : Except Panic A} {a : A} (h : liftE x = .ok a) : x = .ok a := by
  cases x with
  | ok b => cases h; rfl
  | error e => cases h

theorem readPages_keys {file : List Bytes} {dim deg : UInt32} {per : Nat} : ∀ (n i : Nat) (id id' : UInt64) (g g' : Graph),
    readPages file dim deg per n i id g = .ok (g', id') → id' = id + UInt64.ofNat (n * per) ∧
      ∀ x, x ∈ AMap.keys g' ↔ x ∈ AMap.keys g ∨ ∃ j, j < n * per ∧ x = id + UInt64.ofNat j := by
  intro n
  induction n with
  | zero => intro i id id' g g' h; cases h; simp
  | succ n ih =>
    intro i id id' g g' h
    unfold readPages at h
    obtain ⟨p, _, h⟩ := (bind_ok_iff _ _ _).mp h
    obtain ⟨g1, h1, h⟩ := (bind_ok_iff _ _ _).mp h
    have h1 := deserializeVertices_keys _ _ _ _ _ (liftE_ok_iff h1)
    obtain ⟨e, h2⟩ := ih _ _ _ _ _ h
    have hadd : ∀ j, id + UInt64.ofNat per + UInt64.ofNat j = id + UInt64.ofNat (per + j) := by
      intro j; rw [UInt64.add_assoc, ← UInt64.ofNat_add]
    refine ⟨by rw [e, hadd]; congr 2; rw [Nat.succ_mul]; omega, fun x => ?_⟩
    rw [h2, h1]
    constructor
    · rintro ((h | ⟨j, hj, rfl⟩) | ⟨j, hj, rfl⟩)
      · exact Or.inl h
      · exact Or.inr ⟨j, by rw [Nat.succ_mul]; omega, rfl⟩
      · exact Or.inr ⟨per + j, by rw [Nat.succ_mul]; omega, hadd j⟩
    · rintro (h | ⟨j, hj, rfl⟩)
      · exact Or.inl (Or.inl h)
      · rcases Nat.lt_or_ge j per with hlt | hge
        · exact Or.inl (Or.inr ⟨j, hlt, rfl⟩)
        · refine Or.inr ⟨j - per, by rw [Nat.succ_mul] at hj; omega, ?_⟩
          rw [hadd]; congr 2; omega

theorem readIndex_keys {file : List Bytes} {mi : MemIndex} (h : readIndex file = .ok mi) :
    ∀ x, x ∈ AMap.keys mi.graph ↔ ∃ i, i < mi.size.toNat ∧ x = mi.firstId + UInt64.ofNat i := by
  unfold readIndex at h
  obtain ⟨p, _, h⟩ := (bind_ok_iff _ _ _).mp h
  obtain ⟨dim, _, h⟩ := (bind_ok_iff _ _ _).mp h
  obtain ⟨deg, _, h⟩ := (bind_ok_iff _ _ _).mp h
  obtain ⟨first, _, h⟩ := (bind_ok_iff _ _ _).mp h
  obtain ⟨size, _, h⟩ := (bind_ok_iff _ _ _).mp h
  obtain ⟨s, _, h⟩ := (bind_ok_iff _ _ _).mp h
  obtain ⟨per, _, h⟩ := (bind_ok_iff _ _ _).mp h
  split at h
  · cases h
  · obtain ⟨⟨g, id⟩, h1, h⟩ := (bind_ok_iff _ _ _).mp h
    obtain ⟨e, hk⟩ := readPages_keys _ _ _ _ _ _ h1
    have hdm := Nat.div_add_mod size.toNat per
    rw [Nat.mul_comm] at hdm
    dsimp only at h
    split at h
    · rename_i h0
      cases h
      intro x
      rw [hk]
      dsimp only
      rw [show size.toNat / per * per = size.toNat by omega]
      constructor
      · rintro (h | h)
        · cases h
        · exact h
      · exact Or.inr
    · obtain ⟨p', _, h⟩ := (bind_ok_iff _ _ _).mp h
      obtain ⟨g', h2, h⟩ := (bind_ok_iff _ _ _).mp h
      cases h
      intro x
      rw [deserializeVertices_keys _ _ _ _ _ (liftE_ok_iff h2), hk, e]
      dsimp only
      have hadd : ∀ j, first + UInt64.ofNat (size.toNat / per * per) + UInt64.ofNat j = first + UInt64.ofNat (size.toNat / per * per + j) := by
        intro j; rw [UInt64.add_assoc, ← UInt64.ofNat_add]
      constructor
      · rintro ((h | ⟨i, hi, rfl⟩) | ⟨i, hi, rfl⟩)
        · cases h
        · exact ⟨i, by omega, rfl⟩
        · exact ⟨size.toNat / per * per + i, by omega, hadd i⟩
      · rintro ⟨i, hi, rfl⟩
        rcases Nat.lt_or_ge i (size.toNat / per * per) with hlt | hge
        · exact Or.inl (Or.inr ⟨i, hlt, rfl⟩)
        · refine Or.inr ⟨i - size.toNat / per * per, by omega, ?_⟩
          rw [hadd]; congr 2; omega

end DiskAnn

/-- C48: ids are not written; whatever the index, the ids of the index read back are `firstId`, `firstId + 1`, … , as many as there were
vectors. -/
theorem C48_ids_read {mi mi' : MemIndex} {file : List Bytes} (hc : mi.graph.length < 4294967296) (h : writeIndex mi = .ok file)
    (h' : readIndex file = .ok mi') (k : UInt64) :
    (mi'.graph.get? k).isSome = true ↔ ∃ i, i < mi.graph.length ∧ k = mi.firstId + UInt64.ofNat i := by
  obtain ⟨_, _, h3, _, h5⟩ := C48_metadata h h'
  rw [AMap.get?_isSome_iff, DiskAnn.readIndex_keys h', h3, h5]
  simp [Nat.mod_eq_of_lt hc]

/-- C48 is false when an id was skipped: a vector with an id outside `firstId … firstId + size - 1` does not come back under its id. -/
theorem C48_gap_lost {mi mi' : MemIndex} {file : List Bytes} (hc : mi.graph.length < 4294967296) (h : writeIndex mi = .ok file)
    (h' : readIndex file = .ok mi') (k : UInt64) (v : DiskAnn.Vertex) (_ : mi.graph.get? k = some v)
    (hk : ∀ i, i < mi.graph.length → k ≠ mi.firstId + UInt64.ofNat i) : mi'.graph.get? k = none := by
  cases hg : mi'.graph.get? k with
  | none => rfl
  | some u =>
    obtain ⟨i, hi, e⟩ := (C48_ids_read hc h h' k).mp (by rw [hg]; rfl)
    exact absurd e (hk i hi)

/-- C48's failure after calls of `DiskAnn.Insert`: the second vector was refused for its length but had taken an id, so the third, which was
accepted under id 3, comes back under id 2 and nothing is found under id 3. -/
theorem C48_refused_vector_shifts_ids :
    ∃ (da : DA) (mi mi' : MemIndex) (file : List Bytes),
      DiskAnn.insertAll (lineParams 2) (newDA (lineParams 2)) [([], [10]), ([], [20, 1]), ([0], [30])] = .ok (da, [none, some .dimension, none]) ∧
      da.parts = [mi] ∧ writeIndex mi = .ok file ∧ readIndex file = .ok mi' ∧
      (mi.graph.get? 3).map Vertex.vector = some [30] ∧ mi'.graph.get? 3 = none ∧ (mi'.graph.get? 2).map Vertex.vector = some [30] := by
  obtain ⟨da, h1, _⟩ := C70_insert_sequential (lineParams 2) line_ord line_dim (by decide) [([], [10]), ([], [20, 1]), ([0], [30])] (by decide)
  have h2 : ((DiskAnn.insertAll (lineParams 2) (newDA (lineParams 2)) [([], [10]), ([], [20, 1]), ([0], [30])]).toOption.bind
      (fun r => match r.1.parts with
        | [mi] => (saveLoad mi).map (fun mi' => ((mi.graph.get? 3).map Vertex.vector, (mi'.graph.get? 3).map Vertex.vector, (mi'.graph.get? 2).map Vertex.vector))
        | _ => none)) = some (some [30], none, some [30]) := by decide +kernel
  rw [h1] at h2
  simp only [Except.toOption, Option.bind_some] at h2
  split at h2
  · rename_i mi hp
    obtain ⟨mi', h3, h4⟩ := Option.map_eq_some_iff.mp h2
    unfold saveLoad at h3
    split at h3
    · rename_i file hw
      split at h3
      · rename_i mi2 hr
        cases h3
        simp only [Prod.mk.injEq] at h4
        exact ⟨da, mi, mi', file, h1, hp, hw, hr, h4.1, by simpa using h4.2.1, h4.2.2⟩
      · cases h3
    · cases h3
  · cases h2

end Vectory
