import Verif.Model.DiskIns
import Verif.Props.DiskAnn
/-! # `DiskAnn.Insert`: C70 (one goroutine), C71 (many) -/
namespace Vectory
open DiskAnn
variable {D : Type}

namespace DiskAnn

/-- the vector stored under `id` in part number `p`. -/
def DA.at (da : DA) (p : Nat) (id : UInt64) : Option Vec := (da.parts[p]?).bind (fun mi => (mi.graph.get? id).map Vertex.vector)

/-- the vectors the whole index holds, with their ids. -/
def DA.Holds (da : DA) (id : UInt64) (v : Vec) : Prop := ∃ p, da.at p id = some v

/-- what every part satisfies. -/
structure PInv (P : Params D) (da : DA) : Prop where
  ne : da.parts ≠ []
  part : ∀ (p : Nat) (mi : MemIndex), da.parts[p]? = some mi → ∃ first, BInv P.dim P.maxDegree first mi ∧ Built P.metric P.close first P.maxDegree P.dim mi
  below : ∀ (p : Nat) (mi : MemIndex), da.parts[p]? = some mi → ∀ k ∈ AMap.keys mi.graph, k.toNat < da.currId.toNat
  disj : ∀ (p q : Nat) (mi mi' : MemIndex), da.parts[p]? = some mi → da.parts[q]? = some mi' → ∀ k, k ∈ AMap.keys mi.graph → k ∈ AMap.keys mi'.graph → p = q
  last : ∀ mi, da.parts[da.rw]? = some mi → mi.readOnly = false

theorem DA.rw_lt {da : DA} (h : da.parts ≠ []) : da.rw < da.parts.length := by
  unfold DA.rw
  have : 0 < da.parts.length := List.length_pos_iff.mpr h
  omega

theorem binv_new (P : Params D) (first : UInt64) : BInv P.dim P.maxDegree first (newMemIndex first P.maxDegree P.dim) :=
  ⟨⟨List.nodup_nil, fun _ _ h => (nomatch h), fun _ _ h => (nomatch h), fun _ _ h => (nomatch h), fun _ _ h => (nomatch h),
      fun _ _ h => (nomatch h)⟩, rfl, rfl, rfl, rfl, fun _ => ⟨rfl, rfl⟩, fun h => (nomatch h)⟩

theorem pinv_new (P : Params D) : PInv P (newDA P) := by
  refine ⟨by simp [newDA], ?_, ?_, ?_, ?_⟩
  · intro p mi h
    cases p with
    | zero => cases h; exact ⟨1, binv_new P 1, .new⟩
    | succ p => cases h
  · intro p mi h k hk
    cases p with
    | zero => cases h; cases hk
    | succ p => cases h
  · intro p q mi mi' h _ k hk
    cases p with
    | zero => cases h; cases hk
    | succ p => cases h
  · intro mi h; cases h; rfl

/-- the locked section keeps the invariant and every stored vector where it is. -/
theorem rotate_spec {P : Params D} {da : DA} (i : PInv P da) :
    PInv P (da.rotate P) ∧ (da.rotate P).currId = da.currId ∧ (∀ p id, (da.rotate P).at p id = da.at p id) ∧
      (∀ (p : Nat) (mi : MemIndex), da.parts[p]? = some mi → ∃ mi', (da.rotate P).parts[p]? = some mi' ∧ mi'.graph = mi.graph) ∧
      (da.full P = false → da.rotate P = da) ∧
      (da.full P = true → (da.rotate P).parts = da.parts.modify da.rw (fun mi => { mi with readOnly := true }) ++ [newMemIndex da.currId P.maxDegree P.dim]) := by
  unfold DA.rotate
  cases hf : da.full P with
  | false => exact ⟨i, rfl, fun _ _ => rfl, fun p mi h => ⟨mi, h, rfl⟩, fun _ => rfl, (fun h => nomatch h)⟩
  | true =>
    rw [if_pos rfl]
    have hlt := DA.rw_lt i.ne
    have hget : ∀ (p : Nat) (mi : MemIndex), (da.parts.modify da.rw (fun mi => { mi with readOnly := true }) ++ [newMemIndex da.currId P.maxDegree P.dim])[p]? = some mi →
        (∃ mi0, da.parts[p]? = some mi0 ∧ (mi = mi0 ∨ mi = { mi0 with readOnly := true })) ∨
          (p = da.parts.length ∧ mi = newMemIndex da.currId P.maxDegree P.dim) := by
      intro p mi h
      rw [List.getElem?_append] at h
      split at h
      · rename_i hp
        simp only [List.length_modify] at hp
        rw [List.getElem?_modify] at h
        left
        rw [List.getElem?_eq_getElem hp] at h ⊢
        refine ⟨_, rfl, ?_⟩
        split at h <;> simp at h <;> subst h
        · exact Or.inr rfl
        · exact Or.inl rfl
      · rename_i hp
        simp only [List.length_modify] at hp h
        right
        have : p - da.parts.length = 0 := by
          rcases Nat.eq_zero_or_pos (p - da.parts.length) with h0 | h0
          · exact h0
          · rw [List.getElem?_eq_none (by simp; omega)] at h; cases h
        rw [this] at h
        simp at h
        exact ⟨by omega, h.symm⟩
    have hset : ∀ (p : Nat) (mi0 : MemIndex), da.parts[p]? = some mi0 → ∃ mi, (da.parts.modify da.rw (fun mi => { mi with readOnly := true }) ++ [newMemIndex da.currId P.maxDegree P.dim])[p]? = some mi ∧
        mi.graph = mi0.graph := by
      intro p mi0 h
      have hp : p < da.parts.length := (List.getElem?_eq_some_iff.mp h).1
      rw [List.getElem?_append, if_pos (by simpa using hp), List.getElem?_modify, h]
      split <;> simp
    refine ⟨⟨by simp, ?_, ?_, ?_, ?_⟩, rfl, ?_, hset, (fun h => nomatch h), fun _ => rfl⟩
    · intro p mi h
      rcases hget p mi h with ⟨mi0, h0, rfl | rfl⟩ | ⟨_, rfl⟩
      · exact i.part p _ h0
      · obtain ⟨first, b, bt⟩ := i.part p _ h0
        exact ⟨first, ⟨b.g, b.wired, b.dim, b.deg, b.first, b.fresh, b.start⟩, .readOnly bt⟩
      · exact ⟨_, binv_new P _, .new⟩
    · intro p mi h k hk
      rcases hget p mi h with ⟨mi0, h0, rfl | rfl⟩ | ⟨_, rfl⟩
      · exact i.below p _ h0 k hk
      · exact i.below p mi0 h0 k hk
      · cases hk
    · intro p q mi mi' hp hq k hk hk'
      rcases hget p mi hp with ⟨a, ha, ha'⟩ | ⟨_, rfl⟩
      · rcases hget q mi' hq with ⟨b, hb, hb'⟩ | ⟨_, rfl⟩
        · refine i.disj p q a b ha hb k ?_ ?_
          · rcases ha' with rfl | rfl <;> exact hk
          · rcases hb' with rfl | rfl <;> exact hk'
        · cases hk'
      · cases hk
    · intro mi h
      have : (DA.rw { da with parts := da.parts.modify da.rw (fun mi => { mi with readOnly := true }) ++ [newMemIndex da.currId P.maxDegree P.dim] }) = da.parts.length := by
        simp [DA.rw]
      rw [this] at h
      rcases hget _ mi h with ⟨mi0, h0, _⟩ | ⟨_, rfl⟩
      · rw [List.getElem?_eq_none (Nat.le_refl _)] at h0; cases h0
      · rfl
    · intro p id
      unfold DA.at
      dsimp only
      cases h : da.parts[p]? with
      | some mi0 =>
        obtain ⟨mi, h1, h2⟩ := hset p mi0 h
        rw [h1]; simp [h2]
      | none =>
        cases h' : (da.parts.modify da.rw (fun mi => { mi with readOnly := true }) ++ [newMemIndex da.currId P.maxDegree P.dim])[p]? with
        | none => rfl
        | some mi =>
          rcases hget p mi h' with ⟨mi0, h0, _⟩ | ⟨_, rfl⟩
          · rw [h] at h0; cases h0
          · rfl

/-- one insertion into a part. -/
theorem put_spec {P : Params D} (w : Ord P.metric.lt) (hd : DimOK P.metric P.dim.toNat) {da : DA} (i : PInv P da) (del : List UInt32) {p : Nat}
    {mi : MemIndex} (hp : da.parts[p]? = some mi) (vec : Vec) (id : UInt64) (hid : id.toNat < da.currId.toNat)
    (hfresh : ∀ (q : Nat) (mi : MemIndex), da.parts[q]? = some mi → id ∉ AMap.keys mi.graph) :
    ∃ da' r, da.put P del p vec id = .ok (da', r) ∧ PInv P da' ∧ da'.currId = da.currId ∧ da'.parts.length = da.parts.length ∧
      (mi.readOnly = true → r = some .readOnly) ∧
      (mi.readOnly = false → vec.length ≠ P.dim.toNat → r = some .dimension) ∧
      (mi.readOnly = false → vec.length = P.dim.toNat → r = none) ∧
      (r ≠ none → da' = da) ∧
      (r = none → (∀ q x, da'.at q x = if q = p ∧ x = id then some vec else da.at q x) ∧
        ∃ mi', da' = { da with parts := da.parts.set p mi' } ∧ mi'.graph.length = mi.graph.length + 1 ∧ mi'.readOnly = false) := by
  obtain ⟨first, b, bt⟩ := i.part p mi hp
  have hlt : p < da.parts.length := (List.getElem?_eq_some_iff.mp hp).1
  unfold DA.put
  rw [hp]
  dsimp only
  cases hro : mi.readOnly with
  | true =>
    have : mi.insert P.metric P.close del vec P.listSize id = .error .readOnly := by unfold MemIndex.insert; rw [if_pos hro]
    rw [this]
    exact ⟨da, _, rfl, i, rfl, rfl, fun _ => rfl, (fun h => nomatch h), (fun h => nomatch h), fun _ => rfl, (fun h => nomatch h)⟩
  | false =>
    by_cases hv : vec.length = P.dim.toNat
    · obtain ⟨mi', h1, b', h3, h4, h5⟩ := DiskAnn.insert_spec w P.close hd b hro del vec hv P.listSize id (hfresh p mi hp)
      have hg : ∀ (q : Nat) (x : MemIndex), (da.parts.set p mi')[q]? = some x → (q = p ∧ x = mi') ∨ (q ≠ p ∧ da.parts[q]? = some x) := by
        intro q x h
        rw [List.getElem?_set] at h
        split at h
        · rename_i e; subst e; cases h; exact Or.inl ⟨rfl, rfl⟩
        · rename_i e; exact Or.inr ⟨fun h => e h.symm, h⟩
      rw [h1]
      refine ⟨_, _, rfl, ⟨?_, ?_, ?_, ?_, ?_⟩, rfl, by simp, (fun h => nomatch h), fun _ h => absurd hv h, fun _ _ => rfl, fun h => absurd rfl h, fun _ => ⟨?_, ?_⟩⟩
      · intro h; have := congrArg List.length h; simp at this; exact i.ne this
      · intro q x h
        rcases hg q x h with ⟨_, rfl⟩ | ⟨_, h⟩
        · exact ⟨first, b', .insert bt (hfresh p mi hp) h1⟩
        · exact i.part q x h
      · intro q x h k hk
        rcases hg q x h with ⟨_, rfl⟩ | ⟨_, h⟩
        · rw [h4] at hk
          rcases List.mem_append.mp hk with hk | hk
          · exact i.below p mi hp k hk
          · simp at hk; rw [hk]; exact hid
        · exact i.below q x h k hk
      · intro q r x y hq hr k hk hk'
        rcases hg q x hq with ⟨rfl, rfl⟩ | ⟨hqp, hq2⟩ <;> rcases hg r y hr with ⟨rfl, rfl⟩ | ⟨hrp, hr2⟩
        · rfl
        · rw [h4] at hk
          rcases List.mem_append.mp hk with hk | hk
          · exact i.disj _ _ _ _ hp hr2 k hk hk'
          · simp at hk; rw [hk] at hk'; exact absurd hk' (hfresh _ _ hr2)
        · rw [h4] at hk'
          rcases List.mem_append.mp hk' with hk' | hk'
          · exact i.disj _ _ _ _ hq2 hp k hk hk'
          · simp at hk'; rw [hk'] at hk; exact absurd hk (hfresh _ _ hq2)
        · exact i.disj _ _ _ _ hq2 hr2 k hk hk'
      · intro x h
        have : DA.rw { da with parts := da.parts.set p mi' } = da.rw := by simp [DA.rw]
        rw [this] at h
        rcases hg _ x h with ⟨_, rfl⟩ | ⟨_, h⟩
        · exact h3
        · exact i.last x h
      · intro q x
        unfold DA.at
        dsimp only
        rw [List.getElem?_set]
        by_cases hq : p = q
        · subst hq
          rw [if_pos rfl, if_pos hlt, hp]
          simp only [Option.bind_some]
          have := h5 x
          unfold vecs at this
          rw [this]
          by_cases hx : x = id
          · simp [hx]
          · simp [hx]
        · rw [if_neg hq, if_neg (fun h => hq h.1.symm)]
      · refine ⟨mi', rfl, ?_, h3⟩
        have := congrArg List.length h4
        simpa [AMap.keys] using this
    · have : mi.insert P.metric P.close del vec P.listSize id = .error .dimension := by
        unfold MemIndex.insert; rw [if_neg (by simp [hro]), if_pos (by rw [b.dim]; exact hv)]
      rw [this]
      exact ⟨da, _, rfl, i, rfl, rfl, (fun h => nomatch h), fun _ _ => rfl, fun _ h => absurd h hv, fun _ => rfl, (fun h => nomatch h)⟩

/-- calls of `DiskAnn.Insert` one after the other, each with the deletions made before it: the index and what each call returned. -/
def insertAll (P : Params D) : DA → List (List UInt32 × Vec) → Except Panic (DA × List (Option Fail))
  | da, [] => .ok (da, [])
  | da, (del, v) :: ops => do
    let (da, r) ← da.insert P del v
    let (da, rs) ← insertAll P da ops
    .ok (da, r :: rs)

/-- the state after the calls `vs` of a sequential history. -/
structure SeqInv (P : Params D) (da : DA) (vs : List Vec) : Prop where
  p : PInv P da
  curr : da.currId.toNat = vs.length + 1
  holds : ∀ id v, da.Holds id v ↔ ∃ i, vs[i]? = some v ∧ v.length = P.dim.toNat ∧ id.toNat = i + 1
  full : ∀ (p : Nat) (mi : MemIndex), da.parts[p]? = some mi → p < da.rw → mi.graph.length = P.limit.toNat
  le : ∀ (p : Nat) (mi : MemIndex), da.parts[p]? = some mi → mi.graph.length ≤ P.limit.toNat

theorem DA.Holds.key {da : DA} {p : Nat} {mi : MemIndex} {k : UInt64} (hp : da.parts[p]? = some mi) (hk : k ∈ AMap.keys mi.graph) :
    ∃ v, da.at p k = some v := by
  obtain ⟨v, hv⟩ := get_of_mem hk
  exact ⟨v.vector, by unfold DA.at; rw [hp]; simp [hv]⟩

theorem seq_step {P : Params D} (w : Ord P.metric.lt) (hd : DimOK P.metric P.dim.toNat) (hl : 1 ≤ P.limit.toNat) {da : DA} {vs : List Vec}
    (s : SeqInv P da vs) (del : List UInt32) (v : Vec) (hn : vs.length + 2 < 18446744073709551616) :
    ∃ da', da.insert P del v = .ok (da', if v.length = P.dim.toNat then none else some .dimension) ∧ SeqInv P da' (vs ++ [v]) := by
  obtain ⟨i1, hc1, hat1, hg1, hnf, hf⟩ := rotate_spec s.p
  -- after the locked section the newest part has room
  have hroom : ∃ mi, (da.rotate P).parts[(da.rotate P).rw]? = some mi ∧ mi.graph.length < P.limit.toNat ∧
      (∀ (p : Nat) (mi : MemIndex), (da.rotate P).parts[p]? = some mi → p < (da.rotate P).rw → mi.graph.length = P.limit.toNat) := by
    have hlt := DA.rw_lt s.p.ne
    cases hfull : da.full P with
    | false =>
      rw [hnf hfull]
      have hget : da.parts[da.rw]? = some da.parts[da.rw] := List.getElem?_eq_getElem hlt
      refine ⟨_, hget, ?_, s.full⟩
      have hle := s.le _ _ hget
      rcases Nat.lt_or_eq_of_le hle with h | h
      · exact h
      · exfalso
        unfold DA.full at hfull
        rw [hget] at hfull
        have : (da.parts[da.rw]).sizeNow = P.limit := by
          unfold MemIndex.sizeNow; rw [h]
          apply UInt32.toNat_inj.mp
          simp
        simp [this] at hfull
    | true =>
      have hpar := hf hfull
      have hrw : (da.rotate P).rw = da.parts.length := by unfold DA.rw; rw [hpar]; simp
      refine ⟨newMemIndex da.currId P.maxDegree P.dim, ?_, ?_, ?_⟩
      · rw [hrw, hpar, List.getElem?_append_right (by simp)]; simp
      · show 0 < _; omega
      · intro p mi hp hlt'
        rw [hrw] at hlt'
        rw [hpar, List.getElem?_append_left (by simpa using hlt'), List.getElem?_modify, List.getElem?_eq_getElem hlt'] at hp
        have hgp : da.parts[p]? = some da.parts[p] := List.getElem?_eq_getElem hlt'
        have hgr : mi.graph = da.parts[p].graph := by split at hp <;> simp at hp <;> subst hp <;> rfl
        rw [hgr]
        by_cases he : p = da.rw
        · subst he
          unfold DA.full at hfull
          rw [hgp] at hfull
          simp only [MemIndex.sizeNow, beq_iff_eq] at hfull
          have hle := s.le _ _ hgp
          have := congrArg UInt32.toNat hfull
          simp at this
          rw [Nat.mod_eq_of_lt (by have := P.limit.toNat_lt; omega)] at this
          exact this
        · exact s.full p _ hgp (by unfold DA.rw at he ⊢; omega)
  obtain ⟨mi, hmi, hsz, hfull1⟩ := hroom
  unfold DA.insert
  dsimp only
  have hcn : ((da.rotate P).currId + 1).toNat = vs.length + 2 := by
    rw [hc1, UInt64.toNat_add, s.curr]
    show (vs.length + 1 + 1) % 18446744073709551616 = _
    omega
  have i2 : PInv P { da.rotate P with currId := (da.rotate P).currId + 1 } :=
    ⟨i1.ne, i1.part, fun p mi h k hk => by
      have := i1.below p mi h k hk
      rw [hc1, s.curr] at this
      show k.toNat < ((da.rotate P).currId + 1).toNat
      rw [hcn]; omega, i1.disj, i1.last⟩
  obtain ⟨da', r, h1, h2, h3, h4, h5, h6, h7, h8, h9⟩ := put_spec w hd i2 del (p := (da.rotate P).rw) hmi v (da.rotate P).currId
    (by show (da.rotate P).currId.toNat < ((da.rotate P).currId + 1).toNat; rw [hcn, hc1, s.curr]; omega)
    (fun q mi' hq hk => by have := i1.below q mi' hq _ hk; omega)
  have hro : mi.readOnly = false := i1.last mi hmi
  have hat2 : ∀ p id, (DA.at { da.rotate P with currId := (da.rotate P).currId + 1 } p id) = da.at p id := hat1
  have hold : ∀ id x, (∃ i, (vs ++ [v])[i]? = some x ∧ x.length = P.dim.toNat ∧ id.toNat = i + 1) ↔
      (da.Holds id x ∨ (x = v ∧ v.length = P.dim.toNat ∧ id.toNat = vs.length + 1)) := by
    intro id x
    rw [s.holds]
    constructor
    · rintro ⟨i, hi, hlen, hid⟩
      rw [List.getElem?_append] at hi
      split at hi
      · exact Or.inl ⟨i, hi, hlen, hid⟩
      · rename_i hge
        have : i - vs.length = 0 := by
          rcases Nat.eq_zero_or_pos (i - vs.length) with h0 | h0
          · exact h0
          · rw [List.getElem?_eq_none (by simp; omega)] at hi; cases hi
        rw [this] at hi; simp at hi; subst hi
        exact Or.inr ⟨rfl, hlen, by omega⟩
    · rintro (⟨i, hi, hlen, hid⟩ | ⟨rfl, hlen, hid⟩)
      · exact ⟨i, by rw [List.getElem?_append_left (List.getElem?_eq_some_iff.mp hi).1]; exact hi, hlen, hid⟩
      · exact ⟨vs.length, by simp, hlen, hid⟩
  have hrw' : da'.rw = (da.rotate P).rw := by unfold DA.rw; rw [h4]
  by_cases hv : v.length = P.dim.toNat
  · have hr := h7 hro hv
    subst hr
    obtain ⟨k1, mi', k2, k3, k4⟩ := h9 rfl
    refine ⟨da', by rw [if_pos hv]; exact h1, h2, by rw [h3]; simp [hcn], ?_, ?_, ?_⟩
    · intro id x
      rw [hold]
      constructor
      · rintro ⟨p, hp⟩
        rw [k1] at hp
        split at hp
        · rename_i he
          cases hp
          exact Or.inr ⟨rfl, hv, by rw [he.2, hc1, s.curr]⟩
        · exact Or.inl ⟨p, by rw [← hat2]; exact hp⟩
      · rintro (⟨p, hp⟩ | ⟨rfl, _, hid⟩)
        · refine ⟨p, ?_⟩
          rw [k1, if_neg, hat2]
          · exact hp
          · rintro ⟨rfl, rfl⟩
            rw [← hat1] at hp
            unfold DA.at at hp
            rw [hmi] at hp
            simp only [Option.bind_some] at hp
            cases hg : AMap.get? mi.graph (da.rotate P).currId with
            | none => rw [hg] at hp; cases hp
            | some y =>
              have := i1.below _ mi hmi _ (mem_of_get hg)
              omega
        · refine ⟨(da.rotate P).rw, ?_⟩
          have he : id = (da.rotate P).currId := by
            apply UInt64.toNat_inj.mp
            rw [hid, hc1, s.curr]
          rw [k1, if_pos ⟨rfl, he⟩]
    · intro p m hp hlt
      rw [hrw'] at hlt
      rw [k2] at hp
      rw [List.getElem?_set, if_neg (by omega)] at hp
      exact hfull1 p m hp hlt
    · intro p m hp
      rw [k2] at hp
      rw [List.getElem?_set] at hp
      split at hp
      · split at hp
        · cases hp; omega
        · cases hp
      · rename_i hne
        have hlt' := (List.getElem?_eq_some_iff.mp hp).1
        rw [hfull1 p m hp (by unfold DA.rw at hne ⊢; simp only at hlt'; omega)]
        exact Nat.le_refl _
  · have hr := h6 hro hv
    subst hr
    obtain rfl := h8 (by simp)
    refine ⟨_, by rw [if_neg hv]; exact h1, h2, by simp [hcn], ?_, hfull1, ?_⟩
    · intro id x
      rw [hold]
      constructor
      · rintro ⟨p, hp⟩; exact Or.inl ⟨p, by rw [← hat2]; exact hp⟩
      · rintro (⟨p, hp⟩ | ⟨_, h, _⟩)
        · exact ⟨p, by rw [hat2]; exact hp⟩
        · exact absurd h hv
    · intro p m hp
      rcases Nat.lt_or_ge p (da.rotate P).rw with h | h
      · rw [hfull1 p m hp h]; exact Nat.le_refl _
      · have hlt' := (List.getElem?_eq_some_iff.mp hp).1
        have : p = (da.rotate P).rw := by unfold DA.rw at h ⊢; simp only at hlt'; omega
        subst this
        rw [show (DA.parts { da.rotate P with currId := (da.rotate P).currId + 1 })[(da.rotate P).rw]? = some mi from hmi] at hp
        cases hp; omega

theorem seq_run {P : Params D} (w : Ord P.metric.lt) (hd : DimOK P.metric P.dim.toNat) (hl : 1 ≤ P.limit.toNat) :
    ∀ (ops : List (List UInt32 × Vec)) (da : DA) (vs : List Vec), SeqInv P da vs → vs.length + ops.length + 1 < 18446744073709551616 →
    ∃ da', insertAll P da ops = .ok (da', ops.map (fun op => if op.2.length = P.dim.toNat then none else some .dimension)) ∧
      SeqInv P da' (vs ++ ops.map Prod.snd) := by
  intro ops
  induction ops with
  | nil => intro da vs s _; exact ⟨da, rfl, by simpa using s⟩
  | cons op ops ih =>
    obtain ⟨del, v⟩ := op
    intro da vs s hn
    simp only [List.length_cons] at hn
    obtain ⟨da1, h1, s1⟩ := seq_step w hd hl s del v (by omega)
    obtain ⟨da2, h2, s2⟩ := ih da1 (vs ++ [v]) s1 (by simp; omega)
    refine ⟨da2, ?_, by simpa using s2⟩
    unfold insertAll
    rw [h1, ok_bind]
    dsimp only
    rw [h2, ok_bind]
    rfl

end DiskAnn

/-- C70: calls of `DiskAnn.Insert` one after the other, on an index whose parts may hold at least one vector, with any vectors and any
deletions in between: each call returns nil when the vector has the index's dimension and `ErrVectorDimensions` otherwise; afterwards the
index holds exactly the accepted vectors, each in one part under the number of its call; every read-only part is exactly full, the newest
one holds at most the limit; and every part is one to which C58 and C59 apply. -/
theorem C70_insert_sequential (P : Params D) (w : Ord P.metric.lt) (hd : DimOK P.metric P.dim.toNat) (hl : 1 ≤ P.limit.toNat)
    (ops : List (List UInt32 × Vec)) (hn : ops.length + 1 < 18446744073709551616) :
    ∃ da, DiskAnn.insertAll P (newDA P) ops = .ok (da, ops.map (fun op => if op.2.length = P.dim.toNat then none else some .dimension)) ∧
      (∀ id v, da.Holds id v ↔ ∃ i, (ops.map Prod.snd)[i]? = some v ∧ v.length = P.dim.toNat ∧ id.toNat = i + 1) ∧
      (∀ id p q v v', da.at p id = some v → da.at q id = some v' → p = q) ∧
      (∀ (p : Nat) (mi : MemIndex), da.parts[p]? = some mi → p + 1 < da.parts.length → mi.graph.length = P.limit.toNat) ∧
      (∀ (p : Nat) (mi : MemIndex), da.parts[p]? = some mi → mi.graph.length ≤ P.limit.toNat ∧ ∃ first, Built P.metric P.close first P.maxDegree P.dim mi) := by
  have h0 : DiskAnn.SeqInv P (newDA P) [] := by
    refine ⟨DiskAnn.pinv_new P, rfl, ?_, ?_, ?_⟩
    · intro id v
      constructor
      · rintro ⟨p, hp⟩
        cases p with
        | zero => cases hp
        | succ p => cases hp
      · rintro ⟨i, hi, _⟩; cases hi
    · intro p mi _ hlt; exact absurd hlt (by simp [DA.rw, newDA])
    · intro p mi hp
      cases p with
      | zero => cases hp; exact Nat.zero_le _
      | succ p => cases hp
  obtain ⟨da, h1, s⟩ := DiskAnn.seq_run w hd hl ops _ [] h0 (by simpa using hn)
  rw [List.nil_append] at s
  refine ⟨da, h1, s.holds, ?_, ?_, ?_⟩
  · intro id p q v v' hp hq
    unfold DA.at at hp hq
    cases hpp : da.parts[p]? with
    | none => rw [hpp] at hp; cases hp
    | some a =>
      cases hqq : da.parts[q]? with
      | none => rw [hqq] at hq; cases hq
      | some b =>
        rw [hpp] at hp; rw [hqq] at hq
        simp only [Option.bind_some] at hp hq
        refine s.p.disj p q a b hpp hqq id ?_ ?_
        · rw [← AMap.get?_isSome_iff]
          cases h : AMap.get? a.graph id with
          | none => rw [h] at hp; cases hp
          | some _ => rfl
        · rw [← AMap.get?_isSome_iff]
          cases h : AMap.get? b.graph id with
          | none => rw [h] at hq; cases hq
          | some _ => rfl
  · intro p mi hp hlt; exact s.full p mi hp (by unfold DA.rw; omega)
  · intro p mi hp
    obtain ⟨first, _, bt⟩ := s.p.part p mi hp
    exact ⟨s.le p mi hp, first, bt⟩

/-- C70 does not hold for the index that `NewDiskAnn` makes: its parameters are all zero. Every non-empty vector is refused, each refused
call leaves one more empty read-only part, and every search dereferences nil. -/
theorem C70_new_unusable (M : Metric D) (close : D → D → Bool) (ops : List (List UInt32 × Vec)) (hv : ∀ op ∈ ops, op.2 ≠ []) :
    ∃ da, DiskAnn.insertAll (noParams M close) (newDA (noParams M close)) ops = .ok (da, ops.map (fun _ => some .dimension)) ∧
      da.parts.length = ops.length + 1 ∧ (∀ mi ∈ da.parts, mi.graph = []) ∧
      ∀ del q k, da.search (noParams M close) del q k = .error .nilDeref := by
  have step : ∀ (da : DA) (del : List UInt32) (v : Vec), v ≠ [] → da.parts ≠ [] → (∀ mi ∈ da.parts, mi.graph = [] ∧ mi.dim = 0) →
      ∃ da', da.insert (noParams M close) del v = .ok (da', some .dimension) ∧ da'.parts.length = da.parts.length + 1 ∧
        (∀ mi ∈ da'.parts, mi.graph = [] ∧ mi.dim = 0) := by
    intro da del v hv hne hall
    have hlt := DA.rw_lt hne
    have hf : da.full (noParams M close) = true := by
      unfold DA.full
      rw [List.getElem?_eq_getElem hlt]
      dsimp only [MemIndex.sizeNow]
      rw [(hall _ (List.getElem_mem hlt)).1]
      rfl
    have hrot : da.rotate (noParams M close) = { da with parts := da.parts.modify da.rw (fun mi => { mi with readOnly := true }) ++ [newMemIndex da.currId 0 0] } := by
      unfold DA.rotate; rw [if_pos hf]; rfl
    have hrw : (DA.rw { da with parts := da.parts.modify da.rw (fun mi => { mi with readOnly := true }) ++ [newMemIndex da.currId 0 0], currId := da.currId + 1 }) = da.parts.length := by
      simp [DA.rw]
    refine ⟨{ da with parts := da.parts.modify da.rw (fun mi => { mi with readOnly := true }) ++ [newMemIndex da.currId 0 0], currId := da.currId + 1 }, ?_, by simp, ?_⟩
    · unfold DA.insert
      rw [hrot]
      dsimp only
      rw [hrw]
      unfold DA.put
      dsimp only
      rw [List.getElem?_append_right (by simp)]
      simp only [List.length_modify, Nat.sub_self, List.getElem?_cons_zero]
      have : (newMemIndex da.currId 0 0).insert (noParams M close).metric (noParams M close).close del v (noParams M close).listSize da.currId = .error .dimension := by
        unfold MemIndex.insert
        rw [if_neg (by simp [newMemIndex]), if_pos]
        intro h
        have : v.length = 0 := h
        exact hv (List.length_eq_zero_iff.mp this)
      rw [this]
    · intro mi hmi
      rcases List.mem_append.mp hmi with h | h
      · obtain ⟨n, hn⟩ := List.mem_iff_getElem?.mp h
        rw [List.getElem?_modify] at hn
        cases hg : da.parts[n]? with
        | none => rw [hg] at hn; cases hn
        | some m0 =>
          rw [hg] at hn
          have := hall m0 (List.mem_of_getElem? hg)
          split at hn <;> simp at hn <;> subst hn <;> exact this
      · simp at h; subst h; exact ⟨rfl, rfl⟩
  have run : ∀ (ops : List (List UInt32 × Vec)) (da : DA), (∀ op ∈ ops, op.2 ≠ []) → da.parts ≠ [] → (∀ mi ∈ da.parts, mi.graph = [] ∧ mi.dim = 0) →
      ∃ da', DiskAnn.insertAll (noParams M close) da ops = .ok (da', ops.map (fun _ => some .dimension)) ∧
        da'.parts.length = ops.length + da.parts.length ∧ ∀ mi ∈ da'.parts, mi.graph = [] ∧ mi.dim = 0 := by
    intro ops
    induction ops with
    | nil => intro da _ _ hall; exact ⟨da, rfl, by simp, hall⟩
    | cons op ops ih =>
      obtain ⟨del, v⟩ := op
      intro da hops hne hall
      obtain ⟨da1, h1, h2, h3⟩ := step da del v (hops _ List.mem_cons_self) hne hall
      obtain ⟨da2, h4, h5, h6⟩ := ih da1 (fun op h => hops op (by simp [h])) (by intro h; rw [h] at h2; simp at h2) h3
      refine ⟨da2, ?_, by rw [h5, h2]; simp only [List.length_cons]; omega, h6⟩
      unfold DiskAnn.insertAll
      rw [h1, ok_bind]
      dsimp only
      rw [h4, ok_bind]
      rfl
  obtain ⟨da, h1, h2, h3⟩ := run ops (newDA (noParams M close)) hv (by simp [newDA]) (by
    intro mi hmi; simp [newDA] at hmi; subst hmi; exact ⟨rfl, rfl⟩)
  refine ⟨da, h1, h2, fun mi h => (h3 mi h).1, ?_⟩
  intro del q k
  have hlt := DA.rw_lt (da := da) (by intro h; rw [h] at h2; exact absurd h2 (by simp [newDA]))
  unfold DA.search
  rw [List.getElem?_eq_getElem hlt]
  dsimp only
  unfold daSearch MemIndex.search MemIndex.visit
  have : vertexAt da.parts[da.rw].graph da.parts[da.rw].s = .error .nilDeref := by
    rw [(h3 _ (List.getElem_mem hlt)).1]; rfl
  rw [this]
  rfl

end Vectory
