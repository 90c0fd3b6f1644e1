import Verif.Lemmas.DiskTight
import Verif.Props.DiskIns
import Verif.Props.Merge
/-! # `DiskAnn.Search` on an index filled by `DiskAnn.Insert` -/
namespace Vectory.DiskAnn
open Vectory (Elem Metric Ord DimOK)
variable {D : Type}

theorem mapM_parts {A B : Type} (f : A → Except Panic B) (Q : A → B → Prop) : ∀ l : List A,
    (∀ x ∈ l, ∃ b, f x = .ok b ∧ Q x b) → ∃ bs, l.mapM f = .ok bs ∧ bs.length = l.length ∧
      ∀ (i : Nat) (x : A), l[i]? = some x → ∃ b, bs[i]? = some b ∧ Q x b := by
  intro l
  induction l with
  | nil => intro _; exact ⟨[], rfl, rfl, fun i x h => by simp at h⟩
  | cons a l ih =>
    intro h
    obtain ⟨b, h1, h2⟩ := h a (List.mem_cons_self ..)
    obtain ⟨bs, h3, h4, h5⟩ := ih (fun x hx => h x (List.mem_cons_of_mem _ hx))
    refine ⟨b :: bs, ?_, by simp [h4], ?_⟩
    · rw [List.mapM_cons, h1]
      simp only [ok_bind, h3]
      rfl
    · intro i x hx
      cases i with
      | zero => simp at hx; subst hx; exact ⟨b, rfl, h2⟩
      | succ i => simp at hx; exact h5 i x hx

/-- every part is searched. -/
theorem search_parts {P : Params D} {da : DA} (hne : da.parts ≠ []) {del : List UInt32} {q : Vec} {k : Nat}
    {Q : MemIndex → List (Elem D) → Prop}
    (h : ∀ (p : Nat) (mi : MemIndex), da.parts[p]? = some mi → ∃ hits, mi.search P.metric del q k P.listSize = .ok hits ∧ Q mi hits) :
    ∃ a bs rwi, da.parts[da.rw]? = some rwi ∧ rwi.search P.metric del q k P.listSize = .ok a ∧ Q rwi a ∧
      (da.parts.take da.rw).mapM (fun mi => mi.search P.metric del q k P.listSize) = .ok bs ∧
      da.search P del q k = merge P.metric k (a ++ bs.flatten) ∧
      (bs ++ [a]).length = da.parts.length ∧ bs.length = da.rw ∧
      ∀ (p : Nat) (mi : MemIndex), da.parts[p]? = some mi → ∃ hits, (bs ++ [a])[p]? = some hits ∧ Q mi hits := by
  have hlt := DA.rw_lt hne
  have hlen : da.rw + 1 = da.parts.length := by
    have : 0 < da.parts.length := List.length_pos_iff.mpr hne
    unfold DA.rw; omega
  have hget : da.parts[da.rw]? = some da.parts[da.rw] := List.getElem?_eq_getElem hlt
  obtain ⟨a, ha, hq⟩ := h _ _ hget
  obtain ⟨bs, h1, h2, h3⟩ := mapM_parts (fun mi : MemIndex => mi.search P.metric del q k P.listSize) Q (da.parts.take da.rw) (by
    intro mi hmi
    obtain ⟨i, hi⟩ := List.mem_iff_getElem?.mp hmi
    rw [List.getElem?_take] at hi
    split at hi
    · exact h i mi hi
    · cases hi)
  have hbl : bs.length = da.rw := by rw [h2, List.length_take]; omega
  refine ⟨a, bs, _, hget, ha, hq, h1, ?_, by simp; omega, hbl, ?_⟩
  · unfold DA.search daSearch
    rw [hget]
    simp only [ha, ok_bind, h1]
  · intro p mi hp
    rcases Nat.lt_or_ge p da.rw with hlt' | hge
    · obtain ⟨b, hb, hqb⟩ := h3 p mi (by rw [List.getElem?_take, if_pos hlt']; exact hp)
      exact ⟨b, by rw [List.getElem?_append_left (by omega)]; exact hb, hqb⟩
    · have hpl := (List.getElem?_eq_some_iff.mp hp).1
      have : p = da.rw := by omega
      subst this
      rw [hget] at hp; cases hp
      exact ⟨a, by rw [List.getElem?_append_right (by omega)]; simp [hbl], hq⟩

/-- a list of hits in a part: distinct stored vertices with their true distances. -/
structure Hits (M : Metric D) (q : Vec) (mi : MemIndex) (hits : List (Elem D)) : Prop where
  nd : (hits.map Elem.id).Nodup
  ok : ∀ e ∈ hits, ∃ v, mi.graph.get? e.id = some v ∧ M.dist v.vector q = .ok e.dist

/-- the hits of all parts together. -/
theorem hits_all {P : Params D} {da : DA} (i : PInv P da) {q : Vec} {hs : List (List (Elem D))} (hl : hs.length = da.parts.length)
    (h : ∀ (p : Nat) (mi : MemIndex), da.parts[p]? = some mi → ∃ hits, hs[p]? = some hits ∧ Hits P.metric q mi hits) :
    (hs.flatten.map Elem.id).Nodup ∧ (∀ e ∈ hs.flatten, ∃ v, da.Holds e.id v ∧ P.metric.dist v q = .ok e.dist) := by
  have back : ∀ (p : Nat) (l : List (Elem D)), hs[p]? = some l → ∃ mi, da.parts[p]? = some mi ∧ Hits P.metric q mi l := by
    intro p l hp
    have hlt := (List.getElem?_eq_some_iff.mp hp).1
    rw [hl] at hlt
    obtain ⟨hits, h1, h2⟩ := h p _ (List.getElem?_eq_getElem hlt)
    rw [hp] at h1; cases h1
    exact ⟨_, List.getElem?_eq_getElem hlt, h2⟩
  refine ⟨?_, ?_⟩
  · show List.Pairwise _ _
    rw [List.pairwise_map, List.pairwise_flatten]
    refine ⟨?_, ?_⟩
    · intro l hlm
      obtain ⟨p, hp⟩ := List.mem_iff_getElem?.mp hlm
      obtain ⟨mi, _, H⟩ := back p l hp
      exact List.pairwise_map.mp H.nd
    · rw [List.pairwise_iff_getElem]
      intro a b ha hb hab x hx y hy hxy
      obtain ⟨mi, h1, H1⟩ := back a _ (List.getElem?_eq_getElem ha)
      obtain ⟨mi', h2, H2⟩ := back b _ (List.getElem?_eq_getElem hb)
      obtain ⟨v, g1, _⟩ := H1.ok x hx
      obtain ⟨v', g2, _⟩ := H2.ok y hy
      have := i.disj a b mi mi' h1 h2 x.id (mem_of_get g1) (hxy ▸ mem_of_get g2)
      omega
  · intro e he
    obtain ⟨l, hl', hel⟩ := List.mem_flatten.mp he
    obtain ⟨p, hp⟩ := List.mem_iff_getElem?.mp hl'
    obtain ⟨mi, h1, H⟩ := back p l hp
    obtain ⟨v, g1, g2⟩ := H.ok e hel
    exact ⟨v.vector, ⟨p, by unfold DA.at; rw [h1]; simp [g1]⟩, g2⟩

/-- the hits of a search of one part. -/
theorem part_search {P : Params D} (w : Ord P.metric.lt) (hd : DimOK P.metric P.dim.toNat) {first : UInt64} {mi : MemIndex}
    (b : Built P.metric P.close first P.maxDegree P.dim mi) (hne : mi.graph ≠ []) (del : List UInt32) (q : Vec) (hq : q.length = P.dim.toNat) (k : Nat) :
    ∃ hits, mi.search P.metric del q k P.listSize = .ok hits ∧ Hits P.metric q mi hits ∧
      ((0 : UInt32) ∈ del → hits = []) ∧ ((0 : UInt32) ∉ del → 1 ≤ k → hits ≠ []) := by
  obtain ⟨hits, h1, _, h3, _, h5⟩ := C58_search_sound w hd b hne del q hq k P.listSize
  refine ⟨hits, h1, ⟨h3, fun e he => ?_⟩, fun h => ?_, fun h hk => ?_⟩
  · obtain ⟨v, a, b, _⟩ := h5 e he; exact ⟨v, a, b⟩
  · have := (C60_deletes_ignored w hd b hne del q hq k P.listSize).2 h
    rw [h1] at this; cases this; rfl
  · have I := built_inv w hd b
    have ho : mi.once = true := by
      cases h : mi.once with
      | true => rfl
      | false => exact absurd (I.fresh h).1 hne
    obtain ⟨found, f1, _, e, he, _⟩ := visit_entry w hd I.g (I.start ho) I.wired hq P.listSize del h
    obtain ⟨left, a1, a2, _⟩ := popK_spec w k (newMinHeap P.metric.lt found) (Heap.init_heap w.min _)
    have hl : (newMinHeap P.metric.lt found).length = found.length := (Heap.init_perm _ _).length_eq
    have hf : 0 < found.length := List.length_pos_of_mem he
    unfold MemIndex.search at h1
    rw [f1] at h1
    cases h1
    intro h0
    rw [h0] at a2
    simp at a2
    omega

/-- a search of the whole index, when no part is empty. -/
theorem da_search {P : Params D} (w : Ord P.metric.lt) (hd : DimOK P.metric P.dim.toNat) {da : DA} (i : PInv P da)
    (hne : ∀ (p : Nat) (mi : MemIndex), da.parts[p]? = some mi → mi.graph ≠ []) (del : List UInt32) (q : Vec) (hq : q.length = P.dim.toNat) (k : Nat) :
    ∃ out, da.search P del q k = .ok out ∧ out.length ≤ k ∧ (out.map Elem.id).Nodup ∧
      (∀ e ∈ out, ∃ v, da.Holds e.id v ∧ P.metric.dist v q = .ok e.dist) ∧
      ((0 : UInt32) ∈ del → out = []) ∧ ((0 : UInt32) ∉ del → 1 ≤ k → out ≠ []) := by
  obtain ⟨a, bs, rwi, hrw, ha, hqa, hb, hs, hlen, _, hall⟩ := search_parts i.ne (P := P) (del := del) (q := q) (k := k)
    (Q := fun mi hits => Hits P.metric q mi hits ∧ ((0 : UInt32) ∈ del → hits = []) ∧ ((0 : UInt32) ∉ del → 1 ≤ k → hits ≠ []))
    (fun p mi hp => by
      obtain ⟨first, _, bt⟩ := i.part p mi hp
      exact part_search w hd bt (hne p mi hp) del q hq k)
  obtain ⟨hnd, hok⟩ := hits_all i hlen (fun p mi hp => by obtain ⟨h, a, b⟩ := hall p mi hp; exact ⟨h, a, b.1⟩)
  have hperm : (a ++ bs.flatten).Perm (bs ++ [a]).flatten := by
    rw [List.flatten_append]; simp only [List.flatten_cons, List.flatten_nil, List.append_nil]
    exact List.perm_append_comm
  have hnd' : ((a ++ bs.flatten).map Elem.id).Nodup := (hperm.map Elem.id).nodup_iff.mpr hnd
  have hok' : ∀ e ∈ a ++ bs.flatten, ∃ v, da.Holds e.id v ∧ P.metric.dist v q = .ok e.dist := fun e he => hok e (hperm.subset he)
  have hempty : (0 : UInt32) ∈ del → a ++ bs.flatten = [] := by
    intro h
    have h1 : (bs ++ [a]).flatten = [] := by
      rw [List.flatten_eq_nil_iff]
      intro l hl
      obtain ⟨p, hp⟩ := List.mem_iff_getElem?.mp hl
      have hlt := (List.getElem?_eq_some_iff.mp hp).1
      rw [hlen] at hlt
      obtain ⟨h2, h3, h4⟩ := hall p _ (List.getElem?_eq_getElem hlt)
      rw [hp] at h3; cases h3
      exact h4.2.1 h
    rw [h1] at hperm
    exact List.perm_nil.mp hperm
  rw [hs]
  cases k with
  | zero => exact ⟨[], C61_zero w _, by simp, List.nodup_nil, fun e he => (nomatch he), fun _ => rfl, fun _ h => by omega⟩
  | succ k =>
    cases hc : a ++ bs.flatten with
    | nil =>
      refine ⟨[], ?_, by simp, List.nodup_nil, fun e he => (nomatch he), fun _ => rfl, fun h0 h1 => ?_⟩
      · have e : MMHeap.init (minLess P.metric.lt) ([] : List (Elem D)) = [] := List.perm_nil.mp (MMHeap.init_perm _ [])
        unfold merge; rw [e]; rfl
      · exact absurd (List.append_eq_nil_iff.mp hc).1 (hqa.2.2 h0 h1)
    | cons x rs =>
      obtain ⟨kept, dr, h1, h2, h3, h4⟩ := C61_merge_exact w (k + 1) (by omega) x rs
      rw [hc] at hnd' hok'
      have hsub : ∀ e ∈ x :: kept, e ∈ x :: rs := by
        intro e he
        rcases List.mem_cons.mp he with rfl | he
        · exact List.mem_cons_self ..
        · exact List.mem_cons_of_mem _ (h2.symm.subset (List.mem_append_left _ he))
      refine ⟨x :: kept, h1, by simp only [List.length_cons]; omega, ?_, fun e he => hok' e (hsub e he), fun h => ?_, fun _ _ h => (nomatch h)⟩
      · have h5 : ((x :: (kept ++ dr)).map Elem.id).Nodup := ((h2.cons x).map Elem.id).nodup_iff.mp hnd'
        rw [← List.cons_append, List.map_append] at h5
        exact (List.nodup_append.mp h5).1
      · rw [hempty h] at hc; cases hc

/-- a search when the newest part is empty. -/
theorem da_search_empty {P : Params D} {da : DA} (i : PInv P da) {mi : MemIndex} (hmi : da.parts[da.rw]? = some mi) (h : mi.graph = [])
    (del : List UInt32) (q : Vec) (k : Nat) : da.search P del q k = .error .nilDeref := by
  have hs : mi.search P.metric del q k P.listSize = .error .nilDeref := by
    unfold MemIndex.search MemIndex.visit vertexAt
    rw [h]; rfl
  unfold DA.search daSearch
  rw [hmi]
  dsimp only
  rw [hs]
  rfl

/-! ## what one `Insert` does to the parts -/

/-- number of vectors in all parts. -/
def DA.total (da : DA) : Nat := (da.parts.map (fun mi => mi.graph.length)).sum

/-- number of vectors in the newest part. -/
def DA.newest (da : DA) : Nat :=
  match da.parts[da.rw]? with
  | some mi => mi.graph.length
  | none => 0

theorem sum_set {A : Type} (f : A → Nat) : ∀ (l : List A) (p : Nat) (a b : A), l[p]? = some a →
    ((l.set p b).map f).sum + f a = (l.map f).sum + f b := by
  intro l
  induction l with
  | nil => intro p a b h; simp at h
  | cons x l ih =>
    intro p a b h
    cases p with
    | zero => simp at h; subst h; simp; omega
    | succ p =>
      simp at h
      have := ih p a b h
      simp only [List.set_cons_succ, List.map_cons, List.sum_cons]
      omega

theorem map_modify_same {A B : Type} (f : A → B) (g : A → A) (h : ∀ a, f (g a) = f a) (l : List A) (n : Nat) :
    (l.modify n g).map f = l.map f := by
  apply List.ext_getElem?
  intro i
  simp only [List.getElem?_map, List.getElem?_modify]
  cases l[i]? with
  | none => rfl
  | some a => simp only [Option.map_eq_map, Option.map_some]; split <;> simp [h]

theorem put_change {P : Params D} {da da' : DA} {del : List UInt32} {p : Nat} {vec : Vec} {id : UInt64} {r : Option Fail}
    (h : da.put P del p vec id = .ok (da', r)) :
    (r ≠ none ∧ da' = da) ∨ (r = none ∧ ∃ mi mi', da.parts[p]? = some mi ∧ mi.insert P.metric P.close del vec P.listSize id = .ok mi' ∧
      da' = { da with parts := da.parts.set p mi' }) := by
  unfold DA.put at h
  split at h
  · cases h
  · rename_i mi hmi
    split at h
    · rename_i mi' hi
      cases h; exact Or.inr ⟨rfl, mi, mi', hmi, hi, rfl⟩
    · cases h
    · cases h; exact Or.inl ⟨by simp, rfl⟩

/-- one call: the sizes, and what every part keeps. -/
theorem insert_parts {P : Params D} (w : Ord P.metric.lt) (hd : DimOK P.metric P.dim.toNat) (hl : 1 ≤ P.limit.toNat) {da da' : DA}
    {vs : List Vec} (s : SeqInv P da vs) {del : List UInt32} {v : Vec} {r : Option Fail} (hn : vs.length + 2 < 18446744073709551616)
    (h : da.insert P del v = .ok (da', r)) :
    da'.total = da.total + (if v.length = P.dim.toNat then 1 else 0) ∧
    da'.newest = (if da.newest = P.limit.toNat then 0 else da.newest) + (if v.length = P.dim.toNat then 1 else 0) ∧
    ∀ Q : MemIndex → Prop, (∀ first, Q (newMemIndex first P.maxDegree P.dim)) → (∀ mi, Q mi → Q { mi with readOnly := true }) →
      (∀ mi mi' id first, BInv P.dim P.maxDegree first mi → id ∉ AMap.keys mi.graph → id.toNat ≤ vs.length + 1 → Q mi →
        mi.graph.length < P.limit.toNat →
        mi.insert P.metric P.close del v P.listSize id = .ok mi' → Q mi') →
      (∀ mi ∈ da.parts, Q mi) → ∀ mi ∈ da'.parts, Q mi := by
  obtain ⟨da2, h2, s2⟩ := seq_step w hd hl s del v hn
  rw [h] at h2
  obtain ⟨rfl, hr⟩ : da' = da2 ∧ r = if v.length = P.dim.toNat then none else some .dimension := by
    cases h2; exact ⟨rfl, rfl⟩
  obtain ⟨i1, hc1, hat1, hg1, hnf, hf⟩ := rotate_spec s.p
  have hlt := DA.rw_lt s.p.ne
  have hget : da.parts[da.rw]? = some da.parts[da.rw] := List.getElem?_eq_getElem hlt
  have hnew : da.newest = da.parts[da.rw].graph.length := by unfold DA.newest; rw [hget]
  have hle := s.le _ _ hget
  have hfull : da.full P = true ↔ da.newest = P.limit.toNat := by
    unfold DA.full
    rw [hget, hnew]
    simp only [MemIndex.sizeNow, beq_iff_eq]
    constructor
    · intro h
      have := congrArg UInt32.toNat h
      simp at this
      rw [Nat.mod_eq_of_lt (by have := P.limit.toNat_lt; omega)] at this
      exact this
    · intro h
      rw [h]
      apply UInt32.toNat_inj.mp
      simp
  -- after the locked section
  have hrot : (da.rotate P).total = da.total ∧ (da.rotate P).newest = (if da.newest = P.limit.toNat then 0 else da.newest) ∧
      ∀ Q : MemIndex → Prop, (∀ first, Q (newMemIndex first P.maxDegree P.dim)) → (∀ mi, Q mi → Q { mi with readOnly := true }) →
        (∀ mi ∈ da.parts, Q mi) → ∀ mi ∈ (da.rotate P).parts, Q mi := by
    cases hfl : da.full P with
    | false =>
      rw [hnf hfl, if_neg (fun h => by rw [hfull.mpr h] at hfl; cases hfl)]
      exact ⟨rfl, rfl, fun Q _ _ h => h⟩
    | true =>
      have hp := hf hfl
      rw [if_pos (hfull.mp hfl)]
      refine ⟨?_, ?_, ?_⟩
      · unfold DA.total
        rw [hp, List.map_append, map_modify_same (fun mi : MemIndex => mi.graph.length) (fun mi => { mi with readOnly := true }) (fun _ => rfl)]
        simp [newMemIndex]
      · unfold DA.newest DA.rw
        rw [hp]
        simp [newMemIndex]
      · intro Q q1 q2 hq mi hm
        rw [hp] at hm
        rcases List.mem_append.mp hm with hm | hm
        · obtain ⟨j, hj⟩ := List.mem_iff_getElem?.mp hm
          rw [List.getElem?_modify] at hj
          cases hpj : da.parts[j]? with
          | none => rw [hpj] at hj; cases hj
          | some m =>
            rw [hpj] at hj
            have := hq m (List.mem_of_getElem? hpj)
            simp only [Option.map_eq_map, Option.map_some, Option.some.injEq] at hj
            split at hj <;> subst hj
            · exact q2 _ this
            · exact this
        · rcases List.mem_singleton.mp hm with rfl; exact q1 _
  unfold DA.insert at h
  dsimp only at h
  have hrw : DA.rw { da.rotate P with currId := (da.rotate P).currId + 1 } = (da.rotate P).rw := rfl
  rw [hrw] at h
  rcases put_change h with ⟨hrn, rfl⟩ | ⟨hrn, mi, mi', hm, hi, rfl⟩
  · have hv : v.length ≠ P.dim.toNat := fun hv => hrn (by rw [hr, if_pos hv])
    rw [if_neg hv]
    exact ⟨hrot.1, hrot.2.1, fun Q q1 q2 _ hq => hrot.2.2 Q q1 q2 hq⟩
  · have hv : v.length = P.dim.toNat := by
      by_cases hv : v.length = P.dim.toNat
      · exact hv
      · rw [if_neg hv, hrn] at hr; cases hr
    rw [if_pos hv]
    have hm' : (da.rotate P).parts[(da.rotate P).rw]? = some mi := hm
    obtain ⟨first, b, _⟩ := i1.part _ _ hm'
    have hidn : (da.rotate P).currId ∉ AMap.keys mi.graph := fun hk => by have := i1.below _ _ hm' _ hk; omega
    obtain ⟨m2, k1, _, _, k4, _⟩ := insert_spec w P.close hd b (i1.last mi hm') del v hv P.listSize (da.rotate P).currId hidn
    rw [hi] at k1; cases k1
    have hlen : mi'.graph.length = mi.graph.length + 1 := by
      have := congrArg List.length k4
      simpa [AMap.keys] using this
    have hnr : (da.rotate P).newest = mi.graph.length := by unfold DA.newest; rw [hm']
    have hltm : mi.graph.length < P.limit.toNat := by
      rw [← hnr, hrot.2.1]
      split
      · omega
      · rename_i hne; rw [hnew] at hne ⊢; omega
    refine ⟨?_, ?_, ?_⟩
    · have := sum_set (fun m : MemIndex => m.graph.length) _ _ _ mi' hm'
      have ht : (da.rotate P).total = _ := rfl
      unfold DA.total at hrot ⊢
      dsimp only
      rw [← hrot.1]
      omega
    · rw [← hrot.2.1, hnr]
      unfold DA.newest
      have : DA.rw { da.rotate P with currId := (da.rotate P).currId + 1, parts := (da.rotate P).parts.set (da.rotate P).rw mi' } =
        (da.rotate P).rw := by simp [DA.rw]
      dsimp only at this ⊢
      rw [this, List.getElem?_set, if_pos rfl, if_pos (DA.rw_lt i1.ne)]
      exact hlen
    · intro Q q1 q2 q3 hq m hmm
      have hq1 := hrot.2.2 Q q1 q2 hq
      rcases List.mem_or_eq_of_mem_set hmm with hmm | rfl
      · exact hq1 m hmm
      · refine q3 mi m _ first b hidn ?_ (hq1 mi (List.mem_of_getElem? hm')) hltm hi
        rw [hc1, s.curr]; exact Nat.le_refl _

end Vectory.DiskAnn
