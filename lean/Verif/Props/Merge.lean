import Verif.Props.DiskAnn
/-! # C61: what the merge of the DiskANN parts keeps, exactly -/
namespace Vectory
variable {D : Type}

namespace MMHeap
open Heap (lessAt swap WeakOrder)
variable {E : Type}

/-- the min-max order of everything but the root. -/
def IsTail (lt : E → E → Bool) (d : E) (l : List E) : Prop :=
  Order lt isOnMinLevel (val d l) 1 l.length (fun _ _ => False)

theorem tail_max {lt : E → E → Bool} (w : WeakOrder lt) (d : E) (l : List E) (h : IsTail lt d l) :
    ∀ k, 1 ≤ k → k < l.length → lt (val d l (indexOfMax lt l l.length)) (val d l k) = false := by
  have hm : ∀ c, (c = 1 ∨ c = 2) → c < l.length → lt (val d l (indexOfMax lt l l.length)) (val d l c) = false := by
    intro c hc hcl
    unfold indexOfMax
    split
    · have : c = l.length - 1 := by omega
      rw [← this]; exact w.irrefl _
    · cases hh : lessAt lt l 2 1 with
      | true =>
        rw [lessAt_val lt d l 2 1 (by omega) (by omega)] at hh
        simp only [if_true]
        rcases hc with rfl | rfl
        · exact w.irrefl _
        · exact w.asymm _ _ hh
      | false =>
        rw [lessAt_val lt d l 2 1 (by omega) (by omega)] at hh
        simp only [Bool.false_eq_true, if_false]
        rcases hc with rfl | rfl
        · exact hh
        · exact w.irrefl _
  intro k
  induction k using Nat.strongRecOn with
  | _ k ih =>
    intro h1k hk
    by_cases h12 : k = 1 ∨ k = 2
    · exact hm k h12 hk
    · have hu : ∃ u, 1 ≤ u ∧ u < k ∧ Pair u k ∧ isOnMinLevel u = false := by
        have hc : k = 2 * ((k - 1) / 2) + 1 ∨ k = 2 * ((k - 1) / 2) + 2 := by omega
        cases hl : isOnMinLevel ((k - 1) / 2) with
        | false => exact ⟨(k - 1) / 2, by omega, by omega, by unfold Pair; omega, hl⟩
        | true =>
          have hc2 : (k - 1) / 2 = 2 * (((k - 1) / 2 - 1) / 2) + 1 ∨ (k - 1) / 2 = 2 * (((k - 1) / 2 - 1) / 2) + 2 := by omega
          have hl2 : isOnMinLevel (((k - 1) / 2 - 1) / 2) = false := by
            have := alt_min.child hc2
            rw [hl] at this; simpa using this
          refine ⟨((k - 1) / 2 - 1) / 2, ?_, by omega, by unfold Pair; omega, hl2⟩
          rcases Nat.eq_zero_or_pos (((k - 1) / 2 - 1) / 2) with h0 | h0
          · rw [h0] at hl2; cases hl2
          · exact h0
      obtain ⟨u, hu1, huk, hp, hl⟩ := hu
      have h1 := h u k hu1 hk hp (fun h => h)
      unfold Dom at h1; rw [if_neg (by simp [hl])] at h1
      exact w.negTrans _ _ _ h1 (ih u huk hu1 (by omega))

theorem cut_tail {lt : E → E → Bool} (w : WeakOrder lt) (d : E) (l rest : List E) (x : E) (i : Nat) (hi : i < l.length) (hi1 : 1 ≤ i)
    (hi2 : i ≤ 2) (h : IsTail lt d l) (he : down lt (swap l i (l.length - 1)) i (l.length - 1) = rest ++ [x])
    (hl : rest.length = l.length - 1) : IsTail lt d rest := by
  have hsl : (swap l i (l.length - 1)).length = l.length := Heap.swap_length _ _ _
  have o : Order lt isOnMinLevel (val d (down lt (swap l i (l.length - 1)) i (l.length - 1))) 1 (l.length - 1) (fun _ _ => False) := by
    apply down_order w d _ _ _ _ (by omega) (by omega)
    · intro g _; omega
    · intro u y hu hy hp hui
      have hul : u < l.length - 1 := by unfold Pair at hp; omega
      have hyi : ¬ y = i := by unfold Pair at hp; omega
      unfold Dom
      rw [val_swap d l i _ u hi (by omega), if_neg (show ¬ u = l.length - 1 by omega), if_neg hui]
      rw [val_swap d l i _ y hi (by omega), if_neg (show ¬ y = l.length - 1 by omega), if_neg hyi]
      exact h u y hu (by omega) hp (fun h => h)
  rw [he] at o
  unfold IsTail
  rw [hl]
  refine order_congr (fun k hk => ?_) o
  exact val_append_left _ _ _ _ (by omega)

/-- `PopMax` on an array that is ordered except for the root takes a maximum of the others. -/
theorem popMax_tail {lt : E → E → Bool} (w : WeakOrder lt) (y : E) (ys : List E) (hl : ys ≠ []) (h : IsTail lt y (y :: ys)) :
    ∃ x rest, popMax lt (y :: ys) = some (x, y :: rest) ∧ ys.Perm (x :: rest) ∧ IsTail lt y (y :: rest) ∧ ∀ z ∈ ys, lt x z = false := by
  have hpos : 0 < ys.length := List.length_pos_iff.mpr hl
  have hlen : (y :: ys).length = ys.length + 1 := rfl
  have hi : indexOfMax lt (y :: ys) (y :: ys).length < (y :: ys).length ∧ 1 ≤ indexOfMax lt (y :: ys) (y :: ys).length ∧
      indexOfMax lt (y :: ys) (y :: ys).length ≤ 2 := by
    unfold indexOfMax; split
    · omega
    · split <;> omega
  obtain ⟨rest, h1, h2, h3, h4, h5⟩ := cut_spec w y (y :: ys) _ hi.1
  have hr0 : val y rest 0 = y := by
    have : val y (down lt (swap (y :: ys) (indexOfMax lt (y :: ys) (y :: ys).length) ((y :: ys).length - 1))
        (indexOfMax lt (y :: ys) (y :: ys).length) ((y :: ys).length - 1)) 0 = val y (y :: ys) 0 := by
      rw [down_frame w y _ _ _ _ (by rw [Heap.swap_length]; omega) (Or.inr (by omega)),
        val_swap _ _ _ _ _ hi.1 (by omega), if_neg (by omega), if_neg (by omega)]
    rw [h3, val_append_left _ _ _ _ (by omega)] at this
    exact this
  cases rest with
  | nil => simp at h4; omega
  | cons z rest =>
    have : z = y := hr0
    subst this
    refine ⟨val z (z :: ys) (indexOfMax lt (z :: ys) (z :: ys).length), rest, by unfold popMax; simp only [h1, h2], ?_,
      cut_tail w z _ _ _ _ hi.1 hi.2.1 hi.2.2 h h3 h4, ?_⟩
    · exact (h5.trans (List.Perm.swap ..)).cons_inv
    · intro e he
      obtain ⟨k, hk, rfl⟩ := List.mem_iff_getElem.mp he
      have := tail_max w z (z :: ys) h (k + 1) (by omega) (by simp; omega)
      have e : val z (z :: ys) (k + 1) = ys[k] := by
        unfold val; rw [List.getElem?_cons_succ, List.getElem?_eq_getElem hk]; rfl
      rwa [e] at this

end MMHeap

namespace DiskAnn

theorem trim_tail {M : Metric D} (w : Ord M.lt) (k : Nat) (hk : 1 ≤ k) : ∀ n (y : Elem D) (ys : List (Elem D)), ys.length + 1 ≤ n →
    MMHeap.IsTail (minLess M.lt) y (y :: ys) →
    ∃ kept dropped, trim M k n (y :: ys) = .ok (y :: kept) ∧ ys.Perm (kept ++ dropped) ∧ kept.length = min (k - 1) ys.length ∧
      ∀ a ∈ kept, ∀ b ∈ dropped, M.lt b.dist a.dist = false := by
  intro n
  induction n with
  | zero => intro y ys hl; omega
  | succ n ih =>
    intro y ys hl hm
    unfold trim
    by_cases hlt : k < (y :: ys).length
    · rw [if_pos hlt]
      simp only [List.length_cons] at hlt
      have hne : ys ≠ [] := by rintro rfl; simp at hlt; omega
      obtain ⟨x, rest, h, hp, hm', hmax⟩ := MMHeap.popMax_tail w.min y ys hne hm
      rw [h]
      have hlen := hp.length_eq
      simp only [List.length_cons] at hlen
      obtain ⟨out, dr, h1, h2, h3, h4⟩ := ih y rest (by omega) hm'
      refine ⟨out, x :: dr, h1, ?_, by omega, ?_⟩
      · exact hp.trans ((h2.cons x).trans List.perm_middle.symm)
      · intro a ha b hb
        rcases List.mem_cons.mp hb with rfl | hb
        · exact hmax a (hp.symm.subset (List.mem_cons_of_mem _ (h2.symm.subset (List.mem_append_left _ ha))))
        · exact h4 a ha b hb
    · rw [if_neg hlt]
      simp only [List.length_cons] at hlt
      exact ⟨ys, [], rfl, by simp, by omega, fun _ _ _ h => (nomatch h)⟩

theorem trim_zero {M : Metric D} (w : Ord M.lt) : ∀ n (l : List (Elem D)), l.length ≤ n → trim M 0 n l = .ok [] := by
  intro n
  induction n with
  | zero => intro l hl; cases l with
    | nil => rfl
    | cons y ys => simp at hl
  | succ n ih =>
    intro l hl
    cases l with
    | nil => rfl
    | cons y ys =>
      unfold trim
      rw [if_pos (by simp)]
      obtain ⟨x, rest, h, hp, _⟩ := MMHeap.popMax_spec w.min y (y :: ys) (by simp)
      rw [h]
      have hlen := hp.length_eq
      simp only [List.length_cons] at hlen hl
      exact ih rest (by omega)

end DiskAnn

/-- **C61, exactly.** The merge of the partial results (those of the read-write part first, then those of each read-only part) keeps the
very first of them, whatever its distance, and the `k - 1` nearest of all others. -/
theorem C61_merge_exact {M : Metric D} (w : Ord M.lt) (k : Nat) (hk : 1 ≤ k) (x : Elem D) (rs : List (Elem D)) :
    ∃ kept dropped, DiskAnn.merge M k (x :: rs) = .ok (x :: kept) ∧ rs.Perm (kept ++ dropped) ∧ kept.length = min (k - 1) rs.length ∧
      ∀ a ∈ kept, ∀ b ∈ dropped, M.lt b.dist a.dist = false := by
  have hperm := MMHeap.init_perm (minLess M.lt) (x :: rs)
  obtain ⟨ho, h0⟩ := MMHeap.init_order w.min x (x :: rs)
  unfold DiskAnn.merge
  cases hl : MMHeap.init (minLess M.lt) (x :: rs) with
  | nil => rw [hl] at hperm; have := hperm.length_eq; simp at this
  | cons y ys =>
    rw [hl] at hperm ho h0
    have : y = x := h0
    subst this
    have hp := hperm.cons_inv
    obtain ⟨kept, dr, h1, h2, h3, h4⟩ := DiskAnn.trim_tail w k hk (y :: ys).length y ys (Nat.le_refl _) (by
      unfold MMHeap.IsTail; rw [hperm.length_eq]; exact ho)
    exact ⟨kept, dr, h1, hp.symm.trans h2, by rw [h3, hp.length_eq], h4⟩

/-- **C61, `DiskAnn.Search`.** When the search succeeds, the read-write part and every read-only part were searched; if the read-write
part found something, the result is its nearest hit followed by the `k - 1` nearest of all other hits (the later ones of the
read-write part and those of the read-only parts); if it found nothing, the first hit of the read-only parts takes that place. So the
result is a set of `k` nearest hits iff that first hit belongs to one. -/
theorem C61_search_exact {M : Metric D} (w : Ord M.lt) (rw' : DiskAnn.MemIndex) (ro : List DiskAnn.MemIndex) (del : List UInt32) (q : Vec)
    (k listSize : Nat) (hk : 1 ≤ k) (out : List (Elem D)) (ho : DiskAnn.daSearch M rw' ro del q k listSize = .ok out) :
    ∃ a bs, rw'.search M del q k listSize = .ok a ∧ ro.mapM (fun mi => mi.search M del q k listSize) = .ok bs ∧
      (a ++ bs.flatten = [] → out = []) ∧
      ∀ x rs, a ++ bs.flatten = x :: rs → ∃ kept dropped, out = x :: kept ∧ rs.Perm (kept ++ dropped) ∧
        kept.length = min (k - 1) rs.length ∧ ∀ a ∈ kept, ∀ b ∈ dropped, M.lt b.dist a.dist = false := by
  unfold DiskAnn.daSearch at ho
  obtain ⟨a, ha, ho⟩ := (bind_ok_iff _ _ _).mp ho
  obtain ⟨bs, hb, ho⟩ := (bind_ok_iff _ _ _).mp ho
  refine ⟨a, bs, ha, hb, fun h => ?_, fun x rs h => ?_⟩
  · rw [h] at ho
    have e : MMHeap.init (minLess M.lt) ([] : List (Elem D)) = [] := List.perm_nil.mp (MMHeap.init_perm _ [])
    unfold DiskAnn.merge at ho
    rw [e] at ho
    cases ho; rfl
  · rw [h] at ho
    obtain ⟨kept, dr, h1, h2, h3, h4⟩ := C61_merge_exact w k hk x rs
    rw [h1] at ho
    cases ho
    exact ⟨kept, dr, rfl, h2, h3, h4⟩

/-- C61 for `k = 0`: nothing is returned. -/
theorem C61_zero {M : Metric D} (w : Ord M.lt) (rs : List (Elem D)) : DiskAnn.merge M 0 rs = .ok [] :=
  DiskAnn.trim_zero w _ _ (Nat.le_refl _)

-- five hits of which the first is the farthest
example : (match DiskAnn.merge lineMetric 3 [⟨1, 90⟩, ⟨2, 10⟩, ⟨3, 30⟩, ⟨4, 20⟩, ⟨5, 40⟩] with
    | .ok l => l.map Elem.id | .error _ => []) = [1, 4, 2] := by decide +kernel

end Vectory
