import Verif.Spec.Assume
namespace Vectory.Heap
variable {E : Type}

theorem swap_length (l : List E) (i j : Nat) : (swap l i j).length = l.length := by
  unfold swap; split <;> simp

theorem swap_getElem? (l : List E) (i j k : Nat) (hi : i < l.length) (hj : j < l.length) :
    (swap l i j)[k]? = if k = j then l[i]? else if k = i then l[j]? else l[k]? := by
  unfold swap
  rw [List.getElem?_eq_getElem hi, List.getElem?_eq_getElem hj]
  simp only [List.getElem?_set, List.length_set]
  grind

theorem swap_perm (l : List E) (i j : Nat) : (swap l i j).Perm l := by
  unfold swap
  split
  · rename_i a b ha hb
    rw [List.getElem?_eq_some_iff] at ha hb
    obtain ⟨hi, rfl⟩ := ha
    obtain ⟨hj, rfl⟩ := hb
    exact List.set_set_perm hi hj
  · exact List.Perm.refl _

theorem upFuel_perm (lt : E → E → Bool) : ∀ f l j, (upFuel lt f l j).Perm l := by
  intro f
  induction f with
  | zero => intro l j; exact List.Perm.refl _
  | succ f ih =>
    intro l j
    unfold upFuel
    dsimp only
    split
    · exact List.Perm.refl _
    · exact (ih _ _).trans (swap_perm _ _ _)

theorem downFuel_perm (lt : E → E → Bool) : ∀ f l i n, (downFuel lt f l i n).Perm l := by
  intro f
  induction f with
  | zero => intro l i n; exact List.Perm.refl _
  | succ f ih =>
    intro l i n
    unfold downFuel
    dsimp only
    split
    · exact List.Perm.refl _
    · generalize (if 2*i+1+1 < n ∧ lessAt lt l (2*i+1+1) (2*i+1) = true then 2*i+1+1 else 2*i+1 : Nat) = j
      split
      · exact List.Perm.refl _
      · exact (ih _ _ _).trans (swap_perm _ _ _)

theorem down_perm (lt : E → E → Bool) (l : List E) (i n : Nat) : (down lt l i n).Perm l :=
  downFuel_perm lt _ _ _ _

theorem initLoop_perm (lt : E → E → Bool) : ∀ k l, (initLoop lt k l).Perm l := by
  intro k
  induction k with
  | zero => intro l; exact List.Perm.refl _
  | succ k ih => intro l; exact (ih _).trans (down_perm _ _ _ _)

theorem init_perm (lt : E → E → Bool) (l : List E) : (init lt l).Perm l := initLoop_perm lt _ _

theorem push_perm (lt : E → E → Bool) (l : List E) (x : E) : (push lt l x).Perm (x :: l) :=
  (upFuel_perm lt _ _ _).trans (List.perm_append_singleton x l)

theorem push_length (lt : E → E → Bool) (l : List E) (x : E) : (push lt l x).length = l.length + 1 := by
  simpa using (push_perm lt l x).length_eq

/-- `down` never touches the cells from `n` on. -/
theorem downFuel_getElem?_ge (lt : E → E → Bool) :
    ∀ f (l : List E) i n k, n ≤ l.length → n ≤ k → (downFuel lt f l i n)[k]? = l[k]? := by
  intro f
  induction f with
  | zero => intro l i n k _ _; rfl
  | succ f ih =>
    intro l i n k hn hk
    unfold downFuel
    dsimp only
    split
    · rfl
    · rename_i hj1
      generalize hj : (if 2*i+1+1 < n ∧ lessAt lt l (2*i+1+1) (2*i+1) = true then 2*i+1+1 else 2*i+1 : Nat) = j
      have hjn : j < n := by split at hj <;> omega
      split
      · rfl
      · rw [ih _ _ _ _ (by rw [swap_length]; exact hn) hk, swap_getElem? _ _ _ _ (by omega) (by omega)]
        split
        · omega
        · split
          · omega
          · rfl

theorem pop_eq (lt : E → E → Bool) (l : List E) (hl : l ≠ []) :
    ∃ x rest, pop lt l = some (x, rest) ∧ l[0]? = some x ∧
      down lt (swap l 0 (l.length - 1)) 0 (l.length - 1) = rest ++ [x] ∧ rest.length = l.length - 1 := by
  have hpos : 0 < l.length := List.length_pos_iff.mpr hl
  have hlen : (down lt (swap l 0 (l.length - 1)) 0 (l.length - 1)).length = l.length := by
    rw [(down_perm _ _ _ _).length_eq, swap_length]
  have hget : (down lt (swap l 0 (l.length - 1)) 0 (l.length - 1))[l.length - 1]? = l[0]? := by
    unfold down
    rw [downFuel_getElem?_ge _ _ _ _ _ _ (by rw [swap_length]; omega) (Nat.le_refl _),
      swap_getElem? _ _ _ _ hpos (by omega)]
    simp
  have h0 : l[0]? = some l[0] := List.getElem?_eq_getElem hpos
  rw [h0] at hget
  refine ⟨l[0], (down lt (swap l 0 (l.length - 1)) 0 (l.length - 1)).take (l.length - 1), ?_, h0, ?_, ?_⟩
  · unfold pop; simp only [hget]
  · obtain ⟨h1, h2⟩ := List.getElem?_eq_some_iff.mp hget
    conv => lhs; rw [← List.take_append_drop (l.length - 1) (down lt (swap l 0 (l.length - 1)) 0 (l.length - 1))]
    rw [List.drop_eq_getElem_cons h1, h2, List.drop_eq_nil_of_le (by omega)]
  · rw [List.length_take, hlen]; omega

theorem pop_none (lt : E → E → Bool) (l : List E) : pop lt l = none ↔ l = [] := by
  constructor
  · intro h
    apply Classical.byContradiction
    intro hne
    obtain ⟨x, rest, h', _⟩ := pop_eq lt l hne
    rw [h] at h'; cases h'
  · rintro rfl; rfl

theorem pop_perm (lt : E → E → Bool) (l : List E) (x : E) (rest : List E)
    (h : pop lt l = some (x, rest)) : l.Perm (x :: rest) := by
  have hl : l ≠ [] := by rintro rfl; cases h
  obtain ⟨x', rest', h', _, h2, _⟩ := pop_eq lt l hl
  rw [h] at h'; cases h'
  have h3 := (down_perm lt (swap l 0 (l.length - 1)) 0 (l.length - 1)).trans (swap_perm l 0 (l.length-1))
  rw [h2] at h3
  exact h3.symm.trans (List.perm_append_singleton x rest)

theorem pop_length (lt : E → E → Bool) (l : List E) (x : E) (rest : List E)
    (h : pop lt l = some (x, rest)) : l.length = rest.length + 1 := by
  simpa using (pop_perm lt l x rest h).length_eq

theorem WeakOrder.irrefl {lt : E → E → Bool} (w : WeakOrder lt) (a : E) : lt a a = false := by
  cases h : lt a a with
  | false => rfl
  | true => have := w.asymm a a h; rw [h] at this; exact this

/-- `lt b a = false` means `a ≤ b`; if `a < b` then `a ≤ b`. -/
theorem WeakOrder.le_of_lt {lt : E → E → Bool} (w : WeakOrder lt) {a b : E} (h : lt a b = true) :
    lt b a = false := w.asymm a b h

/-- heap order for all parents `p ≥ lo` within the first `n` cells, except possibly parent `i`. -/
def HeapEx (lt : E → E → Bool) (l : List E) (lo n : Nat) (ex : Nat → Prop) : Prop :=
  ∀ p c a b, lo ≤ p → ¬ ex p → c < n → (c = 2 * p + 1 ∨ c = 2 * p + 2) →
    l[p]? = some a → l[c]? = some b → lt b a = false

/-- the full heap order. -/
def IsHeap (lt : E → E → Bool) (l : List E) : Prop := HeapEx lt l 0 l.length (fun _ => False)

theorem downFuel_heap {lt : E → E → Bool} (w : WeakOrder lt) :
    ∀ f (l : List E) i n lo, n ≤ l.length → n ≤ i + f → lo ≤ i →
      HeapEx lt l lo n (fun p => p = i) →
      (∀ p c a b, lo ≤ p → (i = 2*p+1 ∨ i = 2*p+2) → c < n → (c = 2*i+1 ∨ c = 2*i+2) →
        l[p]? = some a → l[c]? = some b → lt b a = false) →
      HeapEx lt (downFuel lt f l i n) lo n (fun _ => False) := by
  intro f
  induction f with
  | zero =>
    intro l i n lo hn hf hlo hex _ p c a b hp _ hc hch ha hb
    exact hex p c a b hp (by omega) hc hch ha hb
  | succ f ih =>
    intro l i n lo hn hf hlo hex hgp
    unfold downFuel
    dsimp only
    split
    · intro p c a b hp _ hc hch ha hb
      exact hex p c a b hp (by omega) hc hch ha hb
    · rename_i hj1
      have hjdef : ∃ j, (if 2*i+1+1 < n ∧ lessAt lt l (2*i+1+1) (2*i+1) = true then 2*i+1+1 else 2*i+1 : Nat) = j := ⟨_, rfl⟩
      obtain ⟨j, hj⟩ := hjdef
      rw [hj]
      have hi : i < l.length := by omega
      -- j is a smallest child
      have hjn : j < n ∧ (j = 2*i+1 ∨ j = 2*i+2) := by split at hj <;> omega
      have hjmin : ∀ c x y, c < n → (c = 2*i+1 ∨ c = 2*i+2) → l[j]? = some x → l[c]? = some y → lt y x = false := by
        intro c x y hc hch hx hy
        split at hj
        · rename_i hcond
          obtain ⟨h1, h2⟩ := hcond
          unfold lessAt at h2
          have e1 : 2*i+1+1 = j := hj
          rw [e1, hx] at h2
          rcases hch with rfl | hch
          · rw [hy] at h2
            exact w.asymm _ _ h2
          · have : c = j := by omega
            subst this; rw [hx] at hy; cases hy; exact w.irrefl _
        · rename_i hcond
          rcases hch with hch | hch
          · have : c = j := by omega
            subst this; rw [hx] at hy; cases hy; exact w.irrefl _
          · subst hch
            have h3 : lessAt lt l (2*i+1+1) (2*i+1) = false := by
              cases hh : lessAt lt l (2*i+1+1) (2*i+1) with
              | false => rfl
              | true => exact absurd ⟨by omega, hh⟩ hcond
            unfold lessAt at h3
            rw [show 2*i+1+1 = 2*i+2 from rfl, hy, hj, hx] at h3
            exact h3
      obtain ⟨hjn, hjc⟩ := hjn
      have hjl : j < l.length := by omega
      clear hj hj1
      split
      · rename_i hless
        intro p c a b hp _ hc hch ha hb
        by_cases hpi : p = i
        · subst hpi
          unfold lessAt at hless
          rw [List.getElem?_eq_getElem hjl, ha] at hless
          exact w.negTrans _ _ _ hless (hjmin c _ _ hc hch (List.getElem?_eq_getElem hjl) hb)
        · exact hex p c a b hp hpi hc hch ha hb
      · rename_i hless
        have hlt : lt l[j] l[i] = true := by
          unfold lessAt at hless
          rw [List.getElem?_eq_getElem hjl, List.getElem?_eq_getElem hi] at hless
          simpa using hless
        apply ih
        · rw [swap_length]; exact hn
        · omega
        · omega
        · -- heap except j
          intro p c a b hp hpj hc hch ha hb
          rw [swap_getElem? _ _ _ _ hi hjl] at ha hb
          rw [if_neg hpj] at ha
          by_cases hpi : p = i
          · subst hpi
            rw [if_pos rfl, List.getElem?_eq_getElem hjl] at ha
            cases ha
            by_cases hcj : c = j
            · rw [if_pos hcj, List.getElem?_eq_getElem hi] at hb
              cases hb
              exact w.asymm _ _ hlt
            · rw [if_neg hcj, if_neg (by omega)] at hb
              exact hjmin c _ _ hc hch (List.getElem?_eq_getElem hjl) hb
          · rw [if_neg hpi] at ha
            rw [if_neg (by omega)] at hb
            by_cases hci : c = i
            · rw [if_pos hci, List.getElem?_eq_getElem hjl] at hb
              cases hb
              exact hgp p j a _ hp (by omega) hjn hjc ha (List.getElem?_eq_getElem hjl)
            · rw [if_neg hci] at hb
              exact hex p c a b hp hpi hc hch ha hb
        · -- grandparent condition for j : the parent of j is i
          intro p c a b hp hpc hc hch ha hb
          have hpi : p = i := by omega
          subst hpi
          rw [swap_getElem? _ _ _ _ hi hjl] at ha hb
          rw [if_neg (by omega), if_pos rfl] at ha
          rw [if_neg (by omega), if_neg (by omega)] at hb
          exact hex j c a b (by omega) (by omega) hc hch ha hb

theorem down_length (lt : E → E → Bool) (l : List E) (i n : Nat) : (down lt l i n).length = l.length :=
  (down_perm lt l i n).length_eq

theorem initLoop_heap {lt : E → E → Bool} (w : WeakOrder lt) :
    ∀ k (l : List E), HeapEx lt l k l.length (fun _ => False) → IsHeap lt (initLoop lt k l) := by
  intro k
  induction k with
  | zero => intro l h; exact h
  | succ k ih =>
    intro l h
    apply ih
    rw [down_length]
    apply downFuel_heap w _ _ _ _ _ (Nat.le_refl _) (by omega) (Nat.le_refl _)
    · intro p c a b hp hne hc hch ha hb
      exact h p c a b (by omega) (by simp) hc hch ha hb
    · intro p c a b hp hpc
      omega

/-- `Init` establishes the heap order. -/
theorem init_heap {lt : E → E → Bool} (w : WeakOrder lt) (l : List E) : IsHeap lt (init lt l) := by
  apply initLoop_heap w
  intro p c a b hp _ hc hch
  omega

theorem upFuel_heap {lt : E → E → Bool} (w : WeakOrder lt) :
    ∀ f (l : List E) j, j < l.length → j ≤ f →
      (∀ p c a b, c ≠ j → c < l.length → (c = 2*p+1 ∨ c = 2*p+2) → l[p]? = some a → l[c]? = some b → lt b a = false) →
      (∀ p c a b, (j = 2*p+1 ∨ j = 2*p+2) → c < l.length → (c = 2*j+1 ∨ c = 2*j+2) → l[p]? = some a → l[c]? = some b → lt b a = false) →
      IsHeap lt (upFuel lt f l j) := by
  intro f
  induction f with
  | zero =>
    intro l j hj hf h1 _ p c a b _ _ hc hch ha hb
    exact h1 p c a b (by omega) hc hch ha hb
  | succ f ih =>
    intro l j hj hf h1 h2
    unfold upFuel
    dsimp only
    have hidef : ∃ i, (j - 1) / 2 = i := ⟨_, rfl⟩
    obtain ⟨i, hi⟩ := hidef
    rw [hi]
    have hil : i < l.length := by omega
    split
    · rename_i hstop
      intro p c a b _ _ hc hch ha hb
      by_cases hcj : c = j
      · subst hcj
        rcases hstop with hstop | hstop
        · omega
        · have : p = i := by omega
          subst this
          unfold lessAt at hstop
          rw [hb, ha] at hstop
          exact hstop
      · exact h1 p c a b hcj hc hch ha hb
    · rename_i hgo
      have hij : i ≠ j := fun h => hgo (Or.inl h)
      have hlt : lt l[j] l[i] = true := by
        cases hh : lt l[j] l[i] with
        | true => rfl
        | false =>
          exfalso; apply hgo; right
          unfold lessAt
          rw [List.getElem?_eq_getElem hj, List.getElem?_eq_getElem hil]
          exact hh
      apply ih
      · rw [swap_length]; exact hil
      · omega
      · intro p c a b hci hc hch ha hb
        rw [swap_length] at hc
        rw [swap_getElem? _ _ _ _ hil hj] at ha hb
        rw [if_neg hci] at hb
        by_cases hcj : c = j
        · have : p = i := by omega
          subst this
          rw [if_pos hcj, List.getElem?_eq_getElem hil] at hb
          rw [if_neg hij, if_pos rfl, List.getElem?_eq_getElem hj] at ha
          cases ha; cases hb
          exact w.asymm _ _ hlt
        · rw [if_neg hcj] at hb
          by_cases hpj : p = j
          · subst hpj
            rw [if_pos rfl, List.getElem?_eq_getElem hil] at ha
            cases ha
            exact h2 i c _ _ (by omega) hc hch (List.getElem?_eq_getElem hil) hb
          · rw [if_neg hpj] at ha
            by_cases hpi : p = i
            · subst hpi
              rw [if_pos rfl, List.getElem?_eq_getElem hj] at ha
              cases ha
              have h3 := h1 p c _ _ hcj hc hch (List.getElem?_eq_getElem hil) hb
              exact w.negTrans _ _ _ (w.asymm _ _ hlt) h3
            · rw [if_neg hpi] at ha
              exact h1 p c a b hcj hc hch ha hb
      · intro p c a b hpc hc hch ha hb
        rw [swap_length] at hc
        rw [swap_getElem? _ _ _ _ hil hj] at ha hb
        rw [if_neg (by omega), if_neg (by omega)] at ha
        rw [if_neg (show c ≠ i by omega)] at hb
        have hpi : lt l[i] a = false := h1 p i a _ (by omega) hil hpc ha (List.getElem?_eq_getElem hil)
        by_cases hcj : c = j
        · rw [if_pos hcj, List.getElem?_eq_getElem hil] at hb
          cases hb
          exact hpi
        · rw [if_neg hcj] at hb
          have h3 := h1 i c _ _ hcj hc hch (List.getElem?_eq_getElem hil) hb
          exact w.negTrans _ _ _ hpi h3

/-- `Push` keeps the heap order. -/
theorem push_heap {lt : E → E → Bool} (w : WeakOrder lt) (l : List E) (x : E) (h : IsHeap lt l) :
    IsHeap lt (push lt l x) := by
  apply upFuel_heap w
  · simp
  · omega
  · intro p c a b hne hc hch ha hb
    have hc' : c < l.length := by simp at hc; omega
    rw [List.getElem?_append_left (by omega)] at ha hb
    exact h p c a b (by omega) (by simp) hc' hch ha hb
  · intro p c a b hpc hc hch
    simp at hc; omega

/-- the root of a heap is a minimum. -/
theorem root_min {lt : E → E → Bool} (w : WeakOrder lt) (l : List E) (h : IsHeap lt l) (x : E)
    (hx : l[0]? = some x) : ∀ y ∈ l, lt y x = false := by
  have key : ∀ (k : Nat) (y : E), l[k]? = some y → lt y x = false := by
    intro k
    induction k using Nat.strongRecOn with
    | _ k ih =>
      intro y hy
      have hk : k < l.length := (List.getElem?_eq_some_iff.mp hy).1
      by_cases h0 : k = 0
      · subst h0; rw [hx] at hy; cases hy; exact w.irrefl _
      · have hp : (k-1)/2 < l.length := by omega
        have h1 := ih ((k-1)/2) (by omega) _ (List.getElem?_eq_getElem hp)
        have h2 := h ((k-1)/2) k _ y (by omega) (by simp) hk (by omega) (List.getElem?_eq_getElem hp) hy
        exact w.negTrans _ _ _ h1 h2
  intro y hy
  obtain ⟨k, hk⟩ := List.mem_iff_getElem?.mp hy
  exact key k y hk

/-- `Pop` returns a minimum and leaves a heap. -/
theorem pop_heap {lt : E → E → Bool} (w : WeakOrder lt) (l : List E) (h : IsHeap lt l) (x : E)
    (rest : List E) (hp : pop lt l = some (x, rest)) :
    IsHeap lt rest ∧ ∀ y ∈ l, lt y x = false := by
  have hl : l ≠ [] := by rintro rfl; cases hp
  have hpos : 0 < l.length := List.length_pos_iff.mpr hl
  obtain ⟨x', rest', h', h0, h2, hlen⟩ := pop_eq lt l hl
  rw [hp] at h'; cases h'
  refine ⟨?_, root_min w l h x h0⟩
  have hd : HeapEx lt (down lt (swap l 0 (l.length - 1)) 0 (l.length - 1)) 0 (l.length - 1) (fun _ => False) := by
    apply downFuel_heap w
    · rw [swap_length]; omega
    · omega
    · omega
    · intro p c a b _ hp0 hc hch ha hb
      rw [swap_getElem? _ _ _ _ hpos (by omega)] at ha hb
      rw [if_neg (by omega), if_neg hp0] at ha
      rw [if_neg (by omega), if_neg (by omega)] at hb
      exact h p c a b (by omega) (by simp) (by omega) hch ha hb
    · intro p c a b _ hpc; omega
  rw [h2] at hd
  intro p c a b _ _ hc hch ha hb
  apply hd p c a b (by omega) (by simp) (by omega) hch
  · rw [List.getElem?_append_left (by omega)]; exact ha
  · rw [List.getElem?_append_left (by omega)]; exact hb

end Vectory.Heap
