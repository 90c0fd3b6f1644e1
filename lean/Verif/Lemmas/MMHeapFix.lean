import Verif.Model.MMHeapFix
import Verif.Lemmas.MMHeap
import Verif.Spec.MinMax
/-! # `Fix` and `Remove` of the min-max heap: exactly when they keep the order -/
namespace Vectory.MMHeap
open Heap (lessAt swap WeakOrder swap_length swap_perm)
variable {E : Type}

/-- `fixN` for a cell on a "less" level. -/
def fixHalf (lt : E → E → Bool) (l : List E) (i n : Nat) : List E :=
  if recursedX lt l i n then downX lt n l i n
  else if 0 < i ∧ (swapIf (gt lt) (downX lt n l i n) i ((i - 1) / 2)).2 = true
    then upX (gt lt) ((i - 1) / 2) (swapIf (gt lt) (downX lt n l i n) i ((i - 1) / 2)).1 ((i - 1) / 2)
    else upX lt i (downX lt n l i n) i

theorem fixN_eq (lt : E → E → Bool) (l : List E) (i n : Nat) :
    fixN lt l i n = if isOnMinLevel i then fixHalf lt l i n else fixHalf (gt lt) l i n := by
  unfold fixN recursed down up fixHalf
  cases isOnMinLevel i <;> rfl

/-- the old array `l0` is in order; `l` differs from it in cell `i` only. -/
structure Changed (lt : E → E → Bool) (lv : Nat → Bool) (d : E) (l0 l : List E) (i : Nat) : Prop where
  hi : i < l.length
  len : l0.length = l.length
  eq : ∀ k, k ≠ i → val d l0 k = val d l k
  ord : Order lt lv (val d l0) 0 l.length (fun _ _ => False)

section
variable {lt : E → E → Bool} {lv : Nat → Bool} {d : E} {l0 l : List E} {i : Nat}

theorem Changed.rest (c : Changed lt lv d l0 l i) : Order lt lv (val d l) 0 l.length (fun u x => u = i ∨ x = i) := by
  intro u x hu hx hp hex
  have := c.ord u x hu hx hp (fun h => h)
  unfold Dom at this ⊢
  rw [← c.eq u (fun h => hex (Or.inl h)), ← c.eq x (fun h => hex (Or.inr h))]
  exact this

theorem Changed.grand (w : WeakOrder lt) (alt : Alt lv) (c : Changed lt lv d l0 l i) (hlv : lv i = true) {g : Nat}
    (hg : i = 4 * g + 3 ∨ i = 4 * g + 4 ∨ i = 4 * g + 5 ∨ i = 4 * g + 6) {x : Nat} (hx : x < l.length) (hp : Pair i x) :
    lt (val d l x) (val d l g) = false := by
  have hi := c.hi
  have lvg : lv g = true := by rw [← alt.grand hg, hlv]
  have h1 := c.ord g i (by omega) hi (by unfold Pair; omega) (fun h => h)
  have h2 := c.ord i x (by omega) hx hp (fun h => h)
  unfold Dom at h1 h2
  rw [if_pos lvg] at h1
  rw [if_pos hlv] at h2
  rw [← c.eq x (by unfold Pair at hp; omega), ← c.eq g (by omega)]
  exact w.negTrans _ _ _ h1 h2

theorem Changed.parent (w : WeakOrder lt) (alt : Alt lv) (c : Changed lt lv d l0 l i) (hlv : lv i = true) {p : Nat}
    (hpi : i = 2 * p + 1 ∨ i = 2 * p + 2) {x : Nat} (hx : x < l.length) (hp : Pair i x) :
    lt (val d l p) (val d l x) = false := by
  have hi := c.hi
  have lvp : lv p = false := by have := alt.child hpi; rw [hlv] at this; simpa using this
  have child : ∀ y, y < l.length → (y = 2 * i + 1 ∨ y = 2 * i + 2) → lt (val d l p) (val d l y) = false := by
    intro y hy hc
    have h1 := c.ord p y (by omega) hy (by unfold Pair; omega) (fun h => h)
    unfold Dom at h1
    rw [if_neg (by simp [lvp])] at h1
    rw [← c.eq y (by omega), ← c.eq p (by omega)]
    exact h1
  by_cases hc : x = 2 * i + 1 ∨ x = 2 * i + 2
  · exact child x hx hc
  · have hye : ∃ y, (x - 1) / 2 = y := ⟨_, rfl⟩
    obtain ⟨y, hye⟩ := hye
    have hyc : y = 2 * i + 1 ∨ y = 2 * i + 2 := by unfold Pair at hp; omega
    have hxy : x = 2 * y + 1 ∨ x = 2 * y + 2 := by unfold Pair at hp; omega
    have lvy : lv y = false := by rw [alt.child hyc, hlv]; rfl
    have h1 := child y (by omega) hyc
    have h2 := c.ord y x (by omega) hx (by unfold Pair; omega) (fun h => h)
    unfold Dom at h2
    rw [if_neg (by simp [lvy]), c.eq y (by omega), c.eq x (by omega)] at h2
    exact w.negTrans _ _ _ h2 h1

/-- the parent and the grandparent of a cell. -/
theorem above_cases (hp : Pair k i) : (i = 2 * k + 1 ∨ i = 2 * k + 2) ∨ (i = 4 * k + 3 ∨ i = 4 * k + 4 ∨ i = 4 * k + 5 ∨ i = 4 * k + 6) := by
  unfold Pair at hp; omega

theorem downX_leaf (lt : E → E → Bool) (l : List E) (i n f : Nat) (h : minDescendent lt l i n = none) : downX lt f l i n = l := by
  cases f with
  | zero => rfl
  | succ f => unfold downX; rw [h]

/-- nothing below is smaller: `downX` does nothing and reports that. -/
theorem downX_still (w : WeakOrder lt) (d : E) (l : List E) (i n f : Nat) (hn : n ≤ l.length) (hin : i < n)
    (h : ∀ c, c < n → Pair i c → lt (val d l c) (val d l i) = false) : downX lt f l i n = l ∧ recursedX lt l i n = false := by
  unfold recursedX
  cases hm : minDescendent lt l i n with
  | none => exact ⟨downX_leaf lt l i n f hm, rfl⟩
  | some m =>
    obtain ⟨hmn, hp, _⟩ := minDescendent_some w d l i n m hn hm
    have hs : swapIf lt l m i = (l, false) := swapIf_false (by rw [lessAt_val lt d l m i (by omega) (by omega)]; exact h m hmn hp)
    dsimp only
    rw [hs]
    constructor
    · cases f with
      | zero => rfl
      | succ f =>
        unfold downX
        rw [hm]
        dsimp only
        rw [hs]
        split
        · rfl
        · simp
    · split <;> rfl

/-- in an ordered array `up` does nothing. -/
theorem up_still (w : WeakOrder lt) (alt : Alt lv) (d : E) (l : List E) (i : Nat) (hi : i < l.length) (hlv : lv i = true)
    (hpar : ∀ p, (i = 2 * p + 1 ∨ i = 2 * p + 2) → lt (val d l p) (val d l i) = false)
    (hgr : ∀ g, (i = 4 * g + 3 ∨ i = 4 * g + 4 ∨ i = 4 * g + 5 ∨ i = 4 * g + 6) → lt (val d l i) (val d l g) = false) :
    (if 0 < i ∧ (swapIf (gt lt) l i ((i - 1) / 2)).2 = true
      then upX (gt lt) ((i - 1) / 2) (swapIf (gt lt) l i ((i - 1) / 2)).1 ((i - 1) / 2) else upX lt i l i) = l := by
  have hup : upX lt i l i = l := by
    cases i with
    | zero => rfl
    | succ k =>
      unfold upX
      dsimp only
      split
      · have hs : swapIf lt l (k + 1) (((k + 1 - 1) / 2 - 1) / 2) = (l, false) :=
          swapIf_false (by rw [lessAt_val lt d l _ _ (by omega) (by omega)]; exact hgr _ (by omega))
        rw [hs]; rfl
      · rfl
  by_cases h0 : 0 < i
  · have hs : swapIf (gt lt) l i ((i - 1) / 2) = (l, false) :=
      swapIf_false (by rw [lessAt_val _ d l _ _ (by omega) (by omega)]; exact hpar _ (by omega))
    rw [hs, if_neg (by simp)]; exact hup
  · rw [if_neg (by omega)]; exact hup

/-- the good case. -/
theorem fixHalf_good (w : WeakOrder lt) (alt : Alt lv) (c : Changed lt lv d l0 l i) (hlv : lv i = true)
    (good : l.length ≤ 2 * i + 1 ∨ ∀ p, (i = 2 * p + 1 ∨ i = 2 * p + 2) → lt (val d l p) (val d l i) = false) :
    Order lt lv (val d (fixHalf lt l i l.length)) 0 l.length (fun _ _ => False) := by
  have hi := c.hi
  have A := c.rest
  by_cases hleaf : l.length ≤ 2 * i + 1
  · obtain ⟨hd, hr⟩ := downX_still w d l i l.length l.length (Nat.le_refl _) hi
      (fun x hx hp => by unfold Pair at hp; omega)
    unfold fixHalf
    rw [hd, hr]
    simp only [Bool.false_eq_true, if_false]
    refine up_half w alt d l i hi hleaf hlv (fun u x hu hx hp hex => A u x hu hx hp ?_)
    rintro (h | h)
    · unfold Pair at hp; omega
    · exact hex h
  · have hpar : ∀ p, (i = 2 * p + 1 ∨ i = 2 * p + 2) → lt (val d l p) (val d l i) = false := by
      rcases good with h | h
      · exact absurd h hleaf
      · exact h
    by_cases hup : ∃ g, (i = 4 * g + 3 ∨ i = 4 * g + 4 ∨ i = 4 * g + 5 ∨ i = 4 * g + 6) ∧ lt (val d l i) (val d l g) = true
    · obtain ⟨g, hg, hlt⟩ := hup
      have below : ∀ x, x < l.length → Pair i x → lt (val d l x) (val d l i) = false := fun x hx hp => by
        have h1 := c.grand w alt hlv hg hx hp
        exact w.negTrans _ _ _ (w.asymm _ _ hlt) h1
      obtain ⟨hd, hr⟩ := downX_still w d l i l.length l.length (Nat.le_refl _) hi below
      unfold fixHalf
      rw [hd, hr]
      simp only [Bool.false_eq_true, if_false]
      have hs : swapIf (gt lt) l i ((i - 1) / 2) = (l, false) :=
        swapIf_false (by rw [lessAt_val _ d l _ _ hi (by omega)]; exact hpar _ (by omega))
      rw [hs, if_neg (by simp)]
      refine upX_order w alt d i l i hi (Nat.le_refl _) hlv ?_ (fun g' hg' x hx hp => c.grand w alt hlv hg' hx hp)
      intro u x hu hx hp hex
      by_cases hui : u = i
      · subst hui
        unfold Dom; rw [if_pos hlv]; exact below x hx hp
      · by_cases hxi : x = i
        · subst hxi
          have lvu : lv u = false := by
            cases hh : lv u with
            | false => rfl
            | true => exact absurd ⟨rfl, hh⟩ hex
          unfold Dom; rw [if_neg (by simp [lvu])]
          rcases above_cases hp with h | h
          · exact hpar u h
          · have := alt.grand h; rw [hlv, lvu] at this; cases this
        · exact A u x hu hx hp (fun h => h.elim hui hxi)
    · have hgr : ∀ g, (i = 4 * g + 3 ∨ i = 4 * g + 4 ∨ i = 4 * g + 5 ∨ i = 4 * g + 6) → lt (val d l i) (val d l g) = false := by
        intro g hg
        cases h : lt (val d l i) (val d l g) with
        | false => rfl
        | true => exact absurd ⟨g, hg, h⟩ hup
      have o : Order lt lv (val d (downX lt l.length l i l.length)) 0 l.length (fun _ _ => False) := by
        refine downX_order w alt d l.length l i l.length 0 (Nat.le_refl _) (by omega) (Nat.zero_le _) hlv ?_
          (fun g x _ hg hx hp => c.grand w alt hlv hg hx hp)
        intro u x hu hx hp hex
        by_cases hxi : x = i
        · subst hxi
          unfold Dom
          rcases above_cases hp with h | h
          · have lvu : lv u = false := by have := alt.child h; rw [hlv] at this; simpa using this
            rw [if_neg (by simp [lvu])]; exact hpar u h
          · rw [if_pos (by rw [← alt.grand h, hlv])]; exact hgr u h
        · exact A u x hu hx hp (fun h => h.elim hex hxi)
      unfold fixHalf
      split
      · exact o
      · have hl' : (downX lt l.length l i l.length).length = l.length := (downX_perm lt _ _ _ _).length_eq
        rw [up_still w alt d _ i (by omega) hlv]
        · exact o
        · intro p hp
          have lvp : lv p = false := by have := alt.child hp; rw [hlv] at this; simpa using this
          have := o p i (Nat.zero_le _) hi (by unfold Pair; omega) (fun h => h)
          unfold Dom at this; rwa [if_neg (by simp [lvp])] at this
        · intro g hg
          have lvg : lv g = true := by rw [← alt.grand hg, hlv]
          have := o g i (Nat.zero_le _) hi (by unfold Pair; omega) (fun h => h)
          unfold Dom at this; rwa [if_pos lvg] at this

/-- the bad case: the element moved below `i`, but it belongs above `i`'s parent. -/
theorem fixHalf_bad (w : WeakOrder lt) (alt : Alt lv) (c : Changed lt lv d l0 l i) (hlv : lv i = true) {p : Nat}
    (hpi : i = 2 * p + 1 ∨ i = 2 * p + 2) (hch : 2 * i + 1 < l.length) (hlt : lt (val d l p) (val d l i) = true) :
    ∃ x, x < l.length ∧ Pair p x ∧ lt (val d (fixHalf lt l i l.length) p) (val d (fixHalf lt l i l.length) x) = true := by
  have hi := c.hi
  have big : ∀ x, x < l.length → Pair i x → lt (val d l x) (val d l i) = true := by
    intro x hx hp
    cases h : lt (val d l x) (val d l i) with
    | true => rfl
    | false =>
      exact absurd hlt (by rw [w.negTrans _ _ _ h (c.parent w alt hlv hpi hx hp)]; simp)
  cases hm : minDescendent lt l i l.length with
  | none => have := minDescendent_none lt l i l.length hm; omega
  | some m =>
    obtain ⟨hmn, hpm, _⟩ := minDescendent_some w d l i l.length m (Nat.le_refl _) hm
    have hs : swapIf lt l m i = (swap l m i, true) := swapIf_true (by rw [lessAt_val lt d l m i hmn hi]; exact big m hmn hpm)
    have vs : ∀ k, val d (swap l m i) k = if k = i then val d l m else if k = m then val d l i else val d l k :=
      fun k => val_swap d l m i k hmn hi
    have hsl : (swap l m i).length = l.length := swap_length _ _ _
    by_cases hdir : i = (m - 1) / 2
    · -- a direct child
      have hr : recursedX lt l i l.length = false := by unfold recursedX; rw [hm]; dsimp only; rw [if_pos hdir]
      have hd : downX lt l.length l i l.length = swap l m i := by
        cases hn : l.length with
        | zero => omega
        | succ f =>
          unfold downX
          rw [hn] at hm
          rw [hm]
          dsimp only
          rw [if_pos hdir, hs]
      have hmc : m = 2 * i + 1 ∨ m = 2 * i + 2 := by unfold Pair at hpm; omega
      have hres : fixHalf lt l i l.length = swap l m i := by
        unfold fixHalf
        rw [hr, hd]
        simp only [Bool.false_eq_true, if_false]
        refine up_still w alt d _ i (by omega) hlv ?_ ?_
        · intro q hq
          have : q = p := by omega
          subst this
          rw [vs, vs, if_neg (by omega), if_neg (by omega), if_pos rfl]
          exact c.parent w alt hlv hpi hmn hpm
        · intro g hg
          rw [vs, vs, if_pos rfl, if_neg (by omega), if_neg (by omega)]
          exact c.grand w alt hlv hg hmn hpm
      refine ⟨m, hmn, by unfold Pair; omega, ?_⟩
      rw [hres, vs, vs, if_neg (by omega), if_neg (by omega), if_neg (by omega), if_pos rfl]
      exact hlt
    · -- a grandchild
      have hr : recursedX lt l i l.length = true := by unfold recursedX; rw [hm]; dsimp only; rw [if_neg hdir, hs]
      have hye : ∃ y, (m - 1) / 2 = y := ⟨_, rfl⟩
      obtain ⟨y, hye⟩ := hye
      have hyc : y = 2 * i + 1 ∨ y = 2 * i + 2 := by unfold Pair at hpm; omega
      have hyl : y < l.length := by omega
      have hym : y < m := by unfold Pair at hpm; omega
      have hs2 : swapIf lt (swap l m i) y m = (swap (swap l m i) y m, true) := by
        refine swapIf_true ?_
        rw [lessAt_val lt d _ y m (by omega) (by omega), vs, vs, if_neg (by omega), if_neg (by omega), if_neg (by omega), if_pos rfl]
        exact big y hyl (by unfold Pair; omega)
      have hd : ∃ f, downX lt l.length l i l.length = downX lt f (swap (swap l m i) y m) m l.length := by
        cases hn : l.length with
        | zero => omega
        | succ f =>
          refine ⟨f, ?_⟩
          rw [hn] at hm
          conv => lhs; unfold downX
          rw [hm]
          dsimp only
          rw [if_neg hdir, hs]
          dsimp only
          rw [if_pos rfl, hye, hs2]
      obtain ⟨f, hd⟩ := hd
      have hres : fixHalf lt l i l.length = downX lt f (swap (swap l m i) y m) m l.length := by
        unfold fixHalf
        rw [hr, if_pos rfl, hd]
      have hl2 : (swap (swap l m i) y m).length = l.length := by rw [swap_length, hsl]
      have v2 : ∀ k, val d (swap (swap l m i) y m) k = if k = m then val d (swap l m i) y else if k = y then val d (swap l m i) m
          else val d (swap l m i) k := fun k => val_swap d _ y m k (by omega) (by omega)
      refine ⟨y, hyl, by unfold Pair; omega, ?_⟩
      rw [hres, downX_frame w d f _ m l.length p (by omega) (Or.inr (by omega)),
        downX_frame w d f _ m l.length y (by omega) (Or.inr (by omega)), v2, v2, if_neg (by omega), if_neg (by omega), if_neg (by omega),
        if_pos rfl, vs, vs, if_neg (by omega), if_neg (by omega), if_neg (by omega), if_pos rfl]
      exact hlt

end

/-! ## The specification's order -/

open Spec (Below depth MinMax beyond)

theorem depth_child {u v : Nat} (h : v = 2 * u + 1 ∨ v = 2 * u + 2) : depth v = depth u + 1 := by
  cases v with
  | zero => omega
  | succ k =>
    rw [depth]
    have : k / 2 = u := by omega
    rw [this]

theorem isOnMinLevel_depth (i : Nat) : isOnMinLevel i = decide (depth i % 2 = 0) := by
  induction i using Nat.strongRecOn with
  | _ i ih =>
    cases i with
    | zero => rw [depth]; decide
    | succ k =>
      have hc : k + 1 = 2 * (k / 2) + 1 ∨ k + 1 = 2 * (k / 2) + 2 := by omega
      rw [alt_min.child hc, ih (k / 2) (by omega), depth_child hc]
      rcases Nat.mod_two_eq_zero_or_one (depth (k / 2)) with h | h
      · have : (depth (k / 2) + 1) % 2 = 1 := by omega
        simp [h, this]
      · have : (depth (k / 2) + 1) % 2 = 0 := by omega
        simp [h, this]

theorem below_lt {u w : Nat} (h : Below u w) : u < w := by
  induction h with
  | left u => omega
  | right u => omega
  | trans _ _ h1 h2 => omega

/-- the parent of a cell below `u` is `u` or below `u`. -/
theorem below_parent {u w : Nat} (h : Below u w) : ∃ v, (w = 2 * v + 1 ∨ w = 2 * v + 2) ∧ (u = v ∨ Below u v) := by
  induction h with
  | left u => exact ⟨u, Or.inl rfl, Or.inl rfl⟩
  | right u => exact ⟨u, Or.inr rfl, Or.inl rfl⟩
  | @trans u v w h1 _ _ ih2 =>
    obtain ⟨x, hx, hv⟩ := ih2
    refine ⟨x, hx, Or.inr ?_⟩
    rcases hv with rfl | hv
    · exact h1
    · exact h1.trans hv

theorem pair_below {u w : Nat} (h : Pair u w) : Below u w := by
  have l := Below.left u
  have r := Below.right u
  have e1 : 4 * u + 3 = 2 * (2 * u + 1) + 1 := by omega
  have e2 : 4 * u + 4 = 2 * (2 * u + 1) + 2 := by omega
  have e3 : 4 * u + 5 = 2 * (2 * u + 2) + 1 := by omega
  have e4 : 4 * u + 6 = 2 * (2 * u + 2) + 2 := by omega
  rcases h with rfl | rfl | rfl | rfl | rfl | rfl
  · exact l
  · exact r
  · rw [e1]; exact l.trans (.left _)
  · rw [e2]; exact l.trans (.right _)
  · rw [e3]; exact r.trans (.left _)
  · rw [e4]; exact r.trans (.right _)

theorem order_below {lt : E → E → Bool} (w : WeakOrder lt) {lv : Nat → Bool} (alt : Alt lv) {f : Nat → E} {n : Nat}
    (o : Order lt lv f 0 n (fun _ _ => False)) {u : Nat} : ∀ x, x < n → Below u x → Dom lt lv f u x := by
  intro x
  induction x using Nat.strongRecOn with
  | _ x ih =>
    intro hx hb
    obtain ⟨v, hv, h⟩ := below_parent hb
    rcases h with rfl | h
    · exact o u x (Nat.zero_le _) hx (by unfold Pair; omega) (fun h => h)
    · by_cases hl : lv v = lv u
      · have h1 := ih v (by omega) (by omega) h
        have h2 := o v x (Nat.zero_le _) hx (by unfold Pair; omega) (fun h => h)
        unfold Dom at h1 h2 ⊢
        rw [hl] at h2
        split
        · rename_i hu
          rw [if_pos hu] at h1 h2
          exact w.negTrans _ _ _ h1 h2
        · rename_i hu
          rw [if_neg hu] at h1 h2
          exact w.negTrans _ _ _ h2 h1
      · obtain ⟨g, hg, h'⟩ := below_parent h
        have hpx : Pair g x := by unfold Pair; omega
        rcases h' with rfl | h'
        · exact o u x (Nat.zero_le _) hx hpx (fun h => h)
        · have lvg : lv g = lv u := by
            have := alt.child hg
            revert this hl
            cases lv v <;> cases lv g <;> cases lv u <;> simp
          have h1 := ih g (by omega) (by omega) h'
          have h2 := o g x (Nat.zero_le _) hx hpx (fun h => h)
          unfold Dom at h1 h2 ⊢
          rw [lvg] at h2
          split
          · rename_i hu
            rw [if_pos hu] at h1 h2
            exact w.negTrans _ _ _ h1 h2
          · rename_i hu
            rw [if_neg hu] at h1 h2
            exact w.negTrans _ _ _ h2 h1

theorem isMM_iff {lt : E → E → Bool} (w : WeakOrder lt) (d : E) (l : List E) : IsMM lt d l ↔ MinMax lt l := by
  constructor
  · intro o u x a b hb ha hx
    have hxl : x < l.length := (List.getElem?_eq_some_iff.mp hx).1
    have := order_below w alt_min o x hxl hb
    have va : val d l u = a := by unfold val; rw [ha]; rfl
    have vb : val d l x = b := by unfold val; rw [hx]; rfl
    unfold Dom at this
    rw [va, vb, isOnMinLevel_depth] at this
    simpa using this
  · intro m u x _ hx hp _
    have hul : u < l.length := by unfold Pair at hp; omega
    have := m u x (val d l u) (val d l x) (pair_below hp) (val_zero d l u hul) (val_zero d l x hx)
    unfold Dom
    rw [isOnMinLevel_depth]
    simpa using this

/-! ## `Fix` -/

theorem val_set (d : E) (l : List E) (i k : Nat) (x : E) (hi : i < l.length) : val d (l.set i x) k = if k = i then x else val d l k := by
  unfold val
  rw [List.getElem?_set]
  by_cases h : i = k
  · subst h; rw [if_pos rfl, if_pos hi, if_pos rfl]; rfl
  · rw [if_neg h, if_neg (Ne.symm h)]

theorem fixN_perm (lt : E → E → Bool) (l : List E) (i n : Nat) : (fixN lt l i n).Perm l := by
  unfold fixN
  dsimp only
  split
  · exact down_perm lt l i n
  · exact (up_perm lt _ i).trans (down_perm lt l i n)

/-- `Fix` restores the order unless the cell has a child and the new value belongs above the parent. -/
theorem fix_exact {lt : E → E → Bool} (w : WeakOrder lt) (d : E) (l : List E) (i : Nat) (x : E) (hi : i < l.length) (h : IsMM lt d l) :
    IsMM lt d (fix lt (l.set i x) i) ↔
      ¬ (0 < i ∧ 2 * i + 1 < l.length ∧ (if isOnMinLevel i then lt (val d l ((i - 1) / 2)) x else lt x (val d l ((i - 1) / 2))) = true) := by
  have hls : (l.set i x).length = l.length := List.length_set
  have vx : val d (l.set i x) i = x := by rw [val_set d l i i x hi, if_pos rfl]
  have vp : 0 < i → val d (l.set i x) ((i - 1) / 2) = val d l ((i - 1) / 2) := by
    intro h0; rw [val_set d l i _ x hi, if_neg (by omega)]
  have hlen : (fix lt (l.set i x) i).length = l.length := by
    unfold fix; rw [(fixN_perm lt _ _ _).length_eq, hls]
  have core : ∀ (lt' : E → E → Bool) (lv : Nat → Bool), WeakOrder lt' → Alt lv → lv i = true →
      Order lt' lv (val d l) 0 l.length (fun _ _ => False) →
      (Order lt' lv (val d (fixHalf lt' (l.set i x) i (l.set i x).length)) 0 l.length (fun _ _ => False) ↔
        ¬ (0 < i ∧ 2 * i + 1 < l.length ∧ lt' (val d l ((i - 1) / 2)) x = true)) := by
    intro lt' lv w' alt hlv o
    have c : Changed lt' lv d l (l.set i x) i :=
      ⟨by rw [hls]; exact hi, hls.symm, fun k hk => by rw [val_set d l i k x hi, if_neg hk], by rw [hls]; exact o⟩
    constructor
    · rintro ho ⟨h0, h1, h2⟩
      obtain ⟨y, hy, hpy, hlt⟩ := fixHalf_bad w' alt c hlv (p := (i - 1) / 2) (by omega) (by rw [hls]; exact h1) (by rw [vx, vp h0]; exact h2)
      have := ho ((i - 1) / 2) y (Nat.zero_le _) (by rw [hls] at hy; exact hy) hpy (fun h => h)
      have lvp : lv ((i - 1) / 2) = false := by
        have := alt.child (u := (i - 1) / 2) (w := i) (by omega)
        rw [hlv] at this; simpa using this
      unfold Dom at this
      rw [if_neg (by simp [lvp]), hlt] at this
      cases this
    · intro hn
      have := fixHalf_good w' alt c hlv (by
        by_cases h1 : 2 * i + 1 < l.length
        · right
          intro p hp
          have : p = (i - 1) / 2 := by omega
          subst this
          rw [vx, vp (by omega)]
          cases hh : lt' (val d l ((i - 1) / 2)) x with
          | false => rfl
          | true => exact absurd ⟨by omega, h1, hh⟩ hn
        · left; rw [hls]; omega)
      rw [hls] at this ⊢
      exact this
  unfold IsMM
  rw [hlen]
  unfold fix
  rw [fixN_eq]
  cases hlv : isOnMinLevel i with
  | true =>
    simp only [if_true]
    exact core lt isOnMinLevel w alt_min hlv h
  | false =>
    simp only [Bool.false_eq_true, if_false]
    rw [← order_gt]
    exact core (gt lt) (fun k => !isOnMinLevel k) (gt_order w) (alt_not alt_min) (by rw [hlv]; rfl) ((order_gt _ _ _ _ _ _).mpr h)

/-! ## `Remove` -/

theorem lessAt_append (lt : E → E → Bool) (l r : List E) (i j : Nat) (hi : i < l.length) (hj : j < l.length) :
    lessAt lt (l ++ r) i j = lessAt lt l i j := by
  unfold lessAt
  rw [List.getElem?_append_left hi, List.getElem?_append_left hj]

theorem swap_append (l r : List E) (i j : Nat) (hi : i < l.length) (hj : j < l.length) : swap (l ++ r) i j = swap l i j ++ r := by
  unfold swap
  rw [List.getElem?_append_left hi, List.getElem?_append_left hj, List.getElem?_eq_getElem hi, List.getElem?_eq_getElem hj]
  dsimp only
  rw [List.set_append_left _ _ hi, List.set_append_left _ _ (by rw [List.length_set]; exact hj)]

theorem swapIf_append (lt : E → E → Bool) (l r : List E) (i j : Nat) (hi : i < l.length) (hj : j < l.length) :
    swapIf lt (l ++ r) i j = ((swapIf lt l i j).1 ++ r, (swapIf lt l i j).2) := by
  unfold swapIf
  rw [lessAt_append lt l r i j hi hj, swap_append l r i j hi hj]
  split <;> rfl

theorem least_append (lt : E → E → Bool) (l r : List E) (i j n : Nat) (hi : i < n) (hn : n ≤ l.length) :
    least lt (l ++ r) i j n = least lt l i j n := by
  unfold least
  split
  · rfl
  · rw [lessAt_append lt l r i j (by omega) (by omega)]

theorem least_lt (lt : E → E → Bool) (l : List E) (i j n : Nat) (hi : i < n) : (least lt l i j n).1 < n := by
  unfold least
  split
  · exact hi
  · split
    · exact hi
    · show j < n; omega

theorem minDescendent_append (lt : E → E → Bool) (l r : List E) (i n : Nat) (hn : n ≤ l.length) :
    minDescendent lt (l ++ r) i n = minDescendent lt l i n := by
  unfold minDescendent
  dsimp only
  split
  · rfl
  · have h1 : i * 2 + 1 < n := by omega
    rw [least_append lt l r _ _ n h1 hn]
    have h2 := least_lt lt l (i * 2 + 1) (i * 2 + 1 + 1) n h1
    rw [least_append lt l r _ _ n h2 hn]
    have h3 := least_lt lt l _ ((i * 2 + 1) * 2 + 1) n h2
    rw [least_append lt l r _ _ n h3 hn]
    have h4 := least_lt lt l _ ((i * 2 + 1) * 2 + 2) n h3
    rw [least_append lt l r _ _ n h4 hn]
    have h5 := least_lt lt l _ ((i * 2 + 1 + 1) * 2 + 1) n h4
    rw [least_append lt l r _ _ n h5 hn]

theorem downX_append {lt : E → E → Bool} (w : WeakOrder lt) (r : List E) : ∀ f (l : List E) i n, n ≤ l.length → i < n →
    downX lt f (l ++ r) i n = downX lt f l i n ++ r := by
  intro f
  induction f with
  | zero => intro l i n _ _; rfl
  | succ f ih =>
    intro l i n hn hin
    unfold downX
    rw [minDescendent_append lt l r i n hn]
    cases hm : minDescendent lt l i n with
    | none => rfl
    | some m =>
      have hne : 0 < l.length := by omega
      obtain ⟨hmn, hp, _⟩ := minDescendent_some w (l[0]) l i n m hn hm
      dsimp only
      rw [swapIf_append lt l r m i (by omega) (by omega)]
      split
      · rfl
      · dsimp only
        split
        · have hl2 : (swapIf lt l m i).1.length = l.length := swapIf_length _ _ _ _
          rw [swapIf_append lt _ r _ m (by rw [hl2]; omega) (by omega)]
          dsimp only
          exact ih _ _ _ (by rw [swapIf_length, swapIf_length]; exact hn) hmn
        · rfl

theorem recursedX_append {lt : E → E → Bool} (w : WeakOrder lt) (l r : List E) (i n : Nat) (hn : n ≤ l.length) (hin : i < n) :
    recursedX lt (l ++ r) i n = recursedX lt l i n := by
  unfold recursedX
  rw [minDescendent_append lt l r i n hn]
  cases hm : minDescendent lt l i n with
  | none => rfl
  | some m =>
    have hne : 0 < l.length := by omega
    obtain ⟨hmn, _, _⟩ := minDescendent_some w (l[0]) l i n m hn hm
    dsimp only
    rw [swapIf_append lt l r m i (by omega) (by omega)]

theorem upX_append (lt : E → E → Bool) (r : List E) : ∀ f (l : List E) i, i < l.length → upX lt f (l ++ r) i = upX lt f l i ++ r := by
  intro f
  induction f with
  | zero => intro l i _; rfl
  | succ f ih =>
    intro l i hi
    unfold upX
    dsimp only
    split
    · rw [swapIf_append lt l r _ _ hi (by omega)]
      dsimp only
      split
      · exact ih _ _ (by rw [swapIf_length]; omega)
      · rfl
    · rfl

theorem fixHalf_append {lt : E → E → Bool} (w : WeakOrder lt) (l r : List E) (i : Nat) (hi : i < l.length) :
    fixHalf lt (l ++ r) i l.length = fixHalf lt l i l.length ++ r := by
  have hl : (downX lt l.length l i l.length).length = l.length := (downX_perm lt _ _ _ _).length_eq
  unfold fixHalf
  rw [recursedX_append w l r i l.length (Nat.le_refl _) hi, downX_append w r l.length l i l.length (Nat.le_refl _) hi]
  split
  · rfl
  · rw [swapIf_append (gt lt) _ r i _ (by omega) (by omega)]
    dsimp only
    split
    · exact upX_append _ _ _ _ _ (by rw [swapIf_length]; omega)
    · exact upX_append _ _ _ _ _ (by omega)

theorem fixN_append {lt : E → E → Bool} (w : WeakOrder lt) (l r : List E) (i : Nat) (hi : i < l.length) :
    fixN lt (l ++ r) i l.length = fixN lt l i l.length ++ r := by
  rw [fixN_eq, fixN_eq]
  split
  · exact fixHalf_append w l r i hi
  · exact fixHalf_append (gt_order w) l r i hi

/-- `Remove` of a cell that is not the last: the last element takes its place and `Fix` follows. -/
theorem remove_eq {lt : E → E → Bool} (w : WeakOrder lt) (l : List E) (x : E) (i : Nat) (hi : i < l.length) :
    remove lt (l ++ [x]) i = some (l[i], fix lt (l.set i x) i) := by
  have hs : swap (l ++ [x]) i l.length = l.set i x ++ [l[i]] := by
    unfold swap
    rw [List.getElem?_append_left hi, List.getElem?_eq_getElem hi, List.getElem?_append_right (Nat.le_refl _)]
    simp only [Nat.sub_self, List.getElem?_cons_zero]
    rw [List.set_append_left _ _ hi, List.set_append_right _ _ (by rw [List.length_set]; exact Nat.le_refl _)]
    simp
  have hls : (l.set i x).length = l.length := List.length_set
  unfold remove
  have e : (l ++ [x]).length - 1 = l.length := by simp
  rw [if_neg (by simp; omega)]
  dsimp only
  rw [e, if_neg (by omega), hs, ← hls, fixN_append w (l.set i x) [l[i]] i (by omega)]
  have hf : (fixN lt (l.set i x) i (l.set i x).length).length = (l.set i x).length := (fixN_perm lt _ _ _).length_eq
  rw [List.getElem?_append_right (by rw [hf]; exact Nat.le_refl _), hf]
  simp only [Nat.sub_self, List.getElem?_cons_zero]
  rw [List.take_left' hf]
  rfl

end Vectory.MMHeap
