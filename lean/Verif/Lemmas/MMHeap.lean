import Verif.Lemmas.Heap
import Verif.Model.MMHeap
namespace Vectory.MMHeap
open Heap
variable {E : Type}

/-! ## nothing is lost -/

theorem swapIf_perm (lt : E → E → Bool) (l : List E) (i j : Nat) : (swapIf lt l i j).1.Perm l := by
  unfold swapIf; split
  · exact swap_perm _ _ _
  · exact List.Perm.refl _

theorem downX_perm (lt : E → E → Bool) : ∀ f (l : List E) i n, (downX lt f l i n).Perm l := by
  intro f
  induction f with
  | zero => intro l i n; exact List.Perm.refl _
  | succ f ih =>
    intro l i n
    unfold downX
    split
    · exact List.Perm.refl _
    · dsimp only
      split
      · exact swapIf_perm _ _ _ _
      · split
        · exact (ih _ _ _).trans ((swapIf_perm _ _ _ _).trans (swapIf_perm _ _ _ _))
        · exact List.Perm.refl _

theorem down_perm (lt : E → E → Bool) (l : List E) (i n : Nat) : (down lt l i n).Perm l := by
  unfold down; split <;> exact downX_perm _ _ _ _ _

theorem upX_perm (lt : E → E → Bool) : ∀ f (l : List E) i, (upX lt f l i).Perm l := by
  intro f
  induction f with
  | zero => intro l i; exact List.Perm.refl _
  | succ f ih =>
    intro l i
    unfold upX
    dsimp only
    split
    · split
      · exact (ih _ _).trans (swapIf_perm _ _ _ _)
      · exact List.Perm.refl _
    · exact List.Perm.refl _

theorem up_perm (lt : E → E → Bool) (l : List E) (i : Nat) : (up lt l i).Perm l := by
  unfold up
  dsimp only
  split <;> split
  · exact (upX_perm _ _ _ _).trans (swapIf_perm _ _ _ _)
  · exact upX_perm _ _ _ _
  · exact (upX_perm _ _ _ _).trans (swapIf_perm _ _ _ _)
  · exact upX_perm _ _ _ _

theorem initLoop_perm (lt : E → E → Bool) : ∀ k (l : List E), (initLoop lt k l).Perm l := by
  intro k
  induction k with
  | zero => intro l; exact List.Perm.refl _
  | succ k ih => intro l; exact (ih _).trans (down_perm _ _ _ _)

theorem init_perm (lt : E → E → Bool) (l : List E) : (init lt l).Perm l := initLoop_perm lt _ _

theorem push_perm (lt : E → E → Bool) (l : List E) (x : E) : (push lt l x).Perm (x :: l) :=
  (up_perm lt _ _).trans (List.perm_append_singleton x l)

/-! ## arrays as functions -/

/-- the array cell `k`, or `d` outside. -/
def val (d : E) (l : List E) (k : Nat) : E := (l[k]?).getD d

theorem lessAt_val (lt : E → E → Bool) (d : E) (l : List E) (i j : Nat) (hi : i < l.length) (hj : j < l.length) :
    lessAt lt l i j = lt (val d l i) (val d l j) := by
  unfold lessAt val
  rw [List.getElem?_eq_getElem hi, List.getElem?_eq_getElem hj]
  rfl

theorem val_swap (d : E) (l : List E) (i j k : Nat) (hi : i < l.length) (hj : j < l.length) :
    val d (swap l i j) k = if k = j then val d l i else if k = i then val d l j else val d l k := by
  unfold val
  rw [swap_getElem? _ _ _ _ hi hj]
  split
  · rfl
  · split <;> rfl

/-- `w` is a child or a grandchild of `u`. -/
def Pair (u w : Nat) : Prop :=
  w = 2 * u + 1 ∨ w = 2 * u + 2 ∨ w = 4 * u + 3 ∨ w = 4 * u + 4 ∨ w = 4 * u + 5 ∨ w = 4 * u + 6

/-- `u` is in the right order with respect to its descendant `w`: not above it on a level where `lv` holds, not below it on the
others. -/
def Dom (lt : E → E → Bool) (lv : Nat → Bool) (f : Nat → E) (u w : Nat) : Prop :=
  if lv u then lt (f w) (f u) = false else lt (f u) (f w) = false

/-- levels alternate. -/
def Alt (lv : Nat → Bool) : Prop := ∀ u, lv (2 * u + 1) = !lv u ∧ lv (2 * u + 2) = !lv u

theorem Alt.four {lv : Nat → Bool} (h : Alt lv) (u : Nat) :
    lv (4 * u + 3) = lv u ∧ lv (4 * u + 4) = lv u ∧ lv (4 * u + 5) = lv u ∧ lv (4 * u + 6) = lv u := by
  have a := h u
  have b := h (2 * u + 1)
  have c := h (2 * u + 2)
  have e1 : 2 * (2 * u + 1) + 1 = 4 * u + 3 := by omega
  have e2 : 2 * (2 * u + 1) + 2 = 4 * u + 4 := by omega
  have e3 : 2 * (2 * u + 2) + 1 = 4 * u + 5 := by omega
  have e4 : 2 * (2 * u + 2) + 2 = 4 * u + 6 := by omega
  rw [e1, e2, a.1] at b
  rw [e3, e4, a.2] at c
  simpa using And.intro b.1 (And.intro b.2 c)

theorem alt_min : Alt isOnMinLevel := by
  intro u
  have key : ∀ k, k / 2 = u + 1 → (Nat.log2 k % 2 == 0) = !(Nat.log2 (u + 1) % 2 == 0) := by
    intro k hk
    have : Nat.log2 k = Nat.log2 (u + 1) + 1 := by
      rw [Nat.log2_def, hk]; simp; omega
    rw [this]
    rcases Nat.mod_two_eq_zero_or_one (Nat.log2 (u + 1)) with h | h <;> (rw [Nat.add_mod, h]; rfl)
  exact ⟨key _ (by omega), key _ (by omega)⟩

theorem alt_not {lv : Nat → Bool} (h : Alt lv) : Alt (fun k => !lv k) := by
  intro u; simp [h u]

theorem gt_order {lt : E → E → Bool} (w : WeakOrder lt) : WeakOrder (gt lt) :=
  ⟨fun a b h => w.asymm b a h, fun a b c h1 h2 => w.negTrans c b a h2 h1⟩

theorem dom_gt (lt : E → E → Bool) (lv : Nat → Bool) (f : Nat → E) (u w : Nat) :
    Dom (gt lt) (fun k => !lv k) f u w ↔ Dom lt lv f u w := by
  unfold Dom gt
  cases h : lv u <;> simp [h]

/-- order among the first `n` cells for every ancestor `u ≥ lo` except those in `ex`. -/
def Order (lt : E → E → Bool) (lv : Nat → Bool) (f : Nat → E) (lo n : Nat) (ex : Nat → Nat → Prop) : Prop :=
  ∀ u w, lo ≤ u → w < n → Pair u w → ¬ ex u w → Dom lt lv f u w

theorem order_gt (lt : E → E → Bool) (lv : Nat → Bool) (f : Nat → E) (lo n : Nat) (ex : Nat → Nat → Prop) :
    Order (gt lt) (fun k => !lv k) f lo n ex ↔ Order lt lv f lo n ex := by
  unfold Order
  constructor
  · intro h u w a b c d; exact (dom_gt lt lv f u w).mp (h u w a b c d)
  · intro h u w a b c d; exact (dom_gt lt lv f u w).mpr (h u w a b c d)

theorem order_congr {lt : E → E → Bool} {lv : Nat → Bool} {f g : Nat → E} {lo n : Nat} {ex : Nat → Nat → Prop}
    (h : ∀ k, k < n → f k = g k) (o : Order lt lv f lo n ex) : Order lt lv g lo n ex := by
  intro u w a b c d
  have hu : u < n := by unfold Pair at c; omega
  have := o u w a b c d
  unfold Dom at *
  rw [← h u hu, ← h w b]; exact this

/-! ## sifting down -/

theorem least_spec {lt : E → E → Bool} (w : WeakOrder lt) (d : E) (l : List E) (i j n : Nat) (hn : n ≤ l.length) (hi : i < n)
    (S : Nat → Prop) (hS : S i) (hj : j < n → S j) :
    (least lt l i j n).1 < n ∧ S (least lt l i j n).1 ∧
    ((least lt l i j n).2 = true → n ≤ j ∧ (least lt l i j n).1 = i) ∧
    ((least lt l i j n).2 = false → j < n) ∧
    (∀ c, lt (val d l c) (val d l i) = false → lt (val d l c) (val d l (least lt l i j n).1) = false) ∧
    (j < n → lt (val d l j) (val d l (least lt l i j n).1) = false) := by
  unfold least
  by_cases h : n ≤ j
  · rw [if_pos h]
    exact ⟨hi, hS, fun _ => ⟨h, rfl⟩, fun h => (nomatch h), fun c hc => hc, fun hc => absurd hc (by omega)⟩
  · rw [if_neg h]
    have hj' : j < n := by omega
    cases hc : lessAt lt l i j with
    | true =>
      rw [lessAt_val lt d l i j (by omega) (by omega)] at hc
      refine ⟨hi, hS, fun h => (nomatch h), fun _ => hj', fun c hc => hc, fun _ => w.asymm _ _ hc⟩
    | false =>
      rw [lessAt_val lt d l i j (by omega) (by omega)] at hc
      refine ⟨hj', hj hj', fun h => (nomatch h), fun _ => hj', fun c hcc => ?_, fun _ => w.irrefl _⟩
      exact w.negTrans _ _ _ hc hcc

theorem minDescendent_none (lt : E → E → Bool) (l : List E) (i n : Nat) (h : minDescendent lt l i n = none) :
    n ≤ 2 * i + 1 := by
  unfold minDescendent at h
  dsimp only at h
  split at h
  · omega
  · repeat' (split at h)
    all_goals cases h

theorem minDescendent_some {lt : E → E → Bool} (w : WeakOrder lt) (d : E) (l : List E) (i n m : Nat) (hn : n ≤ l.length)
    (h : minDescendent lt l i n = some m) :
    m < n ∧ Pair i m ∧ ∀ c, c < n → Pair i c → lt (val d l c) (val d l m) = false := by
  unfold minDescendent at h
  dsimp only at h
  by_cases hl : n ≤ i * 2 + 1
  · rw [if_pos hl] at h; cases h
  rw [if_neg hl] at h
  have s1 := least_spec w d l (i*2+1) (i*2+1+1) n hn (by omega) (Pair i) (by unfold Pair; omega) (by unfold Pair; omega)
  generalize hr1 : least lt l (i*2+1) (i*2+1+1) n = r1 at h s1
  obtain ⟨a1, b1, c1, d1, e1, f1⟩ := s1
  have g1 : ∀ c, c < n → (c = i*2+1 ∨ c = i*2+2) → lt (val d l c) (val d l r1.1) = false := by
    rintro c hc (rfl | rfl)
    · exact e1 _ (w.irrefl _)
    · exact f1 hc
  cases h1 : r1.2 with
  | true =>
    rw [h1, if_pos rfl] at h; cases h
    refine ⟨a1, b1, fun c hc hp => g1 c hc ?_⟩
    have := (c1 h1).1
    unfold Pair at hp; omega
  | false =>
  rw [h1, if_neg (by simp)] at h
  have s2 := least_spec w d l r1.1 ((i*2+1)*2+1) n hn a1 (Pair i) b1 (by unfold Pair; omega)
  generalize hr2 : least lt l r1.1 ((i*2+1)*2+1) n = r2 at h s2
  obtain ⟨a2, b2, c2, d2, e2, f2⟩ := s2
  have g2 : ∀ c, c < n → (c = i*2+1 ∨ c = i*2+2 ∨ c = (i*2+1)*2+1) → lt (val d l c) (val d l r2.1) = false := by
    rintro c hc (hh | hh | rfl)
    · exact e2 _ (g1 c hc (by omega))
    · exact e2 _ (g1 c hc (by omega))
    · exact f2 hc
  cases h2 : r2.2 with
  | true =>
    rw [h2, if_pos rfl] at h; cases h
    refine ⟨a2, b2, fun c hc hp => g2 c hc ?_⟩
    have := (c2 h2).1
    unfold Pair at hp; omega
  | false =>
  rw [h2, if_neg (by simp)] at h
  have s3 := least_spec w d l r2.1 ((i*2+1)*2+2) n hn a2 (Pair i) b2 (by unfold Pair; omega)
  generalize hr3 : least lt l r2.1 ((i*2+1)*2+2) n = r3 at h s3
  obtain ⟨a3, b3, c3, d3, e3, f3⟩ := s3
  have g3 : ∀ c, c < n → (c = i*2+1 ∨ c = i*2+2 ∨ c = (i*2+1)*2+1 ∨ c = (i*2+1)*2+2) →
      lt (val d l c) (val d l r3.1) = false := by
    rintro c hc (hh | hh | hh | rfl)
    · exact e3 _ (g2 c hc (by omega))
    · exact e3 _ (g2 c hc (by omega))
    · exact e3 _ (g2 c hc (by omega))
    · exact f3 hc
  cases h3 : r3.2 with
  | true =>
    rw [h3, if_pos rfl] at h; cases h
    refine ⟨a3, b3, fun c hc hp => g3 c hc ?_⟩
    have := (c3 h3).1
    unfold Pair at hp; omega
  | false =>
  rw [h3, if_neg (by simp)] at h
  have s4 := least_spec w d l r3.1 ((i*2+1+1)*2+1) n hn a3 (Pair i) b3 (by unfold Pair; omega)
  generalize hr4 : least lt l r3.1 ((i*2+1+1)*2+1) n = r4 at h s4
  obtain ⟨a4, b4, c4, d4, e4, f4⟩ := s4
  have g4 : ∀ c, c < n → (c = i*2+1 ∨ c = i*2+2 ∨ c = (i*2+1)*2+1 ∨ c = (i*2+1)*2+2 ∨ c = (i*2+1+1)*2+1) →
      lt (val d l c) (val d l r4.1) = false := by
    rintro c hc (hh | hh | hh | hh | rfl)
    · exact e4 _ (g3 c hc (by omega))
    · exact e4 _ (g3 c hc (by omega))
    · exact e4 _ (g3 c hc (by omega))
    · exact e4 _ (g3 c hc (by omega))
    · exact f4 hc
  cases h4 : r4.2 with
  | true =>
    rw [h4, if_pos rfl] at h; cases h
    refine ⟨a4, b4, fun c hc hp => g4 c hc ?_⟩
    have := (c4 h4).1
    unfold Pair at hp; omega
  | false =>
  rw [h4, if_neg (by simp)] at h
  have s5 := least_spec w d l r4.1 ((i*2+1+1)*2+2) n hn a4 (Pair i) b4 (by unfold Pair; omega)
  generalize hr5 : least lt l r4.1 ((i*2+1+1)*2+2) n = r5 at h s5
  obtain ⟨a5, b5, c5, d5, e5, f5⟩ := s5
  cases h
  refine ⟨a5, b5, fun c hc hp => ?_⟩
  by_cases hh : c = (i*2+1+1)*2+2
  · subst hh; exact f5 hc
  · exact e5 _ (g4 c hc (by unfold Pair at hp; omega))

theorem Alt.child {lv : Nat → Bool} (h : Alt lv) {u w : Nat} (hc : w = 2 * u + 1 ∨ w = 2 * u + 2) : lv w = !lv u := by
  rcases hc with rfl | rfl
  · exact (h u).1
  · exact (h u).2

theorem Alt.grand {lv : Nat → Bool} (h : Alt lv) {u w : Nat}
    (hc : w = 4 * u + 3 ∨ w = 4 * u + 4 ∨ w = 4 * u + 5 ∨ w = 4 * u + 6) : lv w = lv u := by
  have := h.four u
  rcases hc with rfl | rfl | rfl | rfl
  · exact this.1
  · exact this.2.1
  · exact this.2.2.1
  · exact this.2.2.2

/-- the step of `downX` that ends at a child of `i`. -/
theorem down_child {lt : E → E → Bool} (w : WeakOrder lt) {lv : Nat → Bool} (alt : Alt lv) (f h : Nat → E) (lo n i m : Nat)
    (hlo : lo ≤ i) (hlv : lv i = true) (hm : m = 2 * i + 1 ∨ m = 2 * i + 2) (hmn : m < n)
    (A : Order lt lv f lo n (fun u _ => u = i))
    (B : ∀ g c, lo ≤ g → (i = 4 * g + 3 ∨ i = 4 * g + 4 ∨ i = 4 * g + 5 ∨ i = 4 * g + 6) → c < n → Pair i c → lt (f c) (f g) = false)
    (M : ∀ c, c < n → Pair i c → lt (f c) (f m) = false) (hlt : lt (f m) (f i) = true)
    (hi : h i = f m) (hhm : h m = f i) (hh : ∀ k, k ≠ i → k ≠ m → h k = f k) :
    Order lt lv h lo n (fun _ _ => False) := by
  intro u x hu hx hp _
  have lvm : lv m = false := by rw [alt.child hm, hlv]; rfl
  unfold Dom
  by_cases hui : u = i
  · subst hui
    rw [if_pos hlv, hi]
    by_cases hxm : x = m
    · subst hxm; rw [hhm]; exact w.asymm _ _ hlt
    · rw [hh x (by unfold Pair at hp; omega) hxm]; exact M x hx hp
  · by_cases hum : u = m
    · subst hum
      have hx' : h x = f x := hh x (by unfold Pair at hp; omega) (by unfold Pair at hp; omega)
      rw [if_neg (by simp [lvm]), hhm, hx']
      have := A u x hu hx hp hui
      unfold Dom at this
      rw [if_neg (by simp [lvm])] at this
      exact w.negTrans _ _ _ this (w.asymm _ _ hlt)
    · have hu' : h u = f u := hh u hui hum
      by_cases hxi : x = i
      · subst hxi
        rw [hi, hu']
        by_cases hc : x = 2 * u + 1 ∨ x = 2 * u + 2
        · have lvu : lv u = false := by have := alt.child hc; rw [hlv] at this; simpa using this
          have := A u m hu hmn (by unfold Pair; omega) hui
          unfold Dom at this
          rwa [if_neg (by simp [lvu])] at this ⊢
        · have hg : x = 4 * u + 3 ∨ x = 4 * u + 4 ∨ x = 4 * u + 5 ∨ x = 4 * u + 6 := by unfold Pair at hp; omega
          have lvu : lv u = true := by rw [← alt.grand hg, hlv]
          rw [if_pos lvu]
          exact B u m hu hg hmn (by unfold Pair; omega)
      · by_cases hxm : x = m
        · subst hxm
          have hc : i = 2 * u + 1 ∨ i = 2 * u + 2 := by unfold Pair at hp; omega
          have := A u i hu (by omega) (by unfold Pair; omega) hui
          rw [hu', hhm]
          exact this
        · rw [hu', hh x hxi hxm]
          exact A u x hu hx hp hui

/-- the step of `downX` that goes on at a grandchild of `i`. -/
theorem down_grand {lt : E → E → Bool} (w : WeakOrder lt) {lv : Nat → Bool} (alt : Alt lv) (f h : Nat → E) (lo n i p m : Nat)
    (hlo : lo ≤ i) (hlv : lv i = true) (hpi : p = 2 * i + 1 ∨ p = 2 * i + 2) (hm : m = 2 * p + 1 ∨ m = 2 * p + 2) (hmn : m < n)
    (A : Order lt lv f lo n (fun u _ => u = i))
    (B : ∀ g c, lo ≤ g → (i = 4 * g + 3 ∨ i = 4 * g + 4 ∨ i = 4 * g + 5 ∨ i = 4 * g + 6) → c < n → Pair i c → lt (f c) (f g) = false)
    (M : ∀ c, c < n → Pair i c → lt (f c) (f m) = false) (hlt : lt (f m) (f i) = true)
    (hi : h i = f m) (hcase : (lt (f p) (f i) = true ∧ h p = f i ∧ h m = f p) ∨ (lt (f p) (f i) = false ∧ h p = f p ∧ h m = f i))
    (hh : ∀ k, k ≠ i → k ≠ m → k ≠ p → h k = f k) :
    Order lt lv h lo n (fun u _ => u = m) ∧
    (∀ g c, lo ≤ g → (m = 4 * g + 3 ∨ m = 4 * g + 4 ∨ m = 4 * g + 5 ∨ m = 4 * g + 6) → c < n → Pair m c → lt (h c) (h g) = false) := by
  have lvp : lv p = false := by rw [alt.child hpi, hlv]; rfl
  have lvm : lv m = true := by rw [alt.child hm, lvp]; rfl
  have hpn : p < n := by omega
  have hin : i < n := by omega
  have pim : Pair i m := by unfold Pair; omega
  have pip : Pair i p := by unfold Pair; omega
  have ppm : Pair p m := by unfold Pair; omega
  -- facts about the new values
  have Fpm : lt (h p) (h m) = false := by
    rcases hcase with ⟨a, b, c⟩ | ⟨a, b, c⟩
    · rw [b, c]; exact w.asymm _ _ a
    · rw [b, c]; exact a
  have FpA : lt (h p) (f p) = false := by
    rcases hcase with ⟨a, b, c⟩ | ⟨a, b, c⟩
    · rw [b]; exact w.asymm _ _ a
    · rw [b]; exact w.irrefl _
  have Fup : ∀ y, lt y (f p) = false → lt y (f i) = false → lt y (h p) = false := by
    intro y h1 h2
    rcases hcase with ⟨a, b, c⟩ | ⟨a, b, c⟩ <;> (rw [b]; assumption)
  have Flm : ∀ y, lt (f p) y = false → lt (f i) y = false → lt (h m) y = false := by
    intro y h1 h2
    rcases hcase with ⟨a, b, c⟩ | ⟨a, b, c⟩ <;> (rw [c]; assumption)
  have Flp : ∀ y, lt (f p) y = false → lt (f i) y = false → lt (h p) y = false := by
    intro y h1 h2
    rcases hcase with ⟨a, b, c⟩ | ⟨a, b, c⟩ <;> (rw [b]; assumption)
  have hmi : lt (f i) (f m) = false := w.asymm _ _ hlt
  have hmp : lt (f p) (f m) = false := M p hpn pip
  constructor
  · intro u x hu hx hp hum
    unfold Dom
    by_cases hui : u = i
    · subst hui
      rw [if_pos hlv, hi]
      by_cases hxm : x = m
      · subst hxm; exact Flm _ hmp hmi
      · by_cases hxp : x = p
        · subst hxp; exact Flp _ hmp hmi
        · rw [hh x (by unfold Pair at hp; omega) hxm hxp]; exact M x hx hp
    · by_cases hup : u = p
      · subst hup
        rw [if_neg (by simp [lvp])]
        by_cases hxm : x = m
        · subst hxm; exact Fpm
        · rw [hh x (by unfold Pair at hp; omega) hxm (by unfold Pair at hp; omega)]
          have := A u x hu hx hp hui
          unfold Dom at this
          rw [if_neg (by simp [lvp])] at this
          exact w.negTrans _ _ _ this FpA
      · have hu' : h u = f u := hh u hui hum hup
        by_cases hxi : x = i
        · subst hxi
          rw [hi, hu']
          by_cases hc : x = 2 * u + 1 ∨ x = 2 * u + 2
          · have lvu : lv u = false := by have := alt.child hc; rw [hlv] at this; simpa using this
            have h1 := A u p hu hpn (by unfold Pair; omega) hui
            have h2 := A p m (by omega) hmn ppm (by omega)
            unfold Dom at h1 h2
            rw [if_neg (by simp [lvu])] at h1 ⊢
            rw [if_neg (by simp [lvp])] at h2
            exact w.negTrans _ _ _ h2 h1
          · have hg : x = 4 * u + 3 ∨ x = 4 * u + 4 ∨ x = 4 * u + 5 ∨ x = 4 * u + 6 := by unfold Pair at hp; omega
            have lvu : lv u = true := by rw [← alt.grand hg, hlv]
            rw [if_pos lvu]
            exact B u m hu hg hmn pim
        · by_cases hxp : x = p
          · subst hxp
            have hc : i = 2 * u + 1 ∨ i = 2 * u + 2 := by unfold Pair at hp; omega
            have lvu : lv u = false := by have := alt.child hc; rw [hlv] at this; simpa using this
            have h1 := A u x hu hx hp hui
            have h2 := A u i hu hin (by unfold Pair; omega) hui
            unfold Dom at h1 h2
            rw [if_neg (by simp [lvu])] at h1 h2 ⊢
            rw [hu']
            exact Fup _ h1 h2
          · by_cases hxm : x = m
            · exfalso; unfold Pair at hp; omega
            · rw [hu', hh x hxi hxm hxp]
              exact A u x hu hx hp hui
  · intro g c hg hmg hc hp
    have : g = i := by omega
    subst this
    rw [hi, hh c (by unfold Pair at hp; omega) (by unfold Pair at hp; omega) (by unfold Pair at hp; omega)]
    have := A m c (by omega) hc hp (by omega)
    unfold Dom at this
    rwa [if_pos lvm] at this

theorem swapIf_true {lt : E → E → Bool} {l : List E} {i j : Nat} (h : lessAt lt l i j = true) :
    swapIf lt l i j = (swap l i j, true) := by unfold swapIf; rw [if_pos h]

theorem swapIf_false {lt : E → E → Bool} {l : List E} {i j : Nat} (h : lessAt lt l i j = false) :
    swapIf lt l i j = (l, false) := by unfold swapIf; rw [if_neg (by simp [h])]

theorem swapIf_length (lt : E → E → Bool) (l : List E) (i j : Nat) : (swapIf lt l i j).1.length = l.length :=
  (swapIf_perm lt l i j).length_eq

/-- `downX` does not touch the cells before `i` nor those from `n` on. -/
theorem downX_frame {lt : E → E → Bool} (w : WeakOrder lt) (d : E) : ∀ fuel (l : List E) i n k, n ≤ l.length → (n ≤ k ∨ k < i) →
    val d (downX lt fuel l i n) k = val d l k := by
  intro fuel
  induction fuel with
  | zero => intro l i n k _ _; rfl
  | succ fuel ih =>
    intro l i n k hn hk
    unfold downX
    split
    · rfl
    · rename_i m hm
      obtain ⟨hmn, hp, _⟩ := minDescendent_some w d l i n m hn hm
      have key : ∀ (l' : List E) a b, l'.length = l.length → i ≤ a → i ≤ b → a < n → b < n →
          val d (swapIf lt l' a b).1 k = val d l' k := by
        intro l' a b hl ha hb han hbn
        unfold swapIf
        split
        · dsimp only
          rw [val_swap _ _ _ _ _ (by omega) (by omega), if_neg (by omega), if_neg (by omega)]
        · rfl
      unfold Pair at hp
      dsimp only
      split
      · exact key _ _ _ rfl (by omega) (by omega) (by omega) (by omega)
      · split
        · rw [ih _ _ _ _ (by rw [swapIf_length, swapIf_length]; exact hn) (by omega)]
          rw [key _ _ _ (swapIf_length _ _ _ _) (by omega) (by omega) (by omega) (by omega)]
          exact key _ _ _ rfl (by omega) (by omega) (by omega) (by omega)
        · rfl

theorem downX_order {lt : E → E → Bool} (w : WeakOrder lt) {lv : Nat → Bool} (alt : Alt lv) (d : E) :
    ∀ fuel (l : List E) i n lo, n ≤ l.length → n ≤ i + fuel → lo ≤ i → lv i = true →
      Order lt lv (val d l) lo n (fun u _ => u = i) →
      (∀ g c, lo ≤ g → (i = 4 * g + 3 ∨ i = 4 * g + 4 ∨ i = 4 * g + 5 ∨ i = 4 * g + 6) → c < n → Pair i c →
        lt (val d l c) (val d l g) = false) →
      Order lt lv (val d (downX lt fuel l i n)) lo n (fun _ _ => False) := by
  intro fuel
  induction fuel with
  | zero =>
    intro l i n lo hn hf _ _ A _ u x hu hx hp _
    exact A u x hu hx hp (by unfold Pair at hp; omega)
  | succ fuel ih =>
    intro l i n lo hn hf hlo hlv A B
    unfold downX
    split
    · rename_i hm
      have := minDescendent_none lt l i n hm
      intro u x hu hx hp _
      exact A u x hu hx hp (by unfold Pair at hp; omega)
    · rename_i m hm
      obtain ⟨hmn, hp, M⟩ := minDescendent_some w d l i n m hn hm
      have hil : i < l.length := by unfold Pair at hp; omega
      have hml : m < l.length := by omega
      have noswap : lessAt lt l m i = false → Order lt lv (val d l) lo n (fun _ _ => False) := by
        intro hc u x hu hx hp' _
        by_cases hui : u = i
        · subst hui
          rw [lessAt_val lt d l m u hml hil] at hc
          unfold Dom
          rw [if_pos hlv]
          exact w.negTrans _ _ _ hc (M x hx hp') 
        · exact A u x hu hx hp' hui
      dsimp only
      split
      · rename_i hpar
        cases hc : lessAt lt l m i with
        | false => rw [swapIf_false hc]; exact noswap hc
        | true =>
          rw [swapIf_true hc]
          rw [lessAt_val lt d l m i hml hil] at hc
          refine down_child w alt (val d l) _ lo n i m hlo hlv (by unfold Pair at hp; omega) hmn A B M hc ?_ ?_ ?_
          · rw [val_swap _ _ _ _ _ hml hil, if_pos rfl]
          · rw [val_swap _ _ _ _ _ hml hil, if_neg (by unfold Pair at hp; omega), if_pos rfl]
          · intro k h1 h2
            rw [val_swap _ _ _ _ _ hml hil, if_neg h1, if_neg h2]
      · rename_i hpar
        cases hc : lessAt lt l m i with
        | false => rw [swapIf_false hc]; simp only [Bool.false_eq_true, if_false]; exact noswap hc
        | true =>
          rw [swapIf_true hc]
          simp only [if_true]
          rw [lessAt_val lt d l m i hml hil] at hc
          have hpe : ∃ p, (m - 1) / 2 = p := ⟨_, rfl⟩
          obtain ⟨p, hpe⟩ := hpe
          rw [hpe]
          have hpi : p = 2 * i + 1 ∨ p = 2 * i + 2 := by unfold Pair at hp; omega
          have hmp : m = 2 * p + 1 ∨ m = 2 * p + 2 := by unfold Pair at hp; omega
          have hpl : p < l.length := by omega
          have vs : ∀ k, val d (swap l m i) k = if k = i then val d l m else if k = m then val d l i else val d l k :=
            fun k => val_swap d l m i k hml hil
          have hsl : (swap l m i).length = l.length := swap_length _ _ _
          have step := down_grand w alt (val d l) (val d (swapIf lt (swap l m i) p m).1) lo n i p m hlo hlv hpi hmp hmn A B M hc
            (by
              unfold swapIf; split
              · dsimp only
                rw [val_swap _ _ _ _ _ (by omega) (by omega), if_neg (by omega), if_neg (by omega), vs, if_pos rfl]
              · rw [vs, if_pos rfl])
            (by
              have e : lessAt lt (swap l m i) p m = lt (val d l p) (val d l i) := by
                rw [lessAt_val lt d _ _ _ (by omega) (by omega), vs, vs, if_neg (by omega), if_neg (by omega),
                  if_neg (by omega), if_pos rfl]
              cases hc2 : lt (val d l p) (val d l i) with
              | true =>
                left
                rw [swapIf_true (by rw [e, hc2])]
                refine ⟨rfl, ?_, ?_⟩
                · rw [val_swap _ _ _ _ _ (by omega) (by omega), if_neg (by omega), if_pos rfl, vs, if_neg (by omega), if_pos rfl]
                · rw [val_swap _ _ _ _ _ (by omega) (by omega), if_pos rfl, vs, if_neg (by omega), if_neg (by omega)]
              | false =>
                right
                rw [swapIf_false (by rw [e, hc2])]
                refine ⟨rfl, ?_, ?_⟩
                · rw [vs, if_neg (by omega), if_neg (by omega)]
                · rw [vs, if_neg (by omega), if_pos rfl])
            (by
              intro k h1 h2 h3
              unfold swapIf; split
              · dsimp only
                rw [val_swap _ _ _ _ _ (by omega) (by omega), if_neg h2, if_neg h3, vs, if_neg h1, if_neg h2]
              · rw [vs, if_neg h1, if_neg h2])
          apply ih
          · rw [swapIf_length, hsl]; exact hn
          · omega
          · omega
          · rw [alt.child hmp, alt.child hpi, hlv]; rfl
          · exact step.1
          · exact step.2

theorem down_length (lt : E → E → Bool) (l : List E) (i n : Nat) : (down lt l i n).length = l.length :=
  (down_perm lt l i n).length_eq

theorem down_frame {lt : E → E → Bool} (w : WeakOrder lt) (d : E) (l : List E) (i n k : Nat) (hn : n ≤ l.length)
    (hk : n ≤ k ∨ k < i) : val d (down lt l i n) k = val d l k := by
  unfold down; split
  · exact downX_frame w d _ _ _ _ _ hn hk
  · exact downX_frame (gt_order w) d _ _ _ _ _ hn hk

/-- `down` restores the order below `i`, if `i` has no grandparent among the ordered cells. -/
theorem down_order {lt : E → E → Bool} (w : WeakOrder lt) (d : E) (l : List E) (i n lo : Nat) (hn : n ≤ l.length) (hlo : lo ≤ i)
    (hg : ∀ g, lo ≤ g → ¬ (i = 4 * g + 3 ∨ i = 4 * g + 4 ∨ i = 4 * g + 5 ∨ i = 4 * g + 6))
    (A : Order lt isOnMinLevel (val d l) lo n (fun u _ => u = i)) :
    Order lt isOnMinLevel (val d (down lt l i n)) lo n (fun _ _ => False) := by
  unfold down
  cases hlv : isOnMinLevel i with
  | true =>
    simp only [if_true]
    exact downX_order w alt_min d _ _ _ _ _ hn (by omega) hlo hlv A (fun g c h1 h2 => absurd h2 (hg g h1))
  | false =>
    simp only [Bool.false_eq_true, if_false]
    rw [← order_gt]
    exact downX_order (gt_order w) (alt_not alt_min) d _ _ _ _ _ hn (by omega) hlo (by rw [hlv]; rfl) ((order_gt _ _ _ _ _ _).mpr A)
      (fun g c h1 h2 => absurd h2 (hg g h1))

/-! ## sifting up -/

/-- one round of `upX`. -/
theorem up_step {lt : E → E → Bool} (w : WeakOrder lt) {lv : Nat → Bool} (alt : Alt lv) (f h : Nat → E) (n i g : Nat)
    (hlv : lv i = true) (hg : i = 4 * g + 3 ∨ i = 4 * g + 4 ∨ i = 4 * g + 5 ∨ i = 4 * g + 6) (hin : i < n)
    (A : Order lt lv f 0 n (fun u x => x = i ∧ lv u = true))
    (B : ∀ c, c < n → Pair i c → lt (f c) (f g) = false)
    (hlt : lt (f i) (f g) = true) (hi : h i = f g) (hhg : h g = f i) (hh : ∀ k, k ≠ i → k ≠ g → h k = f k) :
    Order lt lv h 0 n (fun u x => x = g ∧ lv u = true) ∧
    (∀ gg, (g = 4 * gg + 3 ∨ g = 4 * gg + 4 ∨ g = 4 * gg + 5 ∨ g = 4 * gg + 6) →
      ∀ c, c < n → Pair g c → lt (h c) (h gg) = false) := by
  have lvg : lv g = true := by rw [← alt.grand hg, hlv]
  constructor
  · intro u x hu hx hp hex
    unfold Dom
    by_cases hug : u = g
    · subst hug
      rw [if_pos lvg, hhg]
      by_cases hxi : x = i
      · subst hxi; rw [hi]; exact w.asymm _ _ hlt
      · rw [hh x hxi (by unfold Pair at hp; omega)]
        have := A u x hu hx hp (fun c => hxi c.1)
        unfold Dom at this; rw [if_pos lvg] at this
        exact w.negTrans _ _ _ (w.asymm _ _ hlt) this
    · by_cases hui : u = i
      · subst hui
        rw [if_pos hlv, hi, hh x (by unfold Pair at hp; omega) (by unfold Pair at hp; omega)]
        exact B x hx hp
      · have hu' : h u = f u := hh u hui hug
        by_cases hxg : x = g
        · subst hxg
          have lvu : lv u = false := by
            cases hc : lv u with
            | false => rfl
            | true => exact absurd ⟨rfl, hc⟩ hex
          have := A u x hu hx hp (fun c => by omega)
          unfold Dom at this
          rw [if_neg (by simp [lvu])] at this ⊢
          rw [hu', hhg]
          exact w.negTrans _ _ _ (w.asymm _ _ hlt) this
        · by_cases hxi : x = i
          · subst hxi
            have hc : x = 2 * u + 1 ∨ x = 2 * u + 2 := by unfold Pair at hp; omega
            have lvu : lv u = false := by have := alt.child hc; rw [hlv] at this; simpa using this
            rw [if_neg (by simp [lvu]), hu', hi]
            have := A g u (by omega) (by omega) (by unfold Pair; omega) (fun c => hui c.1)
            unfold Dom at this
            rwa [if_pos lvg] at this
          · rw [hu', hh x hxi hxg]
            exact A u x hu hx hp (fun c => hxi c.1)
  · intro gg hgg c hc hp
    have lvgg : lv gg = true := by rw [← alt.grand hgg, lvg]
    rw [hh gg (by omega) (by omega)]
    have h1 := A gg g (by omega) (by omega) (by unfold Pair; omega) (fun c => by omega)
    unfold Dom at h1; rw [if_pos lvgg] at h1
    by_cases hci : c = i
    · subst hci; rw [hi]; exact h1
    · rw [hh c hci (by unfold Pair at hp; omega)]
      have h2 := A g c (by omega) hc hp (fun e => hci e.1)
      unfold Dom at h2; rw [if_pos lvg] at h2
      exact w.negTrans _ _ _ h1 h2

theorem upX_order {lt : E → E → Bool} (w : WeakOrder lt) {lv : Nat → Bool} (alt : Alt lv) (d : E) :
    ∀ fuel (l : List E) i, i < l.length → i ≤ fuel → lv i = true →
      Order lt lv (val d l) 0 l.length (fun u x => x = i ∧ lv u = true) →
      (∀ g, (i = 4 * g + 3 ∨ i = 4 * g + 4 ∨ i = 4 * g + 5 ∨ i = 4 * g + 6) → ∀ c, c < l.length → Pair i c →
        lt (val d l c) (val d l g) = false) →
      Order lt lv (val d (upX lt fuel l i)) 0 l.length (fun _ _ => False) := by
  have last : ∀ (l : List E) i, i ≤ 2 → lv i = true → Order lt lv (val d l) 0 l.length (fun u x => x = i ∧ lv u = true) →
      Order lt lv (val d l) 0 l.length (fun _ _ => False) := by
    intro l i hi hlv A u x hu hx hp _
    refine A u x hu hx hp ?_
    rintro ⟨rfl, hlu⟩
    have : x = 2 * u + 1 ∨ x = 2 * u + 2 := by unfold Pair at hp; omega
    rw [alt.child this, hlu] at hlv
    cases hlv
  intro fuel
  induction fuel with
  | zero => intro l i hi hf hlv A _; exact last l i (by omega) hlv A
  | succ fuel ih =>
    intro l i hi hf hlv A B
    unfold upX
    dsimp only
    split
    · have hge : ∃ g, ((i - 1) / 2 - 1) / 2 = g := ⟨_, rfl⟩
      obtain ⟨g, hge⟩ := hge
      rw [hge]
      have hg : i = 4 * g + 3 ∨ i = 4 * g + 4 ∨ i = 4 * g + 5 ∨ i = 4 * g + 6 := by omega
      have hgl : g < l.length := by omega
      have lvg : lv g = true := by rw [← alt.grand hg, hlv]
      cases hc : lessAt lt l i g with
      | false =>
        rw [swapIf_false hc]
        simp only [Bool.false_eq_true, if_false]
        rw [lessAt_val lt d l i g hi hgl] at hc
        intro u x hu hx hp _
        by_cases hex : x = i ∧ lv u = true
        · obtain ⟨rfl, hlu⟩ := hex
          have : u = g := by
            by_cases h2 : x = 2 * u + 1 ∨ x = 2 * u + 2
            · rw [alt.child h2, hlu] at hlv; cases hlv
            · unfold Pair at hp; omega
          subst this
          unfold Dom; rw [if_pos hlu]; exact hc
        · exact A u x hu hx hp hex
      | true =>
        rw [swapIf_true hc]
        simp only [if_true]
        rw [lessAt_val lt d l i g hi hgl] at hc
        have vs := val_swap d l i g
        have hsl : (swap l i g).length = l.length := swap_length _ _ _
        have step := up_step w alt (val d l) (val d (swap l i g)) l.length i g hlv hg hi A (fun c => B g hg c) hc
          (by rw [vs _ hi hgl, if_neg (by omega), if_pos rfl])
          (by rw [vs _ hi hgl, if_pos rfl])
          (fun k h1 h2 => by rw [vs _ hi hgl, if_neg h2, if_neg h1])
        rw [← hsl] at step ⊢
        exact ih (swap l i g) g (by omega) (by omega) lvg step.1 step.2
    · exact last l i (by omega) hlv A

/-- order of the parity that makes `i` a "less" level. -/
theorem up_half {lt : E → E → Bool} (w : WeakOrder lt) {lv : Nat → Bool} (alt : Alt lv) (d : E) (l : List E) (i : Nat)
    (hi : i < l.length) (hl : l.length ≤ 2 * i + 1) (hlv : lv i = true) (A : Order lt lv (val d l) 0 l.length (fun _ x => x = i)) :
    Order lt lv (val d (if 0 < i ∧ (swapIf (gt lt) l i ((i - 1) / 2)).2 = true
      then upX (gt lt) ((i - 1) / 2) (swapIf (gt lt) l i ((i - 1) / 2)).1 ((i - 1) / 2) else upX lt i l i)) 0 l.length
      (fun _ _ => False) := by
  by_cases h0 : i = 0
  · subst h0
    rw [if_neg (by omega)]
    intro u x _ hx hp _
    unfold Pair at hp; omega
  · have hpe : ∃ p, (i - 1) / 2 = p := ⟨_, rfl⟩
    obtain ⟨p, hpe⟩ := hpe
    rw [hpe]
    have hp : i = 2 * p + 1 ∨ i = 2 * p + 2 := by omega
    have lvp : lv p = false := by have := alt.child hp; rw [hlv] at this; simpa using this
    have hpl : p < l.length := by omega
    cases hc : lessAt (gt lt) l i p with
    | false =>
      rw [swapIf_false hc, if_neg (by simp)]
      rw [lessAt_val _ d l i p hi hpl] at hc
      apply upX_order w alt d _ _ _ hi (Nat.le_refl _) hlv
      · intro u x hu hx hpx hex
        by_cases hxi : x = i
        · subst hxi
          have lvu : lv u = false := by
            cases hh : lv u with
            | false => rfl
            | true => exact absurd ⟨rfl, hh⟩ hex
          have : u = p := by
            by_cases h2 : x = 2 * u + 1 ∨ x = 2 * u + 2
            · omega
            · have := alt.grand (u := u) (w := x) (by unfold Pair at hpx; omega)
              rw [hlv, lvu] at this; cases this
          subst this
          unfold Dom; rw [if_neg (by simp [lvu])]; exact hc
        · exact A u x hu hx hpx hxi
      · intro g hg c hc hpc
        unfold Pair at hpc; omega
    | true =>
      rw [swapIf_true hc, if_pos ⟨by omega, rfl⟩]
      rw [lessAt_val _ d l i p hi hpl] at hc
      have hc' : lt (val d l p) (val d l i) = true := hc
      have hsl : (swap l i p).length = l.length := swap_length _ _ _
      have vi : val d (swap l i p) i = val d l p := by rw [val_swap _ _ _ _ _ hi hpl, if_neg (by omega), if_pos rfl]
      have vp : val d (swap l i p) p = val d l i := by rw [val_swap _ _ _ _ _ hi hpl, if_pos rfl]
      have vo : ∀ k, k ≠ i → k ≠ p → val d (swap l i p) k = val d l k := fun k h1 h2 => by
        rw [val_swap _ _ _ _ _ hi hpl, if_neg h2, if_neg h1]
      dsimp only
      rw [← order_gt, ← hsl]
      apply upX_order (gt_order w) (alt_not alt) d _ _ _ (by omega) (Nat.le_refl _) (by rw [lvp]; rfl)
      · rw [hsl]
        intro u x hu hx hpx hex
        rw [dom_gt]
        unfold Dom
        by_cases hup : u = p
        · subst hup
          rw [if_neg (by simp [lvp]), vp]
          by_cases hxi : x = i
          · subst hxi; rw [vi]; exact w.asymm _ _ hc'
          · rw [vo x hxi (by unfold Pair at hpx; omega)]
            have := A u x hu hx hpx hxi
            unfold Dom at this; rw [if_neg (by simp [lvp])] at this
            exact w.negTrans _ _ _ this (w.asymm _ _ hc')
        · by_cases hui : u = i
          · subst hui; unfold Pair at hpx; omega
          · rw [vo u hui hup]
            by_cases hxi : x = i
            · subst hxi
              have hup2 : p = 2 * u + 1 ∨ p = 2 * u + 2 := by unfold Pair at hpx; omega
              have := A u p hu (by omega) (by unfold Pair; omega) (by omega)
              rw [vi]; exact this
            · by_cases hxp : x = p
              · subst hxp
                have lvu : lv u = true := by
                  cases hh : lv u with
                  | true => rfl
                  | false => exact absurd ⟨rfl, by simp [hh]⟩ hex
                have := A u x hu hx hpx hxi
                unfold Dom at this
                rw [if_pos lvu] at this ⊢
                rw [vp]
                exact w.negTrans _ _ _ this (w.asymm _ _ hc')
              · rw [vo x hxi hxp]
                exact A u x hu hx hpx hxi
      · rw [hsl]
        intro g hg c hcn hpc
        show lt (val d (swap l i p) g) (val d (swap l i p) c) = false
        have lvg : lv g = false := by rw [← alt.grand hg, lvp]
        rw [vo g (by omega) (by omega)]
        have h1 := A g p (by omega) hpl (by unfold Pair; omega) (by omega)
        unfold Dom at h1; rw [if_neg (by simp [lvg])] at h1
        by_cases hci : c = i
        · subst hci; rw [vi]; exact h1
        · rw [vo c hci (by unfold Pair at hpc; omega)]
          have h2 := A p c (by omega) hcn hpc hci
          unfold Dom at h2; rw [if_neg (by simp [lvp])] at h2
          exact w.negTrans _ _ _ h2 h1

/-- the min-max order of the whole array. -/
def IsMM (lt : E → E → Bool) (d : E) (l : List E) : Prop :=
  Order lt isOnMinLevel (val d l) 0 l.length (fun _ _ => False)

theorem up_order {lt : E → E → Bool} (w : WeakOrder lt) (d : E) (l : List E) (i : Nat) (hl : l.length = i + 1)
    (A : Order lt isOnMinLevel (val d l) 0 l.length (fun _ x => x = i)) : IsMM lt d (up lt l i) := by
  unfold IsMM
  rw [(up_perm lt l i).length_eq]
  unfold up
  dsimp only
  cases hlv : isOnMinLevel i with
  | true =>
    simp only [if_true]
    exact up_half w alt_min d l i (by omega) (by omega) hlv A
  | false =>
    simp only [Bool.false_eq_true, if_false]
    rw [← order_gt]
    exact up_half (gt_order w) (alt_not alt_min) d l i (by omega) (by omega) (by rw [hlv]; rfl) ((order_gt _ _ _ _ _ _).mpr A)

theorem val_append_left (d : E) (l r : List E) (k : Nat) (h : k < l.length) : val d (l ++ r) k = val d l k := by
  unfold val; rw [List.getElem?_append_left h]

theorem push_mm {lt : E → E → Bool} (w : WeakOrder lt) (d : E) (l : List E) (x : E) (h : IsMM lt d l) :
    IsMM lt d (push lt l x) := by
  apply up_order w d _ _ (by simp)
  intro u y hu hy hp hex
  have hy' : y < l.length := by simp at hy; omega
  have := h u y hu hy' hp (fun h => h)
  unfold Dom at *
  rw [val_append_left _ _ _ _ hy', val_append_left _ _ _ _ (by unfold Pair at hp; omega)]
  exact this

theorem mm_min {lt : E → E → Bool} (w : WeakOrder lt) (d : E) (l : List E) (h : IsMM lt d l) :
    ∀ k, k < l.length → lt (val d l k) (val d l 0) = false := by
  intro k
  induction k using Nat.strongRecOn with
  | _ k ih =>
    intro hk
    by_cases h0 : k = 0
    · subst h0; exact w.irrefl _
    · have hu : ∃ u, u < k ∧ Pair u k ∧ isOnMinLevel u = true := by
        have hc : k = 2 * ((k - 1) / 2) + 1 ∨ k = 2 * ((k - 1) / 2) + 2 := by omega
        cases hl : isOnMinLevel ((k - 1) / 2) with
        | true => exact ⟨(k - 1) / 2, by omega, by unfold Pair; omega, hl⟩
        | false =>
          by_cases h2 : (k - 1) / 2 = 0
          · rw [h2] at hl; cases hl
          · have hc2 : (k - 1) / 2 = 2 * (((k - 1) / 2 - 1) / 2) + 1 ∨ (k - 1) / 2 = 2 * (((k - 1) / 2 - 1) / 2) + 2 := by omega
            refine ⟨((k - 1) / 2 - 1) / 2, by omega, by unfold Pair; omega, ?_⟩
            have := alt_min.child hc2
            rw [hl] at this; simpa using this
      obtain ⟨u, huk, hp, hl⟩ := hu
      have h1 := h u k (by omega) hk hp (fun h => h)
      unfold Dom at h1; rw [if_pos hl] at h1
      exact w.negTrans _ _ _ (ih u huk (by omega)) h1

theorem mm_max {lt : E → E → Bool} (w : WeakOrder lt) (d : E) (l : List E) (h : IsMM lt d l) :
    ∀ k, k < l.length → lt (val d l (indexOfMax lt l l.length)) (val d l k) = false := by
  have hm : ∀ c, (c = 1 ∨ c = 2) → c < l.length → lt (val d l (indexOfMax lt l l.length)) (val d l c) = false := by
    intro c hc hcl
    unfold indexOfMax
    split
    · have : c = l.length - 1 := by omega
      rw [← this]; exact w.irrefl _
    · cases hh : lessAt lt l 2 1 with
      | true =>
        rw [lessAt_val lt d l 2 1 (by omega) (by omega)] at hh
        simp only [if_true]
        rcases hc with rfl | rfl
        · exact w.irrefl _
        · exact w.asymm _ _ hh
      | false =>
        rw [lessAt_val lt d l 2 1 (by omega) (by omega)] at hh
        simp only [Bool.false_eq_true, if_false]
        rcases hc with rfl | rfl
        · exact hh
        · exact w.irrefl _
  intro k
  induction k using Nat.strongRecOn with
  | _ k ih =>
    intro hk
    by_cases h0 : k = 0
    · subst h0
      by_cases h1 : l.length = 1
      · unfold indexOfMax; rw [h1]; exact w.irrefl _
      · have a := hm 1 (Or.inl rfl) (by omega)
        have b := h 0 1 (by omega) (by omega) (by unfold Pair; omega) (fun h => h)
        unfold Dom at b; rw [if_pos (by rfl)] at b
        exact w.negTrans _ _ _ b a
    · by_cases h12 : k = 1 ∨ k = 2
      · exact hm k h12 hk
      · have hu : ∃ u, u < k ∧ Pair u k ∧ isOnMinLevel u = false := by
          have hc : k = 2 * ((k - 1) / 2) + 1 ∨ k = 2 * ((k - 1) / 2) + 2 := by omega
          cases hl : isOnMinLevel ((k - 1) / 2) with
          | false => exact ⟨(k - 1) / 2, by omega, by unfold Pair; omega, hl⟩
          | true =>
            have hc2 : (k - 1) / 2 = 2 * (((k - 1) / 2 - 1) / 2) + 1 ∨ (k - 1) / 2 = 2 * (((k - 1) / 2 - 1) / 2) + 2 := by omega
            refine ⟨((k - 1) / 2 - 1) / 2, by omega, by unfold Pair; omega, ?_⟩
            have := alt_min.child hc2
            rw [hl] at this; simpa using this
        obtain ⟨u, huk, hp, hl⟩ := hu
        have h1 := h u k (by omega) hk hp (fun h => h)
        unfold Dom at h1; rw [if_neg (by simp [hl])] at h1
        exact w.negTrans _ _ _ h1 (ih u huk (by omega))

/-- what `Pop` and `PopMax` share: swap cell `i` with the last one, sift down, cut the last cell. -/
theorem cut_spec {lt : E → E → Bool} (w : WeakOrder lt) (d : E) (l : List E) (i : Nat) (hi : i < l.length) :
    ∃ rest, (down lt (swap l i (l.length - 1)) i (l.length - 1))[l.length - 1]? = some (val d l i) ∧
      (down lt (swap l i (l.length - 1)) i (l.length - 1)).take (l.length - 1) = rest ∧
      down lt (swap l i (l.length - 1)) i (l.length - 1) = rest ++ [val d l i] ∧ rest.length = l.length - 1 ∧
      l.Perm (val d l i :: rest) := by
  have hsl : (swap l i (l.length - 1)).length = l.length := swap_length _ _ _
  have hdl : (down lt (swap l i (l.length - 1)) i (l.length - 1)).length = l.length := by rw [down_length, hsl]
  have hv : val d (down lt (swap l i (l.length - 1)) i (l.length - 1)) (l.length - 1) = val d l i := by
    rw [down_frame w d _ _ _ _ (by omega) (Or.inl (Nat.le_refl _)), val_swap _ _ _ _ _ hi (by omega), if_pos rfl]
  have hg : (down lt (swap l i (l.length - 1)) i (l.length - 1))[l.length - 1]? = some (val d l i) := by
    unfold val at hv
    rw [List.getElem?_eq_getElem (by omega)] at hv ⊢
    rw [← show _ = val d l i from hv]; rfl
  have happ : down lt (swap l i (l.length - 1)) i (l.length - 1) =
      (down lt (swap l i (l.length - 1)) i (l.length - 1)).take (l.length - 1) ++ [val d l i] := by
    obtain ⟨h1, h2⟩ := List.getElem?_eq_some_iff.mp hg
    conv => lhs; rw [← List.take_append_drop (l.length - 1) (down lt (swap l i (l.length - 1)) i (l.length - 1))]
    rw [List.drop_eq_getElem_cons h1, h2, List.drop_eq_nil_of_le (by omega)]
  refine ⟨_, hg, rfl, happ, by rw [List.length_take]; omega, ?_⟩
  have h3 := (down_perm lt (swap l i (l.length - 1)) i (l.length - 1)).trans (swap_perm l i (l.length-1))
  rw [happ] at h3
  exact h3.symm.trans (List.perm_append_singleton _ _)

theorem cut_mm {lt : E → E → Bool} (w : WeakOrder lt) (d : E) (l rest : List E) (x : E) (i : Nat) (hi : i < l.length) (hi2 : i ≤ 2)
    (h : IsMM lt d l) (he : down lt (swap l i (l.length - 1)) i (l.length - 1) = rest ++ [x]) (hl : rest.length = l.length - 1) :
    IsMM lt d rest := by
  have hsl : (swap l i (l.length - 1)).length = l.length := swap_length _ _ _
  have o : Order lt isOnMinLevel (val d (down lt (swap l i (l.length - 1)) i (l.length - 1))) 0 (l.length - 1) (fun _ _ => False) := by
    apply down_order w d _ _ _ _ (by omega) (by omega)
    · intro g _; omega
    · intro u y hu hy hp hui
      have hul : u < l.length - 1 := by unfold Pair at hp; omega
      unfold Dom
      rw [val_swap d l i _ u hi (by omega), if_neg (show ¬ u = l.length - 1 by omega), if_neg hui]
      rw [val_swap d l i _ y hi (by omega), if_neg (show ¬ y = l.length - 1 by omega)]
      by_cases hyi : y = i
      · rw [if_pos hyi]
        have : u = 0 := by unfold Pair at hp; omega
        subst this
        rw [if_pos (by rfl)]
        exact mm_min w d l h _ (by omega)
      · rw [if_neg hyi]
        exact h u y hu (by omega) hp (fun h => h)
  rw [he] at o
  unfold IsMM
  rw [hl]
  refine order_congr (fun k hk => ?_) o
  exact val_append_left _ _ _ _ (by omega)

theorem val_zero (d : E) (l : List E) (k : Nat) (h : k < l.length) : l[k]? = some (val d l k) := by
  unfold val; rw [List.getElem?_eq_getElem h]; rfl

theorem pop_spec {lt : E → E → Bool} (w : WeakOrder lt) (d : E) (l : List E) (hl : l ≠ []) :
    ∃ x rest, pop lt l = some (x, rest) ∧ x = val d l 0 ∧ l.Perm (x :: rest) ∧ (IsMM lt d l → IsMM lt d rest ∧ ∀ y ∈ l, lt y x = false) := by
  have hpos : 0 < l.length := List.length_pos_iff.mpr hl
  obtain ⟨rest, h1, h2, h3, h4, h5⟩ := cut_spec w d l 0 hpos
  refine ⟨val d l 0, rest, ?_, rfl, h5, fun h => ⟨cut_mm w d l rest _ 0 hpos (by omega) h h3 h4, fun y hy => ?_⟩⟩
  · unfold pop; simp only [h1, h2]
  · obtain ⟨k, hk, rfl⟩ := List.mem_iff_getElem.mp hy
    have := mm_min w d l h k hk
    unfold val at this ⊢
    rw [List.getElem?_eq_getElem hk] at this
    exact this

theorem popMax_spec {lt : E → E → Bool} (w : WeakOrder lt) (d : E) (l : List E) (hl : l ≠ []) :
    ∃ x rest, popMax lt l = some (x, rest) ∧ l.Perm (x :: rest) ∧ (IsMM lt d l → IsMM lt d rest ∧ ∀ y ∈ l, lt x y = false) := by
  have hpos : 0 < l.length := List.length_pos_iff.mpr hl
  have hi : indexOfMax lt l l.length < l.length := by
    unfold indexOfMax; split
    · omega
    · split <;> omega
  have hi2 : indexOfMax lt l l.length ≤ 2 := by
    unfold indexOfMax; split
    · omega
    · split <;> omega
  obtain ⟨rest, h1, h2, h3, h4, h5⟩ := cut_spec w d l _ hi
  refine ⟨val d l (indexOfMax lt l l.length), rest, ?_, h5, fun h => ⟨cut_mm w d l rest _ _ hi hi2 h h3 h4, fun y hy => ?_⟩⟩
  · unfold popMax; simp only [h1, h2]
  · obtain ⟨k, hk, rfl⟩ := List.mem_iff_getElem.mp hy
    have := mm_max w d l h k hk
    have e : val d l k = l[k] := by unfold val; rw [List.getElem?_eq_getElem hk]; rfl
    rwa [e] at this

/-- `Init` orders everything except the root. -/
theorem initLoop_order {lt : E → E → Bool} (w : WeakOrder lt) (d : E) : ∀ k (l : List E),
    Order lt isOnMinLevel (val d l) (k + 1) l.length (fun _ _ => False) →
    Order lt isOnMinLevel (val d (initLoop lt k l)) 1 l.length (fun _ _ => False) ∧ val d (initLoop lt k l) 0 = val d l 0 := by
  intro k
  induction k with
  | zero => intro l h; exact ⟨h, rfl⟩
  | succ k ih =>
    intro l h
    unfold initLoop
    have hd : Order lt isOnMinLevel (val d (down lt l (k + 1) l.length)) (k + 1) l.length (fun _ _ => False) := by
      apply down_order w d _ _ _ _ (Nat.le_refl _) (Nat.le_refl _)
      · intro g hg; omega
      · intro u x hu hx hp hui
        exact h u x (by omega) hx hp (fun h => h)
    have := ih (down lt l (k + 1) l.length) (by rw [down_length]; exact hd)
    rw [down_length] at this
    refine ⟨this.1, this.2.trans ?_⟩
    exact down_frame w d _ _ _ _ (Nat.le_refl _) (Or.inr (by omega))

theorem init_order {lt : E → E → Bool} (w : WeakOrder lt) (d : E) (l : List E) :
    Order lt isOnMinLevel (val d (init lt l)) 1 l.length (fun _ _ => False) ∧ val d (init lt l) 0 = val d l 0 := by
  apply initLoop_order w d
  intro u x hu hx hp _
  unfold Pair at hp; omega

/-- if the first element of the slice is a minimum, `Init` establishes the order. -/
theorem init_mm {lt : E → E → Bool} (w : WeakOrder lt) (d : E) (l : List E) (h : ∀ y ∈ l, lt y (val d l 0) = false) :
    IsMM lt d (init lt l) := by
  obtain ⟨h1, h2⟩ := init_order w d l
  have hlen := (init_perm lt l).length_eq
  intro u x hu hx hp _
  by_cases h0 : u = 0
  · subst h0
    unfold Dom
    rw [if_pos (by rfl), h2]
    apply h
    have : val d (init lt l) x ∈ init lt l := by
      unfold val; rw [List.getElem?_eq_getElem hx]; exact List.getElem_mem hx
    exact (init_perm lt l).subset this
  · exact h1 u x (by omega) (by omega) hp (fun h => h)

end Vectory.MMHeap
