import Verif.Spec.Linear
/-! Keeping the books of a linearization. -/
namespace Vectory.Conc
open Vectory
variable {V D : Type}

def Call.op : Call V D → LOp V
  | .invoked op => op
  | .sawObj id df ff _ => .delete id df ff
  | .waiting id df ff => .delete id df ff
  | .running op => op
  | .finished op _ => op
  | .returned op _ => op

def Call.out? : Call V D → Option (LOut V D)
  | .finished _ out => some out
  | .returned _ out => some out
  | _ => none

/-- has the call returned to its caller? -/
def Call.back : Call V D → Prop
  | .returned _ _ => True
  | _ => False

/-- `S` is the order chosen so far; `d` is the running call, if any, that already has its place in it. -/
structure Book (H : List (LEv V D)) (calls : List (Call V D)) (S : List (Nat × LOp V × LOut V D)) (d : Option Nat) : Prop where
  once : (S.map Prod.fst).Nodup
  mem : ∀ n op out, (n, op, out) ∈ S → ∃ x : Call V D, calls[n]? = some x ∧ x.op = op ∧
    (x.out? = some out ∨ x.out? = none ∧ d = some n)
  fin : ∀ (n : Nat) (x : Call V D) (out : LOut V D), calls[n]? = some x → x.out? = some out → (n, x.op, out) ∈ S
  began : ∀ n op, LEv.call n op ∈ H ↔ ∃ x : Call V D, calls[n]? = some x ∧ x.op = op
  ended : ∀ n out, LEv.ret n out ∈ H ↔ ∃ x : Call V D, calls[n]? = some x ∧ x.back ∧ x.out? = some out
  order : ∀ H1 H2 a b op out, H = H1 ++ LEv.call b op :: H2 → LEv.ret a out ∈ H1 →
    ∀ S1 S2 x, S = S1 ++ (b, x) :: S2 → a ∈ S1.map Prod.fst

theorem Book.start : Book ([] : List (LEv V D)) [] [] none :=
  ⟨by simp, by simp, by simp, by simp, by simp, fun H1 H2 _ _ _ _ h => by simp at h⟩

theorem snoc_split {A : Type} {l l1 l2 : List A} {x y : A} (h : l ++ [x] = l1 ++ y :: l2) :
    (l1 = l ∧ y = x ∧ l2 = []) ∨ ∃ l3, l2 = l3 ++ [x] ∧ l = l1 ++ y :: l3 := by
  rcases List.eq_nil_or_concat l2 with rfl | ⟨l3, z, rfl⟩
  · left
    have := List.append_inj' h rfl
    simp only [List.cons.injEq, and_true] at this
    exact ⟨this.1.symm, this.2.symm, rfl⟩
  · right
    rw [List.concat_eq_append] at h ⊢
    rw [← List.cons_append, ← List.append_assoc] at h
    have := List.append_inj' h rfl
    simp only [List.cons.injEq, and_true] at this
    exact ⟨l3, by rw [this.2], this.1⟩

theorem Book.call {H : List (LEv V D)} {calls : List (Call V D)} {S : List (Nat × LOp V × LOut V D)} {d : Option Nat}
    (k : Book H calls S d) (op : LOp V) : Book (H ++ [.call calls.length op]) (calls ++ [.invoked op]) S d := by
  have get : ∀ (n : Nat) (x : Call V D), (calls ++ [.invoked op])[n]? = some x ↔ calls[n]? = some x ∨ n = calls.length ∧ x = .invoked op := by
    intro n x
    rcases Nat.lt_trichotomy n calls.length with h | h | h
    · rw [List.getElem?_append_left h]
      constructor
      · exact Or.inl
      · rintro (h1 | ⟨rfl, _⟩)
        · exact h1
        · omega
    · subst h
      simp [eq_comm]
    · rw [List.getElem?_eq_none (by simp; omega), List.getElem?_eq_none (by omega)]
      simp; omega
  refine ⟨k.once, ?_, ?_, ?_, ?_, ?_⟩
  · intro n op' out h
    obtain ⟨x, h1, h2⟩ := k.mem n op' out h
    exact ⟨x, (get n x).mpr (Or.inl h1), h2⟩
  · intro n x out h1 h2
    rcases (get n x).mp h1 with h | ⟨rfl, rfl⟩
    · exact k.fin n x out h h2
    · cases h2
  · intro n op'
    simp only [List.mem_append, k.began, List.mem_singleton, LEv.call.injEq]
    constructor
    · rintro (⟨x, h1, h2⟩ | ⟨rfl, rfl⟩)
      · exact ⟨x, (get n x).mpr (Or.inl h1), h2⟩
      · exact ⟨_, (get _ _).mpr (Or.inr ⟨rfl, rfl⟩), rfl⟩
    · rintro ⟨x, h1, h2⟩
      rcases (get n x).mp h1 with h | ⟨rfl, rfl⟩
      · exact Or.inl ⟨x, h, h2⟩
      · exact Or.inr ⟨rfl, h2.symm⟩
  · intro n out
    simp only [List.mem_append, k.ended, List.mem_singleton, reduceCtorEq, or_false]
    constructor
    · rintro ⟨x, h1, h2⟩; exact ⟨x, (get n x).mpr (Or.inl h1), h2⟩
    · rintro ⟨x, h1, h2⟩
      rcases (get n x).mp h1 with h | ⟨rfl, rfl⟩
      · exact ⟨x, h, h2⟩
      · exact h2.1.elim
  · intro H1 H2 a b op' out h hr S1 S2 x hS
    rcases snoc_split h with ⟨rfl, e, _⟩ | ⟨H3, _, h'⟩
    · cases e
      obtain ⟨y, hy, _⟩ := k.mem calls.length x.1 x.2 (by rw [hS]; simp)
      rw [List.getElem?_eq_none (Nat.le_refl _)] at hy; cases hy
    · exact k.order H1 H3 a b op' out h' hr S1 S2 x hS

theorem set_get' {A : Type} {l : List A} {n m : Nat} {x y x0 : A} (h0 : l[n]? = some x0) :
    (l.set n x)[m]? = some y ↔ (m = n ∧ y = x) ∨ (m ≠ n ∧ l[m]? = some y) := by
  by_cases h : m = n
  · subst h
    have : m < l.length := (List.getElem?_eq_some_iff.mp h0).1
    simp [this, eq_comm]
  · simp [h, Ne.symm h]

section
variable {H : List (LEv V D)} {calls : List (Call V D)} {S : List (Nat × LOp V × LOut V D)} {d : Option Nat}

theorem Book.ret (k : Book H calls S d) {n : Nat} {op : LOp V} {out : LOut V D} (h : calls[n]? = some (.finished op out)) :
    Book (H ++ [.ret n out]) (calls.set n (.returned op out)) S d := by
  refine ⟨k.once, ?_, ?_, ?_, ?_, ?_⟩
  · intro m op' out' hm
    obtain ⟨x, h1, h2, h3⟩ := k.mem m op' out' hm
    by_cases e : m = n
    · subst e
      rw [h] at h1; cases h1
      exact ⟨_, (set_get' h).mpr (Or.inl ⟨rfl, rfl⟩), h2, h3⟩
    · exact ⟨x, (set_get' h).mpr (Or.inr ⟨e, h1⟩), h2, h3⟩
  · intro m x out' h1 h2
    rcases (set_get' h).mp h1 with ⟨rfl, rfl⟩ | ⟨_, h3⟩
    · exact k.fin _ (.finished op out) out' h h2
    · exact k.fin m x out' h3 h2
  · intro m op'
    simp only [List.mem_append, k.began, List.mem_singleton, reduceCtorEq, or_false]
    constructor
    · rintro ⟨x, h1, h2⟩
      by_cases e : m = n
      · subst e
        rw [h] at h1; cases h1
        exact ⟨_, (set_get' h).mpr (Or.inl ⟨rfl, rfl⟩), h2⟩
      · exact ⟨x, (set_get' h).mpr (Or.inr ⟨e, h1⟩), h2⟩
    · rintro ⟨x, h1, h2⟩
      rcases (set_get' h).mp h1 with ⟨rfl, rfl⟩ | ⟨_, h3⟩
      · exact ⟨_, h, h2⟩
      · exact ⟨x, h3, h2⟩
  · intro m out'
    simp only [List.mem_append, k.ended, List.mem_singleton, LEv.ret.injEq]
    constructor
    · rintro (⟨x, h1, h2, h3⟩ | ⟨rfl, rfl⟩)
      · by_cases e : m = n
        · subst e
          rw [h] at h1; cases h1
          exact h2.elim
        · exact ⟨x, (set_get' h).mpr (Or.inr ⟨e, h1⟩), h2, h3⟩
      · exact ⟨_, (set_get' h).mpr (Or.inl ⟨rfl, rfl⟩), trivial, rfl⟩
    · rintro ⟨x, h1, h2, h3⟩
      rcases (set_get' h).mp h1 with ⟨rfl, rfl⟩ | ⟨_, h4⟩
      · cases h3; exact Or.inr ⟨rfl, rfl⟩
      · exact Or.inl ⟨x, h4, h2, h3⟩
  · intro H1 H2 a b op' out' h hr S1 S2 x hS
    rcases snoc_split h with ⟨_, e, _⟩ | ⟨H3, _, h'⟩
    · cases e
    · exact k.order H1 H3 a b op' out' h' hr S1 S2 x hS

/-- a call that has no place yet is not in the order. -/
theorem Book.absent (k : Book H calls S d) {n : Nat} {x : Call V D} (h : calls[n]? = some x) (ho : x.out? = none) (hd : d ≠ some n) :
    n ∉ S.map Prod.fst := by
  intro hm
  obtain ⟨⟨m, op, out⟩, hp, rfl⟩ := List.mem_map.mp hm
  obtain ⟨y, h1, _, h3⟩ := k.mem _ _ _ hp
  rw [h] at h1; cases h1
  rcases h3 with h3 | ⟨_, h3⟩
  · rw [ho] at h3; cases h3
  · exact hd h3

/-- the calls and the events, after a call has moved. -/
theorem Book.moved (k : Book H calls S d) {n : Nat} {x x' : Call V D} (h : calls[n]? = some x) (hop : x'.op = x.op)
    (hb : ¬ x.back) (hb' : ¬ x'.back) :
    (∀ m op, LEv.call m op ∈ H ↔ ∃ y : Call V D, (calls.set n x')[m]? = some y ∧ y.op = op) ∧
    (∀ m out, LEv.ret m out ∈ H ↔ ∃ y : Call V D, (calls.set n x')[m]? = some y ∧ y.back ∧ y.out? = some out) := by
  refine ⟨fun m op => ?_, fun m out => ?_⟩
  · rw [k.began]
    constructor
    · rintro ⟨y, h1, h2⟩
      by_cases e : m = n
      · subst e
        rw [h] at h1; cases h1
        exact ⟨_, (set_get' h).mpr (Or.inl ⟨rfl, rfl⟩), hop.trans h2⟩
      · exact ⟨y, (set_get' h).mpr (Or.inr ⟨e, h1⟩), h2⟩
    · rintro ⟨y, h1, h2⟩
      rcases (set_get' h).mp h1 with ⟨rfl, rfl⟩ | ⟨_, h3⟩
      · exact ⟨_, h, hop.symm.trans h2⟩
      · exact ⟨y, h3, h2⟩
  · rw [k.ended]
    constructor
    · rintro ⟨y, h1, h2, h3⟩
      by_cases e : m = n
      · subst e
        rw [h] at h1; cases h1
        exact absurd h2 hb
      · exact ⟨y, (set_get' h).mpr (Or.inr ⟨e, h1⟩), h2, h3⟩
    · rintro ⟨y, h1, h2, h3⟩
      rcases (set_get' h).mp h1 with ⟨rfl, rfl⟩ | ⟨_, h4⟩
      · exact absurd h2 hb'
      · exact ⟨y, h4, h2, h3⟩

theorem Book.orderSnoc (k : Book H calls S d) {n : Nat} {p : LOp V × LOut V D} :
    ∀ H1 H2 a b op out, H = H1 ++ LEv.call b op :: H2 → LEv.ret a out ∈ H1 →
      ∀ S1 S2 x, S ++ [(n, p)] = S1 ++ (b, x) :: S2 → a ∈ S1.map Prod.fst := by
  intro H1 H2 a b op out h hr S1 S2 x hS
  rcases snoc_split hS with ⟨rfl, e, _⟩ | ⟨S3, _, h'⟩
  · obtain ⟨y, h1, _, h3⟩ := (k.ended a out).mp (by rw [h]; exact List.mem_append_left _ hr)
    exact List.mem_map.mpr ⟨_, k.fin a y out h1 h3, rfl⟩
  · exact k.order H1 H2 a b op out h hr S1 S3 x h'

/-- a call goes on without a result. -/
theorem Book.quiet (k : Book H calls S d) {n : Nat} {x x' : Call V D} (h : calls[n]? = some x) (hop : x'.op = x.op)
    (ho : x.out? = none) (ho' : x'.out? = none) (hb : ¬ x.back) (hb' : ¬ x'.back) : Book H (calls.set n x') S d := by
  obtain ⟨m1, m2⟩ := k.moved h hop hb hb'
  refine ⟨k.once, ?_, ?_, m1, m2, k.order⟩
  · intro m op out hm
    obtain ⟨y, h1, h2, h3⟩ := k.mem m op out hm
    by_cases e : m = n
    · subst e
      rw [h] at h1; cases h1
      refine ⟨_, (set_get' h).mpr (Or.inl ⟨rfl, rfl⟩), hop.trans h2, ?_⟩
      rcases h3 with h3 | h3
      · rw [ho] at h3; cases h3
      · exact Or.inr ⟨ho', h3.2⟩
    · exact ⟨y, (set_get' h).mpr (Or.inr ⟨e, h1⟩), h2, h3⟩
  · intro m y out h1 h2
    rcases (set_get' h).mp h1 with ⟨rfl, rfl⟩ | ⟨_, h3⟩
    · rw [ho'] at h2; cases h2
    · exact k.fin m y out h3 h2

/-- a call is given its place; it has its result, or it is the running call of `d'`. -/
theorem Book.lin (k : Book H calls S d) {n : Nat} {x x' : Call V D} {out : LOut V D} {d' : Option Nat} (h : calls[n]? = some x)
    (hop : x'.op = x.op) (ho : x.out? = none) (hd : d ≠ some n) (hb : ¬ x.back) (hb' : ¬ x'.back)
    (hx : (x'.out? = some out ∧ d' = d) ∨ (x'.out? = none ∧ d = none ∧ d' = some n)) :
    Book H (calls.set n x') (S ++ [(n, x.op, out)]) d' := by
  obtain ⟨m1, m2⟩ := k.moved h hop hb hb'
  have hn := k.absent h ho hd
  refine ⟨?_, ?_, ?_, m1, m2, k.orderSnoc⟩
  · rw [List.map_append, List.nodup_append]
    refine ⟨k.once, by simp, ?_⟩
    intro a ha b hb e
    simp only [List.map_cons, List.map_nil, List.mem_singleton] at hb
    subst hb; subst e; exact hn ha
  · intro m op out' hm
    rcases List.mem_append.mp hm with hm | hm
    · obtain ⟨y, h1, h2, h3⟩ := k.mem m op out' hm
      have e : m ≠ n := fun e => hn (List.mem_map.mpr ⟨(m, op, out'), hm, e⟩)
      refine ⟨y, (set_get' h).mpr (Or.inr ⟨e, h1⟩), h2, ?_⟩
      rcases h3 with h3 | h3
      · exact Or.inl h3
      · rcases hx with hx | hx
        · exact Or.inr ⟨h3.1, by rw [hx.2]; exact h3.2⟩
        · rw [hx.2.1] at h3; exact nomatch h3.2
    · simp only [List.mem_singleton, Prod.mk.injEq] at hm
      obtain ⟨rfl, rfl, rfl⟩ := hm
      refine ⟨x', (set_get' h).mpr (Or.inl ⟨rfl, rfl⟩), hop, ?_⟩
      rcases hx with hx | hx
      · exact Or.inl hx.1
      · exact Or.inr ⟨hx.1, hx.2.2⟩
  · intro m y out' h1 h2
    rcases (set_get' h).mp h1 with ⟨rfl, rfl⟩ | ⟨_, h3⟩
    · rcases hx with hx | hx
      · rw [hx.1] at h2; cases h2
        rw [hop]; simp
      · rw [hx.1] at h2; cases h2
    · exact List.mem_append_left _ (k.fin m y out' h3 h2)

/-- the running call of `d` gets its result. -/
theorem Book.unlock (k : Book H calls S d) {n : Nat} {x x' : Call V D} {out : LOut V D} (h : calls[n]? = some x)
    (hop : x'.op = x.op) (hb : ¬ x.back) (hb' : ¬ x'.back) (ho' : x'.out? = some out) (hm : (n, x.op, out) ∈ S) (hd : d = some n) :
    Book H (calls.set n x') S none := by
  obtain ⟨m1, m2⟩ := k.moved h hop hb hb'
  refine ⟨k.once, ?_, ?_, m1, m2, k.order⟩
  · intro m op out' hm'
    obtain ⟨y, h1, h2, h3⟩ := k.mem m op out' hm'
    by_cases e : m = n
    · subst e
      have : (x.op, out) = (op, out') := by
        have hnd := k.once
        clear m1 m2 k
        induction S with
        | nil => cases hm
        | cons p S ih =>
          simp only [List.map_cons, List.nodup_cons] at hnd
          rcases List.mem_cons.mp hm with rfl | hm1 <;> rcases List.mem_cons.mp hm' with e2 | hm2
          · cases e2; rfl
          · exact absurd (List.mem_map.mpr ⟨_, hm2, rfl⟩) hnd.1
          · subst e2; exact absurd (List.mem_map.mpr ⟨_, hm1, rfl⟩) hnd.1
          · exact ih hm2 hm1 hnd.2
      cases this
      exact ⟨x', (set_get' h).mpr (Or.inl ⟨rfl, rfl⟩), hop, Or.inl ho'⟩
    · refine ⟨y, (set_get' h).mpr (Or.inr ⟨e, h1⟩), h2, ?_⟩
      rcases h3 with h3 | h3
      · exact Or.inl h3
      · rw [hd] at h3
        exact absurd (Option.some.inj h3.2).symm e
  · intro m y out' h1 h2
    rcases (set_get' h).mp h1 with ⟨rfl, rfl⟩ | ⟨_, h3⟩
    · rw [ho'] at h2; cases h2
      rw [hop]; exact hm
    · exact k.fin m y out' h3 h2

end

end Vectory.Conc
