import Verif.Spec.Assume
/-!
# Which distances must be comparable

`float32`'s `<` is not a weak order on all bit patterns: NaN compares with nothing. The theorems about ranking therefore ask for a
weak order only on the distances that can occur in the call at hand.
-/
namespace Vectory
variable {V D : Type}

/-- `lt` is a strict weak order on the distances in `S`. -/
structure OrdOn (S : D → Prop) (lt : D → D → Bool) : Prop where
  asymm : ∀ a b, S a → S b → lt a b = true → lt b a = false
  negTrans : ∀ a b c, S a → S b → S c → lt b a = false → lt c b = false → lt c a = false

/-- `v` is a vector that the collection holds (also when its object was deleted: vectors are never removed). -/
def Coll.Holds (c : Coll) (v : Vec) : Prop := ∃ id, getVector c.stores id = .ok (some v)

/-- the distances of the vectors of `c` to `q` can be compared with each other. -/
def Ranks (L : Lib V D) (c : Coll) (q : Vec) : Prop :=
  OrdOn (fun d => ∃ v, c.Holds v ∧ L.metric.dist v q = .ok d) L.metric.lt

/-- the distances of the vectors of `c` to each other and to `q` can be compared with each other. -/
def RanksAll (L : Lib V D) (c : Coll) (q : Vec) : Prop :=
  OrdOn (fun d => ∃ v w, c.Holds v ∧ (c.Holds w ∨ w = q) ∧ L.metric.dist v w = .ok d) L.metric.lt

theorem OrdOn.mono {S T : D → Prop} {lt : D → D → Bool} (h : OrdOn T lt) (hs : ∀ d, S d → T d) : OrdOn S lt :=
  ⟨fun a b ha hb => h.asymm a b (hs a ha) (hs b hb), fun a b c ha hb hc => h.negTrans a b c (hs a ha) (hs b hb) (hs c hc)⟩

/-- where `lt` is a weak order on all distances, every query ranks. -/
theorem Heap.WeakOrder.on {lt : D → D → Bool} (w : Ord lt) (S : D → Prop) : OrdOn S lt :=
  ⟨fun a b _ _ => w.asymm a b, fun a b c _ _ _ => w.negTrans a b c⟩

theorem RanksAll.ranks {L : Lib V D} {c : Coll} {q : Vec} (h : RanksAll L c q) : Ranks L c q :=
  OrdOn.mono h (fun _ ⟨v, hv, hd⟩ => ⟨v, q, hv, Or.inr rfl, hd⟩)

end Vectory
