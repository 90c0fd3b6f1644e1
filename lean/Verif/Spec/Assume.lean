import Verif.Model.Collection
/-!
# Assumptions that theorems make about the parameters of the model

None of them is an axiom: they are definitions, used as hypotheses, and each theorem that uses them has an example that
meets them.
-/
namespace Vectory
variable {V D : Type}

/-- `lt` is a strict weak order. True of `<` on `float32` as long as no NaN occurs. -/
structure Heap.WeakOrder {E : Type} (lt : E → E → Bool) : Prop where
  asymm : ∀ a b, lt a b = true → lt b a = false
  negTrans : ∀ a b c, lt b a = false → lt c b = false → lt c a = false

/-- the comparison of distances is a strict weak order. -/
abbrev Ord (lt : D → D → Bool) : Prop := Heap.WeakOrder lt

/-- `a ≤ b` in the order of distances. -/
def Le (lt : D → D → Bool) (a b : D) : Prop := lt b a = false

/-- index parameters under which the index code is free of panics (`C19` shows what happens outside). -/
structure CfgOK (cfg : Cfg) : Prop where
  m2 : 2 ≤ cfg.m
  mM : cfg.m ≤ cfg.mMax0
  efC : 1 ≤ cfg.efC
  ef : 1 ≤ cfg.ef
  small : cfg.mMax0 < 4294967296

/-- the distance function is defined on vectors of dimension `dim`. -/
def DimOK (M : Metric D) (dim : Nat) : Prop :=
  ∀ a b : Vec, a.length = dim → b.length = dim → ∃ d, M.dist a b = .ok d

/-- what is assumed of `encoding/json` on property maps: whatever it marshals it can read again (as an object), and the
text is shorter than 4 GiB (bitcask refuses values over 64 KiB by default). -/
structure JsonOK (js : Json V) : Prop where
  back : ∀ p b, js.marshal p = some b → b.length < 4294967296 ∧ ∃ p', js.unmarshal b = some p'

end Vectory
