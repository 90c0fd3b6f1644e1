/-!
# Specification of a min-max heap (no model helpers)

A binary tree in an array: the children of cell `u` are the cells `2u+1` and `2u+2`.
-/
namespace Vectory.Spec

/-- `w` is below `u`. -/
inductive Below : Nat → Nat → Prop where
  | left (u : Nat) : Below u (2 * u + 1)
  | right (u : Nat) : Below u (2 * u + 2)
  | trans {u v w : Nat} : Below u v → Below v w → Below u w

/-- the depth of a cell: the root has depth 0. -/
def depth : Nat → Nat
  | 0 => 0
  | i + 1 => depth (i / 2) + 1
decreasing_by omega

/-- every element at an even depth is a minimum of what is below it, every element at an odd depth a maximum. -/
def MinMax {E : Type} (lt : E → E → Bool) (l : List E) : Prop :=
  ∀ u w a b, Below u w → l[u]? = some a → l[w]? = some b → if depth u % 2 = 0 then lt b a = false else lt a b = false

/-- is `x` on the wrong side of the element `p` above it, seen from a cell at this depth? (At an even depth the cell's parent is a
maximum, at an odd depth a minimum.) -/
def beyond {E : Type} (lt : E → E → Bool) (dep : Nat) (p x : E) : Bool := if dep % 2 = 0 then lt p x else lt x p

end Vectory.Spec
