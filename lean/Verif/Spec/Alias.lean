import Verif.Model.Alias
import Verif.Spec.History
/-!
# Histories in which callers go on using their slices
-/
namespace Vectory
variable {V D : Type}

/-- a call, or the caller writes into the slice of an object it inserted. -/
inductive SEv (V D : Type) where
  | call (op : Op V) (out : Out V D)
  | write (id : UInt64) (vec : Vec)

/-- `c` is what became of `c0` after the legal calls and the writes `h`. A write goes to the slice of an indexed object and keeps its
length. (In Go the caller holds only the slices of objects inserted since the collection was opened; here it may write to any.) -/
inductive Shared (L : Lib V D) (dim : Nat) (c0 : Coll) : List (SEv V D) → Coll → Prop where
  | nil : Shared L dim c0 [] c0
  | call {h : List (SEv V D)} {c c' : Coll} {op : Op V} {out : Out V D} : Shared L dim c0 h c → Legal dim c op →
      c.apply L op = .ok (c', out) → Shared L dim c0 (h ++ [.call op out]) c'
  | write {h : List (SEv V D)} {c : Coll} {id : UInt64} {v : Vertex} {vec : Vec} : Shared L dim c0 h c →
      c.index.nodes.get? id = some v → vec.length = v.vec.length → Shared L dim c0 (h ++ [.write id vec]) (c.write id vec)

/-- what the caller last wrote into the slice of `id` since the collection was opened; `none`: nothing. -/
def lastWrite (id : UInt64) : List (SEv V D) → Option Vec :=
  List.foldl (fun acc e =>
    match e with
    | .write x vec => if x = id then some vec else acc
    | .call .reopen _ => none
    | .call _ _ => acc) none

/-- the vector that the index uses for `id`: what the caller last wrote into its slice, otherwise the vector in the store. -/
def Current (h : List (SEv V D)) (c : Coll) (id : UInt64) (v : Vec) : Prop :=
  ∃ v0, getVector c.stores id = .ok (some v0) ∧ v = (lastWrite id h).getD v0

/-- the same calls with the same results, except that searches may answer differently; the writes of the first list are left out. -/
inductive SameCalls : List (SEv V D) → List (Op V × Out V D) → Prop where
  | nil : SameCalls [] []
  | write {h : List (SEv V D)} {g : List (Op V × Out V D)} {id : UInt64} {vec : Vec} : SameCalls h g →
      SameCalls (h ++ [.write id vec]) g
  | same {h : List (SEv V D)} {g : List (Op V × Out V D)} {op : Op V} {out : Out V D} : SameCalls h g →
      SameCalls (h ++ [.call op out]) (g ++ [(op, out)])
  | search {h : List (SEv V D)} {g : List (Op V × Out V D)} {o : Object V} {embed : Embed V} {k : Int}
      {r r' : Except Abort (SearchResult V D)} : SameCalls h g →
      SameCalls (h ++ [.call (.search o embed k) (.found r)]) (g ++ [(.search o embed k, .found r')])

end Vectory
