import Verif.Spec.History
/-! # The vectors that callers handed in -/
namespace Vectory
variable {V D : Type}

/-- the vectors of the objects of an insert call, as the caller holds them afterwards (an object without a vector has then received one
from the embedding service). -/
def given : Op V × Out V D → List Vec
  | (.insert _ _ _ _, .inserted o _) => [o.vec.getD []]
  | (.insertBatch _ _ _ _, .insertedBatch os _) => os.map (fun o => o.vec.getD [])
  | _ => []

end Vectory
