import Verif.Model.Collection
/-!
# The text2vec embedder (`db/embeddings/text2vec-huggingface.go`, `entities/objstore/object.go: FlatProperties`)

The HTTP service is an argument: the texts it is asked about, and its answer. `Model/Collection.lean` has what is done with the answer
(`assignVectors`).
-/
namespace Vectory

/-- how `fmt` prints a property value (`%v`), and which values are nil; parameters of the model. -/
structure Fmt (V : Type) where
  isNil : V → Bool
  render : V → String

/-- `FlatProperties` (`object.go:95-106`). `order`: the properties in the order in which Go's map yields them. -/
def flatProperties {V : Type} (F : Fmt V) (order : List (String × V)) : String :=
  order.foldl (fun res p => if F.isNil p.2 then res else res ++ (p.1 ++ ": " ++ F.render p.2 ++ ",")) ""

/-- the embedding service over HTTP: a list of texts, an error (no connection, a status other than 200, an answer that is not JSON of the
expected shape: `text2vec-huggingface.go:98-112`) or a list of vectors, `none` for a JSON null. -/
abbrev Service := List String → Except Err (List (Option Vec))

/-- `Embed` (`text2vec-huggingface.go:78-112`): one text per object, in order. `ord i o` is the order in which the map of the properties of
the `i`-th object is ranged over. Simplification: failures before the request (`:88-96`) are errors of the service. -/
def text2vec {V : Type} (F : Fmt V) (svc : Service) (ord : Nat → Object V → List (String × V)) : Embed V :=
  fun objs => svc (objs.zipIdx.map (fun p => flatProperties F (ord p.2 p.1)))

end Vectory
