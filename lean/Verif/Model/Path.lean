import Verif.Model.Basic
/-!
# Where the files of a collection are

`fmt.Sprintf("%s/%s", filesPath, name)` (`meta_manager.go:83,102`, `collection.go:47`) resolved by the operating system:
split at `/`, skip empty components and `.`, let `..` step up. Symbolic links are not modelled. An absolute path is its list
of components.
-/
namespace Vectory

/-- split at `/`. -/
def splitSlash : List Char → List (List Char)
  | [] => [[]]
  | c :: cs =>
    match splitSlash cs with
    | [] => [[c]]
    | p :: ps => if c = '/' then [] :: p :: ps else (c :: p) :: ps

/-- follow one component. -/
def followOne (at_ : List String) (comp : List Char) : List String :=
  if comp = [] ∨ comp = ['.'] then at_
  else if comp = ['.', '.'] then at_.dropLast
  else at_ ++ [String.ofList comp]

/-- the directory `filesPath/name`, for a data directory with components `data`. -/
def collectionDir (data : List String) (name : String) : List String := (splitSlash name.toList).foldl followOne data

/-- the files and directories a collection uses inside its directory (`store.go:11-12`, `idcounter.go:9`, `hnsw.go:45`). -/
def collectionFiles : List String := ["object_storage", "vectors_storage", "indexcounter", "index"]

/-- the metadata database (`meta_manager.go:27`). -/
def metadataFile (data : List String) : List String := data ++ ["metadata.db"]

end Vectory
