import Verif.Model.DiskIns
/-!
# `DiskAnn.Search` (`db/core/index/disk_ann/disk_ann.go:83-102`) beside running calls of `Insert` and `Delete`

`Search` takes no lock, neither that of `DiskAnn` nor that of a memory index (`memory_index.go:52`, "TODO: locking"). The steps of a search
are: the load of `da.rwIndex`, the reading of the start vertex of a part, each round of the loop over the candidates of a part, the
evaluation of `range da.roIndexes`, the final merge. Between any two of them other goroutines may make steps. One round (a candidate is taken,
its vertex and the vectors of its neighbours are read) is one step: the list of neighbours is read once, and vectors never change. An insertion
beside it is seen in the middle of its links, too (`World.Sees`). Data races beyond such interleavings are not modelled.
-/
namespace Vectory.DiskAnn
variable {D : Type}

/-- one round of the loop of `search` (`memory_index.go:64-94`); `none`: the loop ends. -/
def searchRound (M : Metric D) (g : Graph) (deleted : List UInt32) (q : Vec) (listSize : Nat) (st : SearchState D) :
    Except Panic (Option (SearchState D)) :=
  match MMHeap.pop (minLess M.lt) st.results with
  | none => .ok none
  | some (e, rest) =>
    if e.id.toUInt32 ∈ st.visited then .ok (some { st with results := rest })
    else do
      let v ← vertexAt g e.id
      let found := if v.objId ∈ deleted then st.found else st.found ++ [e]
      let results ← v.neighbors.foldlM (pushNeighbor M g q listSize) rest
      .ok (some { results := results, visited := e.id.toUInt32 :: st.visited, found := found })

/-- where a goroutine inside `DiskAnn.Search` is. -/
inductive SeekPC (D : Type) where
  /-- before `da.rwIndex` is loaded (`disk_ann.go:84`) -/
  | start
  /-- at the beginning of `search` on the part at position `p` (`memory_index.go:51-57`) -/
  | enter (p : Nat)
  /-- before a round of the loop of `search` on that part -/
  | loop (p : Nat) (st : SearchState D)
  /-- before the next part is taken (`disk_ann.go:86`), or the merge if there is none (`disk_ann.go:95-101`) -/
  | between
  | done (out : List (Elem D))
  | panicked

/-- the state of a search. -/
structure Seek (D : Type) where
  pc : SeekPC D := .start
  /-- the part loaded as `da.rwIndex` -/
  newest : Nat := 0
  /-- the number of read-only parts when `range da.roIndexes` was evaluated -/
  ros : Option Nat := none
  /-- the read-only parts not yet searched -/
  left : List Nat := []
  /-- `rwResults` -/
  acc : List (Elem D) := []

/-- one step of a search, with the parts as they are and the deletions made so far (`disk_ann.go:83-102`, `memory_index.go:51-109`). -/
def Seek.step (P : Params D) (q : Vec) (k : Nat) (da : DA) (del : List UInt32) (s : Seek D) : Seek D :=
  match s.pc with
  | .start => { s with pc := .enter da.rw, newest := da.rw }
  | .enter p =>
    match da.parts[p]? with
    | none => { s with pc := .panicked }
    | some mi =>
      match (do let sv ← vertexAt mi.graph mi.s
                if mi.wired = false then .error .nilDeref else P.metric.dist sv.vector q : Except Panic D) with
      | .error _ => { s with pc := .panicked }
      | .ok d => { s with pc := .loop p { results := MMHeap.init (minLess P.metric.lt) [{ id := mi.s, dist := d }], visited := [], found := [] } }
  | .loop p st =>
    match da.parts[p]? with
    | none => { s with pc := .panicked }
    | some mi =>
      match searchRound P.metric mi.graph del q P.listSize st with
      | .error _ => { s with pc := .panicked }
      | .ok (some st') => { s with pc := .loop p st' }
      | .ok none => { s with pc := .between, acc := s.acc ++ popK (minLess P.metric.lt) k (newMinHeap P.metric.lt st.found) }
  | .between =>
    match s.ros with
    | none => { s with ros := some da.rw, left := List.range da.rw }
    | some _ =>
      match s.left with
      | p :: left => { s with pc := .enter p, left := left }
      | [] =>
        match merge P.metric k s.acc with
        | .error _ => { s with pc := .panicked }
        | .ok out => { s with pc := .done out }
  | .done _ => s
  | .panicked => s

/-- rounds of the loop of `search` on one graph, each with the deletions of its own moment (`memory_index.go:64-94`). -/
inductive Rounds (M : Metric D) (g : Graph) (q : Vec) (listSize : Nat) : SearchState D → SearchState D → Prop where
  | refl (st : SearchState D) : Rounds M g q listSize st st
  | step {a b c : SearchState D} (del : List UInt32) : Rounds M g q listSize a b → searchRound M g del q listSize b = .ok (some c) →
      Rounds M g q listSize a c

/-- the neighbours `insert` computes for the new vertex, which is in the graph without links (`memory_index.go:145-147`), if deletions are made
while it searches. -/
structure Chosen (P : Params D) (mi : MemIndex) (vec : Vec) (id : UInt64) (ns : List UInt64) : Prop where
  ex : ∃ (sv : Vertex) (d : D) (st : SearchState D), vertexAt mi.graph mi.s = .ok sv ∧ P.metric.dist sv.vector vec = .ok d ∧
    Rounds P.metric mi.graph vec P.listSize { results := MMHeap.init (minLess P.metric.lt) [{ id := mi.s, dist := d }], visited := [], found := [] } st ∧
    st.results = [] ∧ robustPrune P.metric P.close mi.graph mi.maxDegree { id := id, vector := vec } st.found = .ok ns

/-- the graphs that somebody who takes no lock can meet while `insert` links the new vertex `id` (`memory_index.go:145-168`): the new vertex without
links, with its links and some of the links back, and, for the next link back, the list of the neighbour longer by one (it may exceed the
maximal degree) but not yet pruned. -/
inductive LinkView (P : Params D) (mi : MemIndex) (vec : Vec) (id : UInt64) : Graph → Prop where
  | before : LinkView P mi vec id mi.graph
  | between {pre post : List UInt64} {g : Graph} : Chosen P mi vec id (pre ++ post) →
      pre.foldlM (linkBack P.metric P.close mi.maxDegree id) (mi.graph.set id { id := id, vector := vec, neighbors := pre ++ post }) = .ok g →
      LinkView P mi vec id g
  | appended {pre post : List UInt64} {n : UInt64} {nb : Vertex} {g : Graph} : Chosen P mi vec id (pre ++ n :: post) →
      pre.foldlM (linkBack P.metric P.close mi.maxDegree id) (mi.graph.set id { id := id, vector := vec, neighbors := pre ++ n :: post }) = .ok g →
      vertexAt g n = .ok nb → LinkView P mi vec id (g.set n { nb with neighbors := nb.neighbors ++ [id] })

/-- what a search can meet in place of the parts: each part as it is, or, while a goroutine is linking a new vertex there, with the links made so
far. (`World.stepTask` makes all of them in one step at the end; a search may therefore meet other links than those the step makes.) -/
structure World.Sees (P : Params D) (w : World) (seen : DA) : Prop where
  len : seen.parts.length = w.da.parts.length
  part : ∀ (p : Nat) (mi : MemIndex), w.da.parts[p]? = some mi → ∃ g, seen.parts[p]? = some { mi with graph := g } ∧
    (g = mi.graph ∨ ∃ (i : Nat) (v : Vec) (id : UInt64), w.tasks[i]? = some (v, .added id p) ∧ LinkView P mi v id g)

/-- a search for the `k` nearest of `q` beside everything else; `dels` are the sets of deleted objects it may meet. -/
inductive Beside (P : Params D) (q : Vec) (k : Nat) (dels : List UInt32 → Prop) : World → Seek D → World → Seek D → Prop where
  | refl (w : World) (s : Seek D) : Beside P q k dels w s w s
  | other {w w' w'' : World} {s s' : Seek D} : Beside P q k dels w s w' s' → World.Step P w' w'' → Beside P q k dels w s w'' s'
  | seek {w w' : World} {s s' : Seek D} (del : List UInt32) (seen : DA) : Beside P q k dels w s w' s' → dels del → w'.Sees P seen →
      Beside P q k dels w s w' (s'.step P q k seen del)

end Vectory.DiskAnn
