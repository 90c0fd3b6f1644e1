import Verif.Model.Collection
/-!
# The search of a repaired program

Not the code of the repository: the same functions as in `Model/Hnsw.lean` and `Model/Collection.lean`, with the one change that
`MaxHeap.Peek` (`utils/heap.go:34-36`) returns the first cell of the heap array, the farthest result, instead of the last cell.
Used to say what the defect costs (`C22_with_peek`, `C24_with_peek`).
-/
namespace Vectory
variable {D : Type}

/-- repaired `Peek`: the root of the heap (`utils/heap.go:34-36` returns the last cell). -/
def Heap.root {E : Type} (l : List E) : Option E := l.head?

/-- repaired: one round of the inner loop (`search.go:82-106`). -/
def visitOneR (M : Metric D) (nodes : AMap UInt64 Vertex) (q : Vec) (ef : Nat) (s : SL D) (nid : UInt64) :
    Except Panic (SL D) :=
  if nid ∈ s.visited then .ok s
  else
    match Heap.root s.nn with
    | none => .error .indexOutOfRange
    | some f => do
      let nb ← nodeAt nodes nid
      let d ← M.dist nb.vec q
      if M.lt d f.dist = true ∨ s.nn.length < ef then
        let e : Elem D := { id := nid, dist := d }
        let cands := Heap.push (minLess M.lt) s.cands e
        let nn := Heap.push (maxLess M.lt) s.nn e
        if ef < nn.length then
          match Heap.pop (maxLess M.lt) nn with
          | none => .error .indexOutOfRange
          | some (_, nn') => .ok { visited := nid :: s.visited, cands := cands, nn := nn' }
        else .ok { visited := nid :: s.visited, cands := cands, nn := nn }
      else .ok { s with visited := nid :: s.visited }

/-- repaired: the outer loop (`search.go:65-107`). `connections[:n]` needs `n ≤ mMax0`, the capacity allocated at
`search.go:63`. -/
def searchLoopR (M : Metric D) (nodes : AMap UInt64 Vertex) (mMax0 : Nat) (q : Vec) (ef level : Nat) :
    Nat → SL D → Except Panic (SL D)
  | 0, _ => .error .outOfFuel
  | fuel + 1, s =>
    match Heap.pop (minLess M.lt) s.cands with
    | none => .ok s
    | some (c, rest) =>
      match Heap.root s.nn with
      | none => .error .indexOutOfRange
      | some f =>
        if M.lt f.dist c.dist = true then .ok { s with cands := rest }
        else do
          let cv ← nodeAt nodes c.id
          let conns ← cv.connsAt level
          if mMax0 < conns.length then .error .sliceBounds
          else do
            let s' ← conns.foldlM (visitOneR M nodes q ef) { s with cands := rest }
            searchLoopR M nodes mMax0 q ef level fuel s'

/-- repaired: `searchLayerR` (`search.go:55-110`): returns the raw array of the max-heap. The fuel is one more than the
number of candidates that can ever be pushed. -/
def searchLayerR (M : Metric D) (nodes : AMap UInt64 Vertex) (mMax0 : Nat) (q : Vec) (eps : List (Elem D))
    (ef level : Nat) : Except Panic (List (Elem D)) :=
  if ef + 1 < eps.length then .error .makeLen
  else do
    let s ← searchLoopR M nodes mMax0 q ef level (nodes.length + eps.length + 1)
      { visited := eps.map Elem.id, cands := newMinHeap M.lt eps, nn := newMaxHeap M.lt eps }
    .ok s.nn

/-- repaired: the lookup phase (`insert.go:62-65`; also `search.go:28-31`): greedy descent with `ef = 1` through the
layers `from, from-1, …, to+1`. `n` is the number of layers left. -/
def descendR (M : Metric D) (nodes : AMap UInt64 Vertex) (mMax0 : Nat) (q : Vec) (to : Nat) :
    Nat → List (Elem D) → Except Panic (List (Elem D))
  | 0, eps => .ok eps
  | n + 1, eps => do
    let nns ← searchLayerR M nodes mMax0 q eps 1 (to + n + 1)
    match nns with
    | [] => .error .indexOutOfRange
    | e :: _ => descendR M nodes mMax0 q to n [e]

/-- repaired: `Hnsw.Search` (`search.go:8-53`). `make([]utils.Element, 0, k)` panics for negative `k`. -/
def Hnsw.searchR (M : Metric D) (h : Hnsw) (q : Vec) (k : Int) : Except Panic (List (Elem D)) :=
  if k < 0 then .error .makeLen
  else do
    let epv ← nodeAt h.nodes h.entry
    let d ← M.dist epv.vec q
    let eps ← descendR M h.nodes h.cfg.mMax0 q 0 h.maxLayer [{ id := h.entry, dist := d }]
    let nns ← searchLayerR M h.nodes h.cfg.mMax0 q eps h.cfg.ef 0
    let heap := newMinHeap M.lt nns
    .ok (takeLive M h.deleted heap.length k.toNat heap)

/-- repaired: `Collection.SemanticSearch` (`collection_get.go:37-77`). -/
def Coll.semanticSearchR (L : Lib V D) (c : Coll) (o : Object V) (embed : Embed V) (k : Int) :
    Except Abort (SearchResult V D) :=
  if c.closed then .error (.error .collectionClosed)
  else do
    let r ← liftPanic (embedObjectsIfNeeded c embed [o])
    match r with
    | .error e => .error (.error e)
    | .ok [] => .error (.error .io)
    | .ok (o :: _) => do
      let results ← liftPanic (c.index.searchR L.metric (o.vec.getD []) k)
      let objs ← getObjects L.json c.stores (results.map Elem.id)
      let hits ← liftPanic (pairHits results objs)
      .ok { hits := results.length, objects := hits }

end Vectory
