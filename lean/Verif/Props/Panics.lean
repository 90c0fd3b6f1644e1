import Verif.Lemmas.Terminate
import Verif.Props.Search
/-! # Termination and panics: C19, C20 -/
namespace Vectory
variable {V D : Type}

/-! ## C20 -/

/-- C20: on every graph whatsoever (well formed or not), the search loop of one layer finishes within as many rounds as there
are indexed vectors and entry points: allowing it any further rounds gives the same result, and that result is not "still
running". (A distance function of Go cannot run out of the model's fuel: `hM`.) -/
theorem C20_search_loop_bound (M : Metric D) (hM : ∀ a b, M.dist a b ≠ .error .outOfFuel) (nodes : AMap UInt64 Vertex)
    (mMax0 : Nat) (q : Vec) (eps : List (Elem D)) (ef level extra : Nat) :
    let start : SL D := { visited := eps.map Elem.id, cands := newMinHeap M.lt eps, nn := newMaxHeap M.lt eps }
    searchLoop M nodes mMax0 q ef level (nodes.length + eps.length + 1) start ≠ .error .outOfFuel ∧
    searchLoop M nodes mMax0 q ef level (nodes.length + eps.length + 1 + extra) start =
      searchLoop M nodes mMax0 q ef level (nodes.length + eps.length + 1) start := by
  intro start
  have hp : (newMinHeap M.lt eps).length = eps.length := (Heap.init_perm _ _).length_eq
  have := unvisited_le nodes (eps.map Elem.id)
  have h1 := searchLoop_fuel M nodes mMax0 q ef level hM (nodes.length + eps.length + 1) start (by
    simp only [SL.work, start, hp]; omega)
  exact ⟨h1, searchLoop_more M nodes mMax0 q ef level _ extra start h1⟩

/-- C20: hence every search and every insert finishes, on every index, for every query, vector, level and `k`. -/
theorem C20_search_and_insert_finish (M : Metric D) (hM : ∀ a b, M.dist a b ≠ .error .outOfFuel) (h : Hnsw) (q : Vec) (k : Int)
    (id : UInt64) (level : Nat) :
    h.search M q k ≠ .error .outOfFuel ∧ h.insert M q id level ≠ .error .outOfFuel :=
  ⟨search_fuel M hM h q k, insert_fuel M hM h q id level⟩

/-- C20: the other loops whose Go form is `for cond` also stop on their own before the bound used in the model: sifting up and
down in the heap, taking hits, choosing neighbours. -/
theorem C20_inner_loops {E : Type} (lt : E → E → Bool) (l : List E) (i j n extra : Nat) (M : Metric D) (del : List UInt64) (k m : Nat)
    (heap : List (Elem D)) (nodes : AMap UInt64 Vertex) (res : List UInt64) :
    Heap.upFuel lt (j + extra) l j = Heap.up lt l j ∧
    Heap.downFuel lt (n + extra) l i n = Heap.down lt l i n ∧
    takeLive M del (heap.length + extra) k heap = takeLive M del heap.length k heap ∧
    heuristicLoop M nodes m (heap.length + extra) heap res = heuristicLoop M nodes m heap.length heap res :=
  ⟨upFuel_more lt j l j extra (Nat.le_refl _), downFuel_more lt n l i n extra (by omega),
    takeLive_more M del heap.length k heap extra (Nat.le_refl _), heuristicLoop_more M nodes m heap.length heap res extra (Nat.le_refl _)⟩

-- the distance functions of the code meet `hM`
example (o : FloatOps) (a b : Vec) : euclideanDistance o a b ≠ .error .outOfFuel ∧ dot o a b ≠ .error .outOfFuel := by
  have he : ∀ (a b : Vec) (acc : F32), euclidLoop o acc a b ≠ .error .outOfFuel := by
    intro a
    induction a with
    | nil => intro b acc; simp [euclidLoop]
    | cons x a ih => intro b acc; cases b with
      | nil => simp [euclidLoop]
      | cons y b => exact ih b _
  have hd : ∀ (n : Nat) (a b : Vec) (acc : F32), a.length ≤ n → dotLoop o acc a b ≠ .error .outOfFuel := by
    intro n
    induction n using Nat.strongRecOn with
    | ind n ih =>
      intro a b acc hn
      unfold dotLoop
      split
      · simp
      · exact ih (n - 8) (by simp at hn; omega) _ _ _ (by simp at hn; omega)
      · simp
  refine ⟨?_, hd a.length a b _ (Nat.le_refl _)⟩
  unfold euclideanDistance
  have := he a b o.zero
  split
  · simp
  · rename_i p hp; rw [hp] at this; exact this

/-! ## C19 -/

theorem w19_no_panic_partial (L : Lib V D) (dim : Nat) (c : Coll) {S : Prop} (i : WInv S L dim (fun _ => False) c) :
    (∀ op : Op V, Legal dim c op → ∃ c' out, c.apply L op = .ok (c', out)) ∧
    (∀ (o : Object V) (embed : Embed V) (k : Int) (p : Panic), EmbedOK c embed dim [o] → 0 ≤ k → c.index.nodes ≠ [] →
      c.semanticSearch L o embed k ≠ .error (.panic p)) ∧
    (∀ (ids : List UInt64) (p : Panic), c.get L ids ≠ .error (.panic p)) := by
  refine ⟨fun op hl => ?_, fun o embed k p he hk hne => ?_, fun ids p => ?_⟩
  · obtain ⟨c', out, h, _⟩ := apply_spec i op hl
    exact ⟨c', out, h⟩
  · cases hc : c.closed with
    | true => unfold Coll.semanticSearch; rw [hc]; simp
    | false =>
      obtain ⟨r, h1, h2⟩ := he
      cases r with
      | error e => unfold Coll.semanticSearch; rw [hc, h1]; simp [liftPanic, bind, Except.bind]
      | ok os =>
        have hlen := embed_length h1
        match os, hlen with
        | [o1], _ =>
          obtain ⟨es, r, _, h3, _⟩ := coll_search i hc hne h1 (h2 _ rfl o1 (by simp)) hk
          rw [h3]; simp
  · unfold Coll.get
    split
    · simp
    · induction ids with
      | nil => simp [getObjects]
      | cons id ids ih =>
        unfold getObjects
        obtain ⟨r, hr, _⟩ := getObject_eq i id
        rw [hr]
        dsimp only
        cases hg : getObjects L.json c.stores ids with
        | error a => rw [hg] at ih; simpa using ih
        | ok os => cases r <;> simp


/-- C19: in every state reached by legal calls on a collection with `2 ≤ m ≤ 2*m_max`, every legal call
returns normally, and a search on a collection that has ever indexed a vector, with `k ≥ 0`, does not panic.
Outside that - empty collections, `k < 0`, vectors of another dimension, `m = 1`, `m > 2*m_max`, `dot_product` with a dimension that is not
a multiple of 8 - the code does panic: see the theorems below, and `C19_search_exact` for exactly when a search does. -/
theorem C19_no_panic (L : Lib V D) (dim : Nat) (c : Coll) (hr : Reach L dim c) :
    (∀ op : Op V, Legal dim c op → ∃ c' out, c.apply L op = .ok (c', out)) ∧
    (∀ (o : Object V) (embed : Embed V) (k : Int) (p : Panic), EmbedOK c embed dim [o] → 0 ≤ k → c.index.nodes ≠ [] →
      c.semanticSearch L o embed k ≠ .error (.panic p)) ∧
    (∀ (ids : List UInt64) (p : Panic), c.get L ids ≠ .error (.panic p)) :=
  w19_no_panic_partial L dim c hr.inv

example : Reach demoLib 1 (demoState demoCfg c16Ops) ∧ (demoState demoCfg c16Ops).index.nodes.length = 6 :=
  ⟨demo_reach _, by decide +kernel⟩

/-- C19 is false, 1: searching a collection into which nothing was ever inserted is a nil dereference, whatever the
configuration, the query and `k ≥ 0`. -/
theorem C19_empty_collection (L : Lib V D) (cfg : Cfg) (ms : List String) (o : Object V) (embed : Embed V) (v : Vec)
    (hv : o.vec = some v) (k : Int) (hk : 0 ≤ k) :
    (Coll.new cfg ms false).semanticSearch L o embed k = .error (.panic .nilDeref) := by
  unfold Coll.semanticSearch
  rw [if_neg (by simp [Coll.new])]
  have : embedObjectsIfNeeded (Coll.new cfg ms false) embed [o] = .ok (.ok [o]) := by
    unfold embedObjectsIfNeeded; simp [Coll.new, hv]
  rw [this]
  simp only [liftPanic, ok_bind]
  unfold Hnsw.search
  rw [if_neg (by omega)]
  rfl

/-- C19 is false, 2: a negative `k` panics, in every open collection. -/
theorem C19_negative_k (L : Lib V D) (c : Coll) (hc : c.closed = false) (he : c.hasEmbedder = false) (o : Object V) (embed : Embed V)
    (v : Vec) (hv : o.vec = some v) (k : Int) (hk : k < 0) : c.semanticSearch L o embed k = .error (.panic .makeLen) := by
  unfold Coll.semanticSearch
  rw [if_neg (by simp [hc])]
  have : embedObjectsIfNeeded c embed [o] = .ok (.ok [o]) := by
    unfold embedObjectsIfNeeded; simp [he, hv]
  rw [this]
  simp only [liftPanic, ok_bind]
  unfold Hnsw.search
  rw [if_pos hk]
  rfl

/-- C19 is false, 3: with `m = 1`, which the validator accepts, every insert into a non-empty index panics. -/
theorem C19_m_is_one (M : Metric D) (h : Hnsw) (hm : h.cfg.m = 1) (hne : h.nodes ≠ []) (vec : Vec) (id : UInt64) (level : Nat) :
    h.insert M vec id level = .error .makeLen := by
  unfold Hnsw.insert
  rw [if_neg (by simp [hne])]
  unfold Hnsw.insertNext
  rw [if_pos hm]

def badCfg : Cfg := { m := 5, mMax := 1, efC := 10, ef := 10, heuristic := false }

/-- C19 is false, 4: with `m > 2*m_max`, which the validator accepts, four inserts are enough to overrun the scratch buffer:
the next search panics. -/
theorem C19_m_too_large :
    ∃ c h, Trace demoLib (Coll.new badCfg ["a"] false) h c ∧ h.length = 4 ∧
      (match c.semanticSearch demoLib (demoObj 5) noEmbed 1 with | .error (.panic .sliceBounds) => True | _ => False) := by
  have e : ∃ c h, play demoLib (Coll.new badCfg ["a"] false) [demoInsert 1, demoInsert 2, demoInsert 3, demoInsert 4] = .ok (c, h) ∧
      h.length = 4 ∧ (match c.semanticSearch demoLib (demoObj 5) noEmbed 1 with | .error (.panic .sliceBounds) => True | _ => False) :=
    ⟨_, _, rfl, rfl, trivial⟩
  obtain ⟨c, h, h1, h2, h3⟩ := e
  exact ⟨c, h, play_trace _ _ _ _ h1, h2, h3⟩

/-- C19 is false, 5: a query shorter than the entry point's vector panics (euclidean distance), in every non-empty index. -/
theorem C19_dimension_mismatch (o : FloatOps) (lt : F32 → F32 → Bool) (h : Hnsw) (ep : Vertex)
    (hep : AMap.get? h.nodes h.entry = some ep) (q : Vec) (hq : q.length < ep.vec.length) (k : Int) (hk : 0 ≤ k) :
    h.search { lt := lt, dist := euclideanDistance o } q k = .error .indexOutOfRange := by
  have key : ∀ (a b : Vec) (acc : F32), b.length < a.length → euclidLoop o acc a b = .error .indexOutOfRange := by
    intro a
    induction a with
    | nil => intro b acc hl; simp at hl
    | cons x a ih => intro b acc hl; cases b with
      | nil => rfl
      | cons y b => exact ih b _ (by simpa using hl)
  unfold Hnsw.search
  rw [if_neg (by omega), nodeAt_of hep, ok_bind]
  simp only [euclideanDistance, key _ _ _ hq]
  rfl

/-- C19 is false, 6: with `dot_product` and vectors whose dimension is not a multiple of 8, the second insert panics, always. -/
theorem C19_dot_dimension (o : FloatOps) (lt : F32 → F32 → Bool) (h : Hnsw) (hm : h.cfg.m ≠ 1) (ep : Vertex)
    (hep : AMap.get? h.nodes h.entry = some ep) (hd : ep.vec.length % 8 ≠ 0) (vec : Vec) (hv : vec.length = ep.vec.length)
    (id : UInt64) (hid : AMap.get? h.nodes id = none) (level : Nat) :
    h.insert { lt := lt, dist := dot o } vec id level = .error .indexOutOfRange := by
  have key : ∀ (n : Nat) (a b : Vec) (acc : F32), a.length = n → n % 8 ≠ 0 → dotLoop o acc a b = .error .indexOutOfRange := by
    intro n
    induction n using Nat.strongRecOn with
    | ind n ih =>
      intro a b acc hn h8
      unfold dotLoop
      split
      · simp at hn; omega
      · simp at hn
        exact ih (n - 8) (by omega) _ _ _ (by omega) (by omega)
      · rfl
  have hne : h.entry ≠ id := by intro he; rw [he, hid] at hep; cases hep
  unfold Hnsw.insert
  rw [if_neg (by intro hc; rw [hc.2] at hep; cases hep)]
  unfold Hnsw.insertNext
  rw [if_neg hm]
  have : nodeAt (AMap.set h.nodes id { id := id, conns := List.replicate (level + 1) [], vec := vec }) h.entry = .ok ep := by
    apply nodeAt_of; rw [AMap.get?_set_ne _ _ _ _ (Ne.symm hne)]; exact hep
  simp only [Hnsw.log]
  rw [this, ok_bind]
  simp only [dot, key _ _ _ _ rfl hd]
  rfl

example : ∃ h : Hnsw, ∃ ep : Vertex, h.cfg.m ≠ 1 ∧ AMap.get? h.nodes h.entry = some ep ∧ ep.vec.length % 8 ≠ 0 ∧
    AMap.get? h.nodes 1 = none ∧ h.nodes ≠ [] :=
  ⟨((Hnsw.empty demoCfg []).insertFirst [1, 2, 3] 0), { id := 0, conns := [[]], vec := [1, 2, 3] }, by decide, rfl, by decide, rfl, by decide⟩

end Vectory
