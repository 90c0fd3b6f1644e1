import Verif.Lemmas.Heap
import Verif.Lemmas.Search
/-!
Two comparisons that agree on the distances that occur give the same runs of the index.
-/
namespace Vectory.Heap
variable {E : Type}

/-- two comparisons agree on the elements of a list. -/
def AgreeOn (T : E → Prop) (lt lt' : E → E → Bool) : Prop := ∀ a b, T a → T b → lt' a b = lt a b

theorem lessAt_swap {T : E → Prop} {lt lt' : E → E → Bool} (ag : AgreeOn T lt lt') {l : List E} (h : ∀ a ∈ l, T a) (i j : Nat) :
    lessAt lt' l i j = lessAt lt l i j := by
  unfold lessAt
  split
  · rename_i a b ha hb
    exact ag a b (h a (List.mem_of_getElem? ha)) (h b (List.mem_of_getElem? hb))
  · rfl

theorem all_perm {T : E → Prop} {l l' : List E} (p : l'.Perm l) (h : ∀ a ∈ l, T a) : ∀ a ∈ l', T a :=
  fun a ha => h a (p.mem_iff.mp ha)

theorem upFuel_swap {T : E → Prop} {lt lt' : E → E → Bool} (ag : AgreeOn T lt lt') :
    ∀ f (l : List E) j, (∀ a ∈ l, T a) → upFuel lt' f l j = upFuel lt f l j := by
  intro f
  induction f with
  | zero => intro l j _; rfl
  | succ f ih =>
    intro l j h
    unfold upFuel
    dsimp only
    rw [lessAt_swap ag h, ih _ _ (all_perm (swap_perm _ _ _) h)]

theorem downFuel_swap {T : E → Prop} {lt lt' : E → E → Bool} (ag : AgreeOn T lt lt') :
    ∀ f (l : List E) i n, (∀ a ∈ l, T a) → downFuel lt' f l i n = downFuel lt f l i n := by
  intro f
  induction f with
  | zero => intro l i n _; rfl
  | succ f ih =>
    intro l i n h
    unfold downFuel
    dsimp only
    rw [lessAt_swap ag h, lessAt_swap ag h, ih _ _ _ (all_perm (swap_perm _ _ _) h)]

theorem down_swap {T : E → Prop} {lt lt' : E → E → Bool} (ag : AgreeOn T lt lt') {l : List E} (h : ∀ a ∈ l, T a) (i n : Nat) :
    down lt' l i n = down lt l i n := downFuel_swap ag _ _ _ _ h

theorem initLoop_swap {T : E → Prop} {lt lt' : E → E → Bool} (ag : AgreeOn T lt lt') :
    ∀ k (l : List E), (∀ a ∈ l, T a) → initLoop lt' k l = initLoop lt k l := by
  intro k
  induction k with
  | zero => intro l _; rfl
  | succ k ih =>
    intro l h
    unfold initLoop
    rw [down_swap ag h, ih _ (all_perm (down_perm _ _ _ _) h)]

theorem init_swap {T : E → Prop} {lt lt' : E → E → Bool} (ag : AgreeOn T lt lt') {l : List E} (h : ∀ a ∈ l, T a) :
    init lt' l = init lt l := initLoop_swap ag _ _ h

theorem push_swap {T : E → Prop} {lt lt' : E → E → Bool} (ag : AgreeOn T lt lt') {l : List E} {x : E} (h : ∀ a ∈ l, T a) (hx : T x) :
    push lt' l x = push lt l x :=
  upFuel_swap ag _ _ _ (fun a ha => by
    rcases List.mem_append.mp ha with h1 | h1
    · exact h a h1
    · simp at h1; subst h1; exact hx)

theorem pop_swap {T : E → Prop} {lt lt' : E → E → Bool} (ag : AgreeOn T lt lt') {l : List E} (h : ∀ a ∈ l, T a) :
    pop lt' l = pop lt l := by
  unfold pop
  dsimp only
  rw [down_swap ag (all_perm (swap_perm _ _ _) h)]

end Vectory.Heap

namespace Vectory
variable {D : Type}

/-- the metrics have the same distances, the distances of vectors in `Q` to vectors in `P` are in `S`, and the comparisons
agree on `S`. -/
structure SameOn (P Q : Vec → Prop) (S : D → Prop) (M M' : Metric D) : Prop where
  dist : M'.dist = M.dist
  inS : ∀ v q d, Q v → P q → M.dist v q = .ok d → S d
  lt : ∀ a b, S a → S b → M'.lt a b = M.lt a b

/-- all vectors of the vertices are in `Q`. -/
def NodesIn (Q : Vec → Prop) (nodes : AMap UInt64 Vertex) : Prop := ∀ id v, nodes.get? id = some v → Q v.vec

/-- all distances of the elements are in `S`. -/
def ElemsIn (S : D → Prop) (l : List (Elem D)) : Prop := ∀ e ∈ l, S e.dist

section
variable {P Q : Vec → Prop} {S : D → Prop} {M M' : Metric D} (g : SameOn P Q S M M')
include g

theorem SameOn.minLess : Heap.AgreeOn (fun e : Elem D => S e.dist) (minLess M.lt) (Vectory.minLess M'.lt) :=
  fun a b ha hb => g.lt a.dist b.dist ha hb

theorem SameOn.maxLess : Heap.AgreeOn (fun e : Elem D => S e.dist) (maxLess M.lt) (Vectory.maxLess M'.lt) :=
  fun a b ha hb => g.lt b.dist a.dist hb ha

theorem newMinHeap_swap {l : List (Elem D)} (h : ElemsIn S l) : newMinHeap M'.lt l = newMinHeap M.lt l :=
  Heap.init_swap g.minLess h

theorem newMaxHeap_swap {l : List (Elem D)} (h : ElemsIn S l) : newMaxHeap M'.lt l = newMaxHeap M.lt l :=
  Heap.init_swap g.maxLess h

omit g in
theorem ElemsIn.perm {l l' : List (Elem D)} (h : ElemsIn S l) (p : l'.Perm l) : ElemsIn S l' := fun e he => h e (p.mem_iff.mp he)

omit g in
theorem ElemsIn.pop {lt : Elem D → Elem D → Bool} {l rest : List (Elem D)} {x : Elem D} (h : ElemsIn S l)
    (hp : Heap.pop lt l = some (x, rest)) : S x.dist ∧ ElemsIn S rest := by
  have p := Heap.pop_perm lt l x rest hp
  exact ⟨h x (p.mem_iff.mpr (by simp)), fun e he => h e (p.mem_iff.mpr (by simp [he]))⟩

omit g in
theorem ElemsIn.push {lt : Elem D → Elem D → Bool} {l : List (Elem D)} {x : Elem D} (h : ElemsIn S l) (hx : S x.dist) :
    ElemsIn S (Heap.push lt l x) := by
  intro e he
  rcases List.mem_cons.mp ((Heap.push_perm lt l x).mem_iff.mp he) with h1 | h1
  · subst h1; exact hx
  · exact h e h1

omit g in
theorem NodesIn.at {nodes : AMap UInt64 Vertex} (h : NodesIn Q nodes) {id : UInt64} {v : Vertex} (hn : nodeAt nodes id = .ok v) : Q v.vec :=
  h id v (nodeAt_eq_ok.mp hn)

/-- both heaps of a search hold distances in `S`. -/
def SLIn (S : D → Prop) (s : SL D) : Prop := ElemsIn S s.cands ∧ ElemsIn S s.nn

theorem visitOne_swap {nodes : AMap UInt64 Vertex} (hn : NodesIn Q nodes) {q : Vec} (hq : P q) (ef : Nat) {s : SL D} (hs : SLIn S s)
    (nid : UInt64) :
    visitOne M' nodes q ef s nid = visitOne M nodes q ef s nid ∧ ∀ s', visitOne M nodes q ef s nid = .ok s' → SLIn S s' := by
  unfold visitOne
  by_cases hv : nid ∈ s.visited
  · rw [if_pos hv, if_pos hv]
    exact ⟨rfl, fun s' h => by cases h; exact hs⟩
  · rw [if_neg hv, if_neg hv]
    cases hp : Heap.peek s.nn with
    | none => exact ⟨rfl, fun _ h => by cases h⟩
    | some f =>
      dsimp only
      have hf : S f.dist := hs.2 f (peek_mem hp)
      rw [g.dist]
      cases hnb : nodeAt nodes nid with
      | error p => rw [error_bind, error_bind]; exact ⟨rfl, fun _ h => by cases h⟩
      | ok nb =>
        rw [ok_bind, ok_bind]
        cases hd : M.dist nb.vec q with
        | error p => rw [error_bind, error_bind]; exact ⟨rfl, fun _ h => by cases h⟩
        | ok d =>
          have hdS : S d := g.inS _ _ _ (hn.at hnb) hq hd
          rw [ok_bind, ok_bind, g.lt d f.dist hdS hf]
          split
          · have c1 := Heap.push_swap (x := ({ id := nid, dist := d } : Elem D)) g.minLess hs.1 hdS
            have c2 := Heap.push_swap (x := ({ id := nid, dist := d } : Elem D)) g.maxLess hs.2 hdS
            have i1 : ElemsIn S (Heap.push (Vectory.minLess M.lt) s.cands { id := nid, dist := d }) := hs.1.push hdS
            have i2 : ElemsIn S (Heap.push (Vectory.maxLess M.lt) s.nn { id := nid, dist := d }) := hs.2.push hdS
            rw [c1, c2, Heap.pop_swap g.maxLess i2]
            refine ⟨rfl, ?_⟩
            split
            · split
              · intro _ h; cases h
              · rename_i x nn' hpop
                intro s' h; cases h
                exact ⟨i1, (i2.pop hpop).2⟩
            · intro s' h; cases h; exact ⟨i1, i2⟩
          · exact ⟨rfl, fun s' h => by cases h; exact hs⟩

theorem visitAll_swap {nodes : AMap UInt64 Vertex} (hn : NodesIn Q nodes) {q : Vec} (hq : P q) (ef : Nat) :
    ∀ (l : List UInt64) {s : SL D} (_ : SLIn S s),
      l.foldlM (visitOne M' nodes q ef) s = l.foldlM (visitOne M nodes q ef) s ∧
        ∀ s', l.foldlM (visitOne M nodes q ef) s = .ok s' → SLIn S s' := by
  intro l
  induction l with
  | nil => intro s hs; exact ⟨rfl, fun s' h => by cases h; exact hs⟩
  | cons x l ih =>
    intro s hs
    obtain ⟨h1, h2⟩ := visitOne_swap g hn hq ef hs x
    simp only [List.foldlM_cons]
    rw [h1]
    cases hv : visitOne M nodes q ef s x with
    | error p => rw [error_bind, error_bind]; exact ⟨rfl, fun _ h => by cases h⟩
    | ok s1 =>
      rw [ok_bind, ok_bind]
      exact ih (h2 s1 hv)

theorem searchLoop_swap {nodes : AMap UInt64 Vertex} (hn : NodesIn Q nodes) (b : Nat) {q : Vec} (hq : P q) (ef level : Nat) :
    ∀ (fuel : Nat) {s : SL D} (_ : SLIn S s),
      searchLoop M' nodes b q ef level fuel s = searchLoop M nodes b q ef level fuel s ∧
        ∀ s', searchLoop M nodes b q ef level fuel s = .ok s' → SLIn S s' := by
  intro fuel
  induction fuel with
  | zero => intro s _; exact ⟨rfl, fun _ h => by cases h⟩
  | succ fuel ih =>
    intro s hs
    unfold searchLoop
    rw [Heap.pop_swap g.minLess hs.1]
    cases hp : Heap.pop (Vectory.minLess M.lt) s.cands with
    | none => exact ⟨rfl, fun s' h => by cases h; exact hs⟩
    | some cr =>
      obtain ⟨c, rest⟩ := cr
      obtain ⟨hc, hrest⟩ := hs.1.pop hp
      dsimp only
      cases hf : Heap.peek s.nn with
      | none => exact ⟨rfl, fun _ h => by cases h⟩
      | some f =>
        dsimp only
        rw [g.lt f.dist c.dist (hs.2 f (peek_mem hf)) hc]
        split
        · exact ⟨rfl, fun s' h => by cases h; exact ⟨hrest, hs.2⟩⟩
        · cases hcv : nodeAt nodes c.id with
          | error p => rw [error_bind, error_bind]; exact ⟨rfl, fun _ h => by cases h⟩
          | ok cv =>
            rw [ok_bind, ok_bind]
            cases hco : cv.connsAt level with
            | error p => rw [error_bind, error_bind]; exact ⟨rfl, fun _ h => by cases h⟩
            | ok conns =>
              rw [ok_bind, ok_bind]
              split
              · exact ⟨rfl, fun _ h => by cases h⟩
              · obtain ⟨h1, h2⟩ := visitAll_swap g hn hq ef conns (s := { s with cands := rest }) ⟨hrest, hs.2⟩
                rw [h1]
                cases hv : conns.foldlM (visitOne M nodes q ef) { s with cands := rest } with
                | error p => rw [error_bind, error_bind]; exact ⟨rfl, fun _ h => by cases h⟩
                | ok s1 =>
                  rw [ok_bind, ok_bind]
                  exact ih (h2 s1 hv)

theorem searchLayer_swap {nodes : AMap UInt64 Vertex} (hn : NodesIn Q nodes) (b : Nat) {q : Vec} (hq : P q) {eps : List (Elem D)}
    (he : ElemsIn S eps) (ef level : Nat) :
    searchLayer M' nodes b q eps ef level = searchLayer M nodes b q eps ef level ∧
      ∀ r, searchLayer M nodes b q eps ef level = .ok r → ElemsIn S r := by
  unfold searchLayer
  split
  · exact ⟨rfl, fun _ h => by cases h⟩
  · rw [newMinHeap_swap g he, newMaxHeap_swap g he]
    obtain ⟨h1, h2⟩ := searchLoop_swap g hn b hq ef level (nodes.length + eps.length + 1)
      (s := { visited := eps.map Elem.id, cands := newMinHeap M.lt eps, nn := newMaxHeap M.lt eps })
      ⟨he.perm (Heap.init_perm _ _), he.perm (Heap.init_perm _ _)⟩
    rw [h1]
    refine ⟨rfl, ?_⟩
    intro r h
    obtain ⟨s, hs, hr⟩ := (bind_ok_iff _ _ _).mp h
    cases hr
    exact (h2 s hs).2

theorem popN_swap : ∀ (n : Nat) {l : List (Elem D)} (_ : ElemsIn S l),
    popN (minLess M'.lt) n l = popN (minLess M.lt) n l := by
  intro n
  induction n with
  | zero => intro l _; rfl
  | succ n ih =>
    intro l h
    unfold popN
    rw [Heap.pop_swap g.minLess h]
    cases hp : Heap.pop (Vectory.minLess M.lt) l with
    | none => rfl
    | some r =>
      obtain ⟨e, rest⟩ := r
      dsimp only
      rw [ih (h.pop hp).2]

theorem descend_swap {nodes : AMap UInt64 Vertex} (hn : NodesIn Q nodes) (b : Nat) {q : Vec} (hq : P q) (to : Nat) :
    ∀ (n : Nat) {eps : List (Elem D)} (_ : ElemsIn S eps),
      descend M' nodes b q to n eps = descend M nodes b q to n eps ∧ ∀ r, descend M nodes b q to n eps = .ok r → ElemsIn S r := by
  intro n
  induction n with
  | zero => intro eps h; exact ⟨rfl, fun r hr => by cases hr; exact h⟩
  | succ n ih =>
    intro eps h
    unfold descend
    obtain ⟨h1, h2⟩ := searchLayer_swap g hn b hq h 1 (to + n + 1)
    rw [h1]
    cases hs : searchLayer M nodes b q eps 1 (to + n + 1) with
    | error p => rw [error_bind, error_bind]; exact ⟨rfl, fun _ h => by cases h⟩
    | ok nns =>
      rw [ok_bind, ok_bind]
      cases nns with
      | nil => exact ⟨rfl, fun _ h => by cases h⟩
      | cons e es =>
        exact ih (fun x hx => by simp at hx; subst hx; exact h2 _ hs _ (by simp))

theorem takeLive_swap (deleted : List UInt64) : ∀ (fuel k : Nat) {l : List (Elem D)} (_ : ElemsIn S l),
    takeLive M' deleted fuel k l = takeLive M deleted fuel k l := by
  intro fuel
  induction fuel with
  | zero => intro k l _; rfl
  | succ fuel ih =>
    intro k l h
    cases k with
    | zero => rfl
    | succ k =>
      unfold takeLive
      rw [Heap.pop_swap g.minLess h]
      cases hp : Heap.pop (Vectory.minLess M.lt) l with
      | none => rfl
      | some r =>
        obtain ⟨e, rest⟩ := r
        dsimp only
        rw [ih _ (h.pop hp).2, ih _ (h.pop hp).2]

/-- the search is the same. -/
theorem search_swap {h : Hnsw} (hn : NodesIn Q h.nodes) {q : Vec} (hq : P q) (k : Int) : h.search M' q k = h.search M q k := by
  unfold Hnsw.search
  split
  · rfl
  · rw [g.dist]
    cases hv : nodeAt h.nodes h.entry with
    | error p => rw [error_bind, error_bind]
    | ok epv =>
      rw [ok_bind, ok_bind]
      cases hd : M.dist epv.vec q with
      | error p => rw [error_bind, error_bind]
      | ok d =>
        rw [ok_bind, ok_bind]
        have he : ElemsIn S [({ id := h.entry, dist := d } : Elem D)] := by
          intro e he; simp at he; subst he; exact g.inS _ _ _ (hn.at hv) hq hd
        obtain ⟨h1, h2⟩ := descend_swap g hn h.cfg.mMax0 hq 0 h.maxLayer he
        rw [h1]
        cases hde : descend M h.nodes h.cfg.mMax0 q 0 h.maxLayer [{ id := h.entry, dist := d }] with
        | error p => rw [error_bind, error_bind]
        | ok eps =>
          rw [ok_bind, ok_bind]
          obtain ⟨h3, h4⟩ := searchLayer_swap g hn h.cfg.mMax0 hq (h2 eps hde) h.cfg.ef 0
          rw [h3]
          cases hsl : searchLayer M h.nodes h.cfg.mMax0 q eps h.cfg.ef 0 with
          | error p => rw [error_bind, error_bind]
          | ok nns =>
            rw [ok_bind, ok_bind]
            dsimp only
            rw [newMinHeap_swap g (h4 nns hsl), takeLive_swap g _ _ _ (l := newMinHeap M.lt nns) ((h4 nns hsl).perm (Heap.init_perm _ _))]

end

section
variable {Q : Vec → Prop} {S : D → Prop} {M M' : Metric D} (g : SameOn Q Q S M M')
include g

theorem dominated_swap {nodes : AMap UInt64 Vertex} (hn : NodesIn Q nodes) {e : Elem D} (he : S e.dist) :
    ∀ l : List UInt64, dominated M' nodes e l = dominated M nodes e l := by
  intro l
  induction l with
  | nil => rfl
  | cons r rs ih =>
    unfold dominated
    rw [g.dist, ih]
    cases hev : nodeAt nodes e.id with
    | error p => rw [error_bind, error_bind]
    | ok ev =>
      rw [ok_bind, ok_bind]
      cases hrv : nodeAt nodes r with
      | error p => rw [error_bind, error_bind]
      | ok rv =>
        rw [ok_bind, ok_bind]
        cases hd : M.dist ev.vec rv.vec with
        | error p => rw [error_bind, error_bind]
        | ok d =>
          rw [ok_bind, ok_bind, g.lt d e.dist (g.inS _ _ _ (hn.at hev) (hn.at hrv) hd) he]

theorem heuristicLoop_swap {nodes : AMap UInt64 Vertex} (hn : NodesIn Q nodes) (m : Nat) :
    ∀ (fuel : Nat) {l : List (Elem D)} (_ : ElemsIn S l) (res : List UInt64),
      heuristicLoop M' nodes m fuel l res = heuristicLoop M nodes m fuel l res := by
  intro fuel
  induction fuel with
  | zero => intro l _ res; rfl
  | succ fuel ih =>
    intro l h res
    unfold heuristicLoop
    rw [Heap.pop_swap g.minLess h]
    split
    · rfl
    · cases hp : Heap.pop (Vectory.minLess M.lt) l with
      | none => rfl
      | some r =>
        obtain ⟨e, rest⟩ := r
        obtain ⟨h1, h2⟩ := h.pop hp
        dsimp only
        rw [dominated_swap g hn h1]
        cases dominated M nodes e res with
        | error p => rw [error_bind, error_bind]
        | ok b =>
          rw [ok_bind, ok_bind]
          exact ih h2 _

theorem selectNeighbors_swap (cfg : Cfg) {nodes : AMap UInt64 Vertex} (hn : NodesIn Q nodes) {l : List (Elem D)} (h : ElemsIn S l) (m : Nat) :
    selectNeighbors M' cfg nodes l m = selectNeighbors M cfg nodes l m := by
  unfold selectNeighbors selectNeighborsHeuristic selectNeighborsSimple
  rw [newMinHeap_swap g h]
  have h' : ElemsIn S (newMinHeap M.lt l) := h.perm (Heap.init_perm _ _)
  rw [heuristicLoop_swap g hn m _ h', popN_swap g _ h']

theorem elemsOf_swap {nodes : AMap UInt64 Vertex} (hn : NodesIn Q nodes) {nv : Vertex} (hv : Q nv.vec) : ∀ l : List UInt64,
    elemsOf M' nodes nv l = elemsOf M nodes nv l ∧ ∀ es, elemsOf M nodes nv l = .ok es → ElemsIn S es := by
  intro l
  induction l with
  | nil => exact ⟨rfl, fun es h => by cases h; intro e he; cases he⟩
  | cons x l ih =>
    unfold elemsOf
    rw [g.dist, ih.1]
    refine ⟨rfl, ?_⟩
    intro es h
    obtain ⟨nnv, h1, h⟩ := (bind_ok_iff _ _ _).mp h
    obtain ⟨d, h2, h⟩ := (bind_ok_iff _ _ _).mp h
    obtain ⟨es', h3, h⟩ := (bind_ok_iff _ _ _).mp h
    cases h
    intro e he
    rcases List.mem_cons.mp he with rfl | he
    · exact g.inS _ _ _ hv (hn.at h1) h2
    · exact ih.2 es' h3 e he

/-! ## insertion -/

omit g in
theorem NodesIn.set {nodes : AMap UInt64 Vertex} (h : NodesIn Q nodes) {id : UInt64} {v : Vertex} (hv : Q v.vec) : NodesIn Q (nodes.set id v) := by
  intro x w hx
  by_cases hxi : x = id
  · subst hxi; rw [AMap.get?_set_self] at hx; cases hx; exact hv
  · rw [AMap.get?_set_ne _ _ _ _ (Ne.symm hxi)] at hx; exact h x w hx

omit g in
theorem NodesIn.setConns {nodes nodes' : AMap UInt64 Vertex} (h : NodesIn Q nodes) {id : UInt64} {l : Nat} {ids : List UInt64}
    (hs : setConns nodes id l ids = .ok nodes') : NodesIn Q nodes' := by
  unfold Vectory.setConns at hs
  obtain ⟨v, h1, h2⟩ := (bind_ok_iff _ _ _).mp hs
  split at h2
  · cases h2; exact h.set (v := { v with conns := v.conns.set l ids }) (h.at (v := v) h1)
  · cases h2

omit g in
theorem NodesIn.addConn {nodes nodes' : AMap UInt64 Vertex} (h : NodesIn Q nodes) {id : UInt64} {l : Nat} {n : UInt64}
    (hs : addConn nodes id l n = .ok nodes') : NodesIn Q nodes' := by
  unfold Vectory.addConn at hs
  obtain ⟨v, h1, h2⟩ := (bind_ok_iff _ _ _).mp hs
  obtain ⟨c, h3, h4⟩ := (bind_ok_iff _ _ _).mp h2
  cases h4; exact h.set (v := { v with conns := v.conns.set l (c ++ [n]) }) (h.at (v := v) h1)

omit g in
theorem NodesIn.setConnections {h h' : Hnsw} (i : NodesIn Q h.nodes) {id : UInt64} {l : Nat} {ids : List UInt64}
    (hs : h.setConnections id l ids = .ok h') : NodesIn Q h'.nodes := by
  unfold Hnsw.setConnections at hs
  obtain ⟨n, h1, h2⟩ := (bind_ok_iff _ _ _).mp hs
  cases h2
  exact NodesIn.setConns (nodes := h.nodes) i h1

omit g in
theorem NodesIn.addConnection {h h' : Hnsw} (i : NodesIn Q h.nodes) {id : UInt64} {l : Nat} {n : UInt64}
    (hs : h.addConnection id l n = .ok h') : NodesIn Q h'.nodes := by
  unfold Hnsw.addConnection at hs
  obtain ⟨m, h1, h2⟩ := (bind_ok_iff _ _ _).mp hs
  cases h2
  exact NodesIn.addConn (nodes := h.nodes) i h1

omit g in
/-- `insertNext` after the vertex was added. -/
def insertRest (M : Metric D) (h : Hnsw) (vec : Vec) (id : UInt64) (level : Nat) : Except Panic Hnsw := do
  let epv ← nodeAt h.nodes h.entry
  let d ← M.dist epv.vec vec
  let eps ← descend M h.nodes h.cfg.mMax0 vec level (h.maxLayer - level) [{ id := h.entry, dist := d }]
  let h' ← h.construct M id vec (min h.maxLayer level + 1) eps
  if h.maxLayer < level then
    .ok { (h'.log (recSetEntryPoint id (UInt32.ofNat level))) with entry := id, maxLayer := level }
  else .ok h'

omit g in
theorem insertNext_rest (M : Metric D) (h : Hnsw) (vec : Vec) (id : UInt64) (level : Nat) :
    h.insertNext M vec id level = if h.cfg.m = 1 then .error .makeLen else
      insertRest M ({ (h.log (recAddVertex id (UInt32.ofNat level))) with
        nodes := h.nodes.set id { id := id, conns := List.replicate (level + 1) [], vec := vec } } : Hnsw) vec id level := rfl

theorem linkBack_swap (v : UInt64) {vvec : Vec} (hv : Q vvec) (l maxConn : Nat) {h : Hnsw} (hn : NodesIn Q h.nodes) (n : UInt64) :
    h.linkBack M' v vvec l maxConn n = h.linkBack M v vvec l maxConn n ∧
      ∀ h', h.linkBack M v vvec l maxConn n = .ok h' → NodesIn Q h'.nodes := by
  unfold Hnsw.linkBack
  cases hnv : nodeAt h.nodes n with
  | error p => rw [error_bind, error_bind]; exact ⟨rfl, fun _ h => by cases h⟩
  | ok nv =>
    rw [ok_bind, ok_bind]
    cases hc : nv.connsAt l with
    | error p => rw [error_bind, error_bind]; exact ⟨rfl, fun _ h => by cases h⟩
    | ok conns =>
      rw [ok_bind, ok_bind]
      split
      · exact ⟨rfl, fun h' hh => hn.addConnection hh⟩
      · obtain ⟨h1, h2⟩ := elemsOf_swap g hn (hn.at hnv) conns
        rw [g.dist, h1]
        cases hd : M.dist nv.vec vvec with
        | error p => rw [error_bind, error_bind]; exact ⟨rfl, fun _ h => by cases h⟩
        | ok d =>
          rw [ok_bind, ok_bind]
          cases he : elemsOf M h.nodes nv conns with
          | error p => rw [error_bind, error_bind]; exact ⟨rfl, fun _ h => by cases h⟩
          | ok es =>
            rw [ok_bind, ok_bind, selectNeighbors_swap g h.cfg hn]
            · refine ⟨rfl, ?_⟩
              intro h' hh
              obtain ⟨ns, _, hh⟩ := (bind_ok_iff _ _ _).mp hh
              exact hn.setConnections hh
            · intro e hee
              rcases List.mem_cons.mp hee with rfl | hee
              · exact g.inS _ _ _ (hn.at hnv) hv hd
              · exact h2 es he e hee

theorem linkAll_swap (v : UInt64) {vvec : Vec} (hv : Q vvec) (l maxConn : Nat) : ∀ (ns : List UInt64) {h : Hnsw} (_ : NodesIn Q h.nodes),
    ns.foldlM (Hnsw.linkBack M' v vvec l maxConn) h = ns.foldlM (Hnsw.linkBack M v vvec l maxConn) h ∧
      ∀ h', ns.foldlM (Hnsw.linkBack M v vvec l maxConn) h = .ok h' → NodesIn Q h'.nodes := by
  intro ns
  induction ns with
  | nil => intro h hn; exact ⟨rfl, fun h' hh => by cases hh; exact hn⟩
  | cons n ns ih =>
    intro h hn
    obtain ⟨h1, h2⟩ := linkBack_swap g v hv l maxConn hn n
    simp only [List.foldlM_cons]
    rw [h1]
    cases hl : h.linkBack M v vvec l maxConn n with
    | error p => rw [error_bind, error_bind]; exact ⟨rfl, fun _ h => by cases h⟩
    | ok h1' =>
      rw [ok_bind, ok_bind]
      exact ih (h2 h1' hl)

theorem connectLayer_swap (v : UInt64) {vvec : Vec} (hv : Q vvec) {h : Hnsw} (hn : NodesIn Q h.nodes) {eps : List (Elem D)}
    (he : ElemsIn S eps) (l : Nat) :
    h.connectLayer M' v vvec eps l = h.connectLayer M v vvec eps l ∧
      ∀ h' eps', h.connectLayer M v vvec eps l = .ok (h', eps') → NodesIn Q h'.nodes ∧ ElemsIn S eps' := by
  unfold Hnsw.connectLayer
  obtain ⟨h1, h2⟩ := searchLayer_swap g hn h.cfg.mMax0 hv he h.cfg.efC l
  rw [h1]
  cases hs : searchLayer M h.nodes h.cfg.mMax0 vvec eps h.cfg.efC l with
  | error p => rw [error_bind, error_bind]; exact ⟨rfl, fun _ _ h => by cases h⟩
  | ok nns =>
    rw [ok_bind, ok_bind, selectNeighbors_swap g h.cfg hn (h2 nns hs)]
    cases hsel : selectNeighbors M h.cfg h.nodes nns h.cfg.m with
    | error p => rw [error_bind, error_bind]; exact ⟨rfl, fun _ _ h => by cases h⟩
    | ok neighbors =>
      rw [ok_bind, ok_bind]
      cases hset : h.setConnections v l neighbors with
      | error p => rw [error_bind, error_bind]; exact ⟨rfl, fun _ _ h => by cases h⟩
      | ok h1' =>
        rw [ok_bind, ok_bind]
        dsimp only
        obtain ⟨h3, h4⟩ := linkAll_swap g v hv l (if l = 0 then h1'.cfg.mMax0 else h1'.cfg.mMax) neighbors (hn.setConnections hset)
        rw [h3]
        refine ⟨rfl, ?_⟩
        intro h' eps' hh
        obtain ⟨h5, h6, h7⟩ := (bind_ok_iff _ _ _).mp hh
        simp only [Except.ok.injEq, Prod.mk.injEq] at h7
        obtain ⟨rfl, rfl⟩ := h7
        exact ⟨h4 _ h6, h2 _ hs⟩

theorem construct_swap (v : UInt64) {vvec : Vec} (hv : Q vvec) : ∀ (n : Nat) {h : Hnsw} (_ : NodesIn Q h.nodes) {eps : List (Elem D)}
    (_ : ElemsIn S eps), Hnsw.construct M' v vvec n h eps = Hnsw.construct M v vvec n h eps ∧
      ∀ h', Hnsw.construct M v vvec n h eps = .ok h' → NodesIn Q h'.nodes := by
  intro n
  induction n with
  | zero => intro h hn eps _; exact ⟨rfl, fun h' hh => by cases hh; exact hn⟩
  | succ n ih =>
    intro h hn eps he
    unfold Hnsw.construct
    obtain ⟨h1, h2⟩ := connectLayer_swap g v hv hn he n
    rw [h1]
    cases hc : h.connectLayer M v vvec eps n with
    | error p => rw [error_bind, error_bind]; exact ⟨rfl, fun _ h => by cases h⟩
    | ok r =>
      obtain ⟨h', eps'⟩ := r
      rw [ok_bind, ok_bind]
      exact ih (h2 h' eps' hc).1 (h2 h' eps' hc).2

theorem insertRest_swap {h1 : Hnsw} (hn2 : NodesIn Q h1.nodes) {vec : Vec} (hv : Q vec) (id : UInt64) (level : Nat) :
    insertRest M' h1 vec id level = insertRest M h1 vec id level ∧
      ∀ h', insertRest M h1 vec id level = .ok h' → NodesIn Q h'.nodes := by
  unfold insertRest
  rw [g.dist]
  cases hep : nodeAt h1.nodes h1.entry with
  | error p => rw [error_bind, error_bind]; exact ⟨rfl, fun _ h => by cases h⟩
  | ok epv =>
    rw [ok_bind, ok_bind]
    cases hd : M.dist epv.vec vec with
    | error p => rw [error_bind, error_bind]; exact ⟨rfl, fun _ h => by cases h⟩
    | ok d =>
      rw [ok_bind, ok_bind]
      have he : ElemsIn S [({ id := h1.entry, dist := d } : Elem D)] := by
        intro e he; simp at he; subst he; exact g.inS _ _ _ (hn2.at hep) hv hd
      obtain ⟨h2, h3⟩ := descend_swap g hn2 h1.cfg.mMax0 hv level (h1.maxLayer - level) he
      rw [h2]
      cases hde : descend M h1.nodes h1.cfg.mMax0 vec level (h1.maxLayer - level) [{ id := h1.entry, dist := d }] with
      | error p => rw [error_bind, error_bind]; exact ⟨rfl, fun _ h => by cases h⟩
      | ok eps =>
        rw [ok_bind, ok_bind]
        obtain ⟨h4, h5⟩ := construct_swap g id hv (min h1.maxLayer level + 1) hn2 (h3 eps hde)
        rw [h4]
        refine ⟨rfl, ?_⟩
        intro h' hh
        obtain ⟨h6, h7, h8⟩ := (bind_ok_iff _ _ _).mp hh
        split at h8
        · cases h8; exact h5 h6 h7
        · cases h8; exact h5 _ h7

theorem insertNext_swap {h : Hnsw} (hn : NodesIn Q h.nodes) {vec : Vec} (hv : Q vec) (id : UInt64) (level : Nat) :
    h.insertNext M' vec id level = h.insertNext M vec id level ∧
      ∀ h', h.insertNext M vec id level = .ok h' → NodesIn Q h'.nodes := by
  rw [insertNext_rest, insertNext_rest]
  split
  · exact ⟨rfl, fun _ h => by cases h⟩
  · exact insertRest_swap g (NodesIn.set (nodes := h.nodes) hn hv) hv id level

/-- the insertion is the same. -/
theorem hnsw_insert_swap {h : Hnsw} (hn : NodesIn Q h.nodes) {vec : Vec} (hv : Q vec) (id : UInt64) (level : Nat) :
    h.insert M' vec id level = h.insert M vec id level ∧ ∀ h', h.insert M vec id level = .ok h' → NodesIn Q h'.nodes := by
  unfold Hnsw.insert
  split
  · refine ⟨rfl, ?_⟩
    intro h' hh; cases hh
    exact NodesIn.set (nodes := h.nodes) hn hv
  · exact insertNext_swap g (h := { h with once := true }) hn hv id level

end
end Vectory
