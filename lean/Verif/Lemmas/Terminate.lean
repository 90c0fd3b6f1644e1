import Verif.Lemmas.Order
/-! Termination of the loops, for every graph (well formed or not). -/
namespace Vectory
variable {D : Type}

/-- the number of indexed ids that have not been visited. -/
def unvisited (nodes : AMap UInt64 Vertex) (vis : List UInt64) : Nat := (nodes.keys.filter (fun x => decide (x ∉ vis))).length

theorem unvisited_le (nodes : AMap UInt64 Vertex) (vis : List UInt64) : unvisited nodes vis ≤ nodes.length := by
  unfold unvisited
  have := List.length_filter_le (fun x => decide (x ∉ vis)) nodes.keys
  rw [AMap.length_keys] at this
  exact this

theorem filter_visit_le (ks : List UInt64) (vis : List UInt64) (n : UInt64) :
    (ks.filter (fun x => decide (x ∉ n :: vis))).length ≤ (ks.filter (fun x => decide (x ∉ vis))).length := by
  induction ks with
  | nil => simp
  | cons k ks ih =>
    by_cases h1 : k ∈ vis <;> by_cases h2 : k = n <;> simp_all [List.filter_cons] <;> omega

theorem filter_visit_lt (ks : List UInt64) (vis : List UInt64) (n : UInt64) (hn : n ∈ ks) (hv : n ∉ vis) :
    (ks.filter (fun x => decide (x ∉ n :: vis))).length + 1 ≤ (ks.filter (fun x => decide (x ∉ vis))).length := by
  induction ks with
  | nil => simp at hn
  | cons k ks ih =>
    have hle := filter_visit_le ks vis n
    by_cases h2 : k = n
    · subst h2
      simp only [List.filter_cons, List.mem_cons, true_or, not_true_eq_false, decide_false, hv, not_false_eq_true, decide_true,
        Bool.false_eq_true, if_false, if_true, List.length_cons]
      simpa using hle
    · have hn' : n ∈ ks := by
        rcases List.mem_cons.mp hn with h | h
        · exact absurd h.symm h2
        · exact h
      have := ih hn'
      by_cases h1 : k ∈ vis
      · simp_all [List.filter_cons]
      · simp only [List.filter_cons, List.mem_cons, h2, h1, or_self, not_false_eq_true, decide_true, if_true, List.length_cons] at this ⊢
        omega

/-- how much work is left. -/
def SL.work (nodes : AMap UInt64 Vertex) (s : SL D) : Nat := s.cands.length + unvisited nodes s.visited

theorem visitOne_work (M : Metric D) (nodes : AMap UInt64 Vertex) (q : Vec) (ef : Nat) (s : SL D) (nid : UInt64) :
    visitOne M nodes q ef s nid ≠ .error .outOfFuel ∨ ∃ v, nodes.get? nid = some v ∧ M.dist v.vec q = .error .outOfFuel := by
  by_cases hd : ∃ v, nodes.get? nid = some v ∧ M.dist v.vec q = .error .outOfFuel
  · exact Or.inr hd
  · left
    unfold visitOne
    split
    · simp
    · split
      · simp
      · unfold nodeAt
        cases hv : nodes.get? nid with
        | none => simp [bind, Except.bind]
        | some v =>
          simp only [bind, Except.bind]
          cases hdd : M.dist v.vec q with
          | error p =>
            dsimp only
            intro h
            cases h
            exact hd ⟨v, hv, hdd⟩
          | ok d =>
            dsimp only
            split
            · split
              · split <;> simp
              · simp
            · simp

theorem visitOne_dec (M : Metric D) (nodes : AMap UInt64 Vertex) (q : Vec) (ef : Nat) (s s' : SL D) (nid : UInt64)
    (h : visitOne M nodes q ef s nid = .ok s') : s'.work nodes ≤ s.work nodes := by
  unfold visitOne at h
  split at h
  · cases h; exact Nat.le_refl _
  · rename_i hnv
    split at h
    · cases h
    · rename_i f _
      obtain ⟨nb, h1, h2⟩ := (bind_ok_iff _ _ _).mp h
      obtain ⟨d, h3, h4⟩ := (bind_ok_iff _ _ _).mp h2
      have hk : nid ∈ nodes.keys := by rw [← AMap.get?_isSome_iff, nodeAt_eq_ok.mp h1]; rfl
      have hlt := filter_visit_lt nodes.keys s.visited nid hk hnv
      have hle := filter_visit_le nodes.keys s.visited nid
      split at h4
      · dsimp only at h4
        split at h4
        · split at h4
          · cases h4
          · cases h4
            simp only [SL.work, unvisited, Heap.push_length]
            omega
        · cases h4
          simp only [SL.work, unvisited, Heap.push_length]
          omega
      · cases h4
        simp only [SL.work, unvisited]
        omega

theorem visitAll_dec (M : Metric D) (nodes : AMap UInt64 Vertex) (q : Vec) (ef : Nat) (hM : ∀ a b, M.dist a b ≠ .error .outOfFuel) :
    ∀ (conns : List UInt64) (s : SL D), conns.foldlM (visitOne M nodes q ef) s ≠ .error .outOfFuel ∧
      ∀ s', conns.foldlM (visitOne M nodes q ef) s = .ok s' → s'.work nodes ≤ s.work nodes := by
  intro conns
  induction conns with
  | nil => intro s; refine ⟨by simp [List.foldlM, pure, Except.pure], fun s' h => ?_⟩; cases h; exact Nat.le_refl _
  | cons n conns ih =>
    intro s
    simp only [List.foldlM]
    cases h1 : visitOne M nodes q ef s n with
    | error p =>
      refine ⟨?_, fun s' h => by cases h⟩
      intro h
      simp only [bind, Except.bind] at h
      cases h
      rcases visitOne_work M nodes q ef s n with hw | ⟨v, _, hw⟩
      · exact hw h1
      · exact hM _ _ hw
    | ok s1 =>
      rw [ok_bind]
      refine ⟨(ih s1).1, fun s' h => Nat.le_trans ((ih s1).2 s' h) (visitOne_dec M nodes q ef s s1 n h1)⟩

theorem searchLoop_fuel (M : Metric D) (nodes : AMap UInt64 Vertex) (b : Nat) (q : Vec) (ef l : Nat)
    (hM : ∀ a b, M.dist a b ≠ .error .outOfFuel) :
    ∀ (fuel : Nat) (s : SL D), s.work nodes < fuel → searchLoop M nodes b q ef l fuel s ≠ .error .outOfFuel := by
  intro fuel
  induction fuel with
  | zero => intro s h; omega
  | succ fuel ih =>
    intro s hw
    unfold searchLoop
    cases hp : Heap.pop (minLess M.lt) s.cands with
    | none => simp
    | some r =>
      obtain ⟨c, rest⟩ := r
      dsimp only
      split
      · simp
      · split
        · simp
        · cases h1 : nodeAt nodes c.id with
          | error p => intro h; cases h; unfold nodeAt at h1; split at h1 <;> cases h1
          | ok cv =>
            rw [ok_bind]
            cases h2 : cv.connsAt l with
            | error p => intro h; cases h; unfold Vertex.connsAt at h2; split at h2 <;> cases h2
            | ok conns =>
              rw [ok_bind]
              split
              · simp
              · have hv := visitAll_dec M nodes q ef hM conns { s with cands := rest }
                cases h3 : conns.foldlM (visitOne M nodes q ef) { s with cands := rest } with
                | error p => intro h; cases h; exact hv.1 h3
                | ok s' =>
                  rw [ok_bind]
                  apply ih
                  have := hv.2 s' h3
                  have hl := Heap.pop_length _ _ _ _ hp
                  simp only [SL.work] at this hw ⊢
                  omega

/-- once the loop finishes within `fuel` rounds, more rounds change nothing. -/
theorem searchLoop_more (M : Metric D) (nodes : AMap UInt64 Vertex) (b : Nat) (q : Vec) (ef l : Nat) :
    ∀ (fuel extra : Nat) (s : SL D), searchLoop M nodes b q ef l fuel s ≠ .error .outOfFuel →
      searchLoop M nodes b q ef l (fuel + extra) s = searchLoop M nodes b q ef l fuel s := by
  intro fuel
  induction fuel with
  | zero => intro extra s h; exact absurd rfl h
  | succ fuel ih =>
    intro extra s h
    rw [show fuel + 1 + extra = (fuel + extra) + 1 by omega]
    unfold searchLoop at h ⊢
    cases hp : Heap.pop (minLess M.lt) s.cands with
    | none => rfl
    | some r =>
      obtain ⟨c, rest⟩ := r
      rw [hp] at h
      dsimp only at h ⊢
      split
      · rfl
      · rename_i f hf
        rw [hf] at h
        dsimp only at h
        split
        · rfl
        · rename_i hlt
          rw [if_neg hlt] at h
          cases h1 : nodeAt nodes c.id with
          | error p => rfl
          | ok cv =>
            rw [h1, ok_bind] at h
            rw [ok_bind, ok_bind]
            cases h2 : cv.connsAt l with
            | error p => rfl
            | ok conns =>
              rw [h2, ok_bind] at h
              rw [ok_bind, ok_bind]
              split
              · rfl
              · rename_i hb
                rw [if_neg hb] at h
                cases h3 : conns.foldlM (visitOne M nodes q ef) { s with cands := rest } with
                | error p => rfl
                | ok s' =>
                  rw [h3, ok_bind] at h
                  rw [ok_bind, ok_bind]
                  exact ih extra s' h

theorem searchLayer_fuel (M : Metric D) (hM : ∀ a b, M.dist a b ≠ .error .outOfFuel) (nodes : AMap UInt64 Vertex) (b : Nat) (q : Vec)
    (eps : List (Elem D)) (ef l : Nat) : searchLayer M nodes b q eps ef l ≠ .error .outOfFuel := by
  unfold searchLayer
  split
  · simp
  · have hp : (newMinHeap M.lt eps).length = eps.length := (Heap.init_perm _ _).length_eq
    have := searchLoop_fuel M nodes b q ef l hM (nodes.length + eps.length + 1)
      { visited := eps.map Elem.id, cands := newMinHeap M.lt eps, nn := newMaxHeap M.lt eps } (by
        have := unvisited_le nodes (eps.map Elem.id)
        simp only [SL.work, hp]; omega)
    cases h : searchLoop M nodes b q ef l (nodes.length + eps.length + 1)
      { visited := eps.map Elem.id, cands := newMinHeap M.lt eps, nn := newMaxHeap M.lt eps } with
    | error p => intro h'; cases h'; exact this h
    | ok s => simp [bind, Except.bind]

theorem descend_fuel (M : Metric D) (hM : ∀ a b, M.dist a b ≠ .error .outOfFuel) (nodes : AMap UInt64 Vertex) (b : Nat) (q : Vec)
    (to : Nat) : ∀ (n : Nat) (eps : List (Elem D)), descend M nodes b q to n eps ≠ .error .outOfFuel := by
  intro n
  induction n with
  | zero => intro eps; simp [descend]
  | succ n ih =>
    intro eps
    unfold descend
    cases h : searchLayer M nodes b q eps 1 (to + n + 1) with
    | error p => intro h'; cases h'; exact searchLayer_fuel M hM nodes b q eps 1 _ h
    | ok nns =>
      rw [ok_bind]
      cases nns with
      | nil => simp
      | cons e es => exact ih [e]

theorem popN_fuel (lt : Elem D → Elem D → Bool) : ∀ n h, popN lt n h ≠ .error .outOfFuel := by
  intro n
  induction n with
  | zero => intro h; simp [popN]
  | succ n ih =>
    intro h
    unfold popN
    split
    · simp
    · rename_i e rest _
      cases hr : popN lt n rest with
      | error p => intro h'; cases h'; exact ih _ hr
      | ok r => simp [bind, Except.bind]

theorem nodeAt_fuel (nodes : AMap UInt64 Vertex) (id : UInt64) : nodeAt nodes id ≠ .error .outOfFuel := by
  unfold nodeAt; split <;> simp

theorem connsAt_fuel (v : Vertex) (l : Nat) : v.connsAt l ≠ .error .outOfFuel := by
  unfold Vertex.connsAt; split <;> simp

theorem bind_fuel {α β : Type} {x : Except Panic α} {f : α → Except Panic β} (h1 : x ≠ .error .outOfFuel)
    (h2 : ∀ a, x = .ok a → f a ≠ .error .outOfFuel) : (x >>= f) ≠ .error .outOfFuel := by
  cases x with
  | error p => intro h; cases h; exact h1 rfl
  | ok a => exact h2 a rfl

theorem dominated_fuel (M : Metric D) (hM : ∀ a b, M.dist a b ≠ .error .outOfFuel) (nodes : AMap UInt64 Vertex) (e : Elem D) :
    ∀ rs, dominated M nodes e rs ≠ .error .outOfFuel := by
  intro rs
  induction rs with
  | nil => simp [dominated]
  | cons r rs ih =>
    unfold dominated
    refine bind_fuel (nodeAt_fuel _ _) fun _ _ => bind_fuel (nodeAt_fuel _ _) fun _ _ => bind_fuel (hM _ _) fun _ _ => ?_
    split
    · simp
    · exact ih

theorem heuristicLoop_fuel (M : Metric D) (hM : ∀ a b, M.dist a b ≠ .error .outOfFuel) (nodes : AMap UInt64 Vertex) (m : Nat) :
    ∀ fuel q res, heuristicLoop M nodes m fuel q res ≠ .error .outOfFuel := by
  intro fuel
  induction fuel with
  | zero => intro q res; simp [heuristicLoop]
  | succ fuel ih =>
    intro q res
    unfold heuristicLoop
    split
    · simp
    · split
      · simp
      · exact bind_fuel (dominated_fuel M hM _ _ _) fun _ _ => ih _ _

theorem select_fuel (M : Metric D) (hM : ∀ a b, M.dist a b ≠ .error .outOfFuel) (cfg : Cfg) (nodes : AMap UInt64 Vertex)
    (cands : List (Elem D)) (m : Nat) : selectNeighbors M cfg nodes cands m ≠ .error .outOfFuel := by
  unfold selectNeighbors
  split
  · exact heuristicLoop_fuel M hM nodes m _ _ _
  · exact popN_fuel _ _ _

theorem setConns_fuel (nodes : AMap UInt64 Vertex) (id : UInt64) (l : Nat) (ids : List UInt64) :
    setConns nodes id l ids ≠ .error .outOfFuel := by
  unfold setConns
  refine bind_fuel (nodeAt_fuel _ _) fun v _ => ?_
  split <;> simp

theorem addConn_fuel (nodes : AMap UInt64 Vertex) (id : UInt64) (l : Nat) (n : UInt64) :
    addConn nodes id l n ≠ .error .outOfFuel := by
  unfold addConn
  exact bind_fuel (nodeAt_fuel _ _) fun v _ => bind_fuel (connsAt_fuel _ _) fun _ _ => by simp

theorem elemsOf_fuel (M : Metric D) (hM : ∀ a b, M.dist a b ≠ .error .outOfFuel) (nodes : AMap UInt64 Vertex) (nv : Vertex) :
    ∀ ids, elemsOf M nodes nv ids ≠ .error .outOfFuel := by
  intro ids
  induction ids with
  | nil => simp [elemsOf]
  | cons i ids ih =>
    unfold elemsOf
    exact bind_fuel (nodeAt_fuel _ _) fun _ _ => bind_fuel (hM _ _) fun _ _ => bind_fuel ih fun _ _ => by simp

theorem setConnections_fuel (h : Hnsw) (id : UInt64) (l : Nat) (ids : List UInt64) :
    h.setConnections id l ids ≠ .error .outOfFuel := by
  unfold Hnsw.setConnections
  exact bind_fuel (setConns_fuel _ _ _ _) fun _ _ => by simp

theorem linkBack_fuel (M : Metric D) (hM : ∀ a b, M.dist a b ≠ .error .outOfFuel) (v : UInt64) (vvec : Vec) (l mc : Nat) (h : Hnsw)
    (n : UInt64) : h.linkBack M v vvec l mc n ≠ .error .outOfFuel := by
  unfold Hnsw.linkBack
  refine bind_fuel (nodeAt_fuel _ _) fun nv _ => bind_fuel (connsAt_fuel _ _) fun conns _ => ?_
  split
  · unfold Hnsw.addConnection
    exact bind_fuel (addConn_fuel _ _ _ _) fun _ _ => by simp
  · exact bind_fuel (hM _ _) fun _ _ => bind_fuel (elemsOf_fuel M hM _ _ _) fun _ _ =>
      bind_fuel (select_fuel M hM _ _ _ _) fun _ _ => setConnections_fuel _ _ _ _

theorem foldlM_fuel {α β : Type} (f : β → α → Except Panic β) (hf : ∀ b a, f b a ≠ .error .outOfFuel) :
    ∀ (l : List α) (b : β), l.foldlM f b ≠ .error .outOfFuel := by
  intro l
  induction l with
  | nil => intro b; simp [List.foldlM, pure, Except.pure]
  | cons a l ih =>
    intro b
    simp only [List.foldlM]
    exact bind_fuel (hf _ _) fun _ _ => ih _

theorem connectLayer_fuel (M : Metric D) (hM : ∀ a b, M.dist a b ≠ .error .outOfFuel) (v : UInt64) (vvec : Vec) (h : Hnsw)
    (eps : List (Elem D)) (l : Nat) : h.connectLayer M v vvec eps l ≠ .error .outOfFuel := by
  unfold Hnsw.connectLayer
  exact bind_fuel (searchLayer_fuel M hM _ _ _ _ _ _) fun _ _ => bind_fuel (select_fuel M hM _ _ _ _) fun _ _ =>
    bind_fuel (setConnections_fuel _ _ _ _) fun _ _ =>
      bind_fuel (foldlM_fuel _ (fun _ _ => linkBack_fuel M hM _ _ _ _ _ _) _ _) fun _ _ => by simp

theorem construct_fuel (M : Metric D) (hM : ∀ a b, M.dist a b ≠ .error .outOfFuel) (v : UInt64) (vvec : Vec) :
    ∀ (n : Nat) (h : Hnsw) (eps : List (Elem D)), h.construct M v vvec n eps ≠ .error .outOfFuel := by
  intro n
  induction n with
  | zero => intro h eps; simp [Hnsw.construct]
  | succ n ih =>
    intro h eps
    unfold Hnsw.construct
    exact bind_fuel (connectLayer_fuel M hM _ _ _ _ _) fun _ _ => ih _ _

theorem insert_fuel (M : Metric D) (hM : ∀ a b, M.dist a b ≠ .error .outOfFuel) (h : Hnsw) (vec : Vec) (id : UInt64) (level : Nat) :
    h.insert M vec id level ≠ .error .outOfFuel := by
  unfold Hnsw.insert
  split
  · simp
  · unfold Hnsw.insertNext
    split
    · simp
    · refine bind_fuel (nodeAt_fuel _ _) fun _ _ => bind_fuel (hM _ _) fun _ _ => bind_fuel (descend_fuel M hM _ _ _ _ _ _) fun _ _ =>
        bind_fuel (construct_fuel M hM _ _ _ _ _) fun _ _ => ?_
      split <;> simp

theorem search_fuel (M : Metric D) (hM : ∀ a b, M.dist a b ≠ .error .outOfFuel) (h : Hnsw) (q : Vec) (k : Int) :
    h.search M q k ≠ .error .outOfFuel := by
  unfold Hnsw.search
  split
  · simp
  · exact bind_fuel (nodeAt_fuel _ _) fun _ _ => bind_fuel (hM _ _) fun _ _ => bind_fuel (descend_fuel M hM _ _ _ _ _ _) fun _ _ =>
      bind_fuel (searchLayer_fuel M hM _ _ _ _ _ _) fun _ _ => by simp

/-! ### the heap loops: the fuel they are given never runs out -/

theorem upFuel_more {E : Type} (lt : E → E → Bool) : ∀ (f : Nat) (l : List E) (j extra : Nat), j ≤ f →
    Heap.upFuel lt (f + extra) l j = Heap.upFuel lt f l j := by
  intro f
  induction f with
  | zero =>
    intro l j extra hj
    have : j = 0 := by omega
    subst this
    cases extra with
    | zero => rfl
    | succ e => simp [Heap.upFuel]
  | succ f ih =>
    intro l j extra hj
    rw [show f + 1 + extra = (f + extra) + 1 by omega]
    unfold Heap.upFuel
    dsimp only
    split
    · rfl
    · rename_i hc
      apply ih
      simp only [not_or] at hc
      omega

theorem downFuel_more {E : Type} (lt : E → E → Bool) : ∀ (f : Nat) (l : List E) (i n extra : Nat), n ≤ i + f →
    Heap.downFuel lt (f + extra) l i n = Heap.downFuel lt f l i n := by
  intro f
  induction f with
  | zero =>
    intro l i n extra h
    cases extra with
    | zero => rfl
    | succ e =>
      rw [show 0 + (e + 1) = e + 1 by omega]
      unfold Heap.downFuel
      dsimp only
      rw [if_pos (by omega)]
  | succ f ih =>
    intro l i n extra h
    rw [show f + 1 + extra = (f + extra) + 1 by omega]
    unfold Heap.downFuel
    dsimp only
    split
    · rfl
    · split
      · split
        · rfl
        · exact ih _ _ _ _ (by omega)
      · split
        · rfl
        · exact ih _ _ _ _ (by omega)

theorem takeLive_more (M : Metric D) (del : List UInt64) : ∀ (f k : Nat) (heap : List (Elem D)) (extra : Nat), heap.length ≤ f →
    takeLive M del (f + extra) k heap = takeLive M del f k heap := by
  intro f
  induction f with
  | zero =>
    intro k heap extra h
    have : heap = [] := List.length_eq_zero_iff.mp (by omega)
    subst this
    cases extra with
    | zero => rfl
    | succ e => cases k <;> rfl
  | succ f ih =>
    intro k heap extra h
    rw [show f + 1 + extra = (f + extra) + 1 by omega]
    cases k with
    | zero => rfl
    | succ k =>
      unfold takeLive
      cases hp : Heap.pop (minLess M.lt) heap with
      | none => rfl
      | some r =>
        obtain ⟨e, rest⟩ := r
        have hl := Heap.pop_length _ _ _ _ hp
        dsimp only
        rw [ih _ _ _ (by omega), ih _ _ _ (by omega)]

theorem heuristicLoop_more (M : Metric D) (nodes : AMap UInt64 Vertex) (m : Nat) : ∀ (f : Nat) (q : List (Elem D)) (res : List UInt64)
    (extra : Nat), q.length ≤ f → heuristicLoop M nodes m (f + extra) q res = heuristicLoop M nodes m f q res := by
  intro f
  induction f with
  | zero =>
    intro q res extra h
    have : q = [] := List.length_eq_zero_iff.mp (by omega)
    subst this
    cases extra with
    | zero => rfl
    | succ e =>
      rw [show 0 + (e + 1) = e + 1 by omega]
      unfold heuristicLoop
      split <;> rfl
  | succ f ih =>
    intro q res extra h
    rw [show f + 1 + extra = (f + extra) + 1 by omega]
    unfold heuristicLoop
    split
    · rfl
    · cases hp : Heap.pop (minLess M.lt) q with
      | none => rfl
      | some r =>
        obtain ⟨e, rest⟩ := r
        have hl := Heap.pop_length _ _ _ _ hp
        dsimp only
        congr 1
        funext dom
        exact ih _ _ _ (by omega)

end Vectory
