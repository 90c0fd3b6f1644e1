import Verif.Props.Dimension
/-!
# C69, continued: vectors of any other length

`C69_never_refused`: `Insert` never answers with an error because of the length of the vector. `C69_long_query_truncated`: a search with
a vector that is too long is silently the search with its first components.
-/
namespace Vectory
variable {V D : Type}

/-- a distance function that reads of its second argument only as many components as the first one has. -/
def IgnoresRest (M : Metric D) : Prop := ∀ a b : Vec, a.length ≤ b.length → M.dist a b = M.dist a (b.take a.length)

/-- both distance functions of vectory are such. -/
theorem ignores_rest {o : FloatOps} {t : String} {M : Metric F32} (h : metricOf o t = some M) : IgnoresRest M := by
  unfold metricOf at h
  split at h
  · cases h
    have key : ∀ (n : Nat) (a b : Vec) (acc : F32), a.length = n → n ≤ b.length → dotLoop o acc a b = dotLoop o acc a (b.take n) := by
      intro n
      induction n using Nat.strongRecOn with
      | ind n ih =>
        intro a b acc hn hb
        match a, hn with
        | [], _ => simp [dotLoop]
        | [_], _ => simp [dotLoop]
        | [_, _], _ => simp [dotLoop]
        | [_, _, _], _ => simp [dotLoop]
        | [_, _, _, _], _ => simp [dotLoop]
        | [_, _, _, _, _], _ => simp [dotLoop]
        | [_, _, _, _, _, _], _ => simp [dotLoop]
        | [_, _, _, _, _, _, _], _ => simp [dotLoop]
        | a0 :: a1 :: a2 :: a3 :: a4 :: a5 :: a6 :: a7 :: as, hn =>
          simp only [List.length_cons] at hn
          match b, hb with
          | b0 :: b1 :: b2 :: b3 :: b4 :: b5 :: b6 :: b7 :: bs, hb =>
            simp only [List.length_cons] at hb
            subst hn
            simp only [List.take_succ_cons]
            rw [dotLoop.eq_2, dotLoop.eq_2]
            exact ih as.length (by omega) as bs _ rfl (by omega)
          | [], hb => simp at hb; omega
          | [_], hb => simp at hb; omega
          | [_, _], hb => simp at hb; omega
          | [_, _, _], hb => simp at hb; omega
          | [_, _, _, _], hb => simp at hb; omega
          | [_, _, _, _, _], hb => simp at hb; omega
          | [_, _, _, _, _, _], hb => simp at hb; omega
          | [_, _, _, _, _, _, _], hb => simp at hb; omega
    intro a b hab
    exact key _ a b _ rfl hab
  · split at h
    · cases h
      have key : ∀ (a b : Vec) (acc : F32), a.length ≤ b.length → euclidLoop o acc a b = euclidLoop o acc a (b.take a.length) := by
        intro a
        induction a with
        | nil => intro b acc _; simp [euclidLoop]
        | cons x a ih =>
          intro b acc hl
          cases b with
          | nil => simp at hl
          | cons y b => simp only [List.length_cons, List.take_succ_cons, euclidLoop]; exact ih b _ (by simpa using hl)
      intro a b hab
      simp only [euclideanDistance, key _ _ _ hab]
    · cases h

/-! ### Searches see the query only through its distances -/

section
variable {M : Metric D} {nodes : AMap UInt64 Vertex} {q q' : Vec}

theorem visitOne_query (hq : ∀ id v, nodes.get? id = some v → M.dist v.vec q = M.dist v.vec q') (ef : Nat) (s : SL D) (nid : UInt64) :
    visitOne M nodes q ef s nid = visitOne M nodes q' ef s nid := by
  unfold visitOne
  split
  · rfl
  · split
    · rfl
    · cases hn : nodeAt nodes nid with
      | error p => rfl
      | ok v =>
        have hv : nodes.get? nid = some v := by
          unfold nodeAt at hn
          split at hn
          · cases hn; assumption
          · cases hn
        simp only [ok_bind, hq _ _ hv]

theorem visits_query (hq : ∀ id v, nodes.get? id = some v → M.dist v.vec q = M.dist v.vec q') (ef : Nat) : ∀ (l : List UInt64) (s : SL D),
    l.foldlM (visitOne M nodes q ef) s = l.foldlM (visitOne M nodes q' ef) s := by
  have : visitOne M nodes q ef = visitOne M nodes q' ef := by
    funext s nid; exact visitOne_query hq ef s nid
  intro l s
  rw [this]

theorem searchLoop_query (hq : ∀ id v, nodes.get? id = some v → M.dist v.vec q = M.dist v.vec q') (mMax0 ef level : Nat) :
    ∀ (fuel : Nat) (s : SL D), searchLoop M nodes mMax0 q ef level fuel s = searchLoop M nodes mMax0 q' ef level fuel s := by
  intro fuel
  induction fuel with
  | zero => intro s; rfl
  | succ fuel ih =>
    intro s
    unfold searchLoop
    simp only [visits_query hq, ih]

theorem searchLayer_query (hq : ∀ id v, nodes.get? id = some v → M.dist v.vec q = M.dist v.vec q') (mMax0 : Nat) (eps : List (Elem D))
    (ef level : Nat) : searchLayer M nodes mMax0 q eps ef level = searchLayer M nodes mMax0 q' eps ef level := by
  unfold searchLayer
  simp only [searchLoop_query hq]

theorem descend_query (hq : ∀ id v, nodes.get? id = some v → M.dist v.vec q = M.dist v.vec q') (mMax0 to : Nat) :
    ∀ (n : Nat) (eps : List (Elem D)), descend M nodes mMax0 q to n eps = descend M nodes mMax0 q' to n eps := by
  intro n
  induction n with
  | zero => intro eps; rfl
  | succ n ih => intro eps; unfold descend; simp only [searchLayer_query hq, ih]

end

theorem search_query {M : Metric D} {h : Hnsw} {q q' : Vec} (hq : ∀ id v, h.nodes.get? id = some v → M.dist v.vec q = M.dist v.vec q')
    (k : Int) : h.search M q k = h.search M q' k := by
  unfold Hnsw.search
  cases hn : nodeAt h.nodes h.entry with
  | error p => rfl
  | ok v =>
    have hv : h.nodes.get? h.entry = some v := by
      unfold nodeAt at hn
      split at hn
      · cases hn; assumption
      · cases hn
    simp only [ok_bind, hq _ _ hv, descend_query hq, searchLayer_query hq]

theorem w69_long_query_truncated (L : Lib V D) (dim : Nat) (c : Coll) {S : Prop} (i : WInv S L dim (fun _ => True) c) (hm : IgnoresRest L.metric)
    (o : Object V) (v : Vec) (hov : o.vec = some v) (hlong : dim < v.length) (embed : Embed V)
    (hemb : ∀ w : Vec, embedObjectsIfNeeded c embed [{ o with vec := some w }] = .ok (.ok [{ o with vec := some w }])) (k : Int) :
    c.semanticSearch L o embed k = c.semanticSearch L { o with vec := some (v.take dim) } embed k := by
  have h0 := hemb v
  have ho : ({ o with vec := some v } : Object V) = o := by cases o; cases hov; rfl
  rw [ho] at h0
  unfold Coll.semanticSearch
  rw [h0, hemb (v.take dim)]
  simp only [liftPanic, ok_bind, hov, Option.getD_some]
  rw [search_query (q := v) (q' := v.take dim)]
  intro id x hx
  have hd := i.vecs _ _ hx
  rw [hm x.vec v (by omega), hd]

/-- C69: searching with a vector that is too long is not refused: the answer is that of the search with the first components of the
vector, as many as the stored vectors have. -/
theorem C69_long_query_truncated (L : Lib V D) (dim : Nat) (c : Coll) (hr : ReachAny L dim c) (hm : IgnoresRest L.metric)
    (o : Object V) (v : Vec) (hov : o.vec = some v) (hlong : dim < v.length) (embed : Embed V)
    (hemb : ∀ w : Vec, embedObjectsIfNeeded c embed [{ o with vec := some w }] = .ok (.ok [{ o with vec := some w }])) (k : Int) :
    c.semanticSearch L o embed k = c.semanticSearch L { o with vec := some (v.take dim) } embed k :=
  w69_long_query_truncated L dim c hr.weak.1 hm o v hov hlong embed hemb k

/-! ### Insert never refuses -/

theorem foldlM_ok {A B : Type} {P : B → Prop} {f : B → A → Except Panic B} (hf : ∀ b a b', P b → f b a = .ok b' → P b') :
    ∀ (l : List A) (b b' : B), P b → l.foldlM f b = .ok b' → P b' := by
  intro l
  induction l with
  | nil => intro b b' hb h; cases h; exact hb
  | cons a l ih =>
    intro b b' hb h
    rw [List.foldlM_cons, bind_ok_iff] at h
    obtain ⟨b1, h1, h2⟩ := h
    exact ih b1 b' (hf b a b1 hb h1) h2

theorem WalOK.setConnections {h h' : Hnsw} (w : WalOK h.wal) {id : UInt64} {l : Nat} {ids : List UInt64}
    (e : h.setConnections id l ids = .ok h') : WalOK h'.wal := by
  unfold Hnsw.setConnections at e
  rw [bind_ok_iff] at e
  obtain ⟨n, _, e⟩ := e
  cases e
  exact w.write _

theorem WalOK.addConnection {h h' : Hnsw} (w : WalOK h.wal) {id : UInt64} {l : Nat} {nid : UInt64}
    (e : h.addConnection id l nid = .ok h') : WalOK h'.wal := by
  unfold Hnsw.addConnection at e
  rw [bind_ok_iff] at e
  obtain ⟨n, _, e⟩ := e
  cases e
  exact w.write _

theorem WalOK.linkBack {M : Metric D} {v : UInt64} {vvec : Vec} {l mc : Nat} {h h' : Hnsw} (w : WalOK h.wal) {n : UInt64}
    (e : h.linkBack M v vvec l mc n = .ok h') : WalOK h'.wal := by
  unfold Hnsw.linkBack at e
  simp only [bind_ok_iff] at e
  obtain ⟨nv, _, conns, _, e⟩ := e
  split at e
  · exact w.addConnection e
  · simp only [bind_ok_iff] at e
    obtain ⟨_, _, _, _, _, _, e⟩ := e
    exact w.setConnections e

theorem WalOK.construct {M : Metric D} {v : UInt64} {vvec : Vec} : ∀ (n : Nat) (h h' : Hnsw) (eps : List (Elem D)), WalOK h.wal →
    h.construct M v vvec n eps = .ok h' → WalOK h'.wal := by
  intro n
  induction n with
  | zero => intro h h' eps w e; cases e; exact w
  | succ n ih =>
    intro h h' eps w e
    unfold Hnsw.construct at e
    rw [bind_ok_iff] at e
    obtain ⟨⟨h1, eps1⟩, e1, e2⟩ := e
    refine ih h1 h' eps1 ?_ e2
    unfold Hnsw.connectLayer at e1
    simp only [bind_ok_iff] at e1
    obtain ⟨nns, _, ns, _, h2, e3, h4, e4, e5⟩ := e1
    cases e5
    exact foldlM_ok (P := fun h : Hnsw => WalOK h.wal) (fun b a b' hb he => WalOK.linkBack hb he) ns h2 h1 (w.setConnections e3) e4

theorem WalOK.insert {M : Metric D} {h h' : Hnsw} (w : WalOK h.wal) {vec : Vec} {id : UInt64} {level : Nat}
    (e : h.insert M vec id level = .ok h') : WalOK h'.wal := by
  unfold Hnsw.insert at e
  split at e
  · cases e
    exact (w.write _).write _
  · unfold Hnsw.insertNext at e
    split at e
    · cases e
    · simp only [bind_ok_iff] at e
      obtain ⟨_, _, _, _, eps, _, h2, e2, e⟩ := e
      have w2 : WalOK h2.wal := WalOK.construct _ _ _ _ (w.write _) e2
      split at e
      · cases e; exact w2.write _
      · cases e; exact w2

theorem w69_never_refused (L : Lib V D) (dim : Nat) (c : Coll) {S : Prop} (i : WInv S L dim (fun _ => True) c) (hcl : c.closed = false)
    (hcc : c.counter.closed = false) (o : Object V) (v : Vec) (hov : o.vec = some v) (hv32 : v.length < 4294967296)
    (hval : validateObjects c.mappings 0 [o] = none) (text : Bytes) (hj : L.json.marshal o.props = some text)
    (embed : Embed V) (hemb : embedObjectsIfNeeded c embed [o] = .ok (.ok [o])) (level : Nat) :
    (∃ p, c.insert L o embed { level := level } false = .error p) ∨
    ∃ c' props, c.insert L o embed { level := level } false = .ok (c', { o with id := c.counter.count }, none) ∧
      L.json.unmarshal text = some props ∧
      c'.get L [c.counter.count] = .ok [{ id := c.counter.count, props := props, vec := some v }] := by
  obtain ⟨hl, props, hback⟩ := i.json.back _ _ hj
  have hser : serializeProperties L.json { o with id := c.counter.count } = .ok (putUint32 (UInt32.ofNat text.length) ++ text) := by
    simp [serializeProperties, hj]
  have hput : putObject L.json c.stores { o with id := c.counter.count } .none =
      ({ objects := c.stores.objects.set (keyOf c.counter.count) (putUint32 (UInt32.ofNat text.length) ++ text),
         vectors := c.stores.vectors.set (keyOf c.counter.count) (serializeVector v) }, none) := by
    unfold putObject
    rw [hser]
    simp [hov]
  cases hins : c.index.insert L.metric v c.counter.count level with
  | error p =>
    left
    refine ⟨p, ?_⟩
    unfold Coll.insert
    rw [hcl, hval, hemb]
    simp only [Bool.false_eq_true, if_false, ok_bind]
    unfold Coll.insertOne fetchAndInc
    rw [hcc]
    simp only [Bool.or_self, Bool.false_eq_true, if_false]
    rw [hput]
    simp only [hov, Option.getD_some, hins]
    rfl
  | ok idx =>
    right
    have w : WalOK idx.wal := WalOK.insert i.idx.m.wal hins
    have hfl := w.flush
    let st : Stores := { objects := c.stores.objects.set (keyOf c.counter.count) (putUint32 (UInt32.ofNat text.length) ++ text),
                         vectors := c.stores.vectors.set (keyOf c.counter.count) (serializeVector v) }
    have hgo : getObject L.json st c.counter.count = .ok (some { id := c.counter.count, props := props, vec := some v }) := by
      unfold getObject
      rw [AMap.get?_set_self]
      dsimp only
      rw [AMap.get?_set_self]
      dsimp only
      rw [deserialize_serializeProperties L.json { o with id := c.counter.count } text _ props hj hl hback hser]
      dsimp only
      rw [deserialize_serializeVector _ hv32]
    refine ⟨{ c with counter := { c.counter with count := c.counter.count + 1, file := overwrite c.counter.file (putUint64 (c.counter.count + 1)) },
                     stores := st, index := (idx.flush false).1 }, props, ?_, hback, ?_⟩
    · unfold Coll.insert
      rw [hcl, hval, hemb]
      simp only [Bool.false_eq_true, if_false, ok_bind]
      unfold Coll.insertOne fetchAndInc
      rw [hcc]
      simp only [Bool.or_self, Bool.false_eq_true, if_false]
      rw [hput]
      simp only [hov, Option.getD_some, hins, ok_bind]
      unfold Coll.flush Hnsw.flush
      simp only [hfl, hcl]
      rfl
    · unfold Coll.get
      simp only [hcl, Bool.false_eq_true, if_false]
      unfold getObjects getObjects
      rw [hgo]

/-- C69: whatever the length of its vector, an object that the collection accepts otherwise is never refused: if no write fails,
`Insert` panics or returns nil, and when it returns nil the object is stored with its vector. -/
theorem C69_never_refused (L : Lib V D) (dim : Nat) (c : Coll) (hr : ReachAny L dim c) (hcl : c.closed = false)
    (hcc : c.counter.closed = false) (o : Object V) (v : Vec) (hov : o.vec = some v) (hv32 : v.length < 4294967296)
    (hval : validateObjects c.mappings 0 [o] = none) (text : Bytes) (hj : L.json.marshal o.props = some text)
    (embed : Embed V) (hemb : embedObjectsIfNeeded c embed [o] = .ok (.ok [o])) (level : Nat) :
    (∃ p, c.insert L o embed { level := level } false = .error p) ∨
    ∃ c' props, c.insert L o embed { level := level } false = .ok (c', { o with id := c.counter.count }, none) ∧
      L.json.unmarshal text = some props ∧
      c'.get L [c.counter.count] = .ok [{ id := c.counter.count, props := props, vec := some v }] :=
  w69_never_refused L dim c hr.weak.1 hcl hcc o v hov hv32 hval text hj embed hemb level

/-- the hypotheses of the two theorems are met: one object with an eight-component vector, and one with nine components. -/
example : ReachAny eucLib 8 c69State ∧ IgnoresRest eucLib.metric ∧ c69State.closed = false ∧ c69State.counter.closed = false ∧
    validateObjects c69State.mappings 0 [({ id := 0, props := [("a", 7)], vec := some [1, 2, 3, 4, 5, 6, 7, 8, 9] } : Object UInt8)] = none ∧
    (eucLib.json.marshal [("a", (7 : UInt8))]).isSome ∧
    ∀ o : Object UInt8, ∀ w : Vec, embedObjectsIfNeeded c69State noEmbed [{ o with vec := some w }] = .ok (.ok [{ o with vec := some w }]) := by
  refine ⟨c69_reach.any, ignores_rest (o := intOps) (t := "euclidean_distance") rfl, by decide +kernel, by decide +kernel, by decide +kernel, by decide, ?_⟩
  intro o w
  unfold embedObjectsIfNeeded; rw [show c69State.hasEmbedder = false by decide +kernel]; rfl

end Vectory
