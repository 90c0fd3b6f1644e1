import Verif.Lemmas.Sim
/-! Two collections whose indexes hold the same map, listed in another order, behave the same. -/
namespace Vectory
variable {V D : Type} {S : Prop} {X : UInt64 → Prop}

theorem SameMap.empty {a b : AMap UInt64 Vertex} (h : SameMap a b) (hb : b.keys.Nodup) : a = [] ↔ b = [] := by
  have := h.length hb
  constructor
  · rintro rfl; exact List.length_eq_zero_iff.mp this.symm
  · rintro rfl; exact List.length_eq_zero_iff.mp this

section
variable {a b : AMap UInt64 Vertex}

theorem visitOne_same (M : Metric D) (h : SameMap a b) (q : Vec) (ef : Nat) : visitOne M a q ef = visitOne M b q ef := by
  funext s n
  unfold visitOne
  rw [nodeAt_same h]

theorem searchLoop_same (M : Metric D) (h : SameMap a b) (m0 : Nat) (q : Vec) (ef l : Nat) : ∀ (f : Nat) (s : SL D),
    searchLoop M a m0 q ef l f s = searchLoop M b m0 q ef l f s := by
  intro f
  induction f with
  | zero => intro s; rfl
  | succ f ih =>
    intro s
    unfold searchLoop
    simp only [nodeAt_same h, visitOne_same M h]
    simp only [ih]

theorem searchLayer_same (M : Metric D) (h : SameMap a b) (hb : b.keys.Nodup) (m0 : Nat) (q : Vec) (eps : List (Elem D)) (ef l : Nat) :
    searchLayer M a m0 q eps ef l = searchLayer M b m0 q eps ef l := by
  unfold searchLayer
  simp only [searchLoop_same M h, h.length hb]

theorem descend_same (M : Metric D) (h : SameMap a b) (hb : b.keys.Nodup) (m0 : Nat) (q : Vec) (to : Nat) : ∀ (n : Nat) (eps : List (Elem D)),
    descend M a m0 q to n eps = descend M b m0 q to n eps := by
  intro n
  induction n with
  | zero => intro eps; rfl
  | succ n ih =>
    intro eps
    unfold descend
    simp only [searchLayer_same M h hb]
    simp only [ih]

theorem dominated_same (M : Metric D) (h : SameMap a b) (e : Elem D) : ∀ rs, dominated M a e rs = dominated M b e rs := by
  intro rs
  induction rs with
  | nil => rfl
  | cons r rs ih => unfold dominated; simp only [nodeAt_same h, ih]

theorem heuristicLoop_same (M : Metric D) (h : SameMap a b) (m : Nat) : ∀ (f : Nat) (q : List (Elem D)) (r : List UInt64),
    heuristicLoop M a m f q r = heuristicLoop M b m f q r := by
  intro f
  induction f with
  | zero => intro q r; rfl
  | succ f ih => intro q r; unfold heuristicLoop; simp only [dominated_same M h, ih]

theorem selectNeighbors_same (M : Metric D) (h : SameMap a b) (cfg : Cfg) (es : List (Elem D)) (m : Nat) :
    selectNeighbors M cfg a es m = selectNeighbors M cfg b es m := by
  unfold selectNeighbors selectNeighborsHeuristic
  rw [heuristicLoop_same M h]

theorem elemsOf_same (M : Metric D) (h : SameMap a b) (nv : Vertex) : ∀ ids, elemsOf M a nv ids = elemsOf M b nv ids := by
  intro ids
  induction ids with
  | nil => rfl
  | cons r rs ih => unfold elemsOf; simp only [nodeAt_same h, ih]
end

/-- the same index up to the order in which the map of vertices is listed. -/
structure HSame (h h' : Hnsw) : Prop where
  rest : h' = { h with nodes := h'.nodes }
  nodes : SameMap h'.nodes h.nodes
  nd : h.nodes.keys.Nodup

theorem HSame.refl {h : Hnsw} (hn : h.nodes.keys.Nodup) : HSame h h := ⟨rfl, ⟨hn, fun _ => rfl⟩, hn⟩

theorem HSame.symm {h h' : Hnsw} (s : HSame h h') : HSame h' h :=
  ⟨by rw [s.rest], ⟨s.nd, fun k => (s.nodes.get k).symm⟩, s.nodes.nd⟩

theorem HSame.fields {h h' : Hnsw} (s : HSame h h') : h'.cfg = h.cfg ∧ h'.entry = h.entry ∧ h'.maxLayer = h.maxLayer ∧
    h'.deleted = h.deleted ∧ h'.wal = h.wal ∧ h'.once = h.once := by
  rw [s.rest]; exact ⟨rfl, rfl, rfl, rfl, rfl, rfl⟩

/-- the same result from two related states. -/
inductive HRes {ε α : Type} (R : α → α → Prop) : Except ε α → Except ε α → Prop where
  | error (e : ε) : HRes R (.error e) (.error e)
  | ok {x y : α} : R x y → HRes R (.ok x) (.ok y)

theorem HRes.bind {ε α β : Type} {R : α → α → Prop} {Q : β → β → Prop} {r r' : Except ε α} {f g : α → Except ε β}
    (h : HRes R r r') (k : ∀ x y, R x y → HRes Q (f x) (g y)) : HRes Q (r >>= f) (r' >>= g) := by
  cases h with
  | error e => exact .error e
  | ok hr => exact k _ _ hr

theorem HRes.bind_same {ε α β : Type} {Q : β → β → Prop} {r r' : Except ε α} {f g : α → Except ε β}
    (h : r' = r) (k : ∀ x, HRes Q (f x) (g x)) : HRes Q (r >>= f) (r' >>= g) := by
  subst h
  cases r' with
  | error e => exact .error e
  | ok x => exact k x

theorem foldlM_same {β α : Type} {ε : Type} {R : β → β → Prop} {f g : β → α → Except ε β}
    (hf : ∀ x y a, R x y → HRes R (f x a) (g y a)) : ∀ (l : List α) (x y : β), R x y → HRes R (l.foldlM f x) (l.foldlM g y) := by
  intro l
  induction l with
  | nil => intro x y h; exact .ok h
  | cons a l ih => intro x y h; simp only [List.foldlM_cons]; exact (hf x y a h).bind (fun x y h => ih x y h)

theorem setConns_hres {a b : AMap UInt64 Vertex} (h : SameMap a b) (hb : b.keys.Nodup) (id : UInt64) (l : Nat) (c : List UInt64) :
    HRes (fun x y => SameMap y x ∧ x.keys.Nodup) (setConns b id l c) (setConns a id l c) := by
  unfold setConns
  refine HRes.bind_same (nodeAt_same h id) (fun v => ?_)
  split
  · exact .ok ⟨h.set _ _, AMap.keys_set_nodup hb _ _⟩
  · exact .error _

theorem addConn_hres {a b : AMap UInt64 Vertex} (h : SameMap a b) (hb : b.keys.Nodup) (id : UInt64) (l : Nat) (n : UInt64) :
    HRes (fun x y => SameMap y x ∧ x.keys.Nodup) (addConn b id l n) (addConn a id l n) := by
  unfold addConn
  refine HRes.bind_same (nodeAt_same h id) (fun v => ?_)
  refine HRes.bind_same rfl (fun c => ?_)
  exact .ok ⟨h.set _ _, AMap.keys_set_nodup hb _ _⟩

theorem HSame.log {h h' : Hnsw} (s : HSame h h') (r : Bytes) : HSame (h.log r) (h'.log r) :=
  ⟨by rw [s.rest]; rfl, s.nodes, s.nd⟩

theorem HSame.withNodes {h h' : Hnsw} (s : HSame h h') {x y : AMap UInt64 Vertex} (e : SameMap y x) (nd : x.keys.Nodup) :
    HSame { h with nodes := x } { h' with nodes := y } :=
  ⟨by rw [s.rest], e, nd⟩

theorem setConnections_same {h h' : Hnsw} (s : HSame h h') (id : UInt64) (l : Nat) (ids : List UInt64) :
    HRes HSame (h.setConnections id l ids) (h'.setConnections id l ids) := by
  unfold Hnsw.setConnections
  have s1 := s.log (recSetConnections id (UInt32.ofNat l) ids)
  exact (setConns_hres s1.nodes s1.nd id l ids).bind (fun x y e => .ok (s1.withNodes e.1 e.2))

theorem addConnection_same {h h' : Hnsw} (s : HSame h h') (id : UInt64) (l : Nat) (n : UInt64) :
    HRes HSame (h.addConnection id l n) (h'.addConnection id l n) := by
  unfold Hnsw.addConnection
  have s1 := s.log (recAddConnection id (UInt32.ofNat l) n)
  exact (addConn_hres s1.nodes s1.nd id l n).bind (fun x y e => .ok (s1.withNodes e.1 e.2))

theorem linkBack_same (M : Metric D) {h h' : Hnsw} (s : HSame h h') (v : UInt64) (vvec : Vec) (l mx : Nat) (n : UInt64) :
    HRes HSame (Hnsw.linkBack M v vvec l mx h n) (Hnsw.linkBack M v vvec l mx h' n) := by
  unfold Hnsw.linkBack
  refine HRes.bind_same (nodeAt_same s.nodes n) (fun nv => HRes.bind_same rfl (fun conns => ?_))
  split
  · exact addConnection_same s _ _ _
  · refine HRes.bind_same rfl (fun d => HRes.bind_same (elemsOf_same M s.nodes nv conns) (fun es => ?_))
    refine HRes.bind_same ?_ (fun nn => setConnections_same s _ _ _)
    rw [selectNeighbors_same M s.nodes, s.fields.1]

theorem connectLayer_same (M : Metric D) {h h' : Hnsw} (s : HSame h h') (v : UInt64) (vvec : Vec) (eps : List (Elem D)) (l : Nat) :
    HRes (fun x y => HSame x.1 y.1 ∧ y.2 = x.2) (h.connectLayer M v vvec eps l) (h'.connectLayer M v vvec eps l) := by
  unfold Hnsw.connectLayer
  refine HRes.bind_same ?_ (fun nns => ?_)
  · rw [searchLayer_same M s.nodes s.nd, s.fields.1]
  · refine HRes.bind_same ?_ (fun ns => ?_)
    · rw [selectNeighbors_same M s.nodes, s.fields.1]
    · refine (setConnections_same s _ _ _).bind (fun x y s1 => ?_)
      rw [s1.fields.1]
      exact HRes.bind (R := HSame) (foldlM_same (fun x y a s2 => linkBack_same M s2 v vvec l _ a) ns x y s1)
        (fun x y s2 => .ok ⟨s2, rfl⟩)

theorem construct_same (M : Metric D) (v : UInt64) (vvec : Vec) : ∀ (n : Nat) {h h' : Hnsw} (_ : HSame h h') (eps : List (Elem D)),
    HRes HSame (Hnsw.construct M v vvec n h eps) (Hnsw.construct M v vvec n h' eps) := by
  intro n
  induction n with
  | zero => intro h h' s eps; exact .ok s
  | succ n ih =>
    intro h h' s eps
    unfold Hnsw.construct
    refine (connectLayer_same M s v vvec eps n).bind ?_
    rintro ⟨x, ex⟩ ⟨y, ey⟩ ⟨s1, e⟩
    dsimp only at e s1 ⊢
    subst e
    exact ih s1 _

theorem insertTail_same (M : Metric D) {h h' : Hnsw} (s : HSame h h') (vec : Vec) (id : UInt64) (level : Nat) :
    HRes HSame
      (do
        let epv ← nodeAt h.nodes h.entry
        let d ← M.dist epv.vec vec
        let eps ← descend M h.nodes h.cfg.mMax0 vec level (h.maxLayer - level) [{ id := h.entry, dist := d }]
        let h1 ← h.construct M id vec (min h.maxLayer level + 1) eps
        if h.maxLayer < level then
          Except.ok { h1.log (recSetEntryPoint id (UInt32.ofNat level)) with entry := id, maxLayer := level }
        else .ok h1)
      (do
        let epv ← nodeAt h'.nodes h'.entry
        let d ← M.dist epv.vec vec
        let eps ← descend M h'.nodes h'.cfg.mMax0 vec level (h'.maxLayer - level) [{ id := h'.entry, dist := d }]
        let h1 ← h'.construct M id vec (min h'.maxLayer level + 1) eps
        if h'.maxLayer < level then
          Except.ok { h1.log (recSetEntryPoint id (UInt32.ofNat level)) with entry := id, maxLayer := level }
        else .ok h1) := by
  obtain ⟨f1, f2, f3, _⟩ := s.fields
  rw [f1, f2, f3]
  refine HRes.bind_same (nodeAt_same s.nodes _) (fun epv => HRes.bind_same rfl (fun d => HRes.bind_same ?_ (fun eps => ?_)))
  · exact descend_same M s.nodes s.nd _ _ _ _ _
  · refine (construct_same M id vec _ s eps).bind (fun x y s3 => ?_)
    split
    · have s4 := s3.log (recSetEntryPoint id (UInt32.ofNat level))
      exact .ok ⟨by rw [s4.rest], s4.nodes, s4.nd⟩
    · exact .ok s3

theorem insertNext_same (M : Metric D) {h h' : Hnsw} (s : HSame h h') (vec : Vec) (id : UInt64) (level : Nat) :
    HRes HSame (h.insertNext M vec id level) (h'.insertNext M vec id level) := by
  unfold Hnsw.insertNext
  rw [s.fields.1]
  split
  · exact .error _
  · have s1 := s.log (recAddVertex id (UInt32.ofNat level))
    have s2 := s1.withNodes (s1.nodes.set id { id := id, conns := List.replicate (level + 1) [], vec := vec }) (AMap.keys_set_nodup s1.nd id _)
    exact insertTail_same M s2 vec id level

theorem insert_same (M : Metric D) {h h' : Hnsw} (s : HSame h h') (vec : Vec) (id : UInt64) (level : Nat) :
    HRes HSame (h.insert M vec id level) (h'.insert M vec id level) := by
  unfold Hnsw.insert
  have s1 : HSame { h with once := true } { h' with once := true } := ⟨by rw [s.rest], s.nodes, s.nd⟩
  have hc : (h'.once = false ∧ h'.nodes = []) ↔ (h.once = false ∧ h.nodes = []) := by
    rw [s.fields.2.2.2.2.2, s.nodes.empty s.nd]
  by_cases hcc : h.once = false ∧ h.nodes = []
  · rw [if_pos hcc, if_pos (hc.mpr hcc)]
    unfold Hnsw.insertFirst
    have s2 := s1.log (recSetEntryPoint id 0)
    have s3 : HSame { Hnsw.log { h with once := true } (recSetEntryPoint id 0) with entry := id, maxLayer := 0 }
        { Hnsw.log { h' with once := true } (recSetEntryPoint id 0) with entry := id, maxLayer := 0 } :=
      ⟨by rw [s2.rest], s2.nodes, s2.nd⟩
    have s4 := s3.log (recAddVertex id 0)
    exact .ok (s4.withNodes (s4.nodes.set _ _) (AMap.keys_set_nodup s4.nd _ _))
  · rw [if_neg hcc, if_neg (fun h => hcc (hc.mp h))]
    exact insertNext_same M s1 vec id level

theorem search_same (M : Metric D) {h h' : Hnsw} (s : HSame h h') (q : Vec) (k : Int) : h'.search M q k = h.search M q k := by
  unfold Hnsw.search
  obtain ⟨e1, e2, e3, e4, _⟩ := s.fields
  rw [e1, e2, e3, e4]
  simp only [nodeAt_same s.nodes, descend_same M s.nodes s.nd, searchLayer_same M s.nodes s.nd]

/-! ### Collections -/

/-- the same collection up to the order in which the vertices of its index are listed. -/
structure CSame (c c' : Coll) : Prop where
  rest : c' = { c with index := c'.index }
  index : HSame c.index c'.index

theorem CSame.symm {c c' : Coll} (s : CSame c c') : CSame c' c := ⟨by rw [s.rest], s.index.symm⟩

/-- equal outcomes in related states. -/
def CRes {ε α : Type} : Except ε (Coll × α) → Except ε (Coll × α) → Prop :=
  HRes (fun x y => CSame x.1 y.1 ∧ y.2 = x.2)

theorem CSame.fields {c c' : Coll} (s : CSame c c') : c'.closed = c.closed ∧ c'.mappings = c.mappings ∧
    c'.hasEmbedder = c.hasEmbedder ∧ c'.stores = c.stores ∧ c'.counter = c.counter := by
  rw [s.rest]; exact ⟨rfl, rfl, rfl, rfl, rfl⟩

theorem CSame.with {c c' : Coll} (s : CSame c c') (st : Stores) (ctr : IdCounter) :
    CSame { c with counter := ctr, stores := st } { c' with counter := ctr, stores := st } :=
  ⟨by rw [s.rest], s.index⟩

theorem insertOne_same (L : Lib V D) {c c' : Coll} (s : CSame c c') (o : Object V) (env : InsEnv) :
    CRes (c.insertOne L o env) (c'.insertOne L o env) := by
  unfold Coll.insertOne
  obtain ⟨_, _, _, h2, h1⟩ := s.fields
  rw [h1, h2]
  cases hf : fetchAndInc c.counter env.counterFails with
  | mk ctr r =>
    cases r with
    | error e => exact .ok ⟨⟨by rw [s.rest], s.index⟩, rfl⟩
    | ok id =>
      dsimp only
      cases hp : putObject L.json c.stores { o with id := id } env.put with
      | mk st e =>
        cases e with
        | some e => exact .ok ⟨s.with st ctr, rfl⟩
        | none =>
          dsimp only
          exact (insert_same L.metric s.index _ id env.level).bind (fun x y e => .ok ⟨⟨by rw [s.rest], e⟩, rfl⟩)

theorem insertAll_same (L : Lib V D) : ∀ (os : List (Object V × InsEnv)) {c c' : Coll}, CSame c c' →
    CRes (c.insertAll L os) (c'.insertAll L os) := by
  intro os
  induction os with
  | nil => intro c c' s; exact .ok ⟨s, rfl⟩
  | cons p os ih =>
    obtain ⟨o, env⟩ := p
    intro c c' s
    unfold Coll.insertAll
    refine HRes.bind (insertOne_same L s o env) ?_
    rintro ⟨x, ox, e⟩ ⟨y, oy⟩ ⟨s1, he⟩
    dsimp only at he s1
    subst he
    cases e with
    | some e => exact .ok ⟨s1, rfl⟩
    | none =>
      dsimp only
      refine HRes.bind (ih s1) ?_
      rintro ⟨x, ox⟩ ⟨y, oy⟩ ⟨s2, he⟩
      dsimp only at he s2
      subst he
      exact .ok ⟨s2, rfl⟩

theorem flush_same {c c' : Coll} (s : CSame c c') (b : Bool) : CSame (c.flush b).1 (c'.flush b).1 ∧ (c'.flush b).2 = (c.flush b).2 := by
  unfold Coll.flush Hnsw.flush
  rw [s.index.fields.2.2.2.2.1]
  exact ⟨⟨by rw [s.rest], by rw [s.index.rest], s.index.nodes, s.index.nd⟩, rfl⟩

theorem CSame.embed {c c' : Coll} (s : CSame c c') (embed : Embed V) (os : List (Object V)) :
    embedObjectsIfNeeded c' embed os = embedObjectsIfNeeded c embed os := by
  unfold embedObjectsIfNeeded
  rw [s.fields.2.2.1]

theorem collInsert_same (L : Lib V D) {c c' : Coll} (s : CSame c c') (o : Object V) (embed : Embed V) (env : InsEnv) (ff : Bool) :
    CRes (c.insert L o embed env ff) (c'.insert L o embed env ff) := by
  unfold Coll.insert
  rw [s.fields.1, s.fields.2.1, s.embed]
  split
  · exact .ok ⟨s, rfl⟩
  · split
    · exact .ok ⟨s, rfl⟩
    · refine HRes.bind_same rfl (fun r => ?_)
      split
      · exact .ok ⟨s, rfl⟩
      · split
        · exact .ok ⟨s, rfl⟩
        · refine HRes.bind (insertOne_same L s _ env) ?_
          rintro ⟨x, ox, e⟩ ⟨y, oy⟩ ⟨s1, he⟩
          dsimp only at he s1
          subst he
          cases e with
          | some e => exact .ok ⟨s1, rfl⟩
          | none =>
            have hf := flush_same s1 ff
            dsimp only
            rw [hf.2]
            exact .ok ⟨hf.1, rfl⟩

theorem batch_same (L : Lib V D) {c c' : Coll} (s : CSame c c') (os : List (Object V)) (embed : Embed V) (envs : Nat → InsEnv)
    (ff : Bool) : CRes (c.insertBatch L os embed envs ff) (c'.insertBatch L os embed envs ff) := by
  unfold Coll.insertBatch
  rw [s.fields.1, s.fields.2.1, s.embed]
  split
  · exact .ok ⟨s, rfl⟩
  · split
    · exact .ok ⟨s, rfl⟩
    · refine HRes.bind_same rfl (fun r => ?_)
      split
      · exact .ok ⟨s, rfl⟩
      · refine HRes.bind (insertAll_same L _ s) ?_
        rintro ⟨x, ox, e⟩ ⟨y, oy⟩ ⟨s1, he⟩
        dsimp only at he s1
        subst he
        cases e with
        | some e => exact .ok ⟨s1, rfl⟩
        | none =>
          have hf := flush_same s1 ff
          dsimp only
          rw [hf.2]
          exact .ok ⟨hf.1, rfl⟩

theorem delete_same (L : Lib V D) {c c' : Coll} (s : CSame c c') (id : UInt64) (df ff : Bool) :
    CRes (c.delete L id df ff) (c'.delete L id df ff) := by
  unfold Coll.delete
  have e1 := s.fields.1
  have e2 := s.fields.2.2.2.1
  have e3 : (c'.closed && c'.stores.objects.has (keyOf id)) = (c.closed && c.stores.objects.has (keyOf id)) := by rw [e1, e2]
  rw [e3, e2]
  split
  · exact .ok ⟨s, rfl⟩
  · split
    · exact .error _
    · exact .ok ⟨s, rfl⟩
    · exact .ok ⟨s, rfl⟩
    · split
      · exact .ok ⟨s, rfl⟩
      · have s1 : CSame { c with stores := deleteObject c.stores id, index := c.index.delete id }
            { c' with stores := deleteObject c.stores id, index := c'.index.delete id } := by
          refine ⟨by rw [s.rest], ?_⟩
          unfold Hnsw.delete
          have s2 := s.index.log (recDeleteVertex id)
          exact ⟨by rw [s2.rest], s2.nodes, s2.nd⟩
        have hf := flush_same s1 ff
        dsimp only
        rw [hf.2]
        exact .ok ⟨hf.1, rfl⟩

theorem semanticSearch_same (L : Lib V D) {c c' : Coll} (s : CSame c c') (o : Object V) (embed : Embed V) (k : Int) :
    c'.semanticSearch L o embed k = c.semanticSearch L o embed k := by
  unfold Coll.semanticSearch
  rw [s.fields.1, s.embed, s.fields.2.2.2.1]
  simp only [search_same L.metric s.index]

theorem HRes.lift {α : Type} {R : α → α → Prop} {r r' : Except Panic α} (h : HRes R r r') : HRes R (liftPanic r) (liftPanic r') := by
  cases h with
  | error p => exact .error _
  | ok hs => exact .ok hs

theorem reopen_same {c c' : Coll} (s : CSame c c') : c'.reopen = c.reopen := by
  unfold Coll.reopen Coll.disk
  obtain ⟨_, h2, h3, h4, h5⟩ := s.fields
  rw [h2, h3, h4, h5, s.index.fields.1, s.index.fields.2.2.2.2.1]

theorem apply_same (L : Lib V D) {c c' : Coll} (s : CSame c c') (op : Op V) :
    CRes (c.apply L op) (c'.apply L op) ∨ (op = .reopen ∧ c'.apply L op = c.apply L op) := by
  cases op with
  | insert o embed env ff =>
    left
    simp only [Coll.apply]
    refine HRes.bind (collInsert_same L s o embed env ff).lift ?_
    rintro ⟨x, ox, e⟩ ⟨y, oy⟩ ⟨s1, he⟩
    dsimp only at he s1; subst he
    exact .ok ⟨s1, rfl⟩
  | insertBatch os embed envs ff =>
    left
    simp only [Coll.apply]
    refine HRes.bind (batch_same L s os embed envs ff).lift ?_
    rintro ⟨x, ox, e⟩ ⟨y, oy⟩ ⟨s1, he⟩
    dsimp only at he s1; subst he
    exact .ok ⟨s1, rfl⟩
  | delete id df ff =>
    left
    simp only [Coll.apply]
    refine HRes.bind (delete_same L s id df ff).lift ?_
    rintro ⟨x, e⟩ ⟨y, e'⟩ ⟨s1, he⟩
    dsimp only at he s1; subst he
    exact .ok ⟨s1, rfl⟩
  | get ids =>
    left
    simp only [Coll.apply, Coll.get, s.fields.1, s.fields.2.2.2.1]
    exact .ok ⟨s, rfl⟩
  | search o embed k =>
    left
    simp only [Coll.apply, semanticSearch_same L s]
    exact .ok ⟨s, rfl⟩
  | size =>
    left
    simp only [Coll.apply, Coll.getSize, s.fields.1, s.fields.2.2.2.1]
    exact .ok ⟨s, rfl⟩
  | update o =>
    left
    simp only [Coll.apply, Coll.update, s.fields.1]
    exact .ok ⟨s, rfl⟩
  | close sf =>
    left
    simp only [Coll.apply, Coll.close, s.fields.2.2.2.2]
    cases h : c.counter.close with
    | mk ctr e =>
      cases e with
      | some e => exact .ok ⟨⟨by rw [s.rest], s.index⟩, rfl⟩
      | none =>
        cases sf
        · exact .ok ⟨⟨by rw [s.rest]; rfl, s.index⟩, rfl⟩
        · exact .ok ⟨⟨by rw [s.rest]; rfl, s.index⟩, rfl⟩
  | reopen => right; exact ⟨rfl, by simp only [Coll.apply, reopen_same s]⟩

theorem trace_same (L : Lib V D) : ∀ (h : List (Op V × Out V D)) {c c' c2 : Coll}, CSame c c' → Trace L c h c2 →
    ∃ c2', Trace L c' h c2' := by
  intro h
  induction h with
  | nil => intro c c' c2 s t; exact ⟨c', .nil _⟩
  | cons p h ih =>
    intro c c' c2 s t
    cases t with
    | @cons _ c1 _ op out _ ha ht =>
      rcases apply_same L s op with hs | ⟨rfl, hs⟩
      · unfold CRes at hs
        rw [ha] at hs
        generalize hr : c'.apply L op = r at hs
        cases hs with
        | @ok _ y hs =>
          obtain ⟨c3, o3⟩ := y
          obtain ⟨s1, e⟩ := hs
          dsimp only at s1 e
          subst e
          obtain ⟨c4, t4⟩ := ih s1 ht
          exact ⟨c4, .cons hr t4⟩
      · exact ⟨c2, .cons (hs.trans ha) ht⟩

/-- reopening a synced collection gives it back, up to the `once` flag and the order of the vertices. -/
theorem reopen_csame {L : Lib V D} {dim : Nat} {c : Coll} (i : WInv S L dim X c) (s : Synced c) (ho : c.closed = false) :
    ∃ c1 c2, c.reopen = .ok c2 ∧ CSame c c1 ∧ Sim c1 c2 := by
  obtain ⟨f, c2, hf, hro, e2, hr, i2, _⟩ := coll_reopen i s.batch (fun _ => False)
  have hfc : f = c.counter.count := by
    have h1 := fileCount_of hf
    have h2 := fileCount_of s.file
    exact UInt64.toNat_inj.mp (by omega)
  have hw : newWal c.index.wal.disk = c.index.wal := by
    have hseq := i.idx.m.wal.seq
    have hb := s.batch
    generalize c.index.wal = w at hseq hb
    cases w with
    | mk d b n =>
      dsimp only at hb hseq
      subst hb
      simp only [newWal, hseq, List.length_nil, Nat.add_zero]
  have hctr : ({ count := f, file := c.counter.file } : IdCounter) = c.counter := by
    have hcc := s.closed
    rw [ho] at hcc
    generalize c.counter = k at hfc hcc
    cases k
    dsimp only at hfc hcc
    subst hfc; subst hcc; rfl
  have hnd := i.idx.m.good.graph.keysNd
  have hs1 : CSame c { c with index := { c.index with nodes := c2.index.nodes } } := ⟨rfl, rfl, hr.nodes, hnd⟩
  refine ⟨_, c2, hro, hs1, ?_⟩
  have hre : c2 = Coll.setOnce { c with index := { c.index with nodes := c2.index.nodes } } false := by
    have h1 := hr.rest
    rw [hw] at h1
    rw [e2]
    unfold reopened Coll.setOnce
    rw [hctr, ← ho]
    dsimp only
    rw [h1, ho]
  by_cases hn : c2.index.nodes = []
  · left
    have : c.index.once = false := by
      cases h : c.index.once with
      | false => rfl
      | true => exact absurd ((hr.nodes.empty hnd).mp hn) (i.idx.once h)
    refine hre.trans ?_
    unfold Coll.setOnce
    rw [← this]
  · exact Or.inr ⟨hn, false, hre⟩

end Vectory
