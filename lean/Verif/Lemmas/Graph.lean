import Verif.Lemmas.Wal
import Verif.Lemmas.Select
/-! The graph invariant and the log invariant, and the primitive mutations. -/
namespace Vectory
variable {D : Type} {S : Prop}

/-! `S` in the invariants below means "only one goroutine at a time has inserted". With `S := True` the invariants are those of
the sequential index; with `S := False` they are what survives concurrent inserts: neighbour lists may contain a vertex twice
or the vertex itself, and the log restores the vertices in another order. -/

/-- the neighbour list of `id` at layer `l`, if it has that layer. -/
def link? (nodes : AMap UInt64 Vertex) (id : UInt64) (l : Nat) : Option (List UInt64) :=
  (nodes.get? id).bind (fun v => v.conns[l]?)

/-- `id` is a vertex that has layer `l`. -/
def HasLevel (nodes : AMap UInt64 Vertex) (id : UInt64) (l : Nat) : Prop :=
  ∃ v, nodes.get? id = some v ∧ l < v.conns.length

theorem hasLevel_iff {nodes : AMap UInt64 Vertex} {id : UInt64} {l : Nat} :
    HasLevel nodes id l ↔ ∃ c, link? nodes id l = some c := by
  unfold HasLevel link?
  constructor
  · rintro ⟨v, hv, hl⟩
    exact ⟨v.conns[l], by rw [hv]; simp [hl]⟩
  · rintro ⟨c, hc⟩
    cases hv : nodes.get? id with
    | none => rw [hv] at hc; simp at hc
    | some v =>
      rw [hv] at hc
      simp only [Option.bind_some] at hc
      exact ⟨v, rfl, (List.getElem?_eq_some_iff.mp hc).1⟩

theorem link?_some {nodes : AMap UInt64 Vertex} {id : UInt64} {l : Nat} {c : List UInt64}
    (h : link? nodes id l = some c) : ∃ v, nodes.get? id = some v ∧ v.conns[l]? = some c := by
  unfold link? at h
  cases hv : nodes.get? id with
  | none => rw [hv] at h; simp at h
  | some v => rw [hv] at h; exact ⟨v, rfl, h⟩

theorem link?_of {nodes : AMap UInt64 Vertex} {id : UInt64} {l : Nat} {c : List UInt64} {v : Vertex}
    (hv : nodes.get? id = some v) (hc : v.conns[l]? = some c) : link? nodes id l = some c := by
  unfold link?; rw [hv]; exact hc

theorem HasLevel.mono {nodes : AMap UInt64 Vertex} {id : UInt64} {l l' : Nat} (h : HasLevel nodes id l) (hl : l' ≤ l) :
    HasLevel nodes id l' := by
  obtain ⟨v, hv, h⟩ := h; exact ⟨v, hv, by omega⟩

/-- largest number of links the code ever stores at layer `l`. -/
def degBound (cfg : Cfg) (l : Nat) : Nat := max cfg.m (if l = 0 then cfg.mMax0 else cfg.mMax)

structure Graph (S : Prop) (cfg : Cfg) (nodes : AMap UInt64 Vertex) : Prop where
  keysNd : nodes.keys.Nodup
  idOK : ∀ id v, nodes.get? id = some v → v.id = id ∧ v.conns ≠ []
  linkOK : ∀ id l c, link? nodes id l = some c →
    (S → c.Nodup ∧ id ∉ c) ∧ c.length ≤ degBound cfg l ∧ ∀ n ∈ c, HasLevel nodes n l

/-- same vertices, levels and vectors (only links may differ). -/
structure Shape (nodes nodes' : AMap UInt64 Vertex) : Prop where
  keys : nodes'.keys = nodes.keys
  get : ∀ id, (nodes'.get? id).map (fun v => (v.id, v.conns.length, v.vec)) =
    (nodes.get? id).map (fun v => (v.id, v.conns.length, v.vec))

theorem Shape.refl (n : AMap UInt64 Vertex) : Shape n n := ⟨rfl, fun _ => rfl⟩
theorem Shape.trans {a b c : AMap UInt64 Vertex} (h1 : Shape a b) (h2 : Shape b c) : Shape a c :=
  ⟨h2.keys.trans h1.keys, fun id => (h2.get id).trans (h1.get id)⟩

theorem Shape.get_some {a b : AMap UInt64 Vertex} (h : Shape a b) {id : UInt64} {v : Vertex}
    (hv : a.get? id = some v) : ∃ v', b.get? id = some v' ∧ v'.id = v.id ∧ v'.conns.length = v.conns.length ∧
      v'.vec = v.vec := by
  have := h.get id
  rw [hv] at this
  cases hb : b.get? id with
  | none => rw [hb] at this; simp at this
  | some v' => rw [hb] at this; simp at this; exact ⟨v', rfl, this.1, this.2.1, this.2.2⟩

theorem Shape.symm {a b : AMap UInt64 Vertex} (h : Shape a b) : Shape b a :=
  ⟨h.keys.symm, fun id => (h.get id).symm⟩

theorem Shape.hasLevel {a b : AMap UInt64 Vertex} (h : Shape a b) {id : UInt64} {l : Nat} (hl : HasLevel a id l) :
    HasLevel b id l := by
  obtain ⟨v, hv, hl⟩ := hl
  obtain ⟨v', hv', _, h2, _⟩ := h.get_some hv
  exact ⟨v', hv', by omega⟩

theorem Shape.trueDist {a b : AMap UInt64 Vertex} (h : Shape a b) {M : Metric D} {q : Vec} {e : Elem D}
    (ht : TrueDist M a q e) : TrueDist M b q e := by
  obtain ⟨v, hv, hd⟩ := ht
  obtain ⟨v', hv', _, _, h3⟩ := h.get_some hv
  exact ⟨v', hv', by rw [h3]; exact hd⟩

theorem Shape.epsOK {a b : AMap UInt64 Vertex} (h : Shape a b) {M : Metric D} {q : Vec} {P : UInt64 → Prop}
    {eps : List (Elem D)} (he : EpsOK M a q P eps) : EpsOK M b q P eps :=
  ⟨he.ne, he.nd, he.mem, fun e hm => h.trueDist (he.dist e hm)⟩

/-- replace one neighbour list. -/
def putConns (nodes : AMap UInt64 Vertex) (id : UInt64) (v : Vertex) (l : Nat) (c : List UInt64) :
    AMap UInt64 Vertex := nodes.set id { v with conns := v.conns.set l c }

theorem setConns_ok {nodes : AMap UInt64 Vertex} {id : UInt64} {v : Vertex} {l : Nat} (c : List UInt64)
    (hv : nodes.get? id = some v) (hl : l < v.conns.length) :
    setConns nodes id l c = .ok (putConns nodes id v l c) := by
  unfold setConns
  rw [nodeAt_of hv, ok_bind, if_pos hl]; rfl

theorem addConn_ok {nodes : AMap UInt64 Vertex} {id : UInt64} {v : Vertex} {l : Nat} {c : List UInt64} (n : UInt64)
    (hv : nodes.get? id = some v) (hc : v.conns[l]? = some c) :
    addConn nodes id l n = .ok (putConns nodes id v l (c ++ [n])) := by
  unfold addConn
  rw [nodeAt_of hv, ok_bind, connsAt_of hc, ok_bind]; rfl

theorem link?_put {nodes : AMap UInt64 Vertex} {id : UInt64} {v : Vertex} {l : Nat} (c : List UInt64)
    (hv : nodes.get? id = some v) (hl : l < v.conns.length) (id' : UInt64) (l' : Nat) :
    link? (putConns nodes id v l c) id' l' = if id' = id ∧ l' = l then some c else link? nodes id' l' := by
  unfold link? putConns
  rw [AMap.get?_set]
  by_cases h : id = id'
  · subst h
    simp only [if_true, hv, Option.bind_some, List.getElem?_set, true_and]
    by_cases h2 : l = l'
    · subst h2; simp [hl]
    · have : ¬ l' = l := fun h => h2 h.symm
      simp [h2, this]
  · have h' : ¬ id' = id := fun e => h e.symm
    simp [h, h']

theorem shape_put {nodes : AMap UInt64 Vertex} {id : UInt64} {v : Vertex} {l : Nat} (c : List UInt64)
    (hv : nodes.get? id = some v) : Shape nodes (putConns nodes id v l c) := by
  have hk : id ∈ nodes.keys := by rw [← AMap.get?_isSome_iff, hv]; rfl
  constructor
  · unfold putConns; rw [AMap.keys_set, if_pos hk]
  · intro id'
    unfold putConns
    rw [AMap.get?_set]
    split
    · rename_i h; subst h; simp [hv]
    · rfl

theorem Graph.put {cfg : Cfg} {nodes : AMap UInt64 Vertex} (g : Graph S cfg nodes) {id : UInt64} {v : Vertex} {l : Nat}
    {c : List UInt64} (hv : nodes.get? id = some v) (hl : l < v.conns.length)
    (hnd : S → c.Nodup ∧ id ∉ c) (hlen : c.length ≤ degBound cfg l) (hlev : ∀ n ∈ c, HasLevel nodes n l) :
    Graph S cfg (putConns nodes id v l c) := by
  have sh := shape_put (l := l) c hv
  refine ⟨by rw [sh.keys]; exact g.keysNd, ?_, ?_⟩
  · intro id' v' hv'
    obtain ⟨w, hw, h1, h2, _⟩ := sh.symm.get_some hv'
    obtain ⟨g1, g2⟩ := g.idOK id' w hw
    refine ⟨by rw [← h1]; exact g1, ?_⟩
    intro hn
    rw [hn] at h2
    exact g2 (List.eq_nil_of_length_eq_zero h2)
  · intro id' l' c' hc'
    rw [link?_put c hv hl] at hc'
    split at hc'
    · rename_i h
      obtain ⟨rfl, rfl⟩ := h
      cases hc'
      exact ⟨hnd, hlen, fun n hn => sh.hasLevel (hlev n hn)⟩
    · obtain ⟨a, c1, d⟩ := g.linkOK id' l' c' hc'
      exact ⟨a, c1, fun n hn => sh.hasLevel (d n hn)⟩

/-! ### The stripped state that the log can restore -/

/-- a vertex as the log records it: no vector. -/
def Vertex.strip (v : Vertex) : Vertex := { v with vec := [] }

/-- the part of the index that the log determines. -/
def Hnsw.strip (h : Hnsw) : Hnsw :=
  { h with nodes := h.nodes.mapVals Vertex.strip, once := false, wal := {} }

/-- replaying `records` from scratch. -/
def loadLog (cfg : Cfg) (records : List Bytes) : Except Abort Hnsw := loadFromWAL { cfg := cfg } records

theorem link?_strip (nodes : AMap UInt64 Vertex) (id : UInt64) (l : Nat) :
    link? (nodes.mapVals Vertex.strip) id l = link? nodes id l := by
  unfold link?
  rw [AMap.get?_mapVals]
  cases nodes.get? id <;> rfl

theorem keys_strip (nodes : AMap UInt64 Vertex) : (nodes.mapVals Vertex.strip).keys = nodes.keys := by
  unfold AMap.mapVals AMap.keys; simp

theorem hasLevel_strip {nodes : AMap UInt64 Vertex} {id : UInt64} {l : Nat} :
    HasLevel (nodes.mapVals Vertex.strip) id l ↔ HasLevel nodes id l := by
  rw [hasLevel_iff, hasLevel_iff, link?_strip]

theorem graph_strip {cfg : Cfg} {nodes : AMap UInt64 Vertex} (g : Graph S cfg nodes) :
    Graph S cfg (nodes.mapVals Vertex.strip) := by
  refine ⟨by rw [keys_strip]; exact g.keysNd, ?_, ?_⟩
  · intro id v hv
    rw [AMap.get?_mapVals] at hv
    cases hn : nodes.get? id with
    | none => rw [hn] at hv; simp at hv
    | some w =>
      rw [hn] at hv; simp at hv; subst hv
      exact g.idOK id w hn
  · intro id l c hc
    rw [link?_strip] at hc
    obtain ⟨a, c1, d⟩ := g.linkOK id l c hc
    exact ⟨a, c1, fun n hn => hasLevel_strip.mpr (d n hn)⟩

theorem setConns_strip {nodes : AMap UInt64 Vertex} {id : UInt64} {v : Vertex} {l : Nat} (c : List UInt64)
    (hv : nodes.get? id = some v) (hl : l < v.conns.length) :
    setConns (nodes.mapVals Vertex.strip) id l c = .ok ((putConns nodes id v l c).mapVals Vertex.strip) := by
  have hv' : (nodes.mapVals Vertex.strip).get? id = some v.strip := by rw [AMap.get?_mapVals, hv]; rfl
  rw [setConns_ok c hv' (by exact hl)]
  unfold putConns
  rw [AMap.mapVals_set]
  rfl

theorem addConn_strip {nodes : AMap UInt64 Vertex} {id : UInt64} {v : Vertex} {l : Nat} {c : List UInt64} (n : UInt64)
    (hv : nodes.get? id = some v) (hc : v.conns[l]? = some c) :
    addConn (nodes.mapVals Vertex.strip) id l n = .ok ((putConns nodes id v l (c ++ [n])).mapVals Vertex.strip) := by
  have hv' : (nodes.mapVals Vertex.strip).get? id = some v.strip := by rw [AMap.get?_mapVals, hv]; rfl
  rw [addConn_ok (c := c) n hv' (by exact hc)]
  unfold putConns
  rw [AMap.mapVals_set]
  rfl

/-- a state that can be searched: well-formed graph, and an entry point as soon as there is a vertex. -/
structure Good (S : Prop) (h : Hnsw) : Prop where
  graph : Graph S h.cfg h.nodes
  entry : h.nodes = [] ∨ HasLevel h.nodes h.entry h.maxLayer

theorem Good.strip {h : Hnsw} (g : Good S h) : Good S h.strip := by
  refine ⟨graph_strip g.graph, ?_⟩
  rcases g.entry with h1 | h1
  · left; simp [Hnsw.strip, h1, AMap.mapVals]
  · right; exact hasLevel_strip.mpr h1

/-- the same entries, in any order. -/
structure SameMap (a b : AMap UInt64 Vertex) : Prop where
  nd : a.keys.Nodup
  get : ∀ k, a.get? k = b.get? k

theorem SameMap.set {a b : AMap UInt64 Vertex} (h : SameMap a b) (id : UInt64) (v : Vertex) :
    SameMap (a.set id v) (b.set id v) :=
  ⟨AMap.keys_set_nodup h.nd _ _, fun k => by rw [AMap.get?_set, AMap.get?_set, h.get]⟩

/-- what the log restores, compared with the index it should restore. -/
structure Restores (S : Prop) (a b : Hnsw) : Prop where
  rest : a = { b with nodes := a.nodes }
  nodes : SameMap a.nodes b.nodes
  exact : S → a = b

theorem Restores.refl {b : Hnsw} (h : b.nodes.keys.Nodup) : Restores S b b := ⟨rfl, ⟨h, fun _ => rfl⟩, fun _ => rfl⟩

theorem nodeAt_same {a b : AMap UInt64 Vertex} (h : SameMap a b) (id : UInt64) : nodeAt a id = nodeAt b id := by
  unfold nodeAt; rw [h.get]

theorem setConns_same {a b b' : AMap UInt64 Vertex} (h : SameMap a b) (id : UInt64) (l : Nat) (c : List UInt64)
    (hb : setConns b id l c = .ok b') : ∃ a', setConns a id l c = .ok a' ∧ SameMap a' b' := by
  unfold setConns at *
  rw [nodeAt_same h]
  cases hv : nodeAt b id with
  | error p => rw [hv] at hb; cases hb
  | ok v =>
    rw [hv, ok_bind] at hb
    rw [ok_bind]
    split at hb
    · rename_i hl
      cases hb
      exact ⟨_, by rw [if_pos hl], h.set _ _⟩
    · cases hb

theorem addConn_same {a b b' : AMap UInt64 Vertex} (h : SameMap a b) (id : UInt64) (l : Nat) (n : UInt64)
    (hb : addConn b id l n = .ok b') : ∃ a', addConn a id l n = .ok a' ∧ SameMap a' b' := by
  unfold addConn at *
  rw [nodeAt_same h]
  cases hv : nodeAt b id with
  | error p => rw [hv] at hb; cases hb
  | ok v =>
    rw [hv, ok_bind] at hb
    rw [ok_bind]
    cases hc : v.connsAt l with
    | error p => rw [hc] at hb; cases hb
    | ok c =>
      rw [hc, ok_bind] at hb
      cases hb
      exact ⟨_, rfl, h.set _ _⟩

/-- replaying a record does not depend on the order of the vertices. -/
theorem restore_same {a b b' : Hnsw} {r : Bytes} (h : Restores S a b) (hb : restore b r = .ok b') :
    ∃ a', restore a r = .ok a' ∧ Restores S a' b' := by
  have key : ∃ a', restore a r = .ok a' ∧ a' = { b' with nodes := a'.nodes } ∧ SameMap a'.nodes b'.nodes := by
    obtain ⟨h1, h2, _⟩ := h
    generalize hn : a.nodes = an at h1 h2
    subst h1
    cases r with
    | nil => cases hb
    | cons op x =>
      simp only [restore] at hb ⊢
      by_cases o0 : op = opAddVertex
      · simp only [if_pos o0, restoreAddVertex] at hb ⊢
        cases e1 : uint64 x with
        | error p => rw [e1] at hb; cases hb
        | ok id =>
          rw [e1, ok_bind] at hb
          cases e2 : uint32 (x.drop 8) with
          | error p => rw [e2] at hb; cases hb
          | ok lv => rw [e2] at hb; cases hb; exact ⟨_, rfl, rfl, h2.set _ _⟩
      by_cases o1 : op = opSetEntryPoint
      · simp only [if_neg o0, if_pos o1, restoreSetEntryPoint] at hb ⊢
        cases e1 : uint64 x with
        | error p => rw [e1] at hb; cases hb
        | ok id =>
          rw [e1, ok_bind] at hb
          cases e2 : uint32 (x.drop 8) with
          | error p => rw [e2] at hb; cases hb
          | ok lv => rw [e2] at hb; cases hb; exact ⟨_, rfl, rfl, h2⟩
      by_cases o2 : op = opSetConnections
      · simp only [if_neg o0, if_neg o1, if_pos o2, restoreSetConnections] at hb ⊢
        cases e1 : uint64 x with
        | error p => rw [e1] at hb; cases hb
        | ok id =>
          rw [e1, ok_bind] at hb
          cases e2 : uint32 (x.drop 8) with
          | error p => rw [e2] at hb; cases hb
          | ok lv =>
            rw [e2, ok_bind] at hb
            cases e3 : uint32 (x.drop 12) with
            | error p => rw [e3] at hb; cases hb
            | ok sz =>
              rw [e3, ok_bind] at hb
              cases e4 : readIds sz.toNat (x.drop 16) with
              | error p => rw [e4] at hb; cases hb
              | ok ids =>
                rw [e4, ok_bind] at hb
                cases e5 : setConns b.nodes id lv.toNat ids with
                | error p => rw [e5] at hb; cases hb
                | ok n =>
                  rw [e5] at hb
                  cases hb
                  obtain ⟨n', e6, s6⟩ := setConns_same h2 id lv.toNat ids e5
                  simp only [ok_bind, e4, e6]
                  exact ⟨_, rfl, rfl, s6⟩
      by_cases o3 : op = opAddConnection
      · simp only [if_neg o0, if_neg o1, if_neg o2, if_pos o3, restoreAddConnection] at hb ⊢
        cases e1 : uint64 x with
        | error p => rw [e1] at hb; cases hb
        | ok id =>
          rw [e1, ok_bind] at hb
          cases e2 : uint32 (x.drop 8) with
          | error p => rw [e2] at hb; cases hb
          | ok lv =>
            rw [e2, ok_bind] at hb
            cases e3 : uint64 (x.drop 12) with
            | error p => rw [e3] at hb; cases hb
            | ok n0 =>
              rw [e3, ok_bind] at hb
              cases e5 : addConn b.nodes id lv.toNat n0 with
              | error p => rw [e5] at hb; cases hb
              | ok n =>
                rw [e5] at hb
                cases hb
                obtain ⟨n', e6, s6⟩ := addConn_same h2 id lv.toNat n0 e5
                simp only [ok_bind, e6]
                exact ⟨_, rfl, rfl, s6⟩
      by_cases o4 : op = opDeleteVertex
      · simp only [if_neg o0, if_neg o1, if_neg o2, if_neg o3, if_pos o4, restoreDeleteVertex] at hb ⊢
        cases e1 : uint64 x with
        | error p => rw [e1] at hb; cases hb
        | ok id => rw [e1] at hb; cases hb; exact ⟨_, rfl, rfl, h2⟩
      · simp only [if_neg o0, if_neg o1, if_neg o2, if_neg o3, if_neg o4] at hb
        cases hb
  obtain ⟨a', e, e1, e2⟩ := key
  refine ⟨a', e, e1, e2, ?_⟩
  intro hS
  rw [h.exact hS, hb] at e
  cases e; rfl

/-- the log (durable and pending) restores the state, and each of its prefixes restores a good state. -/
structure LogInv (S : Prop) (h : Hnsw) : Prop where
  load : ∃ s, loadLog h.cfg h.wal.records = .ok s ∧ Restores S s h.strip
  pre : ∀ p, p <+: h.wal.records → ∃ s, loadLog h.cfg p = .ok s ∧ Good S s ∧ s.cfg = h.cfg

structure MInv (S : Prop) (h : Hnsw) : Prop where
  good : Good S h
  log : LogInv S h
  wal : WalOK h.wal

theorem link?_same {a b : AMap UInt64 Vertex} (h : SameMap a b) (id : UInt64) (l : Nat) : link? a id l = link? b id l := by
  unfold link?; rw [h.get]

theorem Good.restores {a b : Hnsw} (g : Good S b) (r : Restores S a b) : Good S a := by
  obtain ⟨h1, h2, h3⟩ := r
  have hcfg : a.cfg = b.cfg := by rw [h1]
  have hl : ∀ {x l}, HasLevel a.nodes x l ↔ HasLevel b.nodes x l := by
    intro x l; rw [hasLevel_iff, hasLevel_iff, link?_same h2]
  refine ⟨⟨h2.nd, ?_, ?_⟩, ?_⟩
  · intro id v hv; rw [h2.get] at hv; exact g.graph.idOK id v hv
  · intro id l c hc
    rw [link?_same h2] at hc
    obtain ⟨x, y, z⟩ := g.graph.linkOK id l c hc
    exact ⟨x, by rw [hcfg]; exact y, fun n hn => hl.mpr (z n hn)⟩
  · rcases g.entry with h | h
    · left
      cases hn : a.nodes with
      | nil => rfl
      | cons p t =>
        have := h2.get p.1
        rw [hn, h] at this
        simp [AMap.get?] at this
    · right
      have : a.entry = b.entry ∧ a.maxLayer = b.maxLayer := by rw [h1]; exact ⟨rfl, rfl⟩
      rw [this.1, this.2]; exact hl.mpr h

theorem loadLog_append (cfg : Cfg) (a : List Bytes) (r : Bytes) (s : Hnsw) (h : loadLog cfg a = .ok s) :
    loadLog cfg (a ++ [r]) = restore s r := by
  unfold loadLog loadFromWAL at *
  rw [List.foldlM_append, h, ok_bind, List.foldlM_cons]
  cases restore s r <;> rfl

/-- writing one record and making the change it describes keeps the invariant. -/
theorem MInv.step {h h' : Hnsw} (i : MInv S h) (r : Bytes) (hw : h'.wal = h.wal.writeBatch r) (hc : h'.cfg = h.cfg)
    (hr : restore h.strip r = .ok h'.strip) (hg : Good S h') : MInv S h' := by
  have hrec : h'.wal.records = h.wal.records ++ [r] := by rw [hw, Wal.records_write]
  obtain ⟨s, hs, rs⟩ := i.log.load
  obtain ⟨s', hs', rs'⟩ := restore_same rs hr
  have hload : loadLog h'.cfg h'.wal.records = .ok s' := by
    rw [hc, hrec, loadLog_append _ _ _ _ hs, hs']
  refine ⟨hg, ⟨⟨s', hload, rs'⟩, ?_⟩, by rw [hw]; exact i.wal.write r⟩
  intro p hp
  rw [hrec] at hp
  rcases List.prefix_concat_iff.mp hp with h1 | h1
  · subst h1; rw [← hrec]; exact ⟨_, hload, hg.strip.restores rs', by rw [rs'.rest]; rfl⟩
  · rw [hc]; exact i.log.pre p h1

/-- only links (and the log) change. -/
structure Frame (h h' : Hnsw) : Prop where
  cfg : h'.cfg = h.cfg
  entry : h'.entry = h.entry
  maxLayer : h'.maxLayer = h.maxLayer
  deleted : h'.deleted = h.deleted
  once : h'.once = h.once
  disk : h'.wal.disk = h.wal.disk
  shape : Shape h.nodes h'.nodes

theorem Frame.refl (h : Hnsw) : Frame h h := ⟨rfl, rfl, rfl, rfl, rfl, rfl, Shape.refl _⟩
theorem Frame.trans {a b c : Hnsw} (h1 : Frame a b) (h2 : Frame b c) : Frame a c :=
  ⟨h2.cfg.trans h1.cfg, h2.entry.trans h1.entry, h2.maxLayer.trans h1.maxLayer, h2.deleted.trans h1.deleted,
    h2.once.trans h1.once, h2.disk.trans h1.disk, h1.shape.trans h2.shape⟩

theorem Shape.nil_iff {a b : AMap UInt64 Vertex} (h : Shape a b) : b = [] ↔ a = [] := by
  have := congrArg List.length h.keys
  rw [AMap.length_keys, AMap.length_keys] at this
  constructor
  · rintro rfl; exact List.eq_nil_of_length_eq_zero (by simpa using this.symm)
  · rintro rfl; exact List.eq_nil_of_length_eq_zero (by simpa using this)

theorem setConnections_spec {h : Hnsw} (i : MInv S h) {id : UInt64} {l : Nat} {c : List UInt64}
    (hl : HasLevel h.nodes id l) (hl32 : l < 4294967296) (hc32 : c.length < 4294967296)
    (hnd : S → c.Nodup ∧ id ∉ c) (hlen : c.length ≤ degBound h.cfg l) (hlev : ∀ n ∈ c, HasLevel h.nodes n l) :
    ∃ h', h.setConnections id l c = .ok h' ∧ MInv S h' ∧ Frame h h' ∧
      (∀ x l', link? h'.nodes x l' = if x = id ∧ l' = l then some c else link? h.nodes x l') := by
  obtain ⟨v, hv, hvl⟩ := hl
  have hset := setConns_ok c hv hvl
  have sh := shape_put (l := l) c hv
  refine ⟨{ (h.log (recSetConnections id (UInt32.ofNat l) c)) with nodes := putConns h.nodes id v l c }, ?_, ?_,
    ⟨rfl, rfl, rfl, rfl, rfl, rfl, sh⟩, fun x l' => link?_put c hv hvl x l'⟩
  · unfold Hnsw.setConnections
    simp only [Hnsw.log, hset, ok_bind]
  · refine MInv.step (h := h) i (recSetConnections id (UInt32.ofNat l) c) rfl rfl ?_ ?_
    · rw [restore_setConnections _ _ _ _ hc32, toNat_level hl32]
      simp only [Hnsw.strip, setConns_strip c hv hvl, ok_bind, liftPanic, Hnsw.log]
    · refine ⟨i.good.graph.put hv hvl hnd hlen hlev, ?_⟩
      rcases i.good.entry with h1 | h1
      · exact Or.inl (sh.nil_iff.mpr h1)
      · exact Or.inr (sh.hasLevel h1)

theorem addConnection_spec {h : Hnsw} (i : MInv S h) {id : UInt64} {l : Nat} {c : List UInt64} {n : UInt64}
    (hc : link? h.nodes id l = some c) (hl32 : l < 4294967296)
    (hn : S → n ∉ c ∧ id ≠ n) (hlen : c.length + 1 ≤ degBound h.cfg l) (hlev : HasLevel h.nodes n l) :
    ∃ h', h.addConnection id l n = .ok h' ∧ MInv S h' ∧ Frame h h' ∧
      (∀ x l', link? h'.nodes x l' = if x = id ∧ l' = l then some (c ++ [n]) else link? h.nodes x l') := by
  obtain ⟨g1, _, g4⟩ := i.good.graph.linkOK id l c hc
  obtain ⟨v, hv, hvc⟩ := link?_some hc
  have hvl : l < v.conns.length := (List.getElem?_eq_some_iff.mp hvc).1
  have hset := addConn_ok n hv hvc
  have sh := shape_put (l := l) (c ++ [n]) hv
  refine ⟨{ (h.log (recAddConnection id (UInt32.ofNat l) n)) with nodes := putConns h.nodes id v l (c ++ [n]) }, ?_, ?_,
    ⟨rfl, rfl, rfl, rfl, rfl, rfl, sh⟩, fun x l' => link?_put _ hv hvl x l'⟩
  · unfold Hnsw.addConnection
    simp only [Hnsw.log, hset, ok_bind]
  · refine MInv.step (h := h) i (recAddConnection id (UInt32.ofNat l) n) rfl rfl ?_ ?_
    · rw [restore_addConnection, toNat_level hl32]
      simp only [Hnsw.strip, addConn_strip n hv hvc, ok_bind, liftPanic, Hnsw.log]
    · refine ⟨i.good.graph.put hv hvl ?_ (by simpa using hlen) ?_, ?_⟩
      · intro hS
        rw [List.nodup_append]
        refine ⟨⟨(g1 hS).1, by simp, ?_⟩, ?_⟩
        · intro a ha b hb
          simp at hb; subst hb
          intro e; subst e; exact (hn hS).1 ha
        · rw [List.mem_append, not_or]; exact ⟨(g1 hS).2, by simpa using (hn hS).2⟩
      · intro x hx
        rcases List.mem_append.mp hx with h1 | h1
        · exact g4 x h1
        · simp at h1; subst h1; exact hlev
      · rcases i.good.entry with h1 | h1
        · exact Or.inl (sh.nil_iff.mpr h1)
        · exact Or.inr (sh.hasLevel h1)

end Vectory
