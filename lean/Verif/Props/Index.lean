import Verif.Lemmas.Crash
import Verif.Lemmas.SelectMore
import Verif.Lemmas.CollMore
import Verif.Spec.Log
import Verif.Spec.Demo
/-! # The index: C26, C27, C28, C30, C43 -/
namespace Vectory
variable {V D : Type}

/-! ## C26, C27 -/

/-- C26: in every reachable collection, every link of the index leads to an indexed vector that lives on the same layer, no
vector links to itself or twice to another one; if anything is indexed, the entry point is indexed and lives on the top
layer, and nothing lives above it. -/
theorem C26_well_formed (L : Lib V D) (dim : Nat) (c : Coll) (hr : ReachAny L dim c) :
    (∀ (id : UInt64) (v : Vertex) (l : Nat) (links : List UInt64), AMap.get? c.index.nodes id = some v →
      v.conns[l]? = some links →
      links.Nodup ∧ id ∉ links ∧
        ∀ n ∈ links, ∃ vn : Vertex, AMap.get? c.index.nodes n = some vn ∧ l < vn.conns.length) ∧
    (c.index.nodes ≠ [] → ∃ v : Vertex, AMap.get? c.index.nodes c.index.entry = some v ∧
      v.conns.length = c.index.maxLayer + 1 ∧
      ∀ (id : UInt64) (v' : Vertex), AMap.get? c.index.nodes id = some v' → v'.conns.length ≤ c.index.maxLayer + 1) := by
  have i := hr.weak.1
  refine ⟨fun id v l links hv hl => ?_, fun hne => ?_⟩
  · obtain ⟨h1, _, h4⟩ := i.idx.m.good.graph.linkOK id l links (link?_of hv hl)
    exact ⟨(h1 trivial).1, (h1 trivial).2, h4⟩
  · rcases i.idx.m.good.entry with h | ⟨v, hv, hl⟩
    · exact absurd h hne
    · have top : ∀ (id : UInt64) (v' : Vertex), AMap.get? c.index.nodes id = some v' →
          v'.conns.length ≤ c.index.maxLayer + 1 := by
        intro id v' hv'
        have hne' := (i.idx.m.good.graph.idOK id v' hv').2
        have hpos : 0 < v'.conns.length := List.length_pos_iff.mpr hne'
        have := i.idx.top trivial id (v'.conns.length - 1) ⟨v', hv', by omega⟩
        omega
      refine ⟨v, hv, ?_, top⟩
      have := top _ _ hv
      omega

theorem w27_degree (L : Lib V D) (dim : Nat) (c : Coll) {S : Prop} {X : UInt64 → Prop} (i : WInv S L dim X c) (id : UInt64) (v : Vertex) (l : Nat)
    (links : List UInt64) (hv : AMap.get? c.index.nodes id = some v) (hl : v.conns[l]? = some links) :
    links.length ≤ 2 * c.index.cfg.mMax ∧ (l ≠ 0 → links.length ≤ max c.index.cfg.m c.index.cfg.mMax) := by
  obtain ⟨_, h3, _⟩ := i.idx.m.good.graph.linkOK id l links (link?_of hv hl)
  have := i.cfg.deg l
  refine ⟨?_, fun h0 => ?_⟩
  · have : degBound c.index.cfg l ≤ 2 * c.index.cfg.mMax := this
    omega
  · unfold degBound at h3; rw [if_neg h0] at h3; exact h3


/-- C27: with `m ≤ 2·m_max` (part of `Setup`), a vector never has more than `2·m_max` links on the bottom layer nor more
than `max m m_max` on another; so a search never overruns its scratch buffer of `2·m_max` ids. -/
theorem C27_degree (L : Lib V D) (dim : Nat) (c : Coll) (hr : ReachAny L dim c) (id : UInt64) (v : Vertex) (l : Nat)
    (links : List UInt64) (hv : AMap.get? c.index.nodes id = some v) (hl : v.conns[l]? = some links) :
    links.length ≤ 2 * c.index.cfg.mMax ∧ (l ≠ 0 → links.length ≤ max c.index.cfg.m c.index.cfg.mMax) :=
  w27_degree L dim c hr.weak.1 id v l links hv hl

/-- eight objects on up to three layers, with links cut by pruning, deletions and a failed insert. -/
def c26Ops : List (Op UInt8) :=
  [demoInsert 1, demoInsert 9 2, demoInsert 4, .delete 0 false false, demoInsert 6 1,
   .insert (demoObj 5) noEmbed { put := .vectors } false, demoInsert 2, demoInsert 7 2, demoInsert 8, demoInsert 3]

example : Reach demoLib 1 (demoState demoCfg c26Ops) ∧ (demoState demoCfg c26Ops).index.nodes.length = 8 ∧
    ∃ v : Vertex, AMap.get? (demoState demoCfg c26Ops).index.nodes 1 = some v ∧
      v.conns = [[7, 6, 3, 2], [3, 6], [6]] :=
  ⟨demo_reach _, by decide +kernel, _, rfl, by decide +kernel⟩

/-! ## C28 -/

open Spec

/-- C28: replaying the record of an operation performs that operation. -/
theorem C28_decode_encode (op : LogOp) (hf : op.fits) (h h' : Hnsw) (hd : Does op h h') :
    ∃ h1, restore h op.encode = .ok h1 ∧ h1.cfg = h'.cfg ∧ h1.nodes = h'.nodes ∧ h1.entry = h'.entry ∧
      h1.maxLayer = h'.maxLayer ∧ (∀ x, x ∈ h1.deleted ↔ x ∈ h'.deleted) ∧ h1.wal = h'.wal ∧ h1.once = h'.once := by
  cases hd with
  | addVertex _ id l => exact ⟨_, restore_addVertex h id l, rfl, rfl, rfl, rfl, fun _ => Iff.rfl, rfl, rfl⟩
  | setEntryPoint _ id l => exact ⟨_, restore_setEntryPoint h id l, rfl, rfl, rfl, rfl, fun _ => Iff.rfl, rfl, rfl⟩
  | setConnections _ id l ids v hv hl =>
    have := restore_setConnections h id l ids hf
    rw [setConns_ok ids hv hl] at this
    exact ⟨_, this, rfl, rfl, rfl, rfl, fun _ => Iff.rfl, rfl, rfl⟩
  | addConnection _ id l n v links hv hl =>
    have := restore_addConnection h id l n
    rw [addConn_ok n hv hl] at this
    exact ⟨_, this, rfl, rfl, rfl, rfl, fun _ => Iff.rfl, rfl, rfl⟩
  | deleteVertex _ id dels hm _ =>
    refine ⟨_, restore_deleteVertex h id, rfl, rfl, rfl, rfl, fun x => ?_, rfl, rfl⟩
    dsimp only
    rw [hm]
    split
    · rename_i hx
      constructor
      · exact Or.inr
      · rintro (rfl | h1)
        · exact hx
        · exact h1
    · exact List.mem_cons

theorem app64 {x y : UInt64} {b d : Bytes} (h : putUint64 x ++ b = putUint64 y ++ d) : x = y ∧ b = d :=
  let ⟨h1, h2⟩ := List.append_inj h rfl
  ⟨putUint64_inj h1, h2⟩

theorem putUint32_inj {x y : UInt32} (h : putUint32 x = putUint32 y) : x = y := by
  have h1 := uint32_put x []
  have h2 := uint32_put y []
  rw [List.append_nil] at h1 h2
  rw [h, h2] at h1
  cases h1; rfl

theorem app32 {x y : UInt32} {b d : Bytes} (h : putUint32 x ++ b = putUint32 y ++ d) : x = y ∧ b = d :=
  let ⟨h1, h2⟩ := List.append_inj h rfl
  ⟨putUint32_inj h1, h2⟩

theorem flatMap_put_inj : ∀ {a b : List UInt64}, a.flatMap putUint64 = b.flatMap putUint64 → a = b := by
  intro a
  induction a with
  | nil => intro b h; cases b with
    | nil => rfl
    | cons y b => have := congrArg List.length h; simp [putUint64] at this
  | cons x a ih =>
    intro b h
    cases b with
    | nil => have := congrArg List.length h; simp [putUint64] at this
    | cons y b =>
      rw [List.flatMap_cons, List.flatMap_cons] at h
      obtain ⟨h1, h2⟩ := app64 h
      rw [h1, ih h2]

/-- C28: different operations are written differently. -/
theorem C28_distinct (a b : LogOp) (h : a.encode = b.encode) : a = b := by
  cases a <;> cases b <;>
    simp only [LogOp.encode, recAddVertex, recSetEntryPoint, recSetConnections, recAddConnection, recDeleteVertex, opAddVertex,
      opSetEntryPoint, opSetConnections, opAddConnection, opDeleteVertex, List.cons.injEq] at h <;>
    (try (exact absurd h.1 (by decide))) <;> obtain ⟨_, h⟩ := h
  · obtain ⟨h1, h2⟩ := app64 h
    rw [h1, putUint32_inj h2]
  · obtain ⟨h1, h2⟩ := app64 h
    rw [h1, putUint32_inj h2]
  · obtain ⟨h1, h2⟩ := app64 h
    obtain ⟨h2, h3⟩ := app32 h2
    obtain ⟨_, h4⟩ := app32 h3
    rw [h1, h2, flatMap_put_inj h4]
  · obtain ⟨h1, h2⟩ := app64 h
    obtain ⟨h2, h3⟩ := app32 h2
    rw [h1, h2, putUint64_inj h3]
  · rw [putUint64_inj h]

/-- C28: a record that starts with any other byte is reported as an error and never changes an index; an empty record is an
index panic in the code. -/
theorem C28_unknown (h : Hnsw) (op : UInt8) (rest : Bytes) (hop : ∀ o : LogOp, ∀ b bs, o.encode = b :: bs → b ≠ op) :
    restore h (op :: rest) = .error (.error (.unknownOpcode op)) := by
  have h0 := hop (.addVertex 0 0) _ _ rfl
  have h1 := hop (.setEntryPoint 0 0) _ _ rfl
  have h2 := hop (.setConnections 0 0 []) _ _ rfl
  have h3 := hop (.addConnection 0 0 0) _ _ rfl
  have h4 := hop (.deleteVertex 0) _ _ rfl
  unfold restore
  dsimp only
  rw [if_neg (Ne.symm h0), if_neg (Ne.symm h1), if_neg (Ne.symm h2), if_neg (Ne.symm h3), if_neg (Ne.symm h4)]

example : ∀ o : LogOp, ∀ b bs, o.encode = b :: bs → b ≠ 7 := by
  intro o b bs h hb
  subst hb
  cases o <;> simp [LogOp.encode, recAddVertex, recSetEntryPoint, recSetConnections, recAddConnection, recDeleteVertex, opAddVertex,
      opSetEntryPoint, opSetConnections, opAddConnection, opDeleteVertex] at h

example : (LogOp.setConnections 5 1 [8, 9]).fits ∧
    Does (.setConnections 5 1 [8, 9]) { cfg := demoCfg, nodes := [(5, { id := 5, conns := [[], [3]], vec := [] })] }
      { cfg := demoCfg, nodes := [(5, { id := 5, conns := [[], [8, 9]], vec := [] })] } :=
  ⟨by show 2 < 4294967296; decide, .setConnections _ 5 1 [8, 9] { id := 5, conns := [[], [3]], vec := [] } rfl (by decide)⟩

/-! ## C30 -/

theorem w30_prefix_replays (L : Lib V D) (dim : Nat) (c : Coll) {S : Prop} {X : UInt64 → Prop} (i : WInv S L dim X c) (p : List Bytes)
    (hp : p <+: c.index.wal.disk ++ c.index.wal.batch.map Prod.snd) :
    ∃ s, loadFromWAL (Hnsw.empty c.index.cfg p) p = .ok s ∧
      (∀ (id : UInt64) (v : Vertex) (l : Nat) (links : List UInt64), AMap.get? s.nodes id = some v →
        v.conns[l]? = some links → ∀ n ∈ links, ∃ vn : Vertex, AMap.get? s.nodes n = some vn ∧ l < vn.conns.length) ∧
      (s.nodes ≠ [] → ∃ v : Vertex, AMap.get? s.nodes s.entry = some v ∧ s.maxLayer < v.conns.length) := by
  obtain ⟨s, h1, h2, _⟩ := i.idx.m.log.pre p hp
  have h3 := loadFromWAL_wal (newWal p) p { cfg := c.index.cfg }
  unfold loadLog at h1
  rw [h1] at h3
  refine ⟨_, h3, fun id v l links hv hl n hn => ?_, fun hne => ?_⟩
  · exact (h2.graph.linkOK id l links (link?_of hv hl)).2.2 n hn
  · rcases h2.entry with h | h
    · exact absurd h hne
    · exact h


/-- C30: any prefix of the records that the index of a reachable collection has logged (on disk and pending) can be replayed
from scratch, without an error or a panic, and gives an index whose links and entry point are sound. -/
theorem C30_prefix_replays (L : Lib V D) (dim : Nat) (c : Coll) (hr : ReachAny L dim c) (p : List Bytes)
    (hp : p <+: c.index.wal.disk ++ c.index.wal.batch.map Prod.snd) :
    ∃ s, loadFromWAL (Hnsw.empty c.index.cfg p) p = .ok s ∧
      (∀ (id : UInt64) (v : Vertex) (l : Nat) (links : List UInt64), AMap.get? s.nodes id = some v →
        v.conns[l]? = some links → ∀ n ∈ links, ∃ vn : Vertex, AMap.get? s.nodes n = some vn ∧ l < vn.conns.length) ∧
      (s.nodes ≠ [] → ∃ v : Vertex, AMap.get? s.nodes s.entry = some v ∧ s.maxLayer < v.conns.length) :=
  w30_prefix_replays L dim c hr.weak.1 p hp

example : ((demoState demoCfg c26Ops).index.wal.disk ++ (demoState demoCfg c26Ops).index.wal.batch.map Prod.snd).length = 38 := by
  decide +kernel

/-! ## C43 -/

/-- C43, simple strategy: of any candidates it returns the `m` nearest ones (all of them if there are fewer), nearest first:
the first `m` of the candidates sorted by distance. -/
theorem C43_simple (M : Metric D) (w : Ord M.lt) (cfg : Cfg) (hh : cfg.heuristic = false) (nodes : AMap UInt64 Vertex)
    (cands : List (Elem D)) (m : Nat) :
    ∃ s : List (Elem D), s.Perm cands ∧ s.Pairwise (fun a b => Le M.lt a.dist b.dist) ∧
      selectNeighbors M cfg nodes cands m = .ok ((s.take m).map Elem.id) := by
  obtain ⟨s, h1, h2, h3⟩ := selectSimple_sorted w cands m
  exact ⟨s, h1, h2, by unfold selectNeighbors; rw [hh]; simpa using h3⟩

/-- C43, both strategies: what is returned are distinct candidates, at most `m`. -/
theorem C43_distinct_candidates (M : Metric D) (cfg : Cfg) (nodes : AMap UInt64 Vertex) (cands : List (Elem D)) (m : Nat)
    (hM : ∀ (x y : UInt64) (vx vy : Vertex), AMap.get? nodes x = some vx → AMap.get? nodes y = some vy →
      ∃ d, M.dist vx.vec vy.vec = .ok d)
    (hex : ∀ e ∈ cands, ∃ v : Vertex, AMap.get? nodes e.id = some v) (hnd : (cands.map Elem.id).Nodup) :
    ∃ r, selectNeighbors M cfg nodes cands m = .ok r ∧ r.Nodup ∧ r.length ≤ m ∧ ∀ x ∈ r, x ∈ cands.map Elem.id := by
  obtain ⟨r, h1, h2⟩ := selectNeighbors_spec M cfg nodes cands m hM hex
  exact ⟨r, h1, h2.nd hnd, h2.len, h2.sub⟩

/-- C43, heuristic strategy: the chosen candidates `es` come nearest first and begin with a nearest candidate; no chosen
candidate is closer to an earlier chosen one than to the base vertex; and a candidate that was not chosen was closer to a
chosen one, unless `m` had been chosen already. -/
theorem C43_heuristic (M : Metric D) (w : Ord M.lt) (cfg : Cfg) (hh : cfg.heuristic = true) (nodes : AMap UInt64 Vertex)
    (cands : List (Elem D)) (m : Nat) (r : List UInt64) (h : selectNeighbors M cfg nodes cands m = .ok r) :
    ∃ es : List (Elem D), r = es.map Elem.id ∧ (∀ e ∈ es, e ∈ cands) ∧
      es.Pairwise (fun a b => Le M.lt a.dist b.dist) ∧
      es.Pairwise (fun a b => ∀ (va vb : Vertex) (d : D), AMap.get? nodes a.id = some va → AMap.get? nodes b.id = some vb →
        M.dist vb.vec va.vec = .ok d → Le M.lt b.dist d) ∧
      (0 < m → cands ≠ [] → ∃ e rest, es = e :: rest ∧ ∀ x ∈ cands, Le M.lt e.dist x.dist) ∧
      (∀ x ∈ cands, x ∈ es ∨ m ≤ es.length ∨ ∃ a ∈ es, ∃ (va vx : Vertex) (d : D), AMap.get? nodes a.id = some va ∧
        AMap.get? nodes x.id = some vx ∧ M.dist vx.vec va.vec = .ok d ∧ M.lt d x.dist = true) := by
  unfold selectNeighbors at h
  rw [hh, if_pos rfl] at h
  obtain ⟨s, es, h1, h2, h3, h4, h5, h6, h7⟩ := selectHeuristic_greedy w h
  refine ⟨es, h4, fun e he => h1.subset (h3.subset he), h2.sublist h3, ?_, ?_, ?_⟩
  · refine h5.imp ?_
    intro a b hab va vb d ha hb hd
    unfold Le
    cases hlt : M.lt d b.dist with
    | false => rfl
    | true => exact absurd ⟨vb, va, d, hb, ha, hd, hlt⟩ hab
  · intro hm hne
    cases s with
    | nil => exact absurd (List.nil_perm.mp h1) hne
    | cons e s' =>
      have := h7 hm
      cases es with
      | nil => simp at this
      | cons e' es' =>
        simp at this
        subst this
        refine ⟨e', es', rfl, fun x hx => ?_⟩
        rcases List.mem_cons.mp (h1.symm.subset hx) with rfl | hx
        · exact Le.refl w _
        · exact (List.pairwise_cons.mp h2).1 x hx
  · intro x hx
    rcases h6 with h6 | h6
    · exact Or.inr (Or.inl h6)
    · rcases h6 x (h1.symm.subset hx) with h | ⟨a, ha, vx, va, d, g1, g2, g3, g4⟩
      · exact Or.inl h
      · exact Or.inr (Or.inr ⟨a, ha, va, vx, d, g2, g1, g3, g4⟩)

/-- three candidates at distances 1, 2 and 5 of vector 10, on a line: the second one is shadowed by the first, the third one
lies on the other side. -/
def c43Nodes : AMap UInt64 Vertex :=
  [(1, { id := 1, conns := [[]], vec := [11] }), (2, { id := 2, conns := [[]], vec := [12] }), (3, { id := 3, conns := [[]], vec := [5] })]

example : Ord demoLib.metric.lt ∧ ([3, 1, 2] : List UInt64).Nodup ∧
    selectNeighbors demoLib.metric { demoCfg with heuristic := true } c43Nodes [⟨3, 5⟩, ⟨1, 1⟩, ⟨2, 2⟩] 3 = .ok [1, 3] ∧
    selectNeighbors demoLib.metric demoCfg c43Nodes [⟨3, 5⟩, ⟨1, 1⟩, ⟨2, 2⟩] 2 = .ok [1, 2] :=
  ⟨demo_ord, by decide, by rfl, by rfl⟩

end Vectory
