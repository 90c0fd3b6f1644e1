import Verif.Props.CollConc
import Verif.Props.Search
import Verif.Props.Index
import Verif.Props.Reopen
import Verif.Props.Objects
import Verif.Props.Panics
/-!
# Histories in which batches were run by several workers

The theorems of `Props/Objects`, `Props/Search`, `Props/Index`, `Props/Reopen` and `Props/Panics` speak of collections whose batches were
inserted one object at a time. Here the same is proved when the history also contains batches that several workers ran under any
schedule (`ReachAnyConc`, `ReachConc`; `fixed = false` is the program as it is). The batches do not pass through the race (`NoRace`): with
it the claims are false (`C51_fails`, `C57_fails`).
-/
namespace Vectory.Conc
open Vectory
variable {V D : Type}

/-- C03 after concurrent batches. -/
theorem C03_get_filters_concurrent (fixed : Bool) (L : Lib V D) (dim : Nat) (c : Coll) (hr : ReachAnyConc fixed L dim c)
    (ho : c.closed = false) :
    ∃ m : UInt64 → Option (Object V), (∀ id o, m id = some o → o.id = id) ∧
      (∀ id, c.get L [id] = .ok (m id).toList) ∧ ∀ ids, c.get L ids = .ok (ids.filterMap m) :=
  w03_get_filters L dim c hr.inv.1 ho

/-- C07 after concurrent batches: a delete touches only its own id. -/
theorem C07_delete_frame_concurrent (fixed : Bool) (L : Lib V D) (dim : Nat) (c : Coll) (hr : ReachAnyConc fixed L dim c) (id : UInt64)
    (df ff : Bool) :
    ∃ c1 e, c.delete L id df ff = .ok (c1, e) ∧ (∀ x, x ≠ id → c1.get L [x] = c.get L [x]) ∧
      c1.index.nodes = c.index.nodes ∧ c1.index.entry = c.index.entry ∧ c1.index.maxLayer = c.index.maxLayer ∧
      (∀ x, x ≠ id → (x ∈ c1.index.deleted ↔ x ∈ c.index.deleted)) :=
  w07_delete_frame L dim c hr.inv.1 id df ff

/-- C16 after concurrent batches. -/
theorem C16_well_formed_concurrent (fixed : Bool) (L : Lib V D) (dim : Nat) (c : Coll) (hr : ReachAnyConc fixed L dim c)
    (o : Object V) (embed : Embed V) (w : ∀ q, queryVector embed o = some q → Ranks L c q) (k : Int) (he : EmbedOK c embed dim [o]) (r : SearchResult V D)
    (h : c.semanticSearch L o embed k = .ok r) :
    (r.objects.length : Int) ≤ k ∧ r.objects.length ≤ c.index.cfg.ef ∧ (r.objects.map Hit.id).Nodup ∧
    r.objects.Pairwise (fun a b => Le L.metric.lt a.dist b.dist) ∧ r.hits = r.objects.length :=
  w16_well_formed L dim c hr.inv.1 o embed w k he r h

/-- C17 after concurrent batches. -/
theorem C17_true_distance_concurrent (fixed : Bool) (L : Lib V D) (dim : Nat) (c : Coll) (hr : ReachAnyConc fixed L dim c)
    (o : Object V) (embed : Embed V) (k : Int) (he : EmbedOK c embed dim [o]) (r : SearchResult V D)
    (h : c.semanticSearch L o embed k = .ok r) :
    ∃ q, queryVector embed o = some q ∧
      ∀ hit ∈ r.objects, ∃ x v, c.get L [hit.id] = .ok [x] ∧ x.vec = some v ∧ L.metric.dist v q = .ok hit.dist :=
  w17_true_distance L dim c hr.inv.1 o embed k he r h

/-- C18 after concurrent batches. -/
theorem C18_hits_live_concurrent (fixed : Bool) (L : Lib V D) (dim : Nat) (c : Coll) (hr : ReachAnyConc fixed L dim c) (o : Object V)
    (embed : Embed V) (k : Int) (he : EmbedOK c embed dim [o]) (r : SearchResult V D) (h : c.semanticSearch L o embed k = .ok r) :
    r.hits = r.objects.length ∧
    ∃ q, queryVector embed o = some q ∧
      ∀ hit ∈ r.objects, ∃ x v, c.get L [hit.id] = .ok [x] ∧ x.id = hit.id ∧ x.props = hit.props ∧ x.vec = some v ∧
        L.metric.dist v q = .ok hit.dist :=
  w18_hits_live L dim c hr.inv.1 o embed k he r h

/-- C19 after concurrent batches (as `C19_no_panic`). -/
theorem C19_no_panic_concurrent (fixed : Bool) (L : Lib V D) (dim : Nat) (c : Coll) (hr : ReachConc fixed L dim c) :
    (∀ op : Op V, Legal dim c op → ∃ c' out, c.apply L op = .ok (c', out)) ∧
    (∀ (o : Object V) (embed : Embed V) (k : Int) (p : Panic), EmbedOK c embed dim [o] → 0 ≤ k → c.index.nodes ≠ [] →
      c.semanticSearch L o embed k ≠ .error (.panic p)) ∧
    (∀ (ids : List UInt64) (p : Panic), c.get L ids ≠ .error (.panic p)) :=
  w19_no_panic_partial L dim c hr.inv

/-- C21 after concurrent batches: the first hit is a local optimum. -/
theorem C21_locally_optimal_concurrent (fixed : Bool) (L : Lib V D) (dim : Nat) (c : Coll) (hr : ReachAnyConc fixed L dim c)
    (o : Object V) (embed : Embed V) (w : ∀ q, queryVector embed o = some q → Ranks L c q) (k : Int) (he : EmbedOK c embed dim [o]) (r : SearchResult V D)
    (hit : Hit V D) (hits : List (Hit V D)) (h : c.semanticSearch L o embed k = .ok r) (hh : r.objects = hit :: hits) :
    ∃ q, queryVector embed o = some q ∧
    ∃ (b : UInt64) (vb : Vertex) (db : D) (links : List UInt64), AMap.get? c.index.nodes b = some vb ∧
      L.metric.dist vb.vec q = .ok db ∧ vb.conns[0]? = some links ∧ Le L.metric.lt db hit.dist ∧
      (∀ n ∈ links, ∀ (vn : Vertex) (dn : D), AMap.get? c.index.nodes n = some vn → L.metric.dist vn.vec q = .ok dn →
        Le L.metric.lt db dn) ∧
      (b = hit.id ∨ b ∈ c.index.deleted) :=
  w21_locally_optimal L dim c hr.inv.1 o embed w k he r hit hits h hh

/-- C26 after concurrent batches: every link leads to an indexed vector on the same layer; if anything is indexed, the entry point is
and lives on the top layer. (What C26 says beyond that - no link to itself, no double link, nothing above the top layer - holds when the batches
draw only level 0, `C26_level_zero`, and fails otherwise, `C26_self_link`, `C26_above_top`.) -/
theorem C26_links_concurrent (fixed : Bool) (L : Lib V D) (dim : Nat) (c : Coll) (hr : ReachAnyConc fixed L dim c) :
    (∀ (id : UInt64) (v : Vertex) (l : Nat) (links : List UInt64), AMap.get? c.index.nodes id = some v →
      v.conns[l]? = some links → ∀ n ∈ links, ∃ vn : Vertex, AMap.get? c.index.nodes n = some vn ∧ l < vn.conns.length) ∧
    (c.index.nodes ≠ [] → ∃ v : Vertex, AMap.get? c.index.nodes c.index.entry = some v ∧ c.index.maxLayer < v.conns.length) := by
  have i := hr.inv.1
  refine ⟨fun id v l links hv hl => (i.idx.m.good.graph.linkOK id l links (link?_of hv hl)).2.2, fun hne => ?_⟩
  rcases i.idx.m.good.entry with h | h
  · exact absurd h hne
  · exact h

/-- C27 after concurrent batches. -/
theorem C27_degree_concurrent (fixed : Bool) (L : Lib V D) (dim : Nat) (c : Coll) (hr : ReachAnyConc fixed L dim c) (id : UInt64)
    (v : Vertex) (l : Nat) (links : List UInt64) (hv : AMap.get? c.index.nodes id = some v) (hl : v.conns[l]? = some links) :
    links.length ≤ 2 * c.index.cfg.mMax ∧ (l ≠ 0 → links.length ≤ max c.index.cfg.m c.index.cfg.mMax) :=
  w27_degree L dim c hr.inv.1 id v l links hv hl

/-- C30 after concurrent batches: any prefix of the records logged can be replayed. -/
theorem C30_prefix_replays_concurrent (fixed : Bool) (L : Lib V D) (dim : Nat) (c : Coll) (hr : ReachAnyConc fixed L dim c)
    (p : List Bytes) (hp : p <+: c.index.wal.disk ++ c.index.wal.batch.map Prod.snd) :
    ∃ s, loadFromWAL (Hnsw.empty c.index.cfg p) p = .ok s ∧
      (∀ (id : UInt64) (v : Vertex) (l : Nat) (links : List UInt64), AMap.get? s.nodes id = some v →
        v.conns[l]? = some links → ∀ n ∈ links, ∃ vn : Vertex, AMap.get? s.nodes n = some vn ∧ l < vn.conns.length) ∧
      (s.nodes ≠ [] → ∃ v : Vertex, AMap.get? s.nodes s.entry = some v ∧ s.maxLayer < v.conns.length) :=
  w30_prefix_replays L dim c hr.inv.1 p hp

/-- C33 after concurrent batches. -/
theorem C33_sequence_contiguous_concurrent (fixed : Bool) (L : Lib V D) (dim : Nat) (c : Coll) (hr : ReachAnyConc fixed L dim c) :
    c.index.wal.batch.map Prod.fst = List.range' (c.index.wal.disk.length + 1) c.index.wal.batch.length ∧
    c.index.wal.seqNum = c.index.wal.disk.length + c.index.wal.batch.length + 1 ∧
    (c.flush false).2 = none :=
  w33_sequence_contiguous L dim c hr.inv.1

theorem ReachConc.any {fixed : Bool} {L : Lib V D} {dim : Nat} {c : Coll} (h : ReachConc fixed L dim c) :
    ReachAnyConc fixed L dim c := by
  induction h with
  | new hs => exact .new hs
  | @call c c' op out _ hl ha ih => exact .event (e := .call op out) ih (by cases op <;> first | exact hl | trivial) (.call ha)
  | batch _ hb ht hr ho ih => exact .batch ih hb ht hr ho

/-- the collection after the interleaved batch of `c14Acts`, with its four objects: a search on it, and what it finds. -/
theorem c14_after : ∃ c, ReachConc false demoLib 1 c ∧ c.closed = false ∧ c.hasEmbedder = false ∧ c.index.nodes.length = 4 ∧
    hitList (c.semanticSearch demoLib (demoObj 29) noEmbed 3) = some [(1, 1), (3, 2), (0, 19)] ∧
    (AMap.get? c.index.nodes 1).map Vertex.conns = some [[0, 3]] := by
  obtain ⟨b, h, hp⟩ := bleads_sound (cfg := demoCfg) (two := false) (fixed := false) (workers := 2) (os := c14Objs)
    (acts := c14Acts false) (P := fun b => decide (b.ret ≠ none) && (b.tasks.all (fun t => t.pc.over) && (!b.c.closed &&
      (!b.c.hasEmbedder && (decide (b.c.index.nodes.length = 4) &&
      (decide (hitList (b.c.semanticSearch demoLib (demoObj 29) noEmbed 3) = some [(1, 1), (3, 2), (0, 19)]) &&
      decide ((AMap.get? b.c.index.nodes 1).map Vertex.conns = some [[0, 3]]))))))) (by decide +kernel)
  simp only [Bool.and_eq_true, decide_eq_true_eq, Bool.not_eq_true'] at hp
  obtain ⟨h1, h2, h3, h4, h5, h6, h7⟩ := hp
  refine ⟨b.c, .batch (.new ⟨demoJson_ok, fun a b ha hb => demoDist_ok a b (by omega), by decide, by constructor <;> decide⟩) h
    c14_calm h1 (List.all_eq_true.mp h2), h3, h4, h5, h6, h7⟩

-- and it meets the hypotheses of the theorems above
example : ∃ c, ReachConc false demoLib 1 c ∧ ReachAnyConc false demoLib 1 c ∧ c.closed = false ∧ c.index.nodes ≠ [] ∧
    EmbedOK c (noEmbed (V := UInt8)) 1 [demoObj 29] ∧
    (∃ r, c.semanticSearch demoLib (demoObj 29) noEmbed 3 = .ok r ∧ r.objects.length = 3) := by
  obtain ⟨c, h1, h2, h3, h4, h5, _⟩ := c14_after
  refine ⟨c, h1, h1.any, h2, ?_, demo_embedOK c h3 29, ?_⟩
  · intro h; rw [h] at h4; cases h4
  · cases hs : c.semanticSearch demoLib (demoObj 29) noEmbed 3 with
    | error e => rw [hs] at h5; cases h5
    | ok r =>
      refine ⟨r, rfl, ?_⟩
      rw [hs] at h5
      have := congrArg (Option.map List.length) h5
      simpa [hitList] using this

end Vectory.Conc
