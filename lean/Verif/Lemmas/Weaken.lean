import Verif.Lemmas.Crash
/-! The invariants of sequential use imply those of concurrent use. -/
namespace Vectory
variable {V D : Type} {S : Prop}

theorem Graph.weaken {cfg : Cfg} {nodes : AMap UInt64 Vertex} (g : Graph S cfg nodes) : Graph False cfg nodes :=
  ⟨g.keysNd, g.idOK, fun id l c h => ⟨fun hf => hf.elim, (g.linkOK id l c h).2⟩⟩

theorem Good.weaken {h : Hnsw} (g : Good S h) : Good False h := ⟨g.graph.weaken, g.entry⟩

theorem Inv.weaken {h : Hnsw} (i : Inv S h) : Inv False h := by
  obtain ⟨s, h1, r⟩ := i.m.log.load
  refine ⟨⟨i.m.good.weaken, ⟨⟨s, h1, r.rest, r.nodes, fun hf => hf.elim⟩, ?_⟩, i.m.wal⟩, fun hf => hf.elim, i.once, i.top32⟩
  intro p hp
  obtain ⟨s, h1, h2, h3⟩ := i.m.log.pre p hp
  exact ⟨s, h1, h2.weaken, h3⟩

theorem WInv.loosen {L : Lib V D} {dim : Nat} {X : UInt64 → Prop} {c : Coll} (i : WInv S L dim X c) : WInv False L dim X c :=
  ⟨i.json, i.dimM, i.dim32, i.idx.weaken, i.cfg, i.vecs, i.ond, i.vnd, i.vkeys, i.okeys, i.vstore, i.dec, i.ids, i.del, i.live⟩

end Vectory
