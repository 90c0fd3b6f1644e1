import Verif.Lemmas.CollMore
import Verif.Lemmas.Bottom
/-! Facts about the index graph that every insert keeps hold of every reachable collection. -/
namespace Vectory
variable {V D : Type}

/-- `P` is kept by every insert into the index. -/
def KeptS (S : Prop) (M : Metric D) (dim : Nat) (P : Cfg → AMap UInt64 Vertex → Prop) : Prop :=
  ∀ (h h' : Hnsw) (vec : Vec) (id : UInt64) (level : Nat), Inv S h → CfgOK h.cfg → VecOK dim h.nodes →
    id ∉ h.nodes.keys → vec.length = dim → level < 4294967296 → h.insert M vec id level = .ok h' →
    P h.cfg h.nodes → P h'.cfg h'.nodes

abbrev Kept (M : Metric D) (dim : Nat) (P : Cfg → AMap UInt64 Vertex → Prop) : Prop := KeptS True M dim P

/-- `P` does not depend on the order in which the vertices are listed. -/
def OrderFree (P : Cfg → AMap UInt64 Vertex → Prop) : Prop :=
  ∀ (cfg : Cfg) (a b : AMap UInt64 Vertex), SameMap a b → SameMap b a → P cfg b → P cfg a

theorem insertOne_kept {S : Prop} {L : Lib V D} {dim : Nat} {P : Cfg → AMap UInt64 Vertex → Prop} (hP : KeptS S L.metric dim P)
    {X : UInt64 → Prop} {c : Coll} (i : WInv S L dim X c) {o : Object V} {env : InsEnv}
    (hd : (o.vec.getD []).length = dim) (hl : env.level < 4294967296) {c' : Coll} {o' : Object V} {e : Option Err}
    (h : c.insertOne L o env = .ok (c', o', e)) (p : P c.index.cfg c.index.nodes) : P c'.index.cfg c'.index.nodes := by
  unfold Coll.insertOne at h
  rcases fetchAndInc_eq c.counter env.counterFails with ⟨e1, h1, _⟩ | ⟨h1, _⟩
  · rw [h1] at h; cases h; exact p
  · rw [h1] at h
    dsimp only at h
    cases hp : putObject L.json c.stores { o with id := c.counter.count } env.put with
    | mk st e1 =>
      rw [hp] at h
      cases e1 with
      | some e1 => cases h; exact p
      | none =>
        dsimp only at h
        rw [bind_ok_iff] at h
        obtain ⟨idx, hi, h⟩ := h
        cases h
        have hfr := (fresh_of i).2.1
        rw [vkey_iff i] at hfr
        exact hP c.index idx _ _ _ i.idx i.cfg i.vecs hfr hd hl hi p

theorem insertAll_kept {S : Prop} {L : Lib V D} {dim : Nat} {P : Cfg → AMap UInt64 Vertex → Prop} (hP : KeptS S L.metric dim P)
    {X : UInt64 → Prop} :
    ∀ (os : List (Object V × InsEnv)) (c c' : Coll) (os' : List (Object V)) (e : Option Err), WInv S L dim X c →
      (∀ p ∈ os, (p.1.vec.getD []).length = dim) → (∀ p ∈ os, p.2.level < 4294967296) →
      c.counter.count.toNat + os.length < 18446744073709551616 → c.insertAll L os = .ok (c', os', e) →
      P c.index.cfg c.index.nodes → P c'.index.cfg c'.index.nodes := by
  intro os
  induction os with
  | nil => intro c c' os' e _ _ _ _ h p; cases h; exact p
  | cons a os ih =>
    intro c c' os' e i hd hl hc h p
    obtain ⟨o, env⟩ := a
    have hcl : c.counter.count.toNat + (os.length + 1) < 18446744073709551616 := by simpa using hc
    obtain ⟨c1, o1, e1, h1, i1, f1⟩ := insertOne_spec i (env := env) (hd _ (List.mem_cons_self ..)) (hl _ (List.mem_cons_self ..)) (by omega)
    have p1 := insertOne_kept hP i (hd _ (List.mem_cons_self ..)) (hl _ (List.mem_cons_self ..)) h1 p
    simp only [Coll.insertAll] at h
    rw [h1, ok_bind] at h
    dsimp only at h
    cases e1 with
    | some e1 => cases h; exact p1
    | none =>
      dsimp only at h
      rw [bind_ok_iff] at h
      obtain ⟨⟨c2, os2, e2⟩, h2, h⟩ := h
      cases h
      refine ih c1 c2 os2 e2 i1 (fun p hp => hd p (List.mem_cons_of_mem _ hp)) (fun p hp => hl p (List.mem_cons_of_mem _ hp))
        ?_ h2 p1
      have hcnt : (c.counter.count + 1).toNat = c.counter.count.toNat + 1 := by
        rw [UInt64.toNat_add]
        show (c.counter.count.toNat + 1) % 2 ^ 64 = _
        omega
      rw [f1.count, hcnt]; omega

theorem apply_kept {S : Prop} {L : Lib V D} {dim : Nat} {P : Cfg → AMap UInt64 Vertex → Prop} (hP : KeptS S L.metric dim P) (hof : S ∨ OrderFree P)
    {X : UInt64 → Prop} {c c' : Coll} (i : WInv S L dim X c) {op : Op V} {out : Out V D} (hl : Legal dim c op)
    (h : c.apply L op = .ok (c', out)) (p : P c.index.cfg c.index.nodes) : P c'.index.cfg c'.index.nodes := by
  cases op with
  | insert o embed env ff =>
    simp only [Coll.apply] at h
    cases hx : c.insert L o embed env ff with
    | error e => rw [hx] at h; cases h
    | ok r =>
      obtain ⟨c1, o1, e1⟩ := r
      rw [hx] at h; cases h
      obtain ⟨⟨r, hr, hd⟩, hlev, hcnt⟩ := hl
      cases insert_res hx with
      | closed => exact p
      | invalid => exact p
      | embed => exact p
      | storage o1 o2 c1 e _ _ hem hin =>
        rw [hr] at hem; cases hem
        exact insertOne_kept hP i (hd _ rfl o1 (by simp)) hlev hin p
      | done o1 o2 c1 _ _ hem hin =>
        rw [hr] at hem; cases hem
        have := insertOne_kept hP i (hd _ rfl o1 (by simp)) hlev hin p
        exact this
  | insertBatch os embed envs ff =>
    simp only [Coll.apply] at h
    cases hx : c.insertBatch L os embed envs ff with
    | error e => rw [hx] at h; cases h
    | ok r =>
      obtain ⟨c1, o1, e1⟩ := r
      rw [hx] at h; cases h
      obtain ⟨⟨r, hr, hd⟩, hlev, hcnt⟩ := hl
      have key : ∀ os1 os2 c1 e1, embedObjectsIfNeeded c embed os = .ok (.ok os1) →
          c.insertAll L (os1.zipIdx.map (fun p => (p.1, envs p.2))) = .ok (c1, os2, e1) →
          P c1.index.cfg c1.index.nodes := by
        intro os1 os2 c1 e1 hem hin
        have hlen := embed_length hem
        rw [hr] at hem; cases hem
        have hz := zipIdx_dim (envs := envs) (hd os1 rfl) hlev
        exact insertAll_kept hP _ c c1 os2 e1 i hz.1 hz.2 (by simp; omega) hin p
      cases batch_res hx with
      | closed => exact p
      | invalid => exact p
      | embed => exact p
      | storage os1 os2 c1 e _ _ hem hin => exact key _ _ _ _ hem hin
      | done os1 os2 c1 _ _ hem hin =>
        have := key _ _ _ _ hem hin
        exact this
  | delete id df ff =>
    simp only [Coll.apply] at h
    obtain ⟨c1, e1, h1, r1⟩ := delete_res i id df ff
    rw [h1] at h; cases h
    cases r1 with
    | closed => exact p
    | absent => exact p
    | failed => exact p
    | done => exact p
  | get ids => cases h; exact p
  | search o embed k => cases h; exact p
  | size => cases h; exact p
  | update o => cases h; exact p
  | close sf =>
    simp only [Coll.apply] at h
    cases h
    have : (c.close sf).1.index = c.index := by
      unfold Coll.close
      dsimp only
      split
      · rfl
      · split <;> rfl
    rw [this]; exact p
  | reopen =>
    obtain ⟨f, c2, _, h1, _, h3, _, _⟩ := coll_reopen i hl (fun _ => False)
    simp only [Coll.apply] at h
    rw [h1] at h; cases h
    rcases hof with hs | hof
    · rw [h3.exact hs]; exact p
    · have hcfg : c'.index.cfg = c.index.cfg := by rw [h3.rest]
      rw [hcfg]
      exact hof _ _ _ h3.nodes ⟨i.idx.m.good.graph.keysNd, fun k => (h3.nodes.get k).symm⟩ p

theorem runs_kept {S : Prop} {L : Lib V D} {dim : Nat} {P : Cfg → AMap UInt64 Vertex → Prop} (hP : KeptS S L.metric dim P) (hof : S ∨ OrderFree P)
    {X : UInt64 → Prop} {c c' : Coll} {h : List (Op V × Out V D)} (r : Runs L dim c h c') (i : WInv S L dim X c)
    (p : P c.index.cfg c.index.nodes) : P c'.index.cfg c'.index.nodes := by
  induction r with
  | nil => exact p
  | cons hl ha _ ih =>
    obtain ⟨c2, out, h2, i2, _⟩ := apply_spec i _ hl
    rw [ha] at h2; cases h2
    exact ih i2 (apply_kept hP hof i hl ha p)

theorem Reach.kept {L : Lib V D} {dim : Nat} {P : Cfg → AMap UInt64 Vertex → Prop} (hP : Kept L.metric dim P)
    (h0 : ∀ cfg, P cfg []) {c : Coll} (r : Reach L dim c) : P c.index.cfg c.index.nodes := by
  obtain ⟨cfg, ms, he, h, s, hr⟩ := r
  exact runs_kept (X := fun _ => False) hP (Or.inl trivial) hr (new_inv L dim cfg ms he s.json s.metric s.dim32 s.cfg) (h0 cfg)

/-- an insert either makes the first vertex, or takes one step on the bottom layer. -/
theorem insert_bottom {M : Metric D} {S : Prop} {dim : Nat} (hM : DimOK M dim) {h h' : Hnsw} (i : Inv S h) (hcfg : CfgOK h.cfg)
    (hv : VecOK dim h.nodes) {id : UInt64} (hid : id ∉ h.nodes.keys) {vec : Vec}
    (hd : vec.length = dim) {level : Nat} (hl : level < 4294967296) (hr : h.insert M vec id level = .ok h') :
    (h.nodes = [] ∧ h'.cfg = h.cfg ∧ h'.nodes = [(id, { id := id, conns := [[]], vec := vec })]) ∨
      ∃ ns, BottomStep M h h' id vec ns := by
  by_cases hn : h.nodes = []
  · left
    have ho : h.once = false := by
      cases hb : h.once with
      | false => rfl
      | true => exact absurd hn (i.once hb)
    unfold Hnsw.insert at hr
    rw [if_pos ⟨ho, hn⟩] at hr
    cases hr
    simp [Hnsw.insertFirst, Hnsw.log, hn, AMap.set]
  · right
    unfold Hnsw.insert at hr
    rw [if_neg (fun h => hn h.2)] at hr
    have i' : Inv S ({ h with once := true } : Hnsw) := ⟨i.m.withOnce true, i.top, fun _ => hn, i.top32⟩
    obtain ⟨ns, b⟩ := insertNext_bottom hM i' hcfg hv hn hid hd hl hr
    exact ⟨ns, b.cfg, b.keys, b.own, b.nd, b.ne, b.old, b.rest, b.back, b.pick⟩

end Vectory
