import Verif.Lemmas.ConcFlat
/-! Inserts keep neighbour lists free of repetitions and self links: one at a time, or many at a time with level 0. -/
namespace Vectory
variable {V D : Type}

/-- no list has an id twice or the vertex itself, and nothing lives above the top layer. -/
structure Tidy0 (h : Hnsw) : Prop where
  neat : Neat h.nodes
  top : ∀ id l, HasLevel h.nodes id l → l ≤ h.maxLayer

theorem tidy_first {h : Hnsw} {id : UInt64} {v : Vertex} (hn : h.nodes = [(id, v)]) (hv : v.conns = [[]]) : Tidy0 h := by
  have hget : ∀ x w, h.nodes.get? x = some w → w = v := by
    intro x w hw
    rw [hn] at hw
    simp only [AMap.get?] at hw
    split at hw
    · cases hw; rfl
    · cases hw
  refine ⟨?_, ?_⟩
  · intro x l c hc
    obtain ⟨w, hw, hwc⟩ := link?_some hc
    rw [hget x w hw, hv] at hwc
    cases l with
    | zero =>
      have : c = [] := by simpa using hwc.symm
      subst this
      exact ⟨List.nodup_nil, List.not_mem_nil⟩
    | succ l => simp at hwc
  · rintro x l ⟨w, hw, hl⟩
    rw [hget x w hw, hv] at hl
    simp at hl; omega

theorem insert_tidy {S : Prop} {M : Metric D} {dim : Nat} (hM : DimOK M dim) {h h' : Hnsw} {vec : Vec} {id : UInt64} {level : Nat} (i : Inv S h)
    (hcfg : CfgOK h.cfg) (hv : VecOK dim h.nodes) (hid : id ∉ h.nodes.keys) (hd : vec.length = dim) (hl : level < 4294967296)
    (hr : h.insert M vec id level = .ok h') (p : Tidy0 h) : Tidy0 h' := by
  by_cases hn : h.nodes = []
  · have ho : h.once = false := by
      cases hb : h.once with
      | false => rfl
      | true => exact absurd hn (i.once hb)
    unfold Hnsw.insert at hr
    rw [if_pos ⟨ho, hn⟩] at hr
    cases hr
    exact tidy_first (id := id) (v := ⟨id, [[]], vec⟩) (by simp [Hnsw.insertFirst, Hnsw.log, hn, AMap.set]) rfl
  · unfold Hnsw.insert at hr
    rw [if_neg (fun h => hn h.2)] at hr
    have i' : Inv S ({ h with once := true } : Hnsw) := ⟨i.m.withOnce true, i.top, fun _ => hn, i.top32⟩
    obtain ⟨h2, e, _, _, _, _, _, sh, _, mx, nt⟩ := insertNext_spec hM i' hcfg hv hn hid hd hl
    rw [e] at hr; cases hr
    refine ⟨nt p.neat, ?_⟩
    intro x l hx
    have hx1 := sh.symm.hasLevel hx
    obtain ⟨c, hc⟩ := hasLevel_iff.mp hx1
    rw [link?_isolated] at hc
    rw [mx]
    show l ≤ max h.maxLayer level
    split at hc
    · split at hc
      · omega
      · cases hc
    · have := p.top x l (hasLevel_iff.mpr ⟨c, hc⟩); omega

theorem Tidy0.like {h h' : Hnsw} (p : Tidy0 h) (hn : h'.nodes = h.nodes) (hm : h'.maxLayer = h.maxLayer) : Tidy0 h' :=
  ⟨by rw [hn]; exact p.neat, by rw [hn, hm]; exact p.top⟩

theorem insertOne_tidy {S : Prop} {L : Lib V D} {dim : Nat} {X : UInt64 → Prop} {c : Coll} (i : WInv S L dim X c) {o : Object V} {env : InsEnv}
    (hd : (o.vec.getD []).length = dim) (hl : env.level < 4294967296) {c' : Coll} {o' : Object V} {e : Option Err}
    (h : c.insertOne L o env = .ok (c', o', e)) (p : Tidy0 c.index) : Tidy0 c'.index := by
  unfold Coll.insertOne at h
  rcases fetchAndInc_eq c.counter env.counterFails with ⟨e1, h1, _⟩ | ⟨h1, _⟩
  · rw [h1] at h; cases h; exact p
  · rw [h1] at h
    dsimp only at h
    cases hp : putObject L.json c.stores { o with id := c.counter.count } env.put with
    | mk st e1 =>
      rw [hp] at h
      cases e1 with
      | some e1 => cases h; exact p
      | none =>
        dsimp only at h
        rw [bind_ok_iff] at h
        obtain ⟨idx, hi, h⟩ := h
        cases h
        have hfr := (fresh_of i).2.1
        rw [vkey_iff i] at hfr
        exact insert_tidy i.dimM i.idx i.cfg i.vecs hfr hd hl hi p

theorem insertAll_tidy {S : Prop} {L : Lib V D} {dim : Nat} {X : UInt64 → Prop} :
    ∀ (os : List (Object V × InsEnv)) (c c' : Coll) (os' : List (Object V)) (e : Option Err), WInv S L dim X c →
      (∀ p ∈ os, (p.1.vec.getD []).length = dim) → (∀ p ∈ os, p.2.level < 4294967296) →
      c.counter.count.toNat + os.length < 18446744073709551616 → c.insertAll L os = .ok (c', os', e) →
      Tidy0 c.index → Tidy0 c'.index := by
  intro os
  induction os with
  | nil => intro c c' os' e _ _ _ _ h p; cases h; exact p
  | cons a os ih =>
    intro c c' os' e i hd hl hc h p
    obtain ⟨o, env⟩ := a
    have hcl : c.counter.count.toNat + (os.length + 1) < 18446744073709551616 := by simpa using hc
    obtain ⟨c1, o1, e1, h1, i1, f1⟩ := insertOne_spec i (env := env) (hd _ (List.mem_cons_self ..)) (hl _ (List.mem_cons_self ..)) (by omega)
    have p1 := insertOne_tidy i (hd _ (List.mem_cons_self ..)) (hl _ (List.mem_cons_self ..)) h1 p
    simp only [Coll.insertAll] at h
    rw [h1, ok_bind] at h
    dsimp only at h
    cases e1 with
    | some e1 => cases h; exact p1
    | none =>
      dsimp only at h
      rw [bind_ok_iff] at h
      obtain ⟨⟨c2, os2, e2⟩, h2, h⟩ := h
      cases h
      refine ih c1 c2 os2 e2 i1 (fun p hp => hd p (List.mem_cons_of_mem _ hp)) (fun p hp => hl p (List.mem_cons_of_mem _ hp))
        ?_ h2 p1
      have hcnt : (c.counter.count + 1).toNat = c.counter.count.toNat + 1 := by
        rw [UInt64.toNat_add]
        show (c.counter.count.toNat + 1) % 2 ^ 64 = _
        omega
      rw [f1.count, hcnt]; omega

theorem Tidy0.order {a b : Hnsw} (hs : SameMap a.nodes b.nodes) (hm : a.maxLayer = b.maxLayer) (p : Tidy0 b) : Tidy0 a := by
  have hlk : ∀ x l, link? a.nodes x l = link? b.nodes x l := fun x l => by unfold link?; rw [hs.get]
  refine ⟨fun x l c hc => p.neat x l c (by rw [← hlk]; exact hc), ?_⟩
  intro x l hx
  rw [hm]
  obtain ⟨c, hc⟩ := hasLevel_iff.mp hx
  exact p.top x l (hasLevel_iff.mpr ⟨c, by rw [← hlk]; exact hc⟩)

theorem apply_tidy {S : Prop} {L : Lib V D} {dim : Nat} {X : UInt64 → Prop} {c c' : Coll} (i : WInv S L dim X c) {op : Op V} {out : Out V D}
    (hl : Legal dim c op) (h : c.apply L op = .ok (c', out)) (p : Tidy0 c.index) : Tidy0 c'.index := by
  cases op with
  | insert o embed env ff =>
    simp only [Coll.apply] at h
    cases hx : c.insert L o embed env ff with
    | error e => rw [hx] at h; cases h
    | ok r =>
      obtain ⟨c1, o1, e1⟩ := r
      rw [hx] at h; cases h
      obtain ⟨⟨r, hr, hd⟩, hlev, hcnt⟩ := hl
      cases insert_res hx with
      | closed => exact p
      | invalid => exact p
      | embed => exact p
      | storage o1 o2 c1 e _ _ hem hin =>
        rw [hr] at hem; cases hem
        exact insertOne_tidy i (hd _ rfl o1 (by simp)) hlev hin p
      | done o1 o2 c1 _ _ hem hin =>
        rw [hr] at hem; cases hem
        exact (insertOne_tidy i (hd _ rfl o1 (by simp)) hlev hin p).like rfl rfl
  | insertBatch os embed envs ff =>
    simp only [Coll.apply] at h
    cases hx : c.insertBatch L os embed envs ff with
    | error e => rw [hx] at h; cases h
    | ok r =>
      obtain ⟨c1, o1, e1⟩ := r
      rw [hx] at h; cases h
      obtain ⟨⟨r, hr, hd⟩, hlev, hcnt⟩ := hl
      have key : ∀ os1 os2 c1 e1, embedObjectsIfNeeded c embed os = .ok (.ok os1) →
          c.insertAll L (os1.zipIdx.map (fun p => (p.1, envs p.2))) = .ok (c1, os2, e1) → Tidy0 c1.index := by
        intro os1 os2 c1 e1 hem hin
        have hlen := embed_length hem
        rw [hr] at hem; cases hem
        have hz := zipIdx_dim (envs := envs) (hd os1 rfl) hlev
        exact insertAll_tidy _ c c1 os2 e1 i hz.1 hz.2 (by simp; omega) hin p
      cases batch_res hx with
      | closed => exact p
      | invalid => exact p
      | embed => exact p
      | storage os1 os2 c1 e _ _ hem hin => exact key _ _ _ _ hem hin
      | done os1 os2 c1 _ _ hem hin => exact (key _ _ _ _ hem hin).like rfl rfl
  | delete id df ff =>
    simp only [Coll.apply] at h
    obtain ⟨c1, e1, h1, r1⟩ := delete_res i id df ff
    rw [h1] at h; cases h
    cases r1 with
    | closed => exact p
    | absent => exact p
    | failed => exact p.like rfl rfl
    | done => exact p.like rfl rfl
  | get ids => cases h; exact p
  | search o embed k => cases h; exact p
  | size => cases h; exact p
  | update o => cases h; exact p
  | close sf =>
    simp only [Coll.apply] at h
    cases h
    have : (c.close sf).1.index = c.index := by
      unfold Coll.close
      dsimp only
      split
      · rfl
      · split <;> rfl
    rw [this]; exact p
  | reopen =>
    obtain ⟨f, c2, _, h1, _, h3, _, _⟩ := coll_reopen i hl (fun _ => False)
    simp only [Coll.apply] at h
    rw [h1] at h; cases h
    exact p.order h3.nodes (by rw [h3.rest])

end Vectory

namespace Vectory.Conc
open Vectory
variable {D : Type} {M : Metric D} {dim : Nat}

/-- the neighbours that a goroutine has still to link back to its vertex. -/
def PC.toLink : PC D → List UInt64
  | .link _ _ _ todo => todo
  | .addLog _ _ _ n rest => n :: rest
  | .addRead _ _ _ n rest => n :: rest
  | .addWrite _ _ _ n rest _ => n :: rest
  | .pruneLog _ _ _ n rest _ => n :: rest
  | .pruneSet _ _ _ n rest _ => n :: rest
  | _ => []

/-- the list that a goroutine has chosen for another vertex and not yet written. -/
def PC.pruned : PC D → Option (UInt64 × List UInt64)
  | .pruneLog _ _ _ n _ new => some (n, new)
  | .pruneSet _ _ _ n _ new => some (n, new)
  | _ => none

theorem PC.toLink_ments {pc : PC D} {n : UInt64} (h : n ∈ pc.toLink) : n ∈ pc.ments := by
  cases pc
  all_goals first
    | exact absurd h List.not_mem_nil
    | exact List.mem_append.mpr (Or.inr h)
    | exact List.mem_append.mpr (Or.inr (List.mem_append.mpr (Or.inl h)))

theorem PC.toLink_active {pc : PC D} {n : UInt64} (h : n ∈ pc.toLink) : pc.active = true := by
  cases pc <;> first | rfl | exact absurd h List.not_mem_nil

theorem PC.pruned_held {pc : PC D} {n id : UInt64} {new : List UInt64} (h : pc.pruned = some (n, new)) : pc.held true id = some n := by
  cases pc <;> first | cases h; rfl | cases h

/-- the list that pruning will write is in order. -/
def PruneOK (h : Hnsw) (id n : UInt64) (new : List UInt64) : Prop :=
  new.Nodup ∧ n ∉ new ∧ ∀ x ∈ new, x = id ∨ ∃ c, link? h.nodes n 0 = some c ∧ x ∈ c

/-- the lists while goroutines insert vertices of level 0. -/
structure Tidy (h : Hnsw) (ts : List (Thread D)) : Prop where
  all : Tidy0 h
  chosen : ∀ (i : Nat) (t : Thread D), ts[i]? = some t → ∀ ns, t.pc.chosen = some ns → ns.Nodup
  nd : ∀ (i : Nat) (t : Thread D), ts[i]? = some t → t.pc.toLink.Nodup
  pend : ∀ (i : Nat) (t : Thread D), ts[i]? = some t → ∀ n ∈ t.pc.toLink, n ≠ t.job.id ∧
    ∀ c, link? h.nodes n 0 = some c → t.job.id ∉ c
  prune : ∀ (i : Nat) (t : Thread D), ts[i]? = some t → ∀ n new, t.pc.pruned = some (n, new) → PruneOK h t.job.id n new

/-- a step that changes no list. -/
theorem Tidy.same {h h' : Hnsw} {ts : List (Thread D)} (f : Tidy h ts) {i : Nat} {t : Thread D} {pc' : PC D} (ht : ts[i]? = some t)
    (hn : h'.nodes = h.nodes) (hm : h'.maxLayer = h.maxLayer) (hp : pc'.toLink = t.pc.toLink)
    (hc : ∀ ns, pc'.chosen = some ns → t.pc.chosen = some ns ∨ ns.Nodup)
    (hr : ∀ n new, pc'.pruned = some (n, new) → t.pc.pruned = some (n, new) ∨ PruneOK h t.job.id n new) :
    Tidy h' (ts.set i { t with pc := pc' }) := by
  refine ⟨f.all.like hn hm, ?_, ?_, ?_, ?_⟩
  · intro k u hu ns hns
    rcases set_get hu with ⟨rfl, rfl⟩ | ⟨_, hu⟩
    · rcases hc ns hns with h1 | h1
      · exact f.chosen k t ht ns h1
      · exact h1
    · exact f.chosen k u hu ns hns
  · intro k u hu
    rcases set_get hu with ⟨rfl, rfl⟩ | ⟨_, hu⟩
    · show pc'.toLink.Nodup
      rw [hp]; exact f.nd k t ht
    · exact f.nd k u hu
  · intro k u hu n hmem
    rw [hn]
    rcases set_get hu with ⟨rfl, rfl⟩ | ⟨_, hu⟩
    · exact f.pend k t ht n (hp ▸ hmem)
    · exact f.pend k u hu n hmem
  · intro k u hu n new hp'
    unfold PruneOK
    rw [hn]
    rcases set_get hu with ⟨rfl, rfl⟩ | ⟨_, hu⟩
    · rcases hr n new hp' with h1 | h1
      · exact f.prune k t ht n new h1
      · exact h1
    · exact f.prune k u hu n new hp'

/-- a step that writes one list. -/
theorem Tidy.put {h : Hnsw} {an : AMap UInt64 Vertex} {ts : List (Thread D)} (c : MachInv M dim h an ts) (s : Sec h ts) (f : Tidy h ts)
    {i : Nat} {t : Thread D} {x : UInt64} {v : Vertex} {cs : List UInt64} {pc' : PC D} (ht : ts[i]? = some t)
    (hact : t.pc.active = true) (hheld : t.held true = some x) (hv : h.nodes.get? x = some v) (hvl : 0 < v.conns.length)
    (hcs : cs.Nodup ∧ x ∉ cs)
    (hmem : ∀ y ∈ cs, y = t.job.id ∨ (∃ c, link? h.nodes x 0 = some c ∧ y ∈ c) ∨ (x = t.job.id ∧ t.pc.hidden = true))
    (hch : pc'.chosen = none) (hpr : pc'.pruned = none) (hnd : pc'.toLink.Nodup)
    (hpe : ∀ n ∈ pc'.toLink, n ≠ t.job.id ∧ n ≠ x ∧ ∀ c, link? h.nodes n 0 = some c → t.job.id ∉ c) :
    Tidy { h with nodes := putConns h.nodes x v 0 cs } (ts.set i { t with pc := pc' }) := by
  have hlk : ∀ y l, link? (putConns h.nodes x v 0 cs) y l = if y = x ∧ l = 0 then some cs else link? h.nodes y l := by
    intro y l
    exact link?_put cs hv hvl y l
  have hoth : ∀ y, y ≠ x → link? (putConns h.nodes x v 0 cs) y 0 = link? h.nodes y 0 := by
    intro y hy; rw [hlk, if_neg (fun e => hy e.1)]
  refine ⟨⟨f.all.neat.upd hlk hcs, ?_⟩, ?_, ?_, ?_, ?_⟩
  · intro y l hy
    exact f.all.top y l ((shape_put _ hv).symm.hasLevel hy)
  · intro k u hu ns hns
    rcases set_get hu with ⟨rfl, rfl⟩ | ⟨_, hu⟩
    · rw [show ({ t with pc := pc' } : Thread D).pc = pc' from rfl, hch] at hns; cases hns
    · exact f.chosen k u hu ns hns
  · intro k u hu
    rcases set_get hu with ⟨rfl, rfl⟩ | ⟨_, hu⟩
    · exact hnd
    · exact f.nd k u hu
  · intro k u hu n hm
    rcases set_get hu with ⟨rfl, rfl⟩ | ⟨hk, hu⟩
    · obtain ⟨a, b, d⟩ := hpe n hm
      refine ⟨a, fun e he => ?_⟩
      rw [hoth n b] at he
      exact d e he
    · obtain ⟨a, b⟩ := f.pend k u hu n hm
      refine ⟨a, fun e he => ?_⟩
      by_cases hx : n = x
      · subst hx
        rw [hlk, if_pos ⟨rfl, rfl⟩] at he
        cases he
        intro hj
        rcases hmem _ hj with h1 | ⟨c0, h1, h2⟩ | ⟨h1, h2⟩
        · exact hk (c.ids k i u t hu ht (PC.toLink_active hm) hact h1)
        · exact b c0 h1 h2
        · exact (s i t ht h2).2.2 k u hu (h1 ▸ PC.toLink_ments hm)
      · rw [hoth n hx] at he
        exact b e he
  · intro k u hu n new hp
    rcases set_get hu with ⟨rfl, rfl⟩ | ⟨hk, hu⟩
    · rw [show ({ t with pc := pc' } : Thread D).pc = pc' from rfl, hpr] at hp; cases hp
    · have hx : n ≠ x := by
        rintro rfl
        exact hk (c.excl k i u t n hu ht (PC.pruned_held hp) hheld)
      unfold PruneOK
      rw [hoth n hx]
      exact f.prune k u hu n new hp

/-- a new vertex with an empty list. -/
theorem Tidy.publish {h : Hnsw} {ts : List (Thread D)} (f : Tidy h ts) {i : Nat} {t : Thread D} {vec : Vec} (ht : ts[i]? = some t)
    (hid : h.nodes.get? t.job.id = none) :
    Tidy { h with nodes := h.nodes.set t.job.id ⟨t.job.id, [[]], vec⟩ } (ts.set i { t with pc := .enter }) := by
  have hlk : ∀ x l c, link? (h.nodes.set t.job.id ⟨t.job.id, [[]], vec⟩) x l = some c →
      (x = t.job.id ∧ l = 0 ∧ c = []) ∨ (x ≠ t.job.id ∧ link? h.nodes x l = some c) := by
    intro x l c hc
    by_cases hx : x = t.job.id
    · subst hx
      left
      obtain ⟨v, hv, hvc⟩ := link?_some hc
      rw [AMap.get?_set_self] at hv
      cases hv
      cases l with
      | zero => exact ⟨rfl, rfl, by simpa using hvc.symm⟩
      | succ l => simp at hvc
    · rw [link?_set_ne hx] at hc
      exact Or.inr ⟨hx, hc⟩
  refine ⟨⟨?_, ?_⟩, ?_, ?_, ?_, ?_⟩
  · intro x l c hc
    rcases hlk x l c hc with ⟨_, _, rfl⟩ | ⟨_, h1⟩
    · exact ⟨List.nodup_nil, List.not_mem_nil⟩
    · exact f.all.neat x l c h1
  · intro x l hx
    obtain ⟨c, hc⟩ := hasLevel_iff.mp hx
    rcases hlk x l c hc with ⟨_, rfl, _⟩ | ⟨_, h1⟩
    · exact Nat.zero_le _
    · exact f.all.top x l (hasLevel_iff.mpr ⟨c, h1⟩)
  · intro k u hu ns hns
    rcases set_get hu with ⟨rfl, rfl⟩ | ⟨_, hu⟩
    · cases hns
    · exact f.chosen k u hu ns hns
  · intro k u hu
    rcases set_get hu with ⟨rfl, rfl⟩ | ⟨_, hu⟩
    · exact List.nodup_nil
    · exact f.nd k u hu
  · intro k u hu n hm
    rcases set_get hu with ⟨rfl, rfl⟩ | ⟨_, hu⟩
    · cases hm
    · obtain ⟨a, b⟩ := f.pend k u hu n hm
      refine ⟨a, fun c hc => ?_⟩
      rcases hlk n 0 c hc with ⟨_, _, rfl⟩ | ⟨_, h1⟩
      · exact List.not_mem_nil
      · exact b c h1
  · intro k u hu n new hp
    rcases set_get hu with ⟨rfl, rfl⟩ | ⟨_, hu⟩
    · cases hp
    · obtain ⟨a, b, d⟩ := f.prune k u hu n new hp
      refine ⟨a, b, fun x hx => ?_⟩
      rcases d x hx with h1 | ⟨c, h1, h2⟩
      · exact Or.inl h1
      · refine Or.inr ⟨c, ?_, h2⟩
        have hne : n ≠ t.job.id := by
          rintro rfl
          obtain ⟨v, hv, _⟩ := link?_some h1
          rw [hid] at hv; cases hv
        show link? (h.nodes.set t.job.id ⟨t.job.id, [[]], vec⟩) n 0 = some c
        rw [link?_set_ne hne]; exact h1

/-- the first vertex of all. -/
theorem Tidy.first {h h' : Hnsw} {ts : List (Thread D)} (f : Tidy h ts) {i : Nat} {t : Thread D} {v : Vertex} (ht : ts[i]? = some t)
    (hn : h.nodes = []) (hn' : h'.nodes = [(t.job.id, v)]) (hv : v.conns = [[]]) :
    Tidy h' (ts.set i { t with pc := .idle }) := by
  have hlk : ∀ x c, link? h'.nodes x 0 = some c → c = [] := by
    intro x c hc
    obtain ⟨w, hw, hwc⟩ := link?_some hc
    rw [hn'] at hw
    have : w = v := by
      simp only [AMap.get?] at hw
      split at hw
      · cases hw; rfl
      · cases hw
    subst this
    rw [hv] at hwc
    simpa using hwc.symm
  refine ⟨tidy_first hn' hv, ?_, ?_, ?_, ?_⟩
  · intro k u hu ns hns
    rcases set_get hu with ⟨rfl, rfl⟩ | ⟨_, hu⟩
    · cases hns
    · exact f.chosen k u hu ns hns
  · intro k u hu
    rcases set_get hu with ⟨rfl, rfl⟩ | ⟨_, hu⟩
    · exact List.nodup_nil
    · exact f.nd k u hu
  · intro k u hu n hm
    rcases set_get hu with ⟨rfl, rfl⟩ | ⟨_, hu⟩
    · cases hm
    · refine ⟨(f.pend k u hu n hm).1, fun c hc => ?_⟩
      rw [hlk n c hc]; exact List.not_mem_nil
  · intro k u hu n new hp
    rcases set_get hu with ⟨rfl, rfl⟩ | ⟨_, hu⟩
    · cases hp
    · obtain ⟨a, b, d⟩ := f.prune k u hu n new hp
      refine ⟨a, b, fun x hx => ?_⟩
      rcases d x hx with h1 | ⟨c, h1, _⟩
      · exact Or.inl h1
      · have := keys_of_link h1
        rw [hn] at this; cases this

theorem Tidy.call {ts : List (Thread D)} {i : Nat} {h : Hnsw} (f : Tidy h ts) {j : Job} :
    Tidy h (ts.set i { job := j, pc := .start }) := by
  refine ⟨f.all, ?_, ?_, ?_, ?_⟩
  · intro k u hu ns hns
    rcases set_get hu with ⟨rfl, rfl⟩ | ⟨_, hu⟩
    · cases hns
    · exact f.chosen k u hu ns hns
  · intro k u hu
    rcases set_get hu with ⟨rfl, rfl⟩ | ⟨_, hu⟩
    · exact List.nodup_nil
    · exact f.nd k u hu
  · intro k u hu n hm
    rcases set_get hu with ⟨rfl, rfl⟩ | ⟨_, hu⟩
    · cases hm
    · exact f.pend k u hu n hm
  · intro k u hu n new hp
    rcases set_get hu with ⟨rfl, rfl⟩ | ⟨_, hu⟩
    · cases hp
    · exact f.prune k u hu n new hp

/-- what pruning writes. -/
theorem prune_tidy (hM : DimOK M dim) {h : Hnsw} {an : AMap UInt64 Vertex} {ts : List (Thread D)} (c : MachInv M dim h an ts) {j : Job} (hj : JobOK dim j)
    (hown : HasLevel h.nodes j.id 0) {n : UInt64} {nv : Vertex} {cs new : List UInt64} (hnv : h.nodes.get? n = some nv)
    (hc : link? h.nodes n 0 = some cs) (hcs : ∀ x ∈ cs, HasLevel h.nodes x 0) (hnd : cs.Nodup) (hnc : n ∉ cs) (hne : n ≠ j.id)
    (hjc : j.id ∉ cs) (hr : prune M h j 0 nv cs = .ok new) : PruneOK h j.id n new := by
  have hnd' := c.vec n nv hnv
  obtain ⟨d, hd⟩ := hM nv.vec j.vec hnd' hj.1
  obtain ⟨es, he1, he2, he3⟩ := elemsOf_spec M h.nodes nv (fun y vy hy => hM _ _ hnd' (c.vec y vy hy)) cs
    (fun x hx => get_of_hasLevel (hcs x hx))
  have hids : ((({ id := j.id, dist := d } : Elem D) :: es).map Elem.id) = j.id :: cs := by simp [he2]
  obtain ⟨r, hr', sel⟩ := selectNeighbors_spec M h.cfg h.nodes (({ id := j.id, dist := d } : Elem D) :: es)
    (maxConn h.cfg 0) (c.vec.pair hM) (by
      intro e he
      rcases List.mem_cons.mp he with rfl | he
      · exact get_of_hasLevel hown
      · obtain ⟨w, hw, _⟩ := he3 e he; exact ⟨w, hw⟩)
  unfold prune at hr
  rw [hd, ok_bind, he1, ok_bind, hr'] at hr
  have hrn : r = new := by cases hr; rfl
  subst hrn
  have hsub : ∀ x ∈ r, x = j.id ∨ x ∈ cs := by
    intro x hx
    have := sel.sub x hx
    rw [hids] at this
    exact List.mem_cons.mp this
  refine ⟨sel.nd (by rw [hids]; exact List.nodup_cons.mpr ⟨hjc, hnd⟩), ?_, ?_⟩
  · intro hm
    rcases hsub n hm with h1 | h1
    · exact hne h1
    · exact hnc h1
  · intro x hx
    rcases hsub x hx with h1 | h1
    · exact Or.inl h1
    · exact Or.inr ⟨cs, hc, h1⟩

theorem afterSearch_tidy {h : Hnsw} {an : AMap UInt64 Vertex} {ts : List (Thread D)} (hM : DimOK M dim) (c : MachInv M dim h an ts)
    {j : Job} {cur : Nat} {ph : Phase} {s : SL D} {buf : List UInt64} (k : Searching M h j ph s buf) :
    (afterSearch M h j cur ph s.nn).toLink = [] ∧ (afterSearch M h j cur ph s.nn).pruned = none := by
  cases ph with
  | lookup n =>
    cases hn : s.nn with
    | nil => exact absurd hn k.inv.ne
    | cons e r => cases n <;> exact ⟨rfl, rfl⟩
  | construct l =>
    obtain ⟨ns, hs, sel⟩ := selectNeighbors_spec M h.cfg h.nodes s.nn h.cfg.m (c.vec.pair hM)
      (fun e he' => by obtain ⟨w, hw, _⟩ := k.inv.nnD e he'; exact ⟨w, hw⟩)
    simp only [afterSearch, hs, orDie]
    exact ⟨rfl, rfl⟩

/-- every step of a goroutine whose level is 0. -/
theorem tidy_step (hM : DimOK M dim) {h h' : Hnsw} {an : AMap UInt64 Vertex} {ts : List (Thread D)} (c : MachInv M dim h an ts)
    (s : Sec h ts) (f : Tidy h ts) {i : Nat} {t : Thread D} {pc' : PC D} (ht : ts[i]? = some t) (h0 : t.job.level = 0)
    (hs : stepPC true M h (lockedBy true ts) t.job t.pc = some (h', pc')) :
    Tidy h' (ts.set i { t with pc := pc' }) := by
  obtain ⟨an', c'⟩ := step_inv hM c ht hs
  have ok' := c'.thr i _ (set_this ht)
  have hdie : ∀ {A : Type} {held : Option UInt64} {r : Except Panic A} {k : A → PC D}, pc' = orDie held r k → ∃ a, pc' = k a := by
    intro A held r k e
    cases r with
    | ok a => exact ⟨a, e⟩
    | error p => exfalso; rw [e] at ok'; exact ok'
  have ok := c.thr i t ht
  have none_ : ∀ {pc : PC D}, pc.chosen = none → ∀ ns, pc.chosen = some ns → t.pc.chosen = some ns ∨ ns.Nodup := by
    intro pc e ns hns
    rw [e] at hns; cases hns
  have nop_ : ∀ {pc : PC D}, pc.pruned = none → ∀ n new, pc.pruned = some (n, new) → t.pc.pruned = some (n, new) ∨ PruneOK h t.job.id n new := by
    intro pc e n new hns
    rw [e] at hns; cases hns
  cases hpc : t.pc with
  | idle => rw [hpc] at hs; cases hs
  | start =>
    rw [hpc] at hs
    simp only [stepPC] at hs
    split at hs
    · rename_i hh
      cases hs
      exact f.first ht hh.2 (v := ⟨t.job.id, [[]], t.job.vec⟩) (by simp [Hnsw.insertFirst, Hnsw.log, hh.2, AMap.set]) rfl
    · cases hs
      exact f.same ht rfl rfl (by rw [hpc]; rfl) (none_ rfl) (nop_ rfl)
  | create =>
    rw [hpc] at hs
    simp only [stepPC] at hs
    split at hs
    · cases hs; exact ok'.elim
    · cases hs; exact f.same ht rfl rfl (by rw [hpc]; rfl) (none_ rfl) (nop_ rfl)
  | publish =>
    rw [hpc] at hs ok
    cases hs
    have := f.publish (vec := t.job.vec) ht ok.1
    rw [h0]
    exact this
  | enter =>
    rw [hpc] at hs
    simp only [stepPC] at hs
    cases hs
    obtain ⟨a, e⟩ := hdie rfl
    rw [e]
    exact f.same ht rfl rfl (by rw [hpc]; rfl) (none_ rfl) (nop_ rfl)
  | layer cur ph eps =>
    rw [hpc] at hs
    simp only [stepPC] at hs
    split at hs <;> cases hs
    · exact ok'.elim
    · exact f.same ht rfl rfl (by rw [hpc]; rfl) (none_ rfl) (nop_ rfl)
  | pop cur ph sl buf =>
    rw [hpc] at ok
    have ok : Searching M h t.job ph sl buf := ok
    obtain ⟨_, _, _, a4⟩ := afterSearch_flat (cur := cur) hM c ok
    obtain ⟨b1, b2⟩ := afterSearch_tidy (cur := cur) hM c ok
    have hafter : Tidy h (ts.set i { t with pc := afterSearch M h t.job cur ph sl.nn }) :=
      f.same ht rfl rfl (by rw [hpc, b1]; rfl) (fun ns hns => Or.inr (a4 ns hns).1) (nop_ b2)
    rw [hpc] at hs
    simp only [stepPC] at hs
    cases hp : Heap.pop (minLess M.lt) sl.cands with
    | none => rw [hp] at hs; cases hs; exact hafter
    | some p =>
      obtain ⟨e, rest⟩ := p
      obtain ⟨g, hg⟩ := peek_some ok.inv.ne
      simp only [hp, hg] at hs
      split at hs
      · cases hs; exact hafter
      · split at hs
        · cases hs; exact ok'.elim
        · split at hs
          · cases hs
          · cases hs
            obtain ⟨cs, e⟩ := hdie rfl
            rw [e]
            rw [e] at ok'
            split at ok'
            · exact ok'.elim
            · rename_i hlen
              rw [if_neg hlen]
              exact f.same ht rfl rfl (by rw [hpc]; rfl) (none_ rfl) (nop_ rfl)
  | copy cur ph sl buf cid n =>
    rw [hpc] at hs
    simp only [stepPC] at hs
    cases hs
    obtain ⟨a, e⟩ := hdie rfl
    rw [e]
    exact f.same ht rfl rfl (by rw [hpc]; rfl) (none_ rfl) (nop_ rfl)
  | visit cur ph sl buf todo =>
    rw [hpc] at hs
    cases todo with
    | nil =>
      cases hs
      exact f.same ht rfl rfl (by rw [hpc]; rfl) (none_ rfl) (nop_ rfl)
    | cons nid rest =>
      simp only [stepPC] at hs
      cases hs
      obtain ⟨a, e⟩ := hdie rfl
      rw [e]
      exact f.same ht rfl rfl (by rw [hpc]; rfl) (none_ rfl) (nop_ rfl)
  | logOwn cur l nns ns =>
    rw [hpc] at hs
    simp only [stepPC] at hs
    split at hs
    · cases hs
    · cases hs
      exact f.same ht rfl rfl (by rw [hpc]; rfl) (fun xs hxs => Or.inl (by rw [hpc]; exact hxs)) (nop_ rfl)
  | setOwn cur l nns ns =>
    rw [hpc] at ok
    obtain ⟨o1, _⟩ := ok
    have hl0 : l = 0 := by have := o1.lvl; omega
    subst hl0
    obtain ⟨v, hv, hvl⟩ := o1.own.at o1.lvl
    have hhid : t.pc.hidden = true := by rw [hpc]; rfl
    obtain ⟨s1, s2, s3⟩ := s i t ht hhid
    have hnd := f.chosen i t ht ns (by rw [hpc]; rfl)
    have hnot : t.job.id ∉ ns := by
      intro hm
      exact s3 i t ht (by rw [hpc]; exact List.mem_append.mpr (Or.inr hm))
    have hheld : t.held true = some t.job.id := by unfold Thread.held; rw [hpc]; rfl
    rw [hpc] at hs
    simp only [stepPC, setConns_ok ns hv hvl] at hs
    cases hs
    refine f.put c s ht (by rw [hpc]; rfl) hheld hv hvl ⟨hnd, hnot⟩ (fun y hy => Or.inr (Or.inr ⟨rfl, hhid⟩)) rfl rfl hnd ?_
    intro n hn
    have hne : n ≠ t.job.id := by rintro rfl; exact hnot hn
    exact ⟨hne, hne, fun cs hc hm => s1 ⟨n, 0, cs, hc, hm⟩⟩
  | link cur l nns todo =>
    rw [hpc] at ok
    have o1 : Linking M h t.job l nns todo := ok
    have hl0 : l = 0 := by have := o1.lvl; omega
    subst hl0
    have hact : t.pc.active = true := by rw [hpc]; rfl
    rw [hpc] at hs
    cases todo with
    | nil =>
      cases hs
      exact f.same ht rfl rfl (by rw [hpc]; rfl) (none_ rfl) (nop_ rfl)
    | cons n rest =>
      have hnl := o1.todo n (by simp)
      obtain ⟨cs, hcs, hcl, hcm⟩ := c.linkOf hnl
      obtain ⟨v, hv, hvc⟩ := link?_some hcs
      obtain ⟨p1, p2⟩ := f.pend i t ht n (by rw [hpc]; exact List.mem_cons_self ..)
      obtain ⟨a1, a2⟩ := f.all.neat n 0 cs hcs
      simp only [stepPC, hv] at hs
      split at hs
      · cases hs
      · simp only [connsAt_of hvc, orDie] at hs
        split at hs
        · cases hs
          exact f.same ht rfl rfl (by rw [hpc]; rfl) (none_ rfl) (nop_ rfl)
        · obtain ⟨new, hnew, _⟩ := prune_ok hM c (c.job i t ht hact) (o1.own.at o1.lvl) hv hcm
          rw [hnew] at hs
          cases hs
          refine f.same ht rfl rfl (by rw [hpc]; rfl) (none_ rfl) ?_
          intro n' new' e
          cases e
          exact Or.inr (prune_tidy hM c (c.job i t ht hact) (o1.own.at o1.lvl) hv hcs hcm a1 a2 p1 (p2 cs hcs) hnew)
  | addLog cur l nns n rest =>
    rw [hpc] at hs
    cases hs
    exact f.same ht rfl rfl (by rw [hpc]; rfl) (none_ rfl) (nop_ rfl)
  | addRead cur l nns n rest =>
    rw [hpc] at hs
    simp only [stepPC] at hs
    cases hs
    obtain ⟨a, e⟩ := hdie rfl
    rw [e]
    exact f.same ht rfl rfl (by rw [hpc]; rfl) (none_ rfl) (nop_ rfl)
  | addWrite cur l nns n rest cs =>
    rw [hpc] at ok
    obtain ⟨o1, o2, o3, o4⟩ := ok
    have hl0 : l = 0 := by have := o1.lvl; omega
    subst hl0
    obtain ⟨v, hv, hvc⟩ := link?_some o2
    have hvl : 0 < v.conns.length := (List.getElem?_eq_some_iff.mp hvc).1
    have hheld : t.held true = some n := by unfold Thread.held; rw [hpc]; rfl
    have hnd := f.nd i t ht
    rw [hpc] at hnd
    obtain ⟨nd1, nd2⟩ := List.nodup_cons.mp hnd
    obtain ⟨p1, p2⟩ := f.pend i t ht n (by rw [hpc]; exact List.mem_cons_self ..)
    obtain ⟨a1, a2⟩ := f.all.neat n 0 cs o2
    have hpe := f.pend i t ht
    rw [hpc] at hs
    simp only [stepPC, setConns_ok _ hv hvl] at hs
    cases hs
    refine f.put c s ht (by rw [hpc]; rfl) hheld hv hvl ⟨?_, ?_⟩ ?_ rfl rfl nd2 ?_
    · rw [List.nodup_append]
      refine ⟨a1, by simp, ?_⟩
      intro y hy z hz
      rw [List.mem_singleton.mp hz]
      rintro rfl
      exact p2 cs o2 hy
    · intro hm
      rcases List.mem_append.mp hm with h1 | h1
      · exact a2 h1
      · exact p1 (List.mem_singleton.mp h1)
    · intro y hy
      rcases List.mem_append.mp hy with h1 | h1
      · exact Or.inr (Or.inl ⟨cs, o2, h1⟩)
      · exact Or.inl (List.mem_singleton.mp h1)
    · intro x hx
      have hx : x ∈ rest := hx
      obtain ⟨q1, q2⟩ := hpe x (by rw [hpc]; exact List.mem_cons_of_mem _ hx)
      exact ⟨q1, fun e => nd1 (e ▸ hx), q2⟩
  | pruneLog cur l nns n rest new =>
    rw [hpc] at hs
    cases hs
    exact f.same ht rfl rfl (by rw [hpc]; rfl) (none_ rfl) (fun n' new' e => Or.inl (by rw [hpc]; exact e))
  | pruneSet cur l nns n rest new =>
    rw [hpc] at ok
    obtain ⟨o1, o2, _⟩ := ok
    have hl0 : l = 0 := by have := o1.lvl; omega
    subst hl0
    obtain ⟨v, hv, hvl⟩ := o2
    have hheld : t.held true = some n := by unfold Thread.held; rw [hpc]; rfl
    have hnd := f.nd i t ht
    rw [hpc] at hnd
    obtain ⟨nd1, nd2⟩ := List.nodup_cons.mp hnd
    have hpe := f.pend i t ht
    obtain ⟨b1, b2, b3⟩ := f.prune i t ht n new (by rw [hpc]; rfl)
    rw [hpc] at hs
    simp only [stepPC, setConns_ok _ hv hvl] at hs
    cases hs
    refine f.put c s ht (by rw [hpc]; rfl) hheld hv hvl ⟨b1, b2⟩ ?_ rfl rfl nd2 ?_
    · intro y hy
      rcases b3 y hy with h1 | h1
      · exact Or.inl h1
      · exact Or.inr (Or.inl h1)
    · intro x hx
      have hx : x ∈ rest := hx
      obtain ⟨q1, q2⟩ := hpe x (by rw [hpc]; exact List.mem_cons_of_mem _ hx)
      exact ⟨q1, fun e => nd1 (e ▸ hx), q2⟩
  | finish cur =>
    rw [hpc] at hs
    simp only [stepPC] at hs
    rw [if_neg (by omega)] at hs
    cases hs
    exact f.same ht rfl rfl (by rw [hpc]; rfl) (none_ rfl) (nop_ rfl)
  | dead p x => rw [hpc] at hs; cases hs

theorem tidy_quiet {m : Mach D} (hq : m.quiet) (p : Tidy0 m.h) : Tidy m.h m.ts := by
  refine ⟨p, ?_, ?_, ?_, ?_⟩
  · intro i t ht ns hh; rw [quiet_idle hq ht] at hh; cases hh
  · intro i t ht; rw [quiet_idle hq ht]; exact List.nodup_nil
  · intro i t ht n hm; rw [quiet_idle hq ht] at hm; cases hm
  · intro i t ht n new hp; rw [quiet_idle hq ht] at hp; cases hp

/-- inserts of level 0, whatever the schedule. -/
theorem tidy_sched (hM : DimOK M dim) {m m' : Mach D} {js : List Job} (hq : m.quiet) (hi : ∃ an, MachInv M dim m.h an m.ts)
    (p : Tidy0 m.h) (hs : Sched false M dim m js m') (h0 : ∀ j ∈ js, j.level = 0) : Tidy m'.h m'.ts := by
  induction hs with
  | start => exact tidy_quiet hq p
  | run i h1 h ih =>
    obtain ⟨f1, s1⟩ := sched_level0 hM hq hi h1 h0
    obtain ⟨an, c⟩ := sched_inv hM f1 hi
    obtain ⟨t, pc, ht, hst, e⟩ := step_run (real_fixed c s1 h)
    have f := ih h0
    have g := sched_grow hq h1
    rw [e]
    exact tidy_step hM c s1 f ht (h0 _ (g.mine i t ht (stepPC_eff hst).act)) hst
  | call i j h1 hf hj h ih =>
    obtain ⟨t, ht, hp, e⟩ := step_call h
    subst e
    exact (ih (fun x hx => h0 x (List.mem_append.mpr (Or.inl hx)))).call

end Vectory.Conc
