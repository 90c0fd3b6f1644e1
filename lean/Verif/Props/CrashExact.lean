import Verif.Props.Openable
import Verif.Lemmas.SimMap
/-! # Crashes inside `Insert` and `Delete`, exactly: C31 and C32 -/
namespace Vectory
variable {V D : Type}

/-- opening with another counter file. -/
theorem opens_counter {cfg : Cfg} {ms : List String} {he : Bool} {d : Disk} {f : Bytes} {n0 n : IdCounter}
    (h0 : newIdCounter d.counterFile = .ok n0) (h : newIdCounter f = .ok n) :
    (∀ c', openColl cfg ms he { d with counterFile := f } = .ok c' → ∃ c0, openColl cfg ms he d = .ok c0 ∧ c' = { c0 with counter := n }) ∧
    (∀ c0, openColl cfg ms he d = .ok c0 → openColl cfg ms he { d with counterFile := f } = .ok { c0 with counter := n }) := by
  unfold openColl
  dsimp only
  rw [h0, h]
  simp only [liftErr, ok_bind]
  refine ⟨fun c' h2 => ?_, fun c0 h2 => ?_⟩
  · obtain ⟨a, h3, h4⟩ := (bind_ok_iff _ _ _).mp h2
    obtain ⟨b, h5, h6⟩ := (bind_ok_iff _ _ _).mp h4
    cases h6
    rw [h3, ok_bind, h5]
    exact ⟨_, rfl, rfl⟩
  · obtain ⟨a, h3, h4⟩ := (bind_ok_iff _ _ _).mp h2
    obtain ⟨b, h5, h6⟩ := (bind_ok_iff _ _ _).mp h4
    cases h6
    rw [h3, ok_bind, h5]
    rfl

theorem counter_reads {ctr : IdCounter} {f : UInt64} (h : CounterOK ctr f) : ∃ n, newIdCounter ctr.file = .ok n := by
  rcases h.1 with ⟨h, _⟩ | h
  · rw [h]; exact ⟨_, rfl⟩
  · rw [h]; have := newIdCounter_put f []; rw [List.append_nil] at this; exact ⟨_, this⟩

theorem torn_reads {ctr : IdCounter} {f : UInt64} (h : CounterOK ctr f) (n : UInt64) (j : Nat) (h0 : 0 < j) (h8 : j < 8) :
    (∃ m, newIdCounter (tornCounter ctr.file n j) = .ok m) ↔ ctr.file ≠ [] := by
  rcases h.1 with ⟨h, _⟩ | h
  · rw [h]
    refine ⟨?_, fun hn => absurd rfl hn⟩
    rintro ⟨m, hm⟩
    exfalso
    have : j = 1 ∨ j = 2 ∨ j = 3 ∨ j = 4 ∨ j = 5 ∨ j = 6 ∨ j = 7 := by omega
    rcases this with rfl | rfl | rfl | rfl | rfl | rfl | rfl <;> cases hm
  · rw [h]
    refine ⟨fun _ => (by unfold putUint64; simp), fun _ => ?_⟩
    have := torn_value f n [] j (by omega)
    rw [List.append_nil] at this
    unfold newIdCounter
    split
    · exact ⟨_, rfl⟩
    · rw [this]; exact ⟨_, rfl⟩

/-- is the write of the eight bytes of the counter cut? -/
def InsertCrash.torn : InsertCrash → Prop
  | .counter j => 0 < j ∧ j < 8
  | _ => False

theorem w31_exact {S : Prop} (L : Lib V D) (dim : Nat) (c : Coll) (i : WInv S L dim (fun _ => True) c) (dv : DInv S c.index) (pre : List (Object V × InsEnv)) (c1 : Coll)
    (os : List (Object V)) (hins : c.insertAll L pre = .ok (c1, os, none)) (o : Object V) (level : Nat) (p : InsertCrash)
    (hl : (Ev.crashInsert pre o level .start : Ev V D).Legal L dim c) :
    ∃ d, c1.crashInsert L o level p = .ok d ∧
      ((∃ c', openColl c.index.cfg c.mappings c.hasEmbedder d = .ok c') ↔
        p = .flushed ∨ (p ≠ .vector ∧ pre = [] ∧ c.Opens ∧ ¬ (p.torn ∧ c.counter.file = []))) ∧
      ∀ c', openColl c.index.cfg c.mappings c.hasEmbedder d = .ok c' →
        (∀ id x, c.get L [id] = .ok [x] → c'.get L [id] = .ok [x]) ∧ (p ≠ .flushed → ∀ id, c'.get L [id] = c.get L [id]) := by
  have hcl := hl.1
  have same : ∀ c' : Coll, c'.closed = false → c'.stores = c.stores → ∀ id, c'.get L [id] = c.get L [id] := by
    intro c' h1 h2 id; unfold Coll.get; rw [h1, h2, hcl]
  -- a cut write is the state before the write, with another counter file
  by_cases ht : p.torn
  · obtain ⟨j, rfl, h0, h8⟩ : ∃ j, p = .counter j ∧ 0 < j ∧ j < 8 := by
      cases p with
      | counter j => exact ⟨j, rfl, ht⟩
      | _ => exact ht.elim
    refine ⟨_, rfl, ?_⟩
    have hlst := hl
    by_cases hpre : pre = []
    · subst hpre
      cases hins
      obtain ⟨f, hf, _⟩ := i.ids
      obtain ⟨n0, hn0⟩ := counter_reads hf
      have ht' := torn_reads hf (c.counter.count + 1) j h0 h8
      have hiff : (∃ c', openColl c.index.cfg c.mappings c.hasEmbedder
          { c.disk with counterFile := tornCounter c.counter.file (c.counter.count + 1) j } = .ok c') →
          ∃ m, newIdCounter (tornCounter c.counter.file (c.counter.count + 1) j) = .ok m := by
        rintro ⟨c', h'⟩; exact ⟨_, (open_ids h').1⟩
      refine ⟨⟨fun h => ?_, fun h => ?_⟩, ?_⟩
      · obtain ⟨m, hm⟩ := hiff h
        obtain ⟨c', h'⟩ := h
        obtain ⟨c0, hc0, _⟩ := (opens_counter (d := c.disk) hn0 hm).1 c' h'
        exact Or.inr ⟨(fun h => by cases h), rfl, ⟨c0, hc0⟩, fun h => (ht'.mp ⟨m, hm⟩) h.2⟩
      · rcases h with h | ⟨_, _, ⟨c0, hc0⟩, hnot⟩
        · cases h
        · obtain ⟨m, hm⟩ := ht'.mpr (fun h => hnot ⟨ht, h⟩)
          exact ⟨_, (opens_counter (d := c.disk) hn0 hm).2 c0 hc0⟩
      · intro c' h'
        obtain ⟨m, hm⟩ := hiff ⟨c', h'⟩
        obtain ⟨c0, hc0, rfl⟩ := (opens_counter (d := c.disk) hn0 hm).1 c' h'
        have hst : c0.stores = c.stores ∧ c0.closed = false := by
          rcases reopen_any i dv with ⟨c3, h1, _, _, h4, _, _, _, _, h9, _⟩ | ⟨h1, _⟩
          · have : c.reopen = .ok c0 := hc0
            rw [this] at h1; cases h1; exact ⟨h4, h9⟩
          · have : c.reopen = .ok c0 := hc0
            rw [this] at h1; cases h1
        have hs := same { c0 with counter := m } hst.2 hst.1
        exact ⟨fun id x hx => by rw [hs]; exact hx, fun _ => hs⟩
    · have hno : ∀ c', openColl c.index.cfg c.mappings c.hasEmbedder
          { c1.disk with counterFile := tornCounter c1.counter.file (c1.counter.count + 1) j } ≠ .ok c' := by
        intro c' h'
        obtain ⟨d, hd, hbad⟩ := w31_inside_batch L dim c i dv pre hpre c1 os hins o level .start (fun h => by cases h) hl
        cases hd
        obtain ⟨hcl, hcc, hpl, hd, hlev, hj, hcnt, hu⟩ := hl
        obtain ⟨c1', os', e', g1, i1, _⟩ := insertAll_spec (fun _ => False) pre c i (fun p hp => (hpl p hp).1)
          (fun p hp => (hpl p hp).2) (by omega)
        rw [hins] at g1; cases g1
        obtain ⟨f, hf, _⟩ := i1.ids
        obtain ⟨n0, hn0⟩ := counter_reads hf
        obtain ⟨c0, hc0, _⟩ := (opens_counter (d := c1.disk) hn0 (open_ids h').1).1 c' h'
        rw [hbad] at hc0; cases hc0
      refine ⟨⟨fun ⟨c', h'⟩ => absurd h' (hno c'), ?_⟩, fun c' h' => absurd h' (hno c')⟩
      rintro (h | ⟨_, h, _⟩)
      · cases h
      · exact absurd h hpre
  · have hl' : (Ev.crashInsert pre o level p : Ev V D).Legal L dim c := by
      obtain ⟨a1, a2, a3, a4, a5, a6, a7, _⟩ := hl
      refine ⟨a1, a2, a3, a4, a5, a6, a7, ?_⟩
      cases p with
      | counter j =>
        have : ¬ (0 < j ∧ j < 8) := ht
        show j = 0 ∨ 8 ≤ j
        omega
      | _ => trivial
    by_cases hfl : p = .flushed
    · subst hfl
      obtain ⟨hcl, hcc, hpl, hd, hlev, hj, hcnt, hu⟩ := hl
      obtain ⟨c1', os', e', g1, i1, ev, _, g5, _⟩ := insertAll_spec (fun _ => False) pre c i (fun p hp => (hpl p hp).1)
        (fun p hp => (hpl p hp).2) (by omega)
      rw [hins] at g1; cases g1
      have d1 := insertAll_dinv _ _ _ _ _ i dv (fun p hp => (hpl p hp).1) (fun p hp => (hpl p hp).2) (by omega) hins
      have hc1 := insertAll_count _ _ _ _ _ i (fun p hp => (hpl p hp).1) (fun p hp => (hpl p hp).2) (by omega) hins
      obtain ⟨d, c2, k1, k2, k3, k4, k5, k6, k7, k8, k9, k10⟩ := crash_insert (o := o) (level := level) i1 d1 (by rw [g5, hcc])
        hd hlev hj (by omega) .flushed (by intro j hj; cases hj)
      have hre : c2.reopen = openColl c.index.cfg c.mappings c.hasEmbedder d := by
        unfold Coll.reopen; rw [k5, k6, k7, k2, ev.cfg, ev.mappings, ev.embedder]
      obtain ⟨c3, o', f1, _, _, _, g⟩ := k10 (Or.inr rfl)
      obtain ⟨f, cr, _, h, hcr, _⟩ := coll_reopen k3 (g rfl).2 (fun _ => False)
      refine ⟨d, k1, ⟨fun _ => Or.inl rfl, fun _ => ⟨_, hre ▸ h⟩⟩, fun c' h' => ⟨?_, fun hn => absurd rfl hn⟩⟩
      rw [← hre, h] at h'
      cases h'
      intro id x hx
      rw [get_single_some hcl] at hx
      have hcc' : cr.closed = false := by rw [hcr]; rfl
      have hcs : cr.stores = c2.stores := by rw [hcr]; rfl
      rw [get_single_some hcc', hcs]
      have u1 := getObject_used i hx
      have e1 := ev.keep id u1 (fun h => h)
      rw [← e1] at hx
      rw [(k9 (fun _ => False)).keep id (getObject_used i1 hx) (fun h => h)]
      exact hx
    · by_cases hpre : pre = []
      · subst hpre
        cases hins
        by_cases hv : p = .vector
        · subst hv
          obtain ⟨d, hd, hbad⟩ := w31_after_vector L dim c i dv o level hl'
          refine ⟨d, hd, ⟨?_, ?_⟩, ?_⟩
          · rintro ⟨c', h'⟩; rw [hbad] at h'; cases h'
          · rintro (h | ⟨h, _⟩)
            · cases h
            · exact absurd rfl h
          · intro c' h'; rw [hbad] at h'; cases h'
        · obtain ⟨hcl, hcc, _, hd, hlev, hj, hcnt, hu⟩ := hl'
          obtain ⟨d, c2, k1, k2, k3, k4, k5, k6, k7, k8, k9, k10⟩ := crash_insert (o := o) (level := level) i dv hcc hd hlev hj
            (by simpa using hcnt) p (by intro j hj; subst hj; exact hu)
          have hre : c2.reopen = openColl c.index.cfg c.mappings c.hasEmbedder d := by
            unfold Coll.reopen; rw [k5, k6, k7, k2]
          have hiff : c2.Opens ↔ c.Opens := by
            unfold Coll.Opens
            rw [reopen_iff k3 k4, reopen_iff i dv, (k8 hv hfl).1]
          refine ⟨d, k1, ?_, ?_⟩
          · rw [← hre]
            refine ⟨fun h => Or.inr ⟨hv, rfl, hiff.mp h, fun h => ht h.1⟩, ?_⟩
            rintro (h | ⟨_, _, h, _⟩)
            · exact absurd h hfl
            · exact hiff.mpr h
          · intro c' h'
            rw [← hre] at h'
            rcases reopen_any k3 k4 with ⟨c3, h1, h2, h3, h4, h5, h6, h7, h8, h9, h10, h11, _⟩ | ⟨h1, _⟩
            · rw [h'] at h1; cases h1
              have hs : ∀ id, c'.get L [id] = c.get L [id] := by
                intro id
                have := (k8 hv hfl).2 id
                unfold Coll.get getObjects
                rw [h9, hcl, h4, this]
                rfl
              exact ⟨fun id x hx => by rw [hs]; exact hx, fun _ => hs⟩
            · rw [h'] at h1; cases h1
      · obtain ⟨d, hd, hbad⟩ := w31_inside_batch L dim c i dv pre hpre c1 os hins o level p hfl hl'
        refine ⟨d, hd, ⟨?_, ?_⟩, ?_⟩
        · rintro ⟨c', h'⟩; rw [hbad] at h'; cases h'
        · rintro (h | ⟨_, h, _⟩)
          · exact absurd h hfl
          · exact absurd h hpre
        · intro c' h'; rw [hbad] at h'; cases h'

/-- **C31, exactly.** Let a collection be in any state reached by calls, failing writes, crashes and reopens. The process stops inside
the insert of an accepted object, at any point `p` (a cut write of the counter included); in a batch, after the objects `pre` of the batch
were handled. Then the collection can be opened again iff the insert and the flush had finished, or no vector of the call had been
written, the collection could have been opened before the call, and the cut write, if any, was not the first one ever of the counter.
If it can be opened, all objects readable before the call are readable and unchanged, and unless the call had finished no other object
is. -/
theorem C31_exact (L : Lib V D) (dim : Nat) (c : Coll) (hr : ReachAny L dim c) (pre : List (Object V × InsEnv)) (c1 : Coll)
    (os : List (Object V)) (hins : c.insertAll L pre = .ok (c1, os, none)) (o : Object V) (level : Nat) (p : InsertCrash)
    (hl : (Ev.crashInsert pre o level .start : Ev V D).Legal L dim c) :
    ∃ d, c1.crashInsert L o level p = .ok d ∧
      ((∃ c', openColl c.index.cfg c.mappings c.hasEmbedder d = .ok c') ↔
        p = .flushed ∨ (p ≠ .vector ∧ pre = [] ∧ c.Opens ∧ ¬ (p.torn ∧ c.counter.file = []))) ∧
      ∀ c', openColl c.index.cfg c.mappings c.hasEmbedder d = .ok c' →
        (∀ id x, c.get L [id] = .ok [x] → c'.get L [id] = .ok [x]) ∧ (p ≠ .flushed → ∀ id, c'.get L [id] = c.get L [id]) :=
  w31_exact L dim c hr.weak.1 hr.weak.2 pre c1 os hins o level p hl

-- a state with a waiting record, that can be opened; every point of `Insert` is covered, the cut of the counter write after three bytes
-- included; and the second object of a batch
example : ReachAny demoLib 1 (demoState demoCfg c31Ops) ∧ (demoState demoCfg c31Ops).Opens ∧
    (demoState demoCfg c31Ops).counter.file ≠ [] ∧ (InsertCrash.counter 3).torn ∧
    (Ev.crashInsert [] (demoObj 8) 1 .start : Ev UInt8 Nat).Legal demoLib 1 (demoState demoCfg c31Ops) ∧
    (∃ c1 os, (demoState demoCfg c31Ops).insertAll demoLib [] = .ok (c1, os, none)) ∧
    (∃ c1 os, (demoState demoCfg c31Ops).insertAll demoLib [(demoObj 7, {})] = .ok (c1, os, none)) ∧
    (Ev.crashInsert [(demoObj 7, {})] (demoObj 8) 1 .start : Ev UInt8 Nat).Legal demoLib 1 (demoState demoCfg c31Ops) :=
  ⟨c31_state.1, c31_state.2.1, by decide +kernel, ⟨by decide, by decide⟩, c31_legal _ (by intro j h; cases h), ⟨_, _, rfl⟩, ⟨_, _, rfl⟩,
    by decide, by decide, by intro x hx; simp at hx; subst hx; exact ⟨rfl, by decide⟩, rfl, by decide, rfl, by decide, trivial⟩

theorem getObjects_congr {js : Json V} {s s' : Stores} : ∀ (ids : List UInt64), (∀ id ∈ ids, getObject js s' id = getObject js s id) →
    getObjects js s' ids = getObjects js s ids := by
  intro ids
  induction ids with
  | nil => intro _; rfl
  | cons x xs ih =>
    intro h
    unfold getObjects
    rw [h x (List.mem_cons_self ..), ih (fun y hy => h y (List.mem_cons_of_mem _ hy))]

theorem getObjects_count {js : Json V} {s : Stores} : ∀ (ids : List UInt64), (∀ id, ∃ r, getObject js s id = .ok r) →
    ∃ os, getObjects js s ids = .ok os ∧ os.length ≤ ids.length ∧ (∀ id ∈ ids, getObject js s id = .ok none → os.length < ids.length) := by
  intro ids
  induction ids with
  | nil => intro _; exact ⟨[], rfl, Nat.le_refl _, fun _ h => by cases h⟩
  | cons x xs ih =>
    intro h
    obtain ⟨os, h1, h2, h3⟩ := ih h
    obtain ⟨r, hr⟩ := h x
    unfold getObjects
    rw [hr, h1]
    cases r with
    | none =>
      refine ⟨os, rfl, by simp; omega, fun id _ _ => by simp; omega⟩
    | some o =>
      refine ⟨o :: os, rfl, by simpa using h2, fun id hid hn => ?_⟩
      rcases List.mem_cons.mp hid with rfl | hid
      · rw [hr] at hn; cases hn
      · have := h3 id hid hn; simpa using this

theorem pairHits_err : ∀ (es : List (Elem D)) (os : List (Object V)) (p : Panic), pairHits es os = .error p → p = .indexOutOfRange := by
  intro es
  induction es with
  | nil => intro os p h; cases os <;> cases h
  | cons e es ih =>
    intro os p h
    cases os with
    | nil => cases h; rfl
    | cons o os =>
      unfold pairHits at h
      cases hp : pairHits es os with
      | error q => rw [hp] at h; cases h; exact ih os _ hp
      | ok x => rw [hp] at h; cases h

/-- opening a collection with nothing waiting for a flush gives the same searches. -/
theorem reopen_search {S : Prop} {X : UInt64 → Prop} {L : Lib V D} {dim : Nat} {c : Coll} (i : WInv S L dim X c)
    (hb : c.index.wal.batch = []) : ∃ c', c.reopen = .ok c' ∧
      ∀ (o : Object V) embed k, c'.semanticSearch L o embed k = Coll.semanticSearch L { c with closed := false } o embed k := by
  obtain ⟨f, c', _, h1, h2, h3, _⟩ := coll_reopen i hb (fun _ => False)
  refine ⟨c', h1, fun o embed k => ?_⟩
  have s : CSame (reopened c f) c' := ⟨h2, h3.rest, h3.nodes, i.idx.m.good.graph.keysNd⟩
  rw [semanticSearch_same L s]
  rfl

theorem w32_exact {S : Prop} (L : Lib V D) (dim : Nat) (c : Coll) (i : WInv S L dim (fun _ => True) c) (hb : c.index.wal.batch = [])
    (id : UInt64) (p : DeleteCrash) (hl : (Ev.crashDelete id p : Ev V D).Legal L dim c) :
    ∃ c' c2, openColl c.index.cfg c.mappings c.hasEmbedder (c.crashDelete id p) = .ok c' ∧ c.delete L id false false = .ok (c2, none) ∧
      (p = .start → ∀ o embed k, c'.semanticSearch L o embed k = c.semanticSearch L o embed k) ∧
      (p = .flushed → ∀ o embed k, c'.semanticSearch L o embed k = c2.semanticSearch L o embed k) ∧
      (p = .erased → ∀ o embed k, EmbedOK c embed dim [o] →
        (∀ r, c.semanticSearch L o embed k = .ok r → id ∈ r.objects.map Hit.id →
          c'.semanticSearch L o embed k = .error (.panic .indexOutOfRange)) ∧
        (∀ r, c.semanticSearch L o embed k = .ok r → id ∉ r.objects.map Hit.id → c'.semanticSearch L o embed k = .ok r) ∧
        (∀ a, c.semanticSearch L o embed k = .error a → c'.semanticSearch L o embed k = .error a)) := by
  have hl0 := hl
  obtain ⟨hc, ob, ho⟩ := hl
  have ho' := (get_single_some hc).mp ho
  obtain ⟨c2, e2, hd, hres⟩ := delete_res i id false false
  have hdone : c2 = (Coll.flush { c with stores := deleteObject c.stores id, index := c.index.delete id } false).1 ∧ e2 = none := by
    cases hres with
    | closed h => rw [hc] at h; cases h
    | absent h => rw [ho'] at h; cases h
    | failed h1 h2 h3 => contradiction
    | done o hc ho hdf =>
      refine ⟨rfl, ?_⟩
      show (Hnsw.flush (c.index.delete id) false).2 = none
      rw [flush_ok (delete_spec i.idx id)]
  obtain ⟨rfl, rfl⟩ := hdone
  cases p with
  | start =>
    obtain ⟨c', h1, h2⟩ := reopen_search i hb
    refine ⟨c', _, h1, hd, fun _ o embed k => ?_, (fun h => by cases h), (fun h => by cases h)⟩
    rw [h2, ← hc]
  | flushed =>
    obtain ⟨_, _, hap, i1, _⟩ := apply_spec i (Op.delete id false false) trivial
    simp only [Coll.apply, hd, liftPanic, ok_bind] at hap
    cases hap
    obtain ⟨c', h1, hsr⟩ := reopen_search i1 (by
      show (Hnsw.flush (c.index.delete id) false).1.wal.batch = []
      rw [flush_ok (delete_spec i.idx id)])
    have h1' : openColl c.index.cfg c.mappings c.hasEmbedder (c.crashDelete id .flushed) = .ok c' := by
      have : (Coll.flush { c with stores := deleteObject c.stores id, index := c.index.delete id } false).1.index.cfg = c.index.cfg := by
        show (Hnsw.flush (c.index.delete id) false).1.cfg = _
        rw [flush_ok (delete_spec i.idx id)]; rfl
      unfold Coll.reopen at h1
      rw [this] at h1
      exact h1
    refine ⟨_, _, h1', hd, (fun h => by cases h), fun _ o embed k => ?_, (fun h => by cases h)⟩
    have : (Coll.flush { c with stores := deleteObject c.stores id, index := c.index.delete id } false).1.closed = false := hc
    rw [hsr]
    generalize (Coll.flush { c with stores := deleteObject c.stores id, index := c.index.delete id } false).1 = cf at this ⊢
    rw [← this]
  | erased =>
    obtain ⟨c', h1, hsr⟩ := reopen_search (c := { c with stores := deleteObject c.stores id }) (erased_weak i id) hb
    refine ⟨_, _, h1, hd, (fun h => by cases h), (fun h => by cases h), fun _ o embed k he => ?_⟩
    have i0 : WInv S L dim (fun x => True ∨ x = id) { c with stores := deleteObject c.stores id } := erased_weak i id
    have htot : ∀ x, ∃ r, getObject L.json (deleteObject c.stores id) x = .ok r := by
      intro x; obtain ⟨r, hr, _⟩ := getObject_eq i0 x; exact ⟨r, hr⟩
    generalize hrun : c'.semanticSearch L o embed k = out'
    rw [hsr] at hrun
    have hlist : ∀ r, c.semanticSearch L o embed k = .ok r → ∀ o1 es, embedObjectsIfNeeded c embed [o] = .ok (.ok [o1]) →
        c.index.search L.metric (o1.vec.getD []) k = .ok es → r.objects.map Hit.id = es.map Elem.id := by
      intro r hr o1 es h1 h2
      obtain ⟨o2, es2, _, g1, _, _, _, g2, _, g3, _⟩ := coll_search_ok i he hr
      rw [h1] at g1; cases g1
      rw [h2] at g2; cases g2
      exact g3
    have hrun' : out' = (do
        let r ← liftPanic (embedObjectsIfNeeded c embed [o])
        match r with
        | .error e => .error (.error e)
        | .ok [] => .error (.error .io)
        | .ok (o :: _) => do
          let results ← liftPanic (c.index.search L.metric (o.vec.getD []) k)
          let objs ← getObjects L.json (deleteObject c.stores id) (results.map Elem.id)
          let hits ← liftPanic (pairHits results objs)
          .ok { hits := results.length, objects := hits }) := by rw [← hrun]; rfl
    have hrunc : c.semanticSearch L o embed k = (do
        let r ← liftPanic (embedObjectsIfNeeded c embed [o])
        match r with
        | .error e => .error (.error e)
        | .ok [] => .error (.error .io)
        | .ok (o :: _) => do
          let results ← liftPanic (c.index.search L.metric (o.vec.getD []) k)
          let objs ← getObjects L.json c.stores (results.map Elem.id)
          let hits ← liftPanic (pairHits results objs)
          .ok { hits := results.length, objects := hits }) := by
      unfold Coll.semanticSearch; rw [hc]; rfl
    obtain ⟨r0, hem, hdim⟩ := he
    rw [hem] at hrun' hrunc
    simp only [liftPanic, ok_bind] at hrun' hrunc
    cases r0 with
    | error e =>
      have : out' = c.semanticSearch L o embed k := by rw [hrun', hrunc]
      rw [this, hrunc]
      exact ⟨(fun r h => by cases h), (fun r h => by cases h), fun a h => h⟩
    | ok os =>
      have hlen := embed_length hem
      obtain ⟨o1, rfl⟩ : ∃ o1, os = [o1] := by
        match os, hlen with
        | [o1], _ => exact ⟨o1, rfl⟩
      dsimp only at hrun' hrunc
      cases hs : c.index.search L.metric (o1.vec.getD []) k with
      | error q =>
        rw [hs] at hrun' hrunc
        have : out' = c.semanticSearch L o embed k := by rw [hrun', hrunc]; rfl
        rw [this, hrunc]
        exact ⟨(fun r h => by cases h), (fun r h => by cases h), fun a h => h⟩
      | ok es =>
        rw [hs] at hrun' hrunc
        simp only [ok_bind] at hrun' hrunc
        by_cases hm : id ∈ es.map Elem.id
        · obtain ⟨os', g1, _, g3⟩ := getObjects_count (es.map Elem.id) htot
          have hlt := g3 id hm (getObject_delete_self _ _ _)
          rw [List.length_map] at hlt
          have hout : out' = .error (.panic .indexOutOfRange) := by
            rw [hrun', g1, ok_bind, pairHits_short es os' hlt]; rfl
          refine ⟨fun r _ _ => hout, fun r hr hn => ?_, fun a ha => ?_⟩
          · rw [hlist r hr o1 es hem hs] at hn; exact absurd hm hn
          · rw [hout, ← ha, hrunc]
            obtain ⟨os2, q1, _⟩ := getObjects_count (js := L.json) (s := c.stores) (es.map Elem.id) (fun x => by
              obtain ⟨r, hr, _⟩ := getObject_eq i x; exact ⟨r, hr⟩)
            rw [q1, ok_bind] at hrunc ⊢
            cases hp : pairHits es os2 with
            | error q => rw [pairHits_err _ _ _ hp]; rfl
            | ok hs' => rw [hp] at hrunc; rw [hrunc] at ha; cases ha
        · have hcg : getObjects L.json (deleteObject c.stores id) (es.map Elem.id) = getObjects L.json c.stores (es.map Elem.id) :=
            getObjects_congr _ (fun x hx => getObject_delete_ne _ _ _ _ (fun h => hm (h ▸ hx)))
          have hsame : out' = c.semanticSearch L o embed k := by rw [hrun', hrunc, hcg]
          refine ⟨fun r hr hin => ?_, fun r hr _ => by rw [hsame, hr], fun a ha => by rw [hsame, ha]⟩
          rw [hlist r hr o1 es hem hs] at hin; exact absurd hin hm

/-- **C32, exactly.** Let a collection be in any state reached by calls, failing writes, crashes and reopens, with nothing waiting to be
flushed, and let the process stop inside `Delete(id)` of a stored object. The collection can be opened again. If the process stopped
before the object was removed, or after the flush, every search answers on the reopened collection what it would have answered before the
call, or after it, respectively. In between (`.erased`), a search that lists the object before the call panics, and every other search
answers what it answered before the call. -/
theorem C32_exact (L : Lib V D) (dim : Nat) (c : Coll) (hr : ReachAny L dim c) (hb : c.index.wal.batch = [])
    (id : UInt64) (p : DeleteCrash) (hl : (Ev.crashDelete id p : Ev V D).Legal L dim c) :
    ∃ c' c2, openColl c.index.cfg c.mappings c.hasEmbedder (c.crashDelete id p) = .ok c' ∧ c.delete L id false false = .ok (c2, none) ∧
      (p = .start → ∀ o embed k, c'.semanticSearch L o embed k = c.semanticSearch L o embed k) ∧
      (p = .flushed → ∀ o embed k, c'.semanticSearch L o embed k = c2.semanticSearch L o embed k) ∧
      (p = .erased → ∀ o embed k, EmbedOK c embed dim [o] →
        (∀ r, c.semanticSearch L o embed k = .ok r → id ∈ r.objects.map Hit.id →
          c'.semanticSearch L o embed k = .error (.panic .indexOutOfRange)) ∧
        (∀ r, c.semanticSearch L o embed k = .ok r → id ∉ r.objects.map Hit.id → c'.semanticSearch L o embed k = .ok r) ∧
        (∀ a, c.semanticSearch L o embed k = .error a → c'.semanticSearch L o embed k = .error a)) :=
  w32_exact L dim c hr.weak.1 hb id p hl

-- object 2 is listed by a search for 4 and not by one for 7 with `k = 1`
example : ReachAny demoLib 1 (demoState demoCfg c32Ops) ∧ (demoState demoCfg c32Ops).index.wal.batch = [] ∧
    (Ev.crashDelete 2 .erased : Ev UInt8 Nat).Legal demoLib 1 (demoState demoCfg c32Ops) ∧
    (∃ r, (demoState demoCfg c32Ops).semanticSearch demoLib (demoObj 4) noEmbed 2 = .ok r ∧ 2 ∈ r.objects.map Hit.id) ∧
    ∃ r, (demoState demoCfg c32Ops).semanticSearch demoLib (demoObj 7) noEmbed 1 = .ok r ∧ 2 ∉ r.objects.map Hit.id :=
  ⟨(demo_reach _).any, by decide +kernel, ⟨by decide, _, rfl⟩, ⟨_, rfl, by decide +kernel⟩, _, rfl, by decide +kernel⟩

theorem w05_torn_any (L : Lib V D) (dim : Nat) (c : Coll) {S : Prop} (i : WInv S L dim (fun _ => True) c) (dv : DInv S c.index) (hfile : c.counter.file ≠ [])
    (hb : c.counter.count.toNat + 1 < 18446744073709551616) (o : Object V) (level j : Nat) (h0 : 0 < j) (h8 : j < 8) :
    ∃ (f : UInt64) (d : Disk), c.counter.file = putUint64 f ∧ f.toNat ≤ c.counter.count.toNat ∧
      (∀ id x, c.get L [id] = .ok [x] → id.toNat < f.toNat) ∧ c.crashInsert L o level (.counter j) = .ok d ∧
      ((∃ c', openColl c.index.cfg c.mappings c.hasEmbedder d = .ok c') ↔ c.Opens) ∧
      ∀ c', openColl c.index.cfg c.mappings c.hasEmbedder d = .ok c' →
        (f.toNat ≤ c'.counter.count.toNat ↔ f.toNat % 256 ^ j ≤ (c.counter.count.toNat + 1) % 256 ^ j) ∧
        (f.toNat % 256 ^ j ≤ (c.counter.count.toNat + 1) % 256 ^ j → (c.counter.count.toNat + 1) / 256 ^ j = f.toNat / 256 ^ j →
          c'.counter.count.toNat = c.counter.count.toNat + 1) := by
  obtain ⟨f, hf, hids⟩ := i.ids
  have hput : c.counter.file = putUint64 f := by
    rcases hf.1 with ⟨h, _⟩ | h
    · exact absurd h hfile
    · exact h
  have hn0 : newIdCounter c.disk.counterFile = .ok { count := f, file := c.counter.file } := by
    show newIdCounter c.counter.file = _
    rw [hput]
    have := newIdCounter_put f []
    rw [List.append_nil] at this
    exact this
  have hv := torn_value f (c.counter.count + 1) [] j (by omega)
  rw [List.append_nil, ← hput, u64_succ hb] at hv
  have hne : ¬ (tornCounter c.counter.file (c.counter.count + 1) j).length = 0 := by
    intro hl
    rw [List.length_eq_zero_iff.mp hl] at hv
    cases hv
  have hn : newIdCounter (tornCounter c.counter.file (c.counter.count + 1) j) =
      .ok { count := UInt64.ofNat ((c.counter.count.toNat + 1) % 256 ^ j + f.toNat / 256 ^ j * 256 ^ j),
            file := tornCounter c.counter.file (c.counter.count + 1) j } := by
    unfold newIdCounter
    rw [if_neg hne, hv]
  refine ⟨f, _, hput, hf.2, ?_, rfl, ?_, ?_⟩
  · intro id x hx
    refine hids id (Or.inl ?_)
    have hcl : c.closed = false := by
      cases h : c.closed with
      | false => rfl
      | true => unfold Coll.get at hx; rw [h] at hx; cases hx
    obtain ⟨r, hr', hs, _⟩ := getObject_eq i id
    rw [(get_single_some hcl).mp hx] at hr'
    cases hr'
    exact (hs.mp rfl).1
  · constructor
    · rintro ⟨c', h'⟩
      obtain ⟨c0, hc0, _⟩ := (opens_counter (d := c.disk) hn0 hn).1 c' h'
      exact ⟨c0, hc0⟩
    · rintro ⟨c0, hc0⟩
      exact ⟨_, (opens_counter (d := c.disk) hn0 hn).2 c0 hc0⟩
  · intro c' h'
    obtain ⟨c0, hc0, rfl⟩ := (opens_counter (d := c.disk) hn0 hn).1 c' h'
    dsimp only
    have hf2 := hf.2
    have hlt := f.toNat_lt
    have hle : (c.counter.count.toNat + 1) % 256 ^ j + f.toNat / 256 ^ j * 256 ^ j < 18446744073709551616 := by
      have : j = 1 ∨ j = 2 ∨ j = 3 ∨ j = 4 ∨ j = 5 ∨ j = 6 ∨ j = 7 := by omega
      rcases this with rfl | rfl | rfl | rfl | rfl | rfl | rfl <;> omega
    rw [UInt64.toNat_ofNat', Nat.mod_eq_of_lt hle]
    have h1 := Nat.div_add_mod f.toNat (256 ^ j)
    have h2 := Nat.div_add_mod (c.counter.count.toNat + 1) (256 ^ j)
    rw [Nat.mul_comm] at h1 h2
    refine ⟨by omega, fun _ h => ?_⟩
    rw [h] at h2
    omega

/-- **C05, a cut write of the counter in any state.** Let a collection be in any state reached by calls, failing writes, crashes and
reopens, and let the counter file have been written before; it then holds a number `f` above the id of every object. The process stops
inside the counter write of an insert, after `j` of the eight bytes. The collection can be opened again iff it could have been opened
without that insert; and the next id is then not below `f` - so no id is handed out twice - iff the low `j` bytes of the new counter
value are not below those of `f`, that is unless a carry left those bytes. -/
theorem C05_torn_any (L : Lib V D) (dim : Nat) (c : Coll) (hr : ReachAny L dim c) (hfile : c.counter.file ≠ [])
    (hb : c.counter.count.toNat + 1 < 18446744073709551616) (o : Object V) (level j : Nat) (h0 : 0 < j) (h8 : j < 8) :
    ∃ (f : UInt64) (d : Disk), c.counter.file = putUint64 f ∧ f.toNat ≤ c.counter.count.toNat ∧
      (∀ id x, c.get L [id] = .ok [x] → id.toNat < f.toNat) ∧ c.crashInsert L o level (.counter j) = .ok d ∧
      ((∃ c', openColl c.index.cfg c.mappings c.hasEmbedder d = .ok c') ↔ c.Opens) ∧
      ∀ c', openColl c.index.cfg c.mappings c.hasEmbedder d = .ok c' →
        (f.toNat ≤ c'.counter.count.toNat ↔ f.toNat % 256 ^ j ≤ (c.counter.count.toNat + 1) % 256 ^ j) ∧
        (f.toNat % 256 ^ j ≤ (c.counter.count.toNat + 1) % 256 ^ j → (c.counter.count.toNat + 1) / 256 ^ j = f.toNat / 256 ^ j →
          c'.counter.count.toNat = c.counter.count.toNat + 1) :=
  w05_torn_any L dim c hr.weak.1 hr.weak.2 hfile hb o level j h0 h8

/-- a state after one insert. -/
example : ∃ c1 o1, (Coll.new demoCfg ["a"] false).insert demoLib (demoObj 3) noEmbed {} false = .ok (c1, o1, none) ∧
    c1.counter.file ≠ [] ∧ c1.counter.count.toNat + 1 < 18446744073709551616 :=
  ⟨_, _, rfl, by decide, by decide⟩

end Vectory
