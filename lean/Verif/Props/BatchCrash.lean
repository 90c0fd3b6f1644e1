import Verif.Props.Openable
import Verif.Props.ConcReopen
/-! # A crash at any moment of a batch run by several workers: C31 and C53, exactly -/
namespace Vectory.Conc
open Vectory
variable {V D : Type}

/-- reading the vectors fails at the first one that has no vertex, and in no other way. -/
theorem populate_nil {s : Stores} : ∀ (ks : List Bytes) (h : Hnsw), (∀ k ∈ ks, ∃ id vec, k = keyOf id ∧ getVector s id = .ok vec) →
    (∃ id, keyOf id ∈ ks ∧ id ∉ h.nodes.keys) → populateVectors s h ks = .error .nilDeref := by
  intro ks
  induction ks with
  | nil => rintro h _ ⟨id, hid, _⟩; cases hid
  | cons k ks ih =>
    rintro h hk ⟨id, hid, hn⟩
    obtain ⟨x, vec, rfl, hv⟩ := hk k (List.mem_cons_self ..)
    simp only [populateVectors]
    rw [uint64_keyOf, ok_bind, hv, ok_bind]
    cases hx : h.nodes.get? x with
    | none =>
      have : nodeAt h.nodes x = .error .nilDeref := by unfold nodeAt; rw [hx]
      unfold populateOne
      rw [this]; rfl
    | some u =>
      have hxk : x ∈ h.nodes.keys := (AMap.get?_isSome_iff _ _).mp (by rw [hx]; rfl)
      unfold populateOne
      rw [nodeAt_eq_ok.mpr hx, ok_bind, ok_bind]
      refine ih _ (fun k hk' => hk k (List.mem_cons_of_mem _ hk')) ⟨id, ?_, ?_⟩
      · rcases List.mem_cons.mp hid with e | hid
        · exact absurd (keyOf_inj e ▸ hxk) hn
        · exact hid
      · dsimp only
        rw [AMap.keys_set, if_pos hxk]; exact hn

/-- before the flush of a batch: nothing of it is to be seen, or an object of it can be read and the files cannot be opened. -/
theorem batch_unflushed {fixed : Bool} {L : Lib V D} {dim : Nat} {c : Coll} {objs : List (Object V)} {n : Nat} {b : Batch V D}
    {F A B : List (Nat × UInt64)} {X0 X1 X2 : List Nat} {js : List Job} (v : BInv fixed L dim c objs n b F A B X0 X1 X2 js)
    (ok : BatchOK L dim c objs) (i : WInv False L dim (fun _ => True) c) (d : DInv False c.index) (hopen : c.closed = false) :
    (¬ Exposes L c b.c ∧ (b.c.Opens ↔ c.Opens)) ∨ (Exposes L c b.c ∧ b.c.reopen = .error (.panic .nilDeref)) := by
  have hcl : b.c.closed = false := by rw [v.conf.2.2]; exact hopen
  obtain ⟨k1, k2, k3, k4⟩ := v.keys ok
  cases js with
  | nil =>
    left
    have hB : B = [] := by
      have := v.jobs
      simp only [List.map_nil] at this
      exact List.map_eq_nil_iff.mp this.symm
    have hx : b.c.index = c.index := congrArg Mach.h (sched_nil (init_quiet _ _) v.sched)
    have i2 := v.settle ok i (by rw [hx]; exact i.idx) (by rw [hx]; exact grown_refl _)
    refine ⟨not_exposes hopen (fun id => v.keep ok id (by rw [hB]; simp)), ?_⟩
    · unfold Coll.Opens
      rw [reopen_iff i2 (by rw [hx]; exact d), reopen_iff i d, hx]
  | cons j js =>
    right
    have g := sched_grow (init_quiet' _ _) v.sched
    obtain ⟨s, h1, h2, _⟩ := d.ex
    have : (j.id, j.vec) ∈ B.map (fun p => (p.2, vecAt objs p.1)) := by rw [← v.jobs]; simp
    obtain ⟨p, hp, e⟩ := List.mem_map.mp this
    have hf := fresh_key ok.inv (v.dat.lo p (v.dat.subA p (v.dat.subB p hp)))
    obtain ⟨o, text, pr, _, _, _, _, hg⟩ := v.read ok (k := p.1) (id := p.2) hp
    refine ⟨exposes_of hopen hcl hg ?_, ?_⟩
    · unfold getObject
      rw [(AMap.get?_none_iff _ _).mpr hf.1]
    obtain ⟨f0, hf0, _⟩ := i.ids
    obtain ⟨f, ⟨hfile, _⟩, _⟩ := v.dat.ctrOK f0 hf0
    have hctr : newIdCounter b.c.counter.file = .ok { count := f, file := b.c.counter.file } := by
      rcases hfile with ⟨h, rfl⟩ | h
      · rw [h]; rfl
      · rw [h]; have := newIdCounter_put f []; simpa using this
    have hvec : ∀ k ∈ b.c.stores.vectors.keys, ∃ id vec, k = keyOf id ∧ getVector b.c.stores id = .ok vec := by
      obtain ⟨_, l2, _, l4⟩ := v.lookup ok
      intro k hk
      have : ∃ id, k = keyOf id := by
        rw [v.dat.vectors] at hk
        unfold AMap.keys at hk
        rw [List.map_append, List.mem_append] at hk
        rcases hk with hk | hk
        · exact i.vkeys k hk
        · rw [List.map_map] at hk
          obtain ⟨q, _, e⟩ := List.mem_map.mp hk
          exact ⟨q.2, e.symm⟩
      obtain ⟨id, rfl⟩ := this
      by_cases hid : id ∈ B.map Prod.snd
      · obtain ⟨q, hq, rfl⟩ := List.mem_map.mp hid
        refine ⟨q.2, some (vecAt objs q.1), rfl, ?_⟩
        obtain ⟨o', _, ho', _⟩ := v.dat.ser q (v.dat.subB q hq)
        unfold getVector
        rw [l2 q hq]
        dsimp only
        rw [deserialize_serializeVector _ (by rw [vecAt_dim ok ho']; exact i.dim32)]
      · refine ⟨id, vecOf c.index.nodes id, rfl, ?_⟩
        rw [← i.vstore id]
        unfold getVector
        rw [l4 id hid]
    have hdisk : b.c.disk.log = c.index.wal.disk := g.disk
    have hcfg : b.c.index.cfg = c.index.cfg := g.cfg
    have h4 := loadFromWAL_wal (newWal c.index.wal.disk) c.index.wal.disk { cfg := c.index.cfg }
    unfold loadLog at h1
    rw [h1] at h4
    have h4 : loadFromWAL (Hnsw.empty c.index.cfg c.index.wal.disk) c.index.wal.disk = _ := h4
    unfold Coll.reopen openColl
    rw [hdisk, hcfg, h4]
    have hctr : newIdCounter b.c.disk.counterFile = _ := hctr
    rw [hctr]
    simp only [liftErr, Except.map, ok_bind]
    have hpop : populateVectors b.c.disk.stores { s with wal := newWal c.index.wal.disk } b.c.disk.stores.vectors.keys = .error .nilDeref :=
      populate_nil _ _ hvec ⟨p.2, ((v.keys ok).2.1 p.2).mpr (Or.inr (List.mem_map.mpr ⟨p, hp, rfl⟩)), fun hin => hf.2.2 (h2 _ hin)⟩
    rw [hpop]
    rfl

/-- a write of the log that reported an error changed nothing. -/
theorem flush_error {c : Coll} {ff : Bool} (h : (c.flush ff).2 ≠ none) : (c.flush ff).1 = c := by
  have e1 : (c.flush ff).1 = { c with index := { c.index with wal := (c.index.wal.flush ff).1 } } := rfl
  have e2 : (c.flush ff).2 = (c.index.wal.flush ff).2 := rfl
  rw [e2] at h
  rw [e1]
  unfold Wal.flush at h ⊢
  split
  · rfl
  · split
    · rename_i h1 h2
      rw [if_neg h1, if_pos h2] at h
      exact absurd rfl h
    · rfl

theorem flush_nil {c : Coll} {ff : Bool} (h : (c.flush ff).2 = none) : (c.flush ff).1.index.wal.batch = [] := by
  have e1 : (c.flush ff).1.index.wal.batch = (c.index.wal.flush ff).1.batch := rfl
  have e2 : (c.flush ff).2 = (c.index.wal.flush ff).2 := rfl
  rw [e2] at h
  rw [e1]
  unfold Wal.flush at h ⊢
  split
  · rename_i hff; rw [if_pos hff] at h; cases h
  · split
    · rfl
    · rename_i h1 h2
      rw [if_neg h1, if_neg h2] at h; cases h

/-- **C31 and C53 for batches run by several workers, exactly.** Let a collection be in any state reached by calls, failing writes,
crashes, reopens and concurrent batches; `InsertBatch` (or `InsertBatch2`) was called and any tasks made steps in any order (some may
have failed, the context may have been cancelled, the call may have returned an error). The process stops now.
If the call had not returned nil and an object of it was readable, the collection can never be opened again.
If the call had not returned nil and no object of it was readable, the collection can be opened iff it could be before the call.
If the call had returned nil (and the schedule was free of the race of C14), the collection can be opened. -/
theorem C31_batch_concurrent (fixed two : Bool) (L : Lib V D) (dim workers : Nat) (c : Coll) (hr : ReachAnyConc fixed L dim c)
    (os : List (Object V)) (embed : Embed V) (acts : List BAct) (b : Batch V D)
    (h : BatchAt fixed two L dim workers c os embed acts b) :
    (¬ b.returned none → Exposes L c b.c → b.c.reopen = .error (.panic .nilDeref)) ∧
    (¬ b.returned none → ¬ Exposes L c b.c → (b.c.Opens ↔ c.Opens)) ∧
    (b.returned none → NoRace fixed two L dim workers c os embed acts → b.c.Opens) := by
  obtain ⟨i, d⟩ := hr.inv
  obtain ⟨objs, _, hopen, _, _, ok, ⟨F, A, B, X0, X1, X2, js, _, s⟩, _⟩ := h.state i
  have early : ∀ b' : Batch V D, b'.c = b.c → BInv fixed L dim c objs workers b' F A B X0 X1 X2 js →
      (Exposes L c b.c → b.c.reopen = .error (.panic .nilDeref)) ∧ (¬ Exposes L c b.c → (b.c.Opens ↔ c.Opens)) := by
    intro b' hb' v
    rw [← hb']
    rcases batch_unflushed v ok i d hopen with ⟨h1, h2⟩ | ⟨h1, h2⟩
    · exact ⟨fun h => absurd h h1, fun _ => h2⟩
    · exact ⟨fun _ => h2, fun h => absurd h1 h⟩
  rcases s with ⟨v, hret⟩ | ⟨c1, ff, v, hover, _, hc, hret⟩
  · refine ⟨fun _ => (early b rfl v).1, fun _ => (early b rfl v).2, fun hn => ?_⟩
    unfold Batch.returned at hn
    rcases hret with e | ⟨x, e, _⟩ <;> rw [hn] at e <;> cases e
  · have herr : ¬ b.returned none → b.c = c1 := by
      intro hn
      rw [hc]
      apply flush_error
      intro he
      rw [he] at hret
      exact hn hret
    refine ⟨fun hn => (early { b with c := c1 } (herr hn).symm v).1, fun hn => (early { b with c := c1 } (herr hn).symm v).2, fun hn ht => ?_⟩
    obtain ⟨i2, _⟩ := batch_weak i h ht (List.all_eq_true.mp hover)
    have hb : b.c.index.wal.batch = [] := by
      rw [hc]
      apply flush_nil
      unfold Batch.returned at hn
      rw [hret] at hn
      cases he : (c1.flush ff).2 with
      | none => rfl
      | some x => rw [he] at hn; cases hn
    obtain ⟨_, c2, _, h2, _⟩ := coll_reopen i2 hb (fun _ => False)
    exact ⟨c2, h2⟩

theorem reopen_stores {c c' : Coll} (h : c.reopen = .ok c') : c'.stores = c.stores ∧ c'.closed = false := by
  unfold Coll.reopen openColl at h
  obtain ⟨_, _, h⟩ := (bind_ok_iff _ _ _).mp h
  obtain ⟨_, _, h⟩ := (bind_ok_iff _ _ _).mp h
  obtain ⟨_, _, h⟩ := (bind_ok_iff _ _ _).mp h
  cases h
  exact ⟨rfl, rfl⟩

/-- C31 and C53 for batches run by several workers: if the process stops at any moment of the batch and the collection can be opened
again, then every object readable before the call is readable and unchanged, and unless the call had returned nil every id reads exactly
as before the call. -/
theorem C31_batch_concurrent_reads (fixed two : Bool) (L : Lib V D) (dim workers : Nat) (c : Coll) (hr : ReachAnyConc fixed L dim c)
    (os : List (Object V)) (embed : Embed V) (acts : List BAct) (b : Batch V D)
    (h : BatchAt fixed two L dim workers c os embed acts b) (c' : Coll) (hre : b.c.reopen = .ok c') :
    (∀ id x, c.get L [id] = .ok [x] → c'.get L [id] = .ok [x]) ∧ (¬ b.returned none → ∀ id, c'.get L [id] = c.get L [id]) := by
  obtain ⟨i, d⟩ := hr.inv
  obtain ⟨objs, _, hopen, _, _, ok, ⟨F, A, B, X0, X1, X2, js, _, s⟩, _⟩ := h.state i
  obtain ⟨hs, hcl⟩ := reopen_stores hre
  have any : ∀ b' : Batch V D, b'.c.stores = b.c.stores → BInv fixed L dim c objs workers b' F A B X0 X1 X2 js →
      ∀ id x, c.get L [id] = .ok [x] → c'.get L [id] = .ok [x] := by
    intro b' hb' v id x hx
    rw [get_single_some hopen] at hx
    rw [get_single_some hcl, hs, ← hb', v.keep ok id, hx]
    intro hid
    obtain ⟨p, hp, rfl⟩ := List.mem_map.mp hid
    have hf := fresh_key ok.inv (v.dat.lo p (v.dat.subA p (v.dat.subB p hp)))
    unfold getObject at hx
    rw [(AMap.get?_none_iff _ _).mpr hf.1] at hx
    cases hx
  have early : ∀ b' : Batch V D, b'.c = b.c → BInv fixed L dim c objs workers b' F A B X0 X1 X2 js →
      ∀ id, c'.get L [id] = c.get L [id] := by
    intro b' hb' v id
    rw [get_single L c' hcl, get_single L c hopen, hs, ← hb', v.keep ok id]
    rcases batch_unflushed v ok i d hopen with ⟨h1, _⟩ | ⟨_, h2⟩
    · intro hid
      obtain ⟨p, hp, rfl⟩ := List.mem_map.mp hid
      obtain ⟨o, _, _, _, _, _, _, hg⟩ := v.read ok (k := p.1) (id := p.2) hp
      have hf := fresh_key ok.inv (v.dat.lo p (v.dat.subA p (v.dat.subB p hp)))
      refine h1 (exposes_of hopen (by rw [v.conf.2.2]; exact hopen) hg ?_)
      unfold getObject
      rw [(AMap.get?_none_iff _ _).mpr hf.1]
    · rw [hb', hre] at h2; cases h2
  rcases s with ⟨v, _⟩ | ⟨c1, ff, v, _, _, hc, hret⟩
  · exact ⟨any b rfl v, fun _ => early b rfl v⟩
  · refine ⟨any { b with c := c1 } (by rw [hc]; rfl) v, fun hn => early { b with c := c1 } ?_ v⟩
    show c1 = b.c
    rw [hc]
    refine (flush_error ?_).symm
    intro he
    rw [he] at hret
    exact hn hret

theorem new_exposes {ms : List String} {cfg : Cfg} {c : Coll} {id : UInt64}
    (h : (match c.get demoLib [id] with | .ok [_] => true | _ => false) = true) : Exposes demoLib (Coll.new cfg ms false) c := by
  split at h
  · rename_i o ho
    exact ⟨id, o, ho, fun o' h' => by cases h'⟩
  · cases h

-- the interleaved batch of `c14Acts`, stopped half way: one object is readable, the call has not returned
example : ∃ b, ReachAnyConc false demoLib 1 (Coll.new demoCfg ["a"] false) ∧
    BatchAt false false demoLib 1 2 (Coll.new demoCfg ["a"] false) c14Objs noEmbed ((c14Acts false).take 12) b ∧
    ¬ b.returned none ∧ Exposes demoLib (Coll.new demoCfg ["a"] false) b.c ∧ b.c.reopen = .error (.panic .nilDeref) := by
  obtain ⟨b, h, hp⟩ := bleads_sound (cfg := demoCfg) (two := false) (fixed := false) (workers := 2) (os := c14Objs)
    (acts := (c14Acts false).take 12) (P := fun b => decide (b.ret = none) &&
      (match b.c.get demoLib [0] with | .ok [_] => true | _ => false)) (by decide +kernel)
  simp only [Bool.and_eq_true, decide_eq_true_eq] at hp
  have r : ReachAnyConc false demoLib 1 (Coll.new demoCfg ["a"] false) :=
    .new ⟨demoJson_ok, fun a b ha hb => demoDist_ok a b (by omega), by decide, by constructor <;> decide⟩
  have hn : ¬ b.returned none := by unfold Batch.returned; rw [hp.1]; simp
  exact ⟨b, r, h, hn, new_exposes hp.2, (C31_batch_concurrent _ _ _ _ _ _ r _ _ _ _ h).1 hn (new_exposes hp.2)⟩

-- the same batch stopped earlier (two ids taken, two objects written, no vector: nothing is readable), and run to its end
example : ∃ b, ReachAnyConc false demoLib 1 (Coll.new demoCfg ["a"] false) ∧
    BatchAt false false demoLib 1 2 (Coll.new demoCfg ["a"] false) c14Objs noEmbed ((c14Acts false).take 8) b ∧
    ¬ b.returned none ∧ b.c.counter.count = 2 ∧ b.c.Opens := by
  obtain ⟨b, h, hp⟩ := bleads_sound (cfg := demoCfg) (two := false) (fixed := false) (workers := 2) (os := c14Objs)
    (acts := (c14Acts false).take 8) (P := fun b => decide (b.ret = none) && (decide (b.c.counter.count = 2) &&
      (match b.c.reopen with | .ok _ => true | _ => false))) (by decide +kernel)
  simp only [Bool.and_eq_true, decide_eq_true_eq] at hp
  refine ⟨b, .new ⟨demoJson_ok, fun a b ha hb => demoDist_ok a b (by omega), by decide, by constructor <;> decide⟩, h,
    by unfold Batch.returned; rw [hp.1]; simp, hp.2.1, ?_⟩
  have := hp.2.2
  split at this
  · rename_i c0 h0; exact ⟨c0, h0⟩
  · cases this
example : ∃ b, BatchAt false false demoLib 1 2 (Coll.new demoCfg ["a"] false) c14Objs noEmbed (c14Acts false) b ∧ b.returned none ∧
    NoRace false false demoLib 1 2 (Coll.new demoCfg ["a"] false) c14Objs noEmbed (c14Acts false) ∧
    Exposes demoLib (Coll.new demoCfg ["a"] false) b.c := by
  obtain ⟨b, h, hp⟩ := bleads_sound (cfg := demoCfg) (two := false) (fixed := false) (workers := 2) (os := c14Objs)
    (acts := c14Acts false) (P := fun b => decide (b.ret = some none) &&
      (match b.c.get demoLib [0] with | .ok [_] => true | _ => false)) (by decide +kernel)
  simp only [Bool.and_eq_true, decide_eq_true_eq] at hp
  exact ⟨b, h, hp.1, c14_calm, new_exposes hp.2⟩

end Vectory.Conc
