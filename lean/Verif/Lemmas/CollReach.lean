import Verif.Lemmas.CollEnd
import Verif.Lemmas.ConcRace
/-! Collections that also ran concurrent batches. -/
namespace Vectory.Conc
open Vectory
variable {V D : Type}

/-- a batch at some moment, with the invariant. -/
theorem BatchAt.state {fixed two : Bool} {L : Lib V D} {dim workers : Nat} {X : UInt64 → Prop} {c : Coll} {os : List (Object V)} {embed : Embed V}
    {acts : List BAct} {b : Batch V D} (i : WInv False L dim X c) (h : BatchAt fixed two L dim workers c os embed acts b) :
    ∃ objs, prepare c os embed = .ok (.ok objs) ∧ c.closed = false ∧ embedObjectsIfNeeded c embed os = .ok (.ok objs) ∧ 0 < workers ∧
      BatchOK L dim c objs ∧
      BState fixed L dim c objs workers (fun l => ∃ i env, BAct.work i env ∈ acts ∧ env.level = l) b ∧
      (BAct.cancel ∉ acts → b.cancelled = false) := by
  obtain ⟨hw, ⟨r, he, hd⟩, hroom, hl, objs, b0, hp, hs, hr⟩ := h
  have hclosed : c.closed = false := by
    cases hc : c.closed with
    | false => rfl
    | true => unfold prepare at hp; rw [if_pos hc] at hp; cases hp
  have hemb : embedObjectsIfNeeded c embed os = .ok (.ok objs) := by
    unfold prepare at hp
    rw [if_neg (by rw [hclosed]; simp)] at hp
    split at hp
    · cases hp
    · exact hp
  rw [hemb] at he
  cases he
  have ok : BatchOK L dim c objs := ⟨i.weak, hd objs rfl, by rw [embed_length hemb]; exact hroom⟩
  have start : BInv fixed L dim c objs workers b0 [] [] [] [] [] [] [] ∧ b0.ret = none ∧ b0.cancelled = false := by
    cases two with
    | true =>
      simp only [if_true, Option.some.injEq] at hs
      subst hs
      exact ⟨startBatch2_inv, rfl, rfl⟩
    | false =>
      simp only [Bool.false_eq_true, if_false] at hs
      obtain ⟨a, b, _, c⟩ := startBatch_inv hw hs
      exact ⟨a, b, c⟩
  refine ⟨objs, hp, hclosed, hemb, hw, ok, ?_, fun hc => run_cancelled acts b0 b start.2.2 hc hr⟩
  refine BState.run ok acts b0 b ?_ (fun i env hm => ⟨hl i env hm, i, env, hm, rfl⟩) hr
  exact ⟨[], [], [], [], [], [], [], by simp, Or.inl ⟨start.1, Or.inl start.2.1⟩⟩

theorem Low.jobs {fixed : Bool} {workers : Nat} {acts : List BAct} (h : Low fixed workers acts) {js : List Job}
    (hj : ∀ j ∈ js, ∃ i env, BAct.work i env ∈ acts ∧ env.level = j.level) :
    fixed = true ∨ workers = 1 ∨ ∀ j ∈ js, j.level = 0 := by
  rcases h with h | h | h
  · exact Or.inl h
  · exact Or.inr (Or.inl h)
  · refine Or.inr (Or.inr ?_)
    intro j hm
    obtain ⟨i, env, h1, h2⟩ := hj j hm
    rw [← h2]; exact h i env h1

theorem Batch.run_append {fixed : Bool} {L : Lib V D} : ∀ (as bs : List BAct) (b b1 : Batch V D), b.run fixed L as = some b1 →
    b.run fixed L (as ++ bs) = b1.run fixed L bs := by
  intro as
  induction as with
  | nil => intro bs b b1 h; cases h; rfl
  | cons a as ih =>
    intro bs b b1 h
    simp only [List.cons_append, Batch.run] at h ⊢
    cases hs : b.step fixed L a with
    | none => simp only [hs] at h; cases h
    | some b2 => simp only [hs] at h; exact ih bs b2 b1 h

/-- a step that does not lead into the race is a step of the program with the lock. -/
theorem BState.fix {L : Lib V D} {dim workers : Nat} {c : Coll} {objs : List (Object V)} {P : Nat → Prop} {b b' : Batch V D}
    (ok : BatchOK L dim c objs) (s : BState true L dim c objs workers P b) {a : BAct} (h : b.step false L a = some b')
    (hr : ¬ Race ⟨b'.c.index, b'.ts⟩) : b.step true L a = some b' := by
  cases a with
  | cancel => exact h
  | finish ff => exact h
  | giveUp => exact h
  | work i env =>
    simp only [Batch.step] at h ⊢
    unfold Batch.work at h ⊢
    cases ht : b.tasks[i]? with
    | none => rw [ht] at h; cases h
    | some t =>
      rw [ht] at h
      dsimp only at h ⊢
      cases hpc : t.pc <;> rw [hpc] at h <;> try exact h
      dsimp only at h ⊢
      obtain ⟨F, A, B, X0, X1, X2, js, _, s⟩ := s
      rcases s with ⟨v, _⟩ | ⟨c1, ff, v, hover, _⟩
      · obtain ⟨_, an, mi⟩ := tame_sched ok.inv v.sched (Or.inl rfl)
        split at h
        · cases h
        · rename_i m hm
          split at h
          · cases h
          · rename_i th hth
            cases h
            have := calm_fixed (m := ⟨b.c.index, b.ts⟩) mi hm hr
            rw [this]
            dsimp only
            rw [hth]
      · have := List.all_eq_true.mp hover t (List.mem_of_getElem? ht)
        rw [hpc] at this; cases this

/-- a batch that never passes through the race is a batch of the program with the lock. -/
theorem NoRace.fix {fixed two : Bool} {L : Lib V D} {dim workers : Nat} {X : UInt64 → Prop} {c : Coll} {os : List (Object V)}
    {embed : Embed V} {acts : List BAct} {b : Batch V D} (hn : NoRace fixed two L dim workers c os embed acts) (i : WInv False L dim X c)
    (h : BatchAt fixed two L dim workers c os embed acts b) : BatchAt true two L dim workers c os embed acts b := by
  cases fixed with
  | true => exact h
  | false =>
    have main : ∀ (as pre : List BAct) (b1 b2 : Batch V D), BatchAt false two L dim workers c os embed pre b1 →
        BatchAt true two L dim workers c os embed pre b1 → b1.run false L as = some b2 →
        (∀ i env, BAct.work i env ∈ as → env.level < 4294967296) →
        (∀ p b, p <+: pre ++ as → BatchAt false two L dim workers c os embed p b → ¬ Race ⟨b.c.index, b.ts⟩) →
        BatchAt true two L dim workers c os embed (pre ++ as) b2 := by
      intro as
      induction as with
      | nil => intro pre b1 b2 _ ht h2 _ _; cases h2; rw [List.append_nil]; exact ht
      | cons a as ih =>
        intro pre b1 b2 hf ht h2 hl hno
        simp only [Batch.run] at h2
        cases hs : b1.step false L a with
        | none => rw [hs] at h2; cases h2
        | some b3 =>
          rw [hs] at h2
          have ext : ∀ fx, b1.step fx L a = some b3 → BatchAt fx two L dim workers c os embed pre b1 →
              BatchAt fx two L dim workers c os embed (pre ++ [a]) b3 := by
            intro fx hfx hb
            obtain ⟨h1, h2, h3, h4, objs, b0, h5, h6, h7⟩ := hb
            refine ⟨h1, h2, h3, ?_, objs, b0, h5, h6, ?_⟩
            · intro i env hm
              rcases List.mem_append.mp hm with hm | hm
              · exact h4 i env hm
              · exact hl i env (by rw [List.mem_singleton.mp hm]; exact List.mem_cons_self)
            · rw [Batch.run_append _ _ _ _ h7]
              simp only [Batch.run, hfx]
          have hf3 := ext false hs hf
          have hr : ¬ Race ⟨b3.c.index, b3.ts⟩ := hno (pre ++ [a]) b3 ⟨as, by simp⟩ hf3
          obtain ⟨objs, _, _, _, _, ok, st, _⟩ := ht.state i
          have hs3 := st.fix ok hs hr
          have := ih (pre ++ [a]) b3 b2 hf3 (ext true hs3 ht) h2 (fun i env hm => hl i env (List.mem_cons_of_mem _ hm))
            (by rw [List.append_assoc]; exact hno)
          rw [List.append_assoc] at this
          exact this
    obtain ⟨h1, h2, h3, h4, objs, b0, h5, h6, h7⟩ := h
    have start : ∀ fx, BatchAt fx two L dim workers c os embed [] b0 :=
      fun fx => ⟨h1, h2, h3, (fun _ _ hm => nomatch hm), objs, b0, h5, h6, rfl⟩
    exact main acts [] b0 b (start false) (start true) h7 h4 hn

/-- with the lock, with one worker or on the ground layer there is no race. -/
theorem Low.noRace {fixed two : Bool} {L : Lib V D} {dim workers : Nat} {X : UInt64 → Prop} {c : Coll} {os : List (Object V)}
    {embed : Embed V} {acts : List BAct} (ht : Low fixed workers acts) (i : WInv False L dim X c) :
    NoRace fixed two L dim workers c os embed acts := by
  intro pre b hp h
  have htp : Low fixed workers pre := by
    rcases ht with h | h | h
    · exact Or.inl h
    · exact Or.inr (Or.inl h)
    · exact Or.inr (Or.inr fun i env hm => h i env (hp.subset hm))
  obtain ⟨objs, _, _, _, _, ok, ⟨F, A, B, X0, X1, X2, js, hj, st⟩, _⟩ := h.state i
  rcases st with ⟨v, _⟩ | ⟨c1, ff, v, _⟩
  · obtain ⟨_, an, mi⟩ := tame_sched ok.inv v.sched (htp.jobs hj)
    exact inv_no_race (m := ⟨b.c.index, b.ts⟩) mi
  · obtain ⟨_, an, mi⟩ := tame_sched ok.inv v.sched (htp.jobs hj)
    exact inv_no_race (m := ⟨c1.index, b.ts⟩) mi

section
variable {fixed : Bool} {L : Lib V D} {dim : Nat} {c0 : Coll} {objs0 : List (Object V)} {n : Nat} {b : Batch V D}
  {F A B : List (Nat × UInt64)} {X0 X1 X2 : List Nat} {js : List Job}

theorem flush_nodes (c : Coll) (ff : Bool) : (c.flush ff).1.stores = c.stores ∧ (c.flush ff).1.counter = c.counter ∧
    (c.flush ff).1.index.nodes = c.index.nodes ∧ (c.flush ff).1.closed = c.closed ∧ (c.flush ff).1.mappings = c.mappings ∧
    (c.flush ff).1.hasEmbedder = c.hasEmbedder := ⟨rfl, rfl, rfl, rfl, rfl, rfl⟩

/-- the tasks of a batch without the race have ended. -/
theorem BInv.settled (v : BInv fixed L dim c0 objs0 n b F A B X0 X1 X2 js) (ok : BatchOK L dim c0 objs0) {X : UInt64 → Prop}
    (i0 : WInv False L dim X c0) (ht : fixed = true ∨ n = 1 ∨ ∀ j ∈ js, j.level = 0) (hover : ∀ t ∈ b.tasks, t.pc.over = true) :
    WInv False L dim X b.c ∧ (DInv False c0.index → DInv False b.c.index) := by
  have hq := v.quiet hover (v.calm ok ht)
  obtain ⟨hs, an, mi⟩ := tame_sched ok.inv v.sched ht
  have g := sched_grown (init_quiet' _ _) hs hq
  exact ⟨v.settle ok i0 (mi.settled hq) g, fun d0 => v.settleD ok d0 g⟩

end

theorem batch_weak {fixed two : Bool} {L : Lib V D} {dim workers : Nat} {X : UInt64 → Prop} {c : Coll} {os : List (Object V)}
    {embed : Embed V} {acts : List BAct} {b : Batch V D} (i : WInv False L dim X c)
    (h : BatchAt fixed two L dim workers c os embed acts b) (ht : NoRace fixed two L dim workers c os embed acts) (hover : ∀ t ∈ b.tasks, t.pc.over = true) :
    WInv False L dim X b.c ∧ (DInv False c.index → DInv False b.c.index) := by
  obtain ⟨objs, _, _, _, _, ok, ⟨F, A, B, X0, X1, X2, js, hj, s⟩, _⟩ := (NoRace.fix ht i h).state i
  have hjs : true = true ∨ workers = 1 ∨ ∀ j ∈ js, j.level = 0 := Or.inl rfl
  rcases s with ⟨v, _⟩ | ⟨c1, ff, v, _, _, hc, _⟩
  · exact v.settled ok i hjs hover
  · obtain ⟨a, d⟩ := v.settled ok i hjs hover
    rw [hc]
    dsimp only at a d
    refine ⟨?_, fun h => DInv.coll_flush a (d h) ff⟩
    have h1 : (c1.flush ff).1 = { c1 with index := { c1.index with wal := (c1.index.wal.flush ff).1 } } := rfl
    have h2 := flush_spec a.idx ff
    rw [h1]
    exact ⟨a.json, a.dimM, a.dim32, h2, a.cfg, a.vecs, a.ond, a.vnd, a.vkeys, a.okeys, a.vstore, a.dec, a.ids, a.del, a.live⟩

theorem ReachConc.inv {fixed : Bool} {L : Lib V D} {dim : Nat} {c : Coll} (h : ReachConc fixed L dim c) :
    WInv False L dim (fun _ => False) c := by
  induction h with
  | new hs => exact new_inv L dim _ _ _ hs.json hs.metric hs.dim32 hs.cfg
  | call _ hl ha ih =>
    obtain ⟨c2, out, h2, i2, _⟩ := apply_spec ih _ hl
    rw [ha] at h2; cases h2
    exact i2
  | batch _ hb ht _ hover ih => exact (batch_weak ih hb ht hover).1

/-- every key read when the collection is opened is in the loaded index. -/
theorem populate_keys {s : Stores} : ∀ (ks : List Bytes) (h h' : Hnsw), populateVectors s h ks = .ok h' →
    ∀ id, keyOf id ∈ ks → id ∈ h.nodes.keys := by
  intro ks
  induction ks with
  | nil => intro h h' _ id hid; cases hid
  | cons k ks ih =>
    intro h h' hp id hid
    simp only [populateVectors] at hp
    obtain ⟨x, hx, hp⟩ := (bind_ok_iff _ _ _).mp hp
    obtain ⟨w, hw, hp⟩ := (bind_ok_iff _ _ _).mp hp
    obtain ⟨h1, hh, hp⟩ := (bind_ok_iff _ _ _).mp hp
    unfold populateOne at hh
    obtain ⟨u, hu, hh⟩ := (bind_ok_iff _ _ _).mp hh
    cases hh
    have hu2 := nodeAt_eq_ok.mp hu
    have hxk : x ∈ h.nodes.keys := (AMap.get?_isSome_iff _ _).mp (by rw [hu2]; rfl)
    rcases List.mem_cons.mp hid with e | hid
    · rw [← e, uint64_keyOf] at hx
      cases hx; exact hxk
    · have := ih _ _ hp id hid
      dsimp only at this
      rw [AMap.keys_set, if_pos hxk] at this
      exact this

theorem grown_refl (h : Hnsw) : Grown h [] h :=
  ⟨rfl, rfl, rfl, fun _ v hv => ⟨v, hv, rfl, rfl⟩, by simp, fun _ hx => Or.inl hx⟩

theorem liftPanic_eq_ok {A : Type} {r : Except Panic A} {a : A} (h : liftPanic r = .ok a) : r = .ok a := by
  cases r with
  | error p => cases h
  | ok x => cases h; rfl

/-- a collection cannot be opened when the process stopped while objects of a batch were in the index but not in its log. -/
theorem crash_inside {fixed : Bool} {L : Lib V D} {dim workers : Nat} {c c' : Coll} {objs : List (Object V)} {b : Batch V D}
    {F A B : List (Nat × UInt64)} {X0 X1 X2 : List Nat} {j : Job} {js : List Job} (d : DInv False c.index)
    (v : BInv fixed L dim c objs workers b F A B X0 X1 X2 (j :: js)) (ok : BatchOK L dim c objs) (hr : b.c.reopen = .ok c') : False := by
  have g := sched_grow (init_quiet' _ _) v.sched
  obtain ⟨s, h1, h2, _⟩ := d.ex
  have : (j.id, j.vec) ∈ B.map (fun p => (p.2, vecAt objs p.1)) := by rw [← v.jobs]; simp
  obtain ⟨p, hp, e⟩ := List.mem_map.mp this
  have hk : keyOf p.2 ∈ b.c.stores.vectors.keys := ((v.keys ok).2.1 p.2).mpr (Or.inr (List.mem_map.mpr ⟨p, hp, rfl⟩))
  have hf := fresh_key ok.inv (v.dat.lo p (v.dat.subA p (v.dat.subB p hp)))
  unfold Coll.reopen openColl at hr
  obtain ⟨ctr, _, hr⟩ := (bind_ok_iff _ _ _).mp hr
  obtain ⟨hh, hload, hr⟩ := (bind_ok_iff _ _ _).mp hr
  obtain ⟨hp2, hpop, _⟩ := (bind_ok_iff _ _ _).mp hr
  have hpop := liftPanic_eq_ok hpop
  have hin := populate_keys _ _ _ hpop p.2 hk
  have hdisk : b.c.disk.log = c.index.wal.disk := g.disk
  have hcfg : b.c.index.cfg = c.index.cfg := g.cfg
  rw [hdisk, hcfg] at hload
  have h4 := loadFromWAL_wal (newWal c.index.wal.disk) c.index.wal.disk { cfg := c.index.cfg }
  unfold loadLog at h1
  rw [h1] at h4
  have h4 : loadFromWAL (Hnsw.empty c.index.cfg c.index.wal.disk) c.index.wal.disk = _ := h4
  rw [h4] at hload
  cases hload
  exact hf.2.2 (h2 _ hin)

theorem crash_weak {fixed two : Bool} {L : Lib V D} {dim workers : Nat} {c c' : Coll} {os : List (Object V)}
    {embed : Embed V} {acts : List BAct} {b : Batch V D} (i : WInv False L dim (fun _ => True) c) (d : DInv False c.index)
    (h : BatchAt fixed two L dim workers c os embed acts b) (ht : NoRace fixed two L dim workers c os embed acts) (hr : b.c.reopen = .ok c') :
    WInv False L dim (fun _ => True) c' ∧ DInv False c'.index := by
  have opened : ∀ c2 : Coll, WInv False L dim (fun _ => True) c2 → DInv False c2.index → c2.reopen = .ok c' →
      WInv False L dim (fun _ => True) c' ∧ DInv False c'.index := by
    intro c2 i2 d2 hr2
    rcases reopen_any i2 d2 with ⟨c3, h1, h2, h3, _⟩ | ⟨h1, _⟩
    · rw [hr2] at h1; cases h1; exact ⟨h2, h3⟩
    · rw [hr2] at h1; cases h1
  obtain ⟨objs, _, _, _, _, ok, st, _⟩ := h.state i
  obtain ⟨F, A, B, X0, X1, X2, js, hj, s⟩ := st
  rcases s with ⟨v, _⟩ | ⟨c1, ff, v, hover, _, hc, _⟩
  · cases js with
    | nil =>
      have : b.c.index = c.index := congrArg Mach.h (sched_nil (init_quiet _ _) v.sched)
      have i2 := v.settle ok i (by rw [this]; exact i.idx) (by rw [this]; exact grown_refl _)
      exact opened _ i2 (by rw [this]; exact d) hr
    | cons j js => exact (crash_inside d v ok hr).elim
  · have hover' : ∀ t ∈ b.tasks, t.pc.over = true := List.all_eq_true.mp hover
    obtain ⟨a, d2⟩ := batch_weak i h ht hover'
    exact opened _ a (d2 d) hr

theorem ReachAnyConc.inv {fixed : Bool} {L : Lib V D} {dim : Nat} {c : Coll} (h : ReachAnyConc fixed L dim c) :
    WInv False L dim (fun _ => True) c ∧ DInv False c.index := by
  induction h with
  | @new cfg ms he hs =>
    have i := new_inv (S := False) (X := fun _ => True) L dim cfg ms he hs.json hs.metric hs.dim32 hs.cfg
    exact ⟨i, DInv.synced i.idx rfl⟩
  | event _ hl hs ih => exact step_weak ih.1 ih.2 hl hs
  | batch _ hb ht _ hover ih => exact ⟨(batch_weak ih.1 hb ht hover).1, (batch_weak ih.1 hb ht hover).2 ih.2⟩
  | crash _ hb ht hr ih => exact crash_weak ih.1 ih.2 hb ht hr

/-- `ReachAnyConc` extends `ReachAny`. -/
theorem ReachAny.conc {fixed : Bool} {L : Lib V D} {dim : Nat} {c : Coll} (h : ReachAny L dim c) : ReachAnyConc fixed L dim c := by
  obtain ⟨cfg, ms, he, hist, hs, hr⟩ := h
  have key : ∀ (c0 c : Coll) (hist : List (Ev V D)), EventRuns L dim c0 hist c → ReachAnyConc fixed L dim c0 → ReachAnyConc fixed L dim c := by
    intro c0 c hist r
    induction r with
    | nil => exact fun h => h
    | cons hl hs _ ih => exact fun h => ih (.event h hl hs)
  exact key _ _ _ hr (.new hs)

/-! ### Success -/

theorem allStored_of {fixed two : Bool} {L : Lib V D} {dim workers : Nat} {X : UInt64 → Prop} {c : Coll} {os : List (Object V)}
    {embed : Embed V} {acts : List BAct} {b : Batch V D} (i : WInv False L dim X c)
    (h : BatchAt fixed two L dim workers c os embed acts b) (hc : b.cancelled = false) (hp : b.noPanic) (hret : b.returned none) :
    AllStored L c os b.c b.objs := by
  obtain ⟨objs, _, hopen, hemb, hw, ok, st, _⟩ := h.state i
  obtain ⟨F, A, B, X0, X1, X2, js, hj, s⟩ := st
  unfold Batch.returned at hret
  rcases s with ⟨v, hr⟩ | ⟨c1, ff, v, hover, herr, hcf, hr⟩
  · exfalso
    rcases hr with hr | ⟨e, hr, _⟩ <;> rw [hret] at hr <;> cases hr
  have hover' : ∀ t ∈ b.tasks, t.pc.over = true := List.all_eq_true.mp hover
  have hno : ¬ (X0 ≠ [] ∨ X1 ≠ [] ∨ X2 ≠ [] ∨ ∃ t ∈ b.tasks, ∃ e, t.pc = .failed e) := fun h => v.errs h herr
  have hdone : ∀ t ∈ b.tasks, t.pc = .done := by
    intro t htm
    have h1 := hover' t htm
    have h2 := hp t htm
    have h3 : t.pc ≠ .skipped := by
      intro e
      rcases v.skip ⟨t, htm, e⟩ with h | h
      · exact h herr
      · rw [show ({ b with c := c1 } : Batch V D).cancelled = b.cancelled from rfl, hc] at h; cases h
    have h4 : ∀ e, t.pc ≠ .failed e := fun e he => hno (Or.inr (Or.inr (Or.inr ⟨t, htm, e, he⟩)))
    revert h1 h2 h3 h4
    cases t.pc <;> intro h1 h2 h3 h4 <;>
      first | rfl | (cases h1; done) | exact absurd rfl h2 | exact absurd rfl h3 | exact absurd rfl (h4 _)
  have hX : X0 = [] ∧ X1 = [] ∧ X2 = [] :=
    ⟨Classical.byContradiction fun e => hno (Or.inl e), Classical.byContradiction fun e => hno (Or.inr (Or.inl e)),
      Classical.byContradiction fun e => hno (Or.inr (Or.inr (Or.inl e)))⟩
  have hall := v.complete hw hdone hX
  have hq := v.quiet hover' hp
  have g := sched_grown (init_quiet' _ _) v.sched hq
  have hst : b.c.stores = c1.stores := by rw [hcf]; rfl
  have hcl : b.c.closed = false := by
    have := v.conf.2.2
    rw [hcf]; show c1.closed = false
    rw [← hopen]; exact this
  have hlen : b.objs.length = objs.length := v.lenO
  have hlo : objs.length = os.length := embed_length hemb
  have hmem : ∀ (k : Nat) (o : Object V), b.objs[k]? = some o → (k, o.id) ∈ B := by
    intro k o ho
    have hk : k < objs.length := by rw [← hlen]; exact (List.getElem?_eq_some_iff.mp ho).1
    obtain ⟨id, hid⟩ := hall k hk
    obtain ⟨o', ho', e⟩ := v.dat.ids _ (v.dat.subA _ (v.dat.subB _ hid))
    dsimp only at ho' e
    rw [ho] at ho'; cases ho'
    rw [e]; exact hid
  obtain ⟨nF, nA, nB⟩ := v.nodups
  have perm : ∀ l : List (Nat × UInt64), (l.map Prod.fst).Nodup → (∀ p ∈ l, p.1 < objs.length) → (∀ k, k < objs.length → ∃ id, (k, id) ∈ l) →
      l.length = objs.length := by
    intro l h1 h2 h3
    apply Nat.le_antisymm
    · have := nodup_length_le (l₂ := List.range objs.length) h1 (by
        intro x hx
        obtain ⟨p, hp, rfl⟩ := List.mem_map.mp hx
        exact List.mem_range.mpr (h2 p hp))
      simpa using this
    · have := nodup_length_le (l₁ := List.range objs.length) (l₂ := l.map Prod.fst) List.nodup_range (by
        intro x hx
        obtain ⟨id, hid⟩ := h3 x (List.mem_range.mp hx)
        exact List.mem_map.mpr ⟨_, hid, rfl⟩)
      simpa using this
  have ltF : ∀ p ∈ F, p.1 < objs.length := by
    intro p hp
    obtain ⟨o, ho, _⟩ := v.dat.ids p hp
    rw [← hlen]; exact (List.getElem?_eq_some_iff.mp ho).1
  have lenF := perm F nF ltF (fun k hk => (hall k hk).imp fun id h => v.dat.subA _ (v.dat.subB _ h))
  have lenA := perm A nA (fun p hp => ltF p (v.dat.subA p hp)) (fun k hk => (hall k hk).imp fun id h => v.dat.subB _ h)
  refine ⟨by rw [hlen, hlo], ?_, ?_, ?_, ?_, ?_, ?_⟩
  · intro k o o' ho ho'
    obtain ⟨_, o1, h1, h2, h3⟩ := v.dat.at ho' (List.mem_map.mpr ⟨_, v.dat.subA _ (v.dat.subB _ (hmem k o' ho')), rfl⟩)
    obtain ⟨e1, _, e3⟩ := embed_keep hemb k o o1 ho h1
    exact ⟨h2.trans e1, fun w hw => by rw [h3]; exact e3 w hw⟩
  · have hFids := v.dat.exact hX.1
    rw [lenF, hlo] at hFids
    rw [← hFids]
    have h1 : b.objs.map (fun o => o.id.toNat) = (List.range b.objs.length).map (fun k => ((b.objs[k]?).map (fun o : Object V => o.id.toNat)).getD 0) := by
      apply List.ext_getElem?
      intro k
      by_cases hk : k < b.objs.length
      · simp [List.getElem?_range hk, List.getElem?_eq_getElem hk]
      · rw [List.getElem?_eq_none (by simpa using Nat.le_of_not_lt hk), List.getElem?_eq_none (by simpa using Nat.le_of_not_lt hk)]
    have h2 : F.map (fun p => p.2.toNat) = (F.map Prod.fst).map (fun k => ((b.objs[k]?).map (fun o : Object V => o.id.toNat)).getD 0) := by
      rw [List.map_map]
      apply List.map_congr_left
      intro p hp
      obtain ⟨o, ho, e⟩ := v.dat.ids p hp
      show _ = ((b.objs[p.1]?).map (fun o : Object V => o.id.toNat)).getD 0
      have ho : b.objs[p.1]? = some o := ho
      rw [ho, ← e]; rfl
    rw [h1, h2]
    apply List.Perm.map
    rw [List.perm_iff_count]
    intro k
    by_cases hk : k < b.objs.length
    · have c1 : (List.range b.objs.length).count k = 1 := by
        have := List.count_pos_iff.mpr (List.mem_range.mpr hk)
        have := count_range_le b.objs.length k
        omega
      obtain ⟨id, hid⟩ := hall k (by rw [← hlen]; exact hk)
      have c2 : 0 < (F.map Prod.fst).count k := List.count_pos_iff.mpr (List.mem_map.mpr ⟨_, v.dat.subA _ (v.dat.subB _ hid), rfl⟩)
      have c3 := List.nodup_iff_count.mp nF k
      omega
    · rw [List.count_eq_zero.mpr (fun h => hk (List.mem_range.mp h)), List.count_eq_zero.mpr]
      intro h
      obtain ⟨p, hp, rfl⟩ := List.mem_map.mp h
      exact hk (by rw [hlen]; exact ltF p hp)
  · intro o ho
    obtain ⟨k, hk⟩ := List.getElem?_of_mem ho
    obtain ⟨o', text, p, h1, h2, h3, h4, h5⟩ := v.read ok (hmem k o hk)
    have h1 : b.objs[k]? = some o' := h1
    rw [hk] at h1; cases h1
    refine ⟨text, p, h3, h4, (get_single_some hcl).mpr ?_⟩
    rw [hst]; exact h5
  · unfold Coll.getSize
    rw [hcl, hopen]
    show Except.ok b.c.stores.size = Except.ok (c.stores.size + os.length)
    unfold Stores.size
    rw [hst, v.dat.objects, List.length_append, List.length_map, lenA, hlo]
  · intro id hid
    rw [get_single L _ hcl, get_single L _ hopen]
    have hB : id ∉ B.map Prod.snd := by
      intro hm
      obtain ⟨p, hp, rfl⟩ := List.mem_map.mp hm
      obtain ⟨o, ho, e⟩ := v.dat.ids p (v.dat.subA p (v.dat.subB p hp))
      exact hid o (List.mem_of_getElem? ho) e
    have := v.keep ok id hB
    rw [hst]
    dsimp only at this
    rw [this]
  · intro o ho
    obtain ⟨k, hk⟩ := List.getElem?_of_mem ho
    have hB := hmem k o hk
    have h1 : (o.id, vecAt objs k) ∈ js.map (fun j => (j.id, j.vec)) := by rw [v.jobs]; exact List.mem_map.mpr ⟨_, hB, rfl⟩
    obtain ⟨j, hjm, e⟩ := List.mem_map.mp h1
    simp only [Prod.mk.injEq] at e
    obtain ⟨w, hw, hv⟩ := g.new j hjm
    refine ⟨w, ?_, ?_⟩
    · rw [hcf]; show c1.index.nodes.get? o.id = some w
      rw [← e.1]; exact hw
    · rw [hv, e.2]
      obtain ⟨_, o1, h1, _, h3⟩ := v.dat.at hk (List.mem_map.mpr ⟨_, v.dat.subA _ (v.dat.subB _ hB), rfl⟩)
      unfold vecAt
      rw [h1, h3]

theorem allStored {fixed two : Bool} {L : Lib V D} {dim workers : Nat} {X : UInt64 → Prop} {c : Coll} {os : List (Object V)}
    {embed : Embed V} {acts : List BAct} {b : Batch V D} (i : WInv False L dim X c)
    (h : BatchAt fixed two L dim workers c os embed acts b) (hcan : BAct.cancel ∉ acts) (hp : b.noPanic) (hret : b.returned none) :
    AllStored L c os b.c b.objs := by
  obtain ⟨_, _, _, _, _, _, _, hc⟩ := h.state i
  exact allStored_of i h (hc hcan) hp hret

end Vectory.Conc
