import Verif.Lemmas.SimMap
import Verif.Props.ConcHistory
/-!
# Closing and opening again after batches run by several workers (C29, C34)

The log of a concurrent batch lists the vertices in the order in which the workers reached it, so the reopened index holds the same map
in another order; nothing a client can do shows the difference.
-/
namespace Vectory.Conc
open Vectory
variable {V D : Type}

theorem overwrite_sync {c : IdCounter} (h : CounterOK c c.count) :
    overwrite c.file (putUint64 (c.count + 1)) = putUint64 (c.count + 1) := by
  unfold overwrite
  rcases h.1 with ⟨h, _⟩ | h
  · rw [h]; simp
  · rw [h]
    have : ∀ x y : UInt64, (putUint64 x).drop (putUint64 y).length = [] := by intro x y; rfl
    rw [this]; simp

/-- as long as no task has reported an error, the counter file says what the counter says. -/
theorem work_counter {fixed : Bool} {L : Lib V D} {b b' : Batch V D} {i : Nat} {env : InsEnv} (h : b.work fixed L i env = some b')
    (s : b.err = none → CounterOK b.c.counter b.c.counter.count) :
    (b'.err = none → CounterOK b'.c.counter b'.c.counter.count) ∧ b'.c.counter.closed = b.c.counter.closed := by
  have skip : ∀ b1 : Batch V D, b1.c.counter = b.c.counter → (b1.err = none → b.err = none) →
      (b1.err = none → CounterOK b1.c.counter b1.c.counter.count) ∧ b1.c.counter.closed = b.c.counter.closed :=
    fun b1 e1 e2 => ⟨fun he => by rw [e1]; exact s (e2 he), by rw [e1]⟩
  have nofail : ∀ (b1 : Batch V D) (t : Task) (e : Err), (b1.fail i t e).err ≠ none := by
    intro b1 t e; unfold Batch.fail; cases b1.err <;> simp [Option.orElse]
  unfold Batch.work at h
  split at h
  · cases h
  · split at h
    · split at h <;> cases h <;> exact skip _ rfl id
    · split at h
      · cases h; exact skip _ rfl id
      · split at h <;> cases h <;> exact skip _ rfl id
    · unfold fetchAndInc at h
      dsimp only at h
      split at h
      · rename_i ctr e hf
        cases h
        split at hf
        · cases hf
          exact ⟨fun he => absurd he (nofail _ _ _), rfl⟩
        · cases hf
      · rename_i ctr id' hf
        cases h
        split at hf
        · cases hf
        · cases hf
          exact ⟨fun he => ⟨Or.inr (overwrite_sync (s he)), Nat.le_refl _⟩, rfl⟩
    · split at h
      · cases h
      · split at h
        · cases h; exact ⟨fun he => absurd he (nofail _ _ _), rfl⟩
        · split at h
          · cases h; exact ⟨fun he => absurd he (nofail _ _ _), rfl⟩
          · cases h; exact skip _ rfl id
    · split at h
      · cases h
      · split at h
        · cases h; exact ⟨fun he => absurd he (nofail _ _ _), rfl⟩
        · cases h; exact skip _ rfl id
    · split at h
      · cases h
      · split at h
        · cases h
        · cases h; exact skip _ rfl id
    all_goals cases h

theorem run_counter {fixed : Bool} {L : Lib V D} : ∀ (acts : List BAct) (b b' : Batch V D), b.run fixed L acts = some b' →
    (b.err = none → CounterOK b.c.counter b.c.counter.count) →
    (b'.err = none → CounterOK b'.c.counter b'.c.counter.count) ∧ b'.c.counter.closed = b.c.counter.closed := by
  intro acts
  induction acts with
  | nil => intro b b' h s; cases h; exact ⟨s, rfl⟩
  | cons a as ih =>
    intro b b' h s
    simp only [Batch.run] at h
    cases hs : b.step fixed L a with
    | none => simp only [hs] at h; cases h
    | some b1 =>
      simp only [hs] at h
      have h1 : (b1.err = none → CounterOK b1.c.counter b1.c.counter.count) ∧ b1.c.counter.closed = b.c.counter.closed := by
        cases a with
        | work i env => exact work_counter hs s
        | cancel => cases hs; exact ⟨s, rfl⟩
        | finish ff =>
          simp only [Batch.step] at hs
          split at hs
          · split at hs
            · cases hs; exact ⟨s, rfl⟩
            · cases hs; exact ⟨s, rfl⟩
          · cases hs
        | giveUp =>
          simp only [Batch.step] at hs
          split at hs
          · cases hs; exact ⟨fun he => (nomatch he), rfl⟩
          · cases hs
      obtain ⟨g1, g2⟩ := ih b1 b' h h1.1
      exact ⟨g1, g2.trans h1.2⟩

/-- a batch that returned nil: all its tasks have ended, and nothing is left in memory that is not on disk. -/
theorem batch_synced {fixed two : Bool} {L : Lib V D} {dim workers : Nat} {X : UInt64 → Prop} {c : Coll} {os : List (Object V)}
    {embed : Embed V} {acts : List BAct} {b : Batch V D} (i : WInv False L dim X c)
    (h : BatchAt fixed two L dim workers c os embed acts b) (ht : NoRace fixed two L dim workers c os embed acts) (s : Synced c)
    (hret : b.returned none) : (∀ t ∈ b.tasks, t.pc.over = true) ∧ Synced b.c := by
  have hcnt : b.err = none → CounterOK b.c.counter b.c.counter.count ∧ b.c.counter.closed = c.counter.closed := by
    obtain ⟨_, _, _, _, objs, b0, _, hs, hr⟩ := h
    have h0 : b0.c = c ∧ b0.err = none := by
      cases two with
      | true => cases hs; exact ⟨rfl, rfl⟩
      | false =>
        simp only [Bool.false_eq_true, if_false] at hs
        unfold startBatch at hs
        split at hs
        · cases hs
        · cases hs; exact ⟨rfl, rfl⟩
    obtain ⟨g1, g2⟩ := run_counter acts b0 b hr (fun _ => by rw [h0.1]; exact s.file)
    intro he
    exact ⟨g1 he, by rw [g2, h0.1]⟩
  obtain ⟨objs, _, hopen, _, _, ok, ⟨F, A, B, X0, X1, X2, js, hj, st⟩, _⟩ := (NoRace.fix ht i h).state i
  unfold Batch.returned at hret
  rcases st with ⟨_, hr⟩ | ⟨c1, ff, v, hover, herr, hc, hr⟩
  · exfalso
    rcases hr with hr | ⟨e, hr, _⟩ <;> rw [hret] at hr <;> cases hr
  · have hov : ∀ t ∈ b.tasks, t.pc.over = true := List.all_eq_true.mp hover
    obtain ⟨a, _⟩ := v.settled ok i (Or.inl rfl) hov
    dsimp only at a
    refine ⟨hov, ?_, (hcnt herr).1, ?_⟩
    · have hff : ff = false := by
        have := flush_err a ff
        cases ff with
        | false => rfl
        | true => rw [this] at hr; rw [hret] at hr; simp at hr
      rw [hc, hff]
      show (c1.index.flush false).1.wal.batch = []
      rw [flush_ok a.idx]
    · rw [(hcnt herr).2, s.closed, hc]
      exact v.conf.2.2.symm

theorem CleanConc.synced {fixed : Bool} {L : Lib V D} {dim : Nat} {c : Coll} (h : CleanConc fixed L dim c) :
    WInv False L dim (fun _ => False) c ∧ Synced c ∧ ReachConc fixed L dim c := by
  induction h with
  | new hs => exact ⟨new_inv L dim _ _ _ hs.json hs.metric hs.dim32 hs.cfg, new_synced _ _ _, .new hs⟩
  | call _ hl ha hc ih =>
    obtain ⟨i, s, r⟩ := ih
    obtain ⟨c2, out, h2, i2, _⟩ := apply_spec i _ hl
    rw [ha] at h2; cases h2
    exact ⟨i2, apply_synced i hl ha hc s, .call r hl ha⟩
  | batch _ hb ht hret ih =>
    obtain ⟨i, s, r⟩ := ih
    obtain ⟨h1, h2⟩ := batch_synced i hb ht s hret
    exact ⟨(batch_weak i hb ht h1).1, h2, .batch r hb ht (by rw [hret]; simp) h1⟩

theorem clean_reopen {fixed : Bool} {L : Lib V D} {dim : Nat} {c : Coll} (h : CleanConc fixed L dim c) (ho : c.closed = false) :
    ∃ c1 c2 c3, c.close false = (c1, none) ∧ c1.reopen = .ok c2 ∧ CSame c c3 ∧ Sim c3 c2 := by
  obtain ⟨i, s, _⟩ := h.synced
  obtain ⟨c3, c2, h2, s1, s2⟩ := reopen_csame i s ho
  have hcl : c.counter.closed = false := by rw [s.closed, ho]
  refine ⟨{ c with counter := { c.counter with closed := true }, closed := true }, c2, c3, ?_, h2, s1, s2⟩
  simp [Coll.close, IdCounter.close, hcl]

/-- C34 after concurrent batches: in a history without a reported disk failure, `Close` and `Open` succeed, and no sequence of calls
can tell the reopened collection from the one that was closed: both give the same results, call by call. -/
theorem C34_reopen_indistinguishable_concurrent (fixed : Bool) (L : Lib V D) (dim : Nat) (c : Coll) (h : CleanConc fixed L dim c)
    (ho : c.closed = false) :
    ∃ c1 c2, c.close false = (c1, none) ∧ c1.reopen = .ok c2 ∧
      ∀ later : List (Op V × Out V D), (∃ c', Trace L c later c') ↔ (∃ c', Trace L c2 later c') := by
  obtain ⟨c1, c2, c3, h1, h2, s1, s2⟩ := clean_reopen h ho
  refine ⟨c1, c2, h1, h2, fun later => ⟨?_, ?_⟩⟩
  · rintro ⟨c', t⟩
    obtain ⟨_, t1⟩ := trace_same L later s1 t
    obtain ⟨_, t2, _⟩ := trace_sim L later s2 t1
    exact ⟨_, t2⟩
  · rintro ⟨c', t⟩
    obtain ⟨_, t1, _⟩ := trace_sim L later s2.symm t
    exact trace_same L later s1.symm t1

/-- C34 after concurrent batches: every object, the size and the next id survive. -/
theorem C34_reopen_keeps_objects_concurrent (fixed : Bool) (L : Lib V D) (dim : Nat) (c : Coll) (h : CleanConc fixed L dim c)
    (ho : c.closed = false) :
    ∃ c1 c2, c.close false = (c1, none) ∧ c1.reopen = .ok c2 ∧ (∀ ids, c2.get L ids = c.get L ids) ∧
      c2.getSize = c.getSize ∧ c2.counter.count = c.counter.count := by
  obtain ⟨c1, c2, c3, h1, h2, s1, s2⟩ := clean_reopen h ho
  obtain ⟨e1, _, _, e4, e5⟩ := s1.fields
  refine ⟨c1, c2, h1, h2, ?_, ?_, ?_⟩
  · intro ids; unfold Coll.get; rw [s2.same.1, s2.same.2.2.2.1, e1, e4]
  · unfold Coll.getSize; rw [s2.same.1, s2.same.2.2.2.1, e1, e4]
  · rw [s2.same.2.2.2.2.1, e5]

/-- C29 after concurrent batches: the index read back has the same vertices with the same vectors and links, the same entry point, top
layer and deleted marks, and answers every query the same way. -/
theorem C29_reopened_index_concurrent (fixed : Bool) (L : Lib V D) (dim : Nat) (c : Coll) (h : CleanConc fixed L dim c)
    (ho : c.closed = false) :
    ∃ c1 c2, c.close false = (c1, none) ∧ c1.reopen = .ok c2 ∧ (∀ id, c2.index.nodes.get? id = c.index.nodes.get? id) ∧
      c2.index.entry = c.index.entry ∧ c2.index.maxLayer = c.index.maxLayer ∧ c2.index.deleted = c.index.deleted ∧
      c2.index.cfg = c.index.cfg ∧ (∀ q k, c2.index.search L.metric q k = c.index.search L.metric q k) ∧
      ∀ o embed k, c2.semanticSearch L o embed k = c.semanticSearch L o embed k := by
  obtain ⟨c1, c2, c3, h1, h2, s1, s2⟩ := clean_reopen h ho
  obtain ⟨f1, f2, f3, f4, _⟩ := s1.index.fields
  refine ⟨c1, c2, h1, h2, ?_⟩
  have key : (∀ id, c2.index.nodes.get? id = c3.index.nodes.get? id) ∧ c2.index.entry = c3.index.entry ∧
      c2.index.maxLayer = c3.index.maxLayer ∧ c2.index.deleted = c3.index.deleted ∧ c2.index.cfg = c3.index.cfg ∧
      (∀ q k, c2.index.search L.metric q k = c3.index.search L.metric q k) ∧
      ∀ (o : Object V) embed k, c2.semanticSearch L o embed k = c3.semanticSearch L o embed k := by
    rcases s2 with rfl | ⟨_, b, rfl⟩
    · exact ⟨fun _ => rfl, rfl, rfl, rfl, rfl, fun _ _ => rfl, fun _ _ _ => rfl⟩
    · exact ⟨fun _ => rfl, rfl, rfl, rfl, rfl, fun _ _ => rfl, fun _ _ _ => rfl⟩
  obtain ⟨k1, k2, k3, k4, k5, k6, k7⟩ := key
  exact ⟨fun id => (k1 id).trans (s1.index.nodes.get id), k2.trans f2, k3.trans f3, k4.trans f4, k5.trans f1,
    fun q k => (k6 q k).trans (search_same L.metric s1.index q k), fun o e k => (k7 o e k).trans (semanticSearch_same L s1 o e k)⟩

-- the interleaved batch of `c14Acts`, then a delete
example : ∃ c, CleanConc false demoLib 1 c ∧ c.closed = false ∧ c.index.nodes.length = 4 ∧ c.index.deleted = [1] := by
  obtain ⟨b, h, hp⟩ := bleads_sound (cfg := demoCfg) (two := false) (fixed := false) (workers := 2) (os := c14Objs)
    (acts := c14Acts false) (P := fun b => decide (b.ret = some none) &&
      (match b.c.delete demoLib 1 false false with
        | .ok (c, none) => !c.closed && (decide (c.index.nodes.length = 4) && decide (c.index.deleted = [1]))
        | _ => false)) (by decide +kernel)
  simp only [Bool.and_eq_true, decide_eq_true_eq] at hp
  obtain ⟨h1, h2⟩ := hp
  split at h2
  · rename_i c hc
    simp only [Bool.and_eq_true, decide_eq_true_eq, Bool.not_eq_true'] at h2
    refine ⟨c, .call (op := .delete 1 false false) (out := .deleted none) (.batch (.new ⟨demoJson_ok, fun a b ha hb => demoDist_ok a b (by omega), by decide, by constructor <;> decide⟩) h
      c14_calm h1) trivial (by simp [Coll.apply, hc, liftPanic, bind, Except.bind]) rfl, h2.1, h2.2.1, h2.2.2⟩
  · cases h2

/-- C51 for the whole call: when `InsertBatch` (or `InsertBatch2`) has returned nil, the records *on disk* replay to the index in
memory. Schedules without the race, as in `C51_race_free`; for the others it is false (`C51_fails`). -/
theorem C51_batch_on_disk (fixed two : Bool) (L : Lib V D) (dim workers : Nat) (c : Coll) (hr : ReachAnyConc fixed L dim c)
    (os : List (Object V)) (embed : Embed V) (acts : List BAct) (b : Batch V D)
    (h : BatchAt fixed two L dim workers c os embed acts b) (ht : NoRace fixed two L dim workers c os embed acts) (hret : b.returned none) :
    ∃ s, loadFromWAL (Hnsw.empty b.c.index.cfg b.c.index.wal.disk) b.c.index.wal.disk = .ok s ∧
      (∀ id, (AMap.get? s.nodes id).map Vertex.conns = (AMap.get? b.c.index.nodes id).map Vertex.conns) ∧
      s.entry = b.c.index.entry ∧ s.maxLayer = b.c.index.maxLayer ∧ s.deleted = b.c.index.deleted := by
  have i := hr.inv.1
  obtain ⟨objs, _, hopen, _, _, ok, ⟨F, A, B, X0, X1, X2, js, hj, st⟩, _⟩ := (NoRace.fix ht i h).state i
  have hb : b.c.index.wal.batch = [] ∧ ∀ t ∈ b.tasks, t.pc.over = true := by
    have hret' := hret
    unfold Batch.returned at hret'
    rcases st with ⟨_, hr⟩ | ⟨c1, ff, v, hover, herr, hc, hr⟩
    · exfalso
      rcases hr with hr | ⟨e, hr, _⟩ <;> rw [hret'] at hr <;> cases hr
    · have hov : ∀ t ∈ b.tasks, t.pc.over = true := List.all_eq_true.mp hover
      obtain ⟨a, _⟩ := v.settled ok i (Or.inl rfl) hov
      dsimp only at a
      refine ⟨?_, hov⟩
      have hff : ff = false := by
        have := flush_err a ff
        cases ff with
        | false => rfl
        | true => rw [this] at hr; rw [hret'] at hr; simp at hr
      rw [hc, hff]
      show (c1.index.flush false).1.wal.batch = []
      rw [flush_ok a.idx]
  have i2 := (ReachAnyConc.batch hr h ht (by unfold Batch.returned at hret; rw [hret]; simp) hb.2).inv.1
  have m : LogMatches b.c.index := inv_matches i2.idx
  unfold LogMatches logOf at m
  rw [hb.1, List.map_nil, List.append_nil] at m
  exact m

-- the interleaved batch of `c14Acts`: four vertices, and the log on disk is not empty
example : ∃ b, ReachAnyConc false demoLib 1 (Coll.new demoCfg ["a"] false) ∧
    BatchAt false false demoLib 1 2 (Coll.new demoCfg ["a"] false) c14Objs noEmbed (c14Acts false) b ∧
    NoRace false false demoLib 1 2 (Coll.new demoCfg ["a"] false) c14Objs noEmbed (c14Acts false) ∧ b.returned none ∧ b.c.index.nodes.length = 4 ∧ 4 ≤ b.c.index.wal.disk.length := by
  obtain ⟨b, h, hp⟩ := bleads_sound (cfg := demoCfg) (two := false) (fixed := false) (workers := 2) (os := c14Objs)
    (acts := c14Acts false) (P := fun b => decide (b.ret = some none) && (decide (b.c.index.nodes.length = 4) &&
      decide (4 ≤ b.c.index.wal.disk.length))) (by decide +kernel)
  simp only [Bool.and_eq_true, decide_eq_true_eq] at hp
  refine ⟨b, .new ⟨demoJson_ok, fun a b ha hb => demoDist_ok a b (by omega), by decide, by constructor <;> decide⟩, h,
    c14_calm, hp.1, hp.2.1, hp.2.2⟩

end Vectory.Conc
