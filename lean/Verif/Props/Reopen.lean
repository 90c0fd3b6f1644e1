import Verif.Lemmas.Crash
import Verif.Lemmas.Sim
import Verif.Spec.Demo
/-! # Closing and opening again: C29, C33, C34 -/
namespace Vectory
variable {V D : Type}

theorem clean_reopen {L : Lib V D} {dim : Nat} {cfg : Cfg} {ms : List String} {he : Bool} (hs : Setup L dim cfg)
    {h : List (Op V × Out V D)} {c : Coll} (hr : Runs L dim (Coll.new cfg ms he) h c) (hc : ∀ p ∈ h, p.2.clean)
    (ho : c.closed = false) : ∃ c1 c2, c.close false = (c1, none) ∧ c1.reopen = .ok c2 ∧ c.reopen = .ok c2 ∧ Sim c c2 := by
  have i0 := new_inv (S := True) (X := fun _ => False) L dim cfg ms he hs.json hs.metric hs.dim32 hs.cfg
  have i := runs_inv i0 hr
  have s := runs_synced i0 hr hc (new_synced cfg ms he)
  obtain ⟨c2, h2, s2⟩ := reopen_sim i s ho
  have hcl : c.counter.closed = false := by rw [s.closed, ho]
  refine ⟨{ c with counter := { c.counter with closed := true }, closed := true }, c2, ?_, h2, h2, s2⟩
  simp [Coll.close, IdCounter.close, hcl]

/-- C34: after any history in which no disk failure was reported, `Close` and `Open` succeed, every `Get` and `GetSize` is
answered as before, and the next id is the same. -/
theorem C34_reopen_keeps_objects (L : Lib V D) (dim : Nat) (cfg : Cfg) (ms : List String) (he : Bool) (hs : Setup L dim cfg)
    (h : List (Op V × Out V D)) (c : Coll) (hr : Runs L dim (Coll.new cfg ms he) h c) (hc : ∀ p ∈ h, p.2.clean)
    (ho : c.closed = false) :
    ∃ c1 c2, c.close false = (c1, none) ∧ c1.reopen = .ok c2 ∧ (∀ ids, c2.get L ids = c.get L ids) ∧
      c2.getSize = c.getSize ∧ c2.counter.count = c.counter.count := by
  obtain ⟨c1, c2, h1, h2, _, s⟩ := clean_reopen hs hr hc ho
  refine ⟨c1, c2, h1, h2, ?_, ?_, ?_⟩
  · intro ids; unfold Coll.get; rw [s.same.1, s.same.2.2.2.1]
  · unfold Coll.getSize; rw [s.same.1, s.same.2.2.2.1]
  · rw [s.same.2.2.2.2.1]

/-- C34, observed by a client: no sequence of calls - inserts, batches, deletes, searches, further closes and opens, with
whatever the environment chooses - can tell the reopened collection from the one that was closed: both give the same
results, call by call. -/
theorem C34_reopen_indistinguishable (L : Lib V D) (dim : Nat) (cfg : Cfg) (ms : List String) (he : Bool) (hs : Setup L dim cfg)
    (h : List (Op V × Out V D)) (c : Coll) (hr : Runs L dim (Coll.new cfg ms he) h c) (hc : ∀ p ∈ h, p.2.clean)
    (ho : c.closed = false) :
    ∃ c1 c2, c.close false = (c1, none) ∧ c1.reopen = .ok c2 ∧
      ∀ later : List (Op V × Out V D), (∃ c', Trace L c later c') ↔ (∃ c', Trace L c2 later c') := by
  obtain ⟨c1, c2, h1, h2, _, s⟩ := clean_reopen hs hr hc ho
  refine ⟨c1, c2, h1, h2, fun later => ⟨?_, ?_⟩⟩
  · rintro ⟨c', t⟩; obtain ⟨c'', t', _⟩ := trace_sim L later s t; exact ⟨c'', t'⟩
  · rintro ⟨c', t⟩; obtain ⟨c'', t', _⟩ := trace_sim L later s.symm t; exact ⟨c'', t'⟩

/-- C29: the index read back from the log and the vector store has the same vertices, vectors, levels, links, entry point, top
layer and deleted marks, and answers every query the same way. -/
theorem C29_reopened_index (L : Lib V D) (dim : Nat) (cfg : Cfg) (ms : List String) (he : Bool) (hs : Setup L dim cfg)
    (h : List (Op V × Out V D)) (c : Coll) (hr : Runs L dim (Coll.new cfg ms he) h c) (hc : ∀ p ∈ h, p.2.clean)
    (ho : c.closed = false) :
    ∃ c1 c2, c.close false = (c1, none) ∧ c1.reopen = .ok c2 ∧ c2.index.nodes = c.index.nodes ∧
      c2.index.entry = c.index.entry ∧ c2.index.maxLayer = c.index.maxLayer ∧ c2.index.deleted = c.index.deleted ∧
      c2.index.cfg = c.index.cfg ∧ (∀ q k, c2.index.search L.metric q k = c.index.search L.metric q k) ∧
      ∀ o embed k, c2.semanticSearch L o embed k = c.semanticSearch L o embed k := by
  obtain ⟨c1, c2, h1, h2, _, s⟩ := clean_reopen hs hr hc ho
  refine ⟨c1, c2, h1, h2, ?_⟩
  rcases s with rfl | ⟨_, b, rfl⟩
  · exact ⟨rfl, rfl, rfl, rfl, rfl, fun _ _ => rfl, fun _ _ _ => rfl⟩
  · exact ⟨rfl, rfl, rfl, rfl, rfl, fun _ _ => rfl, fun _ _ _ => rfl⟩

/-- inserts on several levels, deletes, a search, a refused insert and an earlier reopen. -/
def c34Ops : List (Op UInt8) :=
  [demoInsert 1, demoInsert 9 2, demoInsert 4, .delete 0 false false, .reopen, demoInsert 6 1, demoInsert 2, demoInsert 7,
   .insert { id := 0, props := [], vec := some [3] } noEmbed {} false, .search (demoObj 5) noEmbed 3]

example : ∃ h c, Runs demoLib 1 (Coll.new demoCfg ["a"] false) h c ∧ (∀ p ∈ h, p.2.clean) ∧ c.closed = false ∧
    c.index.nodes.length = 6 ∧ c.index.maxLayer = 2 ∧ c.index.deleted = [0] := by
  have h1 : ∃ c h, playLegal demoLib 1 (Coll.new demoCfg ["a"] false) c34Ops = some (c, h) ∧ c.closed = false ∧
      c.index.nodes.length = 6 ∧ c.index.maxLayer = 2 ∧ c.index.deleted = [0] ∧
      (h.map Prod.snd).all (fun o => match o with
        | .inserted _ none => true | .inserted _ (some (.missingProperty _ _)) => true
        | .deleted none => true | .done none => true | .found _ => true | _ => false) = true :=
    ⟨_, _, rfl, by decide +kernel, by decide +kernel, by decide +kernel, by decide +kernel, by decide +kernel⟩
  obtain ⟨c, h, h1, h2, h3, h4, h5, h6⟩ := h1
  refine ⟨h, c, playLegal_runs _ _ _ _ h1, ?_, h2, h3, h4, h5⟩
  intro p hp
  have := List.all_eq_true.mp h6 p.2 (List.mem_map_of_mem hp)
  revert this
  generalize p.2 = o
  intro this
  split at this
  · intro x hx; cases hx
  · intro x hx; cases hx; trivial
  · rfl
  · intro x hx; cases hx
  · trivial
  · cases this

/-! ## C33 -/

theorem w33_sequence_contiguous (L : Lib V D) (dim : Nat) (c : Coll) {S : Prop} {X : UInt64 → Prop} (i : WInv S L dim X c) :
    c.index.wal.batch.map Prod.fst = List.range' (c.index.wal.disk.length + 1) c.index.wal.batch.length ∧
    c.index.wal.seqNum = c.index.wal.disk.length + c.index.wal.batch.length + 1 ∧
    (c.flush false).2 = none := by
  have w := i.idx.m.wal
  refine ⟨?_, w.seq, flush_err i false⟩
  have key : ∀ (b : List (Nat × Bytes)) (n : Nat), inOrder n b = true → b.map Prod.fst = List.range' (n + 1) b.length := by
    intro b
    induction b with
    | nil => intro n _; rfl
    | cons p b ih =>
      obtain ⟨k, d⟩ := p
      intro n h
      simp only [inOrder, Bool.and_eq_true, beq_iff_eq] at h
      simp only [List.map_cons, List.length_cons, List.range'_succ]
      rw [ih _ h.2, h.1]
  exact key _ _ w.order


/-- C33: in every state reached by any legal history - including failed flushes, failed inserts and reopens - the waiting
records are numbered right after the last record on disk, and the next number continues them; so the log accepts the flush
unless the disk fails. -/
theorem C33_sequence_contiguous (L : Lib V D) (dim : Nat) (c : Coll) (hr : ReachAny L dim c) :
    c.index.wal.batch.map Prod.fst = List.range' (c.index.wal.disk.length + 1) c.index.wal.batch.length ∧
    c.index.wal.seqNum = c.index.wal.disk.length + c.index.wal.batch.length + 1 ∧
    (c.flush false).2 = none :=
  w33_sequence_contiguous L dim c hr.weak.1

-- two failed flushes: four records waiting behind the two on disk
example : Reach demoLib 1 (demoState demoCfg [demoInsert 1, .insert (demoObj 2) noEmbed {} true, .delete 0 false true]) ∧
    (demoState demoCfg [demoInsert 1, .insert (demoObj 2) noEmbed {} true, .delete 0 false true]).index.wal.disk.length = 2 ∧
    (demoState demoCfg [demoInsert 1, .insert (demoObj 2) noEmbed {} true, .delete 0 false true]).index.wal.batch.map Prod.fst =
      [3, 4, 5, 6] := ⟨demo_reach _, by decide +kernel, by decide +kernel⟩

end Vectory
