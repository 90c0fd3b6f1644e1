import Verif.Lemmas.ConcLog
import Verif.Props.Growth
import Verif.Props.ConcLater
import Verif.Lemmas.ConcKept
/-!
# C81 with batches run by several workers

Under any schedule, also one that runs into the race of `Spec/Race.lean`, with vectors of any length and with any failures.
-/
namespace Vectory.Conc
open Vectory
variable {V D : Type}

/-- **C81.** Whatever happens to a collection, also in batches run by several workers and when the process stops inside such a batch: what
the log on disk contained it still contains, in the same place. -/
theorem C81_append_only_concurrent {fixed : Bool} {L : Lib V D} {c c' : Coll} {n most : Nat} (h : History fixed L c n most c') :
    c.disk.log <+: c'.disk.log := (history_logMove h).keep

/-- **C81.** At every moment of a batch, too: before it has flushed, the log on disk is as it was. -/
theorem C81_batch_keeps {fixed two : Bool} {L : Lib V D} {workers top : Nat} {c : Coll} {os : List (Object V)} {embed : Embed V}
    {acts : List BAct} {b : Batch V D} (h : BatchRun fixed two L workers top c os embed acts b) : c.disk.log <+: b.c.disk.log :=
  (batch_logMove h).1.keep

/-- **C81.** Every object that was accepted leaves at least two records in the log, whatever is deleted later. -/
theorem C81_least_concurrent {fixed : Bool} {L : Lib V D} {c c' : Coll} {n most : Nat} (h : History fixed L c n most c') :
    c.disk.log.length + 2 * n ≤ c'.disk.log.length := (history_logMove h).least

/-- **C81.** A new collection's log is never longer than the sum of what its calls may log. An object of a batch adds no more than `perObject`
for the largest level drawn, however its insertion is interleaved with others. -/
theorem C81_most_concurrent {fixed : Bool} {L : Lib V D} {cfg : Cfg} {ms : List String} {he : Bool} {c : Coll} {n most : Nat}
    (h : History fixed L (Coll.new cfg ms he) n most c) : c.disk.log.length ≤ most := by
  have m := (history_logMove h).most
  have e : (Coll.new cfg ms he).index.wal.records.length = 0 := rfl
  rw [e, Nat.zero_add] at m
  exact Nat.le_trans (disk_prefix _).length_le m

/-- **C81.** No record of a new collection's log is larger than `largestRecord`. -/
theorem C81_records_concurrent {fixed : Bool} {L : Lib V D} {cfg : Cfg} {ms : List String} {he : Bool} {c : Coll} {n most : Nat}
    (h : History fixed L (Coll.new cfg ms he) n most c) : ∀ b ∈ c.disk.log, b.length ≤ largestRecord cfg := by
  intro b hb
  rcases (history_logMove h).small b ((disk_prefix _).subset hb) with h | h
  · cases h
  · exact h

/-- **C81.** The same in bytes. -/
theorem C81_bytes_concurrent {fixed : Bool} {L : Lib V D} {cfg : Cfg} {ms : List String} {he : Bool} {c : Coll} {n most : Nat}
    (h : History fixed L (Coll.new cfg ms he) n most c) : bytesOf c.disk.log ≤ largestRecord cfg * most :=
  Nat.le_trans (bytesOf_le (C81_records_concurrent h)) (Nat.mul_le_mul_left _ (C81_most_concurrent h))

theorem BatchAt.batchRun {fixed two : Bool} {L : Lib V D} {dim workers top : Nat} {c : Coll} {os : List (Object V)} {embed : Embed V}
    {acts : List BAct} {b : Batch V D} (h : BatchAt fixed two L dim workers c os embed acts b)
    (ht : ∀ i env, BAct.work i env ∈ acts → env.level ≤ top) : BatchRun fixed two L workers top c os embed acts b :=
  ⟨h.1, ht, h.2.2.2.2⟩

/-- non-vacuity: two workers insert four objects, all on two layers, interleaved step by step; the batch is accepted and leaves between 8 and
`4 · 8` records (there are 16), none of which goes away when the first object is deleted: the delete adds one. -/
example : ∃ c', History false demoLib (Coll.new demoCfg ["a"] false) 4 (4 * perObject demoCfg.m 1 + 1) c' ∧ c'.disk.log.length = 17 := by
  obtain ⟨b, h, hp⟩ := bleads_sound (cfg := demoCfg) (two := false) (fixed := false) (workers := 2) (os := c14Objs)
    (acts := calmActs false) (P := fun b => decide (b.ret = some none) && (decide (b.cancelled = false) &&
      (b.tasks.all (fun t => decide (t.pc ≠ .panicked)) &&
        (match b.c.apply demoLib (.delete 0 false false) with | .ok (c, _) => c.disk.log.length == 17 | _ => false)))) (by decide +kernel)
  simp only [Bool.and_eq_true, decide_eq_true_eq] at hp
  obtain ⟨p1, p2, p3, p4⟩ := hp
  have htop : ∀ i env, BAct.work i env ∈ calmActs false → env.level ≤ 1 := by
    have : (calmActs false).all (fun a => match a with | .work _ env => decide (env.level ≤ 1) | _ => true) = true := by decide +kernel
    intro i env hm
    simpa using List.all_eq_true.mp this _ hm
  have hacc : b.accepts := ⟨p1, p2, fun t ht => by simpa using List.all_eq_true.mp p3 t ht⟩
  have hh := History.accepted (History.refl (fixed := false) (L := demoLib)) (h.batchRun htop) hacc
  split at p4
  · rename_i c2 out hd
    exact ⟨c2, History.event hh (Ev.Step.call hd), by simpa using p4⟩
  · cases p4

/-- **C81.** Memory, in every history of legal calls, crashes, reopens and batches run by several workers without the race of C14: the index never
holds fewer vertices than before plus the objects accepted since, whatever was deleted and wherever the process stopped, and never more
than one per object handed to an insert. -/
theorem C81_memory_concurrent {fixed : Bool} {L : Lib V D} {dim : Nat} {c c' : Coll} {n handed : Nat} (hc : ReachAnyConc fixed L dim c)
    (h : Kept fixed L dim c n handed c') : c.vertices + n ≤ c'.vertices ∧ c'.vertices ≤ c.vertices + handed := (h.bound hc).2

/-- non-vacuity: a batch of four run by two workers, a delete, and a stop of the process inside a second delete: four vertices are in memory, two
objects are stored. -/
example : ∃ c', Kept false demoLib 1 (Coll.new demoCfg ["a"] false) 4 4 c' ∧ c'.vertices = 4 ∧ c'.getSize.toOption = some 2 := by
  obtain ⟨b, h, hp⟩ := bleads_sound (cfg := demoCfg) (two := false) (fixed := false) (workers := 2) (os := c14Objs)
    (acts := c14Acts false) (P := fun b => decide (b.ret = some none) && (decide (b.cancelled = false) &&
      (b.tasks.all (fun t => t.pc.over) &&
        (match b.c.apply demoLib (.delete 0 false false) with
        | .ok (c, _) => (match c.get demoLib [1] with | .ok [_] => true | _ => false) && (!c.closed &&
            (match openColl c.index.cfg c.mappings c.hasEmbedder (c.crashDelete 1 .erased) with
            | .ok c2 => c2.vertices == 4 && c2.getSize.toOption == some 2
            | _ => false))
        | _ => false)))) (by decide +kernel)
  simp only [Bool.and_eq_true, decide_eq_true_eq] at hp
  obtain ⟨p1, p2, p3, p4⟩ := hp
  have hn : NoRace false false demoLib 1 2 (Coll.new demoCfg ["a"] false) c14Objs noEmbed (c14Acts false) := c14_calm
  have hk := Kept.batch (Kept.refl (fixed := false) (L := demoLib) (dim := 1)) h hn (by rw [p1]; simp) (List.all_eq_true.mp p3)
  split at p4
  · rename_i c2 out hd
    simp only [Bool.and_eq_true, Bool.not_eq_true'] at p4
    obtain ⟨q1, q2, q3⟩ := p4
    split at q1
    · rename_i x hx
      split at q3
      · rename_i c3 ho
        simp only [Bool.and_eq_true, beq_iff_eq] at q3
        have k2 := Kept.event hk (e := .call (.delete 0 false false) out) (by trivial) (Ev.Step.call hd)
        have k3 := Kept.event k2 (e := .crashDelete 1 .erased) ⟨q2, x, hx⟩ (Ev.Step.crashDelete ho)
        rw [if_pos ⟨p1, p2⟩] at k3
        exact ⟨c3, k3, q3⟩
      · cases q3
    · cases q1
  · cases p4

end Vectory.Conc
