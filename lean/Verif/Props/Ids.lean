import Verif.Lemmas.Ids
import Verif.Spec.Demo
/-! # Ids: C04, C05 -/
namespace Vectory
variable {V D : Type}

/-- C04: over any sequence of calls on a new collection - inserts, batches, failures of any kind, deletes, closes and
reopens - the ids received by callers, in the order in which they were received, are strictly increasing, as long as fewer
than `2^64` objects were handed in. -/
theorem C04_ids_never_twice (L : Lib V D) (cfg : Cfg) (ms : List String) (he : Bool) (h : List (Op V × Out V D)) (c : Coll)
    (r : Trace L (Coll.new cfg ms he) h c) (hn : (h.map (fun p => p.1.objects)).sum < 18446744073709551616) :
    (h.flatMap received).Pairwise (fun a b => a.toNat < b.toNat) := by
  have hs := events_ids r.events (by intro e he; obtain ⟨p, _, rfl⟩ := List.mem_map.mp he; trivial) (Nat.le_refl 0)
    (by rw [List.map_map]; show 0 + (h.map (fun p => p.1.objects)).sum < _; omega)
  have := hs.inc
  rwa [List.flatMap_map] at this

/-- C04: in particular no id occurs twice. -/
theorem C04_ids_distinct (L : Lib V D) (cfg : Cfg) (ms : List String) (he : Bool) (h : List (Op V × Out V D)) (c : Coll)
    (r : Trace L (Coll.new cfg ms he) h c) (hn : (h.map (fun p => p.1.objects)).sum < 18446744073709551616) :
    (h.flatMap received).Nodup :=
  (C04_ids_never_twice L cfg ms he h c r hn).imp (fun h e => by subst e; omega)

/-- a history with inserts (one of them failing after it got its id), a batch, a delete and a reopen. -/
def c04Ops : List (Op UInt8) :=
  [demoInsert 1, .insert (demoObj 2) noEmbed { put := .vectors } false, demoInsert 5 1, .delete 2 false false, .reopen,
   .insertBatch [demoObj 8, demoObj 9] noEmbed (fun _ => {}) false]

example : ∃ h c, Trace demoLib (Coll.new demoCfg ["a"] false) h c ∧ h.flatMap received = [0, 1, 2, 3, 4] ∧
    (h.map (fun p => p.1.objects)).sum = 5 := by
  have e : (play demoLib (Coll.new demoCfg ["a"] false) c04Ops).toOption.map
      (fun r => (r.2.flatMap received, (r.2.map (fun p => p.1.objects)).sum)) = some ([0, 1, 2, 3, 4], 5) := by decide
  cases hp : play demoLib (Coll.new demoCfg ["a"] false) c04Ops with
  | error a => rw [hp] at e; cases e
  | ok r =>
    rw [hp] at e
    simp [Except.toOption] at e
    exact ⟨r.2, r.1, play_trace _ _ _ _ hp, e.1, e.2⟩

/-- C05 (crashes of the process): through any sequence of calls and crashes inside inserts, batches and deletes, in which
no write of the 8-byte counter file is cut in the middle, the ids received by callers are strictly increasing, and the next
id handed out after the last crash (the value of the counter) exceeds all of them.
Excluded: a counter write that is cut; see `C05_torn_write_reuses_ids`. -/
theorem C05_ids_after_crash (L : Lib V D) (cfg : Cfg) (ms : List String) (he : Bool) (h : List (Ev V D)) (c : Coll)
    (r : Events L (Coll.new cfg ms he) h c) (hu : ∀ e ∈ h, e.untorn)
    (hn : (h.map Ev.objects).sum < 18446744073709551616) :
    (h.flatMap Ev.received).Pairwise (fun a b => a.toNat < b.toNat) ∧
    ∀ x ∈ h.flatMap Ev.received, x.toNat < c.counter.count.toNat := by
  have hs := events_ids r hu (Nat.le_refl 0) (by simpa [Coll.new] using hn)
  refine ⟨hs.inc, fun x hx => ?_⟩
  have := (hs.fresh x hx).2
  have := hs.le
  omega

/-- two inserts, a crash in the third after the object was written, another insert, a crash in a delete, an insert. -/
example : ∃ (h : List (Ev UInt8 Nat)) (c : Coll), Events demoLib (Coll.new demoCfg ["a"] false) h c ∧ (∀ e ∈ h, e.untorn) ∧
    h.flatMap Ev.received = [0, 1, 3] ∧ h.length = 5 := by
  have h1 : ∃ o c1, (Coll.new demoCfg ["a"] false).apply demoLib (demoInsert 1) = .ok (c1, .inserted o none) ∧ o.id = 0 ∧
      ∃ o' c2, c1.apply demoLib (demoInsert 4) = .ok (c2, .inserted o' none) ∧ o'.id = 1 ∧
      ∃ d c3, c2.crashInsert demoLib (demoObj 9) 0 .object = .ok d ∧
      openColl c2.index.cfg c2.mappings c2.hasEmbedder d = .ok c3 ∧
      ∃ o c4, c3.apply demoLib (demoInsert 6) = .ok (c4, .inserted o none) ∧ o.id = 3 ∧
      ∃ c5, openColl c4.index.cfg c4.mappings c4.hasEmbedder (c4.crashDelete 1 .erased) = .ok c5 :=
    ⟨_, _, rfl, rfl, _, _, rfl, rfl, _, _, rfl, rfl, _, _, rfl, rfl, _, rfl⟩
  obtain ⟨o1, c1, h1, i1, o2, c2, h2, i2, d, c3, h3, h4, o3, c4, h5, i5, c5, h6⟩ := h1
  refine ⟨_, c5, .cons (.call h1) (.cons (.call h2) (.cons (.crashInsert (pre := []) rfl h3 h4) (.cons (.call h5)
    (.cons (.crashDelete h6) (.nil _))))), ?_, ?_, rfl⟩
  · intro e he
    simp only [List.mem_cons, List.not_mem_nil, or_false] at he
    rcases he with rfl | rfl | rfl | rfl | rfl <;> trivial
  · simp [Ev.received, received, demoInsert, i1, i2, i5]

theorem Trace.events_append {L : Lib V D} {c c1 c2 : Coll} {h : List (Op V × Out V D)} {t : List (Ev V D)}
    (r : Trace L c h c1) (r2 : Events L c1 t c2) : Events L c (h.map (fun p => Ev.call p.1 p.2) ++ t) c2 := by
  induction r with
  | nil => exact r2
  | cons ha _ ih => exact .cons (.call ha) (ih r2)

/-- one insert, and 254 inserts that fail in the object store after having taken an id. -/
def tornOps : List (Op UInt8) := demoInsert 1 :: List.replicate 254 (.insert (demoObj 2) noEmbed { put := .objects } false)

set_option synthInstance.maxSize 1000 in
/-- C05, the full statement, is false: when the counter goes from 255 to 256 and the write is cut after one byte, the file
reads 0, so after the next open a caller receives id 0 although that id was given to another object before. -/
theorem C05_torn_write_reuses_ids :
    ¬ ∀ (h : List (Ev UInt8 Nat)) (c : Coll), Events demoLib (Coll.new demoCfg ["a"] false) h c →
      (h.map Ev.objects).sum < 18446744073709551616 → (h.flatMap Ev.received).Nodup := by
  intro hall
  have e : (play demoLib (Coll.new demoCfg ["a"] false) tornOps).toOption.map
      (fun r => ((r.2.flatMap received).head?, (r.2.map (fun p => p.1.objects)).sum,
        (r.1.crashInsert demoLib (demoObj 9) 0 (.counter 1)).toOption.map (fun d =>
          (openColl r.1.index.cfg r.1.mappings r.1.hasEmbedder d).toOption.map (fun c =>
            (c.insert demoLib (demoObj 3) noEmbed {} false).toOption.map (fun x => (x.2.1.id, x.2.2)))))) =
      (some (some 0, 255, some (some (some (0, none)))) :
        Option (Option UInt64 × Nat × Option (Option (Option (UInt64 × Option Err))))) := by decide +kernel
  cases hp : play demoLib (Coll.new demoCfg ["a"] false) tornOps with
  | error a => rw [hp] at e; cases e
  | ok r =>
    obtain ⟨c1, h1⟩ := r
    rw [hp] at e
    simp only [Except.toOption, Option.map_some, Option.some.injEq, Prod.mk.injEq] at e
    obtain ⟨e1, e2, e3⟩ := e
    cases hd : c1.crashInsert demoLib (demoObj 9) 0 (.counter 1) with
    | error a => rw [hd] at e3; cases e3
    | ok d =>
      rw [hd] at e3
      simp only [Option.map_some, Option.some.injEq] at e3
      cases ho : openColl c1.index.cfg c1.mappings c1.hasEmbedder d with
      | error a => rw [ho] at e3; cases e3
      | ok c2 =>
        rw [ho] at e3
        simp only [Option.map_some, Option.some.injEq] at e3
        cases hi : c2.insert demoLib (demoObj 3) noEmbed {} false with
        | error a => rw [hi] at e3; cases e3
        | ok x =>
          obtain ⟨c3, o, er⟩ := x
          rw [hi] at e3
          simp only [Option.map_some, Option.some.injEq, Prod.mk.injEq] at e3
          have ha : c2.apply demoLib (.insert (demoObj 3) noEmbed {} false) = .ok (c3, .inserted o er) := by
            simp [Coll.apply, hi, liftPanic]
          have hev := Trace.events_append (play_trace _ _ _ _ hp)
            (Events.cons (Ev.Step.crashInsert (pre := []) (os := []) (c1 := c1) rfl hd ho) (.cons (.call ha) (.nil _)))
          have hsum : (h1.map (Ev.objects ∘ fun p => Ev.call p.1 p.2)).sum = 255 := e2
          have := hall _ _ hev (by
            rw [List.map_append, List.sum_append, List.map_map, hsum]
            show 255 + 2 < 18446744073709551616
            decide)
          rw [List.flatMap_append, List.flatMap_map] at this
          have hmem : (0 : UInt64) ∈ h1.flatMap (fun p => Ev.received (Ev.call p.1 p.2)) := by
            show (0 : UInt64) ∈ h1.flatMap received
            exact List.mem_of_mem_head? (by rw [e1]; rfl)
          have h0 := (List.nodup_append.mp this).2.2 0 hmem 0 (by simp [Ev.received, received, e3.1, e3.2])
          exact h0 rfl

/-- C05: and when the very first write of the counter is cut, the collection cannot be opened any more: for every cut. -/
theorem C05_torn_first_write_unopenable (cfg : Cfg) (ms : List String) (he : Bool) (j : Nat) (h0 : 0 < j) (h8 : j < 8)
    (s : Stores) (log : List Bytes) :
    openColl cfg ms he { stores := s, counterFile := tornCounter [] 1 j, log := log } = .error (.error .unexpectedEOF) := by
  have : j = 1 ∨ j = 2 ∨ j = 3 ∨ j = 4 ∨ j = 5 ∨ j = 6 ∨ j = 7 := by omega
  rcases this with rfl | rfl | rfl | rfl | rfl | rfl | rfl <;> rfl

end Vectory
