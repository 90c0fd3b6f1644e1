import Verif.Lemmas.BatchLost
import Verif.Props.CollConc
/-! # C57: what a batch that reports success leaves out -/
namespace Vectory.Conc
open Vectory
variable {V D : Type}

theorem mapM_get {A B : Type} {f : A → Option B} : ∀ {l : List A} {r : List B}, l.mapM f = some r →
    r.length = l.length ∧ ∀ (i : Nat) (a : A), l[i]? = some a → ∃ b, r[i]? = some b ∧ f a = some b := by
  intro l
  induction l with
  | nil => intro r h; cases h; exact ⟨rfl, fun i a h => by simp at h⟩
  | cons x l ih =>
    intro r h
    rw [List.mapM_cons] at h
    cases hf : f x with
    | none => rw [hf] at h; cases h
    | some y =>
      cases hm : l.mapM f with
      | none => rw [hf, hm] at h; cases h
      | some r' =>
        rw [hf, hm] at h
        cases h
        obtain ⟨h1, h2⟩ := ih hm
        refine ⟨by simp [h1], fun i a hi => ?_⟩
        cases i with
        | zero => simp only [List.getElem?_cons_zero, Option.some.injEq] at hi; subst hi; exact ⟨y, by simp, hf⟩
        | succ i => simp only [List.getElem?_cons_succ] at hi ⊢; exact h2 i a hi

theorem suffix_range' {a n : Nat} {l : List Nat} (h : l <:+ List.range' a n) : ∃ m, a ≤ m ∧ m ≤ a + n ∧ l = List.range' m (a + n - m) := by
  have h1 := List.suffix_iff_eq_drop.mp h
  have h2 := h.length_le
  rw [List.length_range'] at h1 h2
  refine ⟨a + (n - l.length), by omega, by omega, ?_⟩
  rw [h1, List.drop_range']
  have : n - (n - l.length) = l.length := by omega
  rw [this]
  congr 1 <;> simp <;> omega

/-- **C57, `InsertBatch` exactly.** For the program as it is, any schedule, any failing writes: if `InsertBatch` returns no error
then each worker took its chunk of the batch (`chunks`: the `i`-th `(start, end)`) up to some position
`stop i` - up to the end, unless it was stopped by a panic, or not started because the caller's context was cancelled - and exactly the objects of the chunks from `stop i` on are missing: nothing was
stored for them and their ids are untouched, while all the others are stored under the next ids and can be read back. -/
theorem C57_exact (fixed : Bool) (L : Lib V D) (dim workers : Nat) (c : Coll) (hr : ReachAnyConc fixed L dim c) (os : List (Object V))
    (embed : Embed V) (acts : List BAct) (b : Batch V D) (h : BatchAt fixed false L dim workers c os embed acts b)
    (hret : b.returned none) :
    ∃ (lost : List Nat) (stop : Nat → Nat), StoredExcept L c os b.c b.objs lost ∧
      (∀ (i : Nat) (r : Nat × Nat), (chunks os.length workers)[i]? = some r → r.1 ≤ stop i ∧ stop i ≤ r.2 ∧
        (stop i < r.2 → ∃ t : Task, b.tasks[i]? = some t ∧ (t.pc = .panicked ∨ t.pc = .skipped ∧ BAct.cancel ∈ acts))) ∧
      (∀ k, k ∈ lost ↔ ∃ (i : Nat) (r : Nat × Nat), (chunks os.length workers)[i]? = some r ∧ stop i ≤ k ∧ k < r.2) := by
  obtain ⟨_, _, _, _, _, _, _, hc⟩ := h.state hr.inv.1
  have hcc : b.cancelled = true → BAct.cancel ∈ acts := by
    intro h1
    apply Classical.byContradiction
    intro h2
    rw [hc h2] at h1; cases h1
  obtain ⟨hst, hd, hfin⟩ := storedExcept_of hr.inv.1 h hret
  obtain ⟨hw, ⟨r0, he, _⟩, _, _, objs, b0, hp, hs, hrun⟩ := h
  have hlen : objs.length = os.length := by
    unfold prepare at hp
    split at hp
    · cases hp
    · split at hp
      · cases hp
      · exact embed_length hp
  simp only [Bool.false_eq_true, if_false] at hs
  unfold startBatch at hs
  cases hm : (chunks objs.length workers).mapM (goSlice (List.range objs.length)) with
  | none => rw [hm] at hs; cases hs
  | some todos =>
    rw [hm] at hs
    cases hs
    have sh := run_shrinks _ _ _ hrun
    obtain ⟨ml, mg⟩ := mapM_get hm
    rw [hlen] at ml mg
    have hq : b.queue = [] := List.suffix_nil.mp sh.queue
    have hu : b.untaken = b.tasks.flatMap Task.todo := by unfold Batch.untaken; rw [hq]; rfl
    have htl : b.tasks.length = (chunks os.length workers).length := by
      have := sh.len
      simp only [List.length_map] at this
      omega
    have one : ∀ (i : Nat) (r : Nat × Nat), (chunks os.length workers)[i]? = some r → ∃ t m, b.tasks[i]? = some t ∧ r.1 ≤ m ∧ m ≤ r.2 ∧
        t.todo = List.range' m (r.2 - m) := by
      intro i r hi
      obtain ⟨todo, h1, h2⟩ := mg i r hi
      unfold goSlice at h2
      split at h2
      · rename_i hb
        cases h2
        have hil : i < b.tasks.length := by rw [htl]; exact (List.getElem?_eq_some_iff.mp hi).1
        have ht := List.getElem?_eq_getElem hil
        have := sh.todo i _ _ (by simp only [List.getElem?_map, h1]; rfl) ht
        dsimp only at this
        have e : ((List.range os.length).take r.2).drop r.1 = List.range' r.1 (r.2 - r.1) := by
          have := hb.2
          rw [List.length_range] at this
          rw [List.take_range, Nat.min_eq_left this, List.range_eq_range', List.drop_range']
          congr 1 <;> simp
        rw [e] at this
        obtain ⟨m, m1, m2, m3⟩ := suffix_range' this
        have e2 : r.1 + (r.2 - r.1) = r.2 := by omega
        rw [e2] at m2 m3
        exact ⟨_, m, ht, m1, m2, m3⟩
      · cases h2
    refine ⟨b.untaken, fun i => match b.tasks[i]?, (chunks os.length workers)[i]? with
      | some t, some r => r.2 - t.todo.length
      | _, _ => 0, hst, ?_, ?_⟩
    · intro i r hi
      obtain ⟨t, m, h1, h2, h3, h4⟩ := one i r hi
      simp only [h1, hi]
      have e : r.2 - t.todo.length = m := by rw [h4, List.length_range']; omega
      rw [e]
      refine ⟨h2, h3, fun hlt => ⟨t, rfl, ?_⟩⟩
      rcases hd t (List.mem_of_getElem? h1) with hdn | hdn
      · have := (hfin t (List.mem_of_getElem? h1) hdn).1
        rw [this] at e
        simp at e
        omega
      · exact hdn.imp (fun h => h) (fun h => ⟨h.1, hcc h.2⟩)
    · intro k
      rw [hu, List.mem_flatMap]
      constructor
      · rintro ⟨t, ht, hk⟩
        obtain ⟨i, hi⟩ := List.getElem?_of_mem ht
        have hil : i < (chunks os.length workers).length := by rw [← htl]; exact (List.getElem?_eq_some_iff.mp hi).1
        have hri := List.getElem?_eq_getElem hil
        obtain ⟨t', m, h1, h2, h3, h4⟩ := one i _ hri
        rw [hi] at h1; cases h1
        refine ⟨i, _, hri, ?_⟩
        simp only [hi, hri]
        have e : (chunks os.length workers)[i].2 - t.todo.length = m := by rw [h4, List.length_range']; omega
        rw [e]
        rw [h4, List.mem_range'_1] at hk
        omega
      · rintro ⟨i, r, hi, h5, h6⟩
        obtain ⟨t, m, h1, h2, h3, h4⟩ := one i r hi
        simp only [h1, hi] at h5
        have e : r.2 - t.todo.length = m := by rw [h4, List.length_range']; omega
        rw [e] at h5
        refine ⟨t, List.mem_of_getElem? h1, ?_⟩
        rw [h4, List.mem_range'_1]
        omega

/-- **C57, `InsertBatch2` exactly.** As `C57_exact`; the workers share one channel, so objects are missing only if every worker was
stopped by a panic (or not started because the caller's context was cancelled), and then they are the ones at the end of the batch. -/
theorem C57_exact_channel (fixed : Bool) (L : Lib V D) (dim workers : Nat) (c : Coll) (hr : ReachAnyConc fixed L dim c)
    (os : List (Object V)) (embed : Embed V) (acts : List BAct) (b : Batch V D) (h : BatchAt fixed true L dim workers c os embed acts b)
    (hret : b.returned none) :
    ∃ (stop : Nat), stop ≤ os.length ∧ StoredExcept L c os b.c b.objs (List.range' stop (os.length - stop)) ∧
      (stop < os.length → ∀ t ∈ b.tasks, t.pc = .panicked ∨ t.pc = .skipped ∧ BAct.cancel ∈ acts) := by
  obtain ⟨_, _, _, _, _, _, _, hc⟩ := h.state hr.inv.1
  have hcc : b.cancelled = true → BAct.cancel ∈ acts := by
    intro h1
    apply Classical.byContradiction
    intro h2
    rw [hc h2] at h1; cases h1
  obtain ⟨hst, hd, hfin⟩ := storedExcept_of hr.inv.1 h hret
  obtain ⟨hw, ⟨r0, he, _⟩, _, _, objs, b0, hp, hs, hrun⟩ := h
  have hlen : objs.length = os.length := by
    unfold prepare at hp
    split at hp
    · cases hp
    · split at hp
      · cases hp
      · exact embed_length hp
  simp only [if_true, Option.some.injEq] at hs
  subst hs
  have sh := run_shrinks _ _ _ hrun
  have hq := sh.queue
  simp only [startBatch2] at hq
  rw [List.range_eq_range', hlen] at hq
  obtain ⟨m, _, m2, m3⟩ := suffix_range' hq
  simp only [Nat.zero_add] at m2 m3
  have ht : b.tasks.flatMap Task.todo = [] := by
    rw [List.flatMap_eq_nil_iff]
    intro t ht
    obtain ⟨i, hi⟩ := List.getElem?_of_mem ht
    have hil : i < workers := by
      have := sh.len
      simp only [startBatch2, List.length_replicate] at this
      rw [← this]; exact (List.getElem?_eq_some_iff.mp hi).1
    have := sh.todo i { todo := [], pc := .wait } t (by simp only [startBatch2]; rw [List.getElem?_replicate, if_pos hil]) hi
    exact List.suffix_nil.mp this
  have hu : b.untaken = List.range' m (os.length - m) := by unfold Batch.untaken; rw [ht, m3, List.append_nil]
  rw [hu] at hst
  refine ⟨m, m2, hst, ?_⟩
  intro hlt t htm
  rcases hd t htm with h1 | h1
  · exfalso
    have := (hfin t htm h1).2
    rw [m3] at this
    have := congrArg List.length this
    simp at this
    omega
  · exact h1.imp (fun h => h) (fun h => ⟨h.1, hcc h.2⟩)

/-- so `InsertBatch2` with a context that was not cancelled reports success only if it stored everything or no worker survived. -/
theorem C57_channel_survivor (fixed : Bool) (L : Lib V D) (dim workers : Nat) (c : Coll) (hr : ReachAnyConc fixed L dim c)
    (os : List (Object V)) (embed : Embed V) (acts : List BAct) (b : Batch V D) (h : BatchAt fixed true L dim workers c os embed acts b)
    (hcan : BAct.cancel ∉ acts) (hret : b.returned none) (t : Task) (ht : t ∈ b.tasks) (hs : t.pc ≠ .panicked) :
    StoredExcept L c os b.c b.objs [] := by
  obtain ⟨stop, h1, h2, h3⟩ := C57_exact_channel fixed L dim workers c hr os embed acts b h hret
  by_cases hlt : stop < os.length
  · rcases h3 hlt t ht with h | h
    · exact absurd h hs
    · exact absurd h.2 hcan
  · have : os.length - stop = 0 := by omega
    rw [this] at h2
    exact h2

/-- the run of `C57_fails`: two chunks, the second worker panics on the third of its four objects; the last object is missing. -/
example : ∃ b, BatchAt false false demoLib 1 2 (Coll.new demoCfg ["a"] false) c57Objs noEmbed c57Acts b ∧
    BAct.cancel ∉ c57Acts ∧ b.returned none ∧ chunks c57Objs.length 2 = [(0, 3), (3, 7)] ∧
    b.tasks.map Task.pc = [.done, .panicked] ∧ b.untaken = [6] := by
  obtain ⟨b, h, hp⟩ := bleads_sound (cfg := demoCfg) (two := false) (fixed := false) (workers := 2) (os := c57Objs)
    (acts := c57Acts) (P := fun b => decide (b.ret = some none) && (decide (b.tasks.map Task.pc = [.done, .panicked]) && decide (b.untaken = [6])))
    (by decide +kernel)
  simp only [Bool.and_eq_true, decide_eq_true_eq] at hp
  exact ⟨b, h, by decide +kernel, hp.1, by decide +kernel, hp.2.1, hp.2.2⟩

end Vectory.Conc
