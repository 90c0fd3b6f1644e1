import Verif.Lemmas.BatchLost
import Verif.Props.CollConc
/-! # C56: what can still change after a batch has returned -/
namespace Vectory.Conc
open Vectory
variable {V D : Type}

/-- the task has started and has not ended. -/
def TPC.running (pc : TPC) : Bool := decide (pc ≠ .wait) && !pc.over

/-- the task still has the object at position `k` before it: it is about to fetch an id for it, or has it in its list, or (`InsertBatch2`)
it is in the shared channel. -/
def Batch.ahead (b : Batch V D) (t : Task) (k : Nat) : Prop := t.pc = .fetch k ∨ k ∈ t.todo ∨ k ∈ b.queue

/-- the call has returned, and no task can start any more. -/
def Batch.late (b : Batch V D) : Prop := b.ret ≠ none ∧ (b.ctxDone = true ∨ ∀ t ∈ b.tasks, t.pc.over = true)

/-- steps after the return. -/
structure After (b b' : Batch V D) : Prop where
  late : b'.late
  ret : b'.ret = b.ret
  len : b'.tasks.length = b.tasks.length
  idle : ∀ (i : Nat) (t : Task), b.tasks[i]? = some t → t.pc.running = false →
    ∃ t', b'.tasks[i]? = some t' ∧ t'.pc.running = false ∧ t'.todo = t.todo
  still : (∀ t ∈ b.tasks, t.pc.running = false) → b'.c = b.c ∧ b'.objs = b.objs
  from' : ∀ k : Nat, b'.objs[k]? ≠ b.objs[k]? → ∃ t ∈ b.tasks, t.pc.running = true ∧ b.ahead t k
  back : ∀ (t' : Task) (k : Nat), t' ∈ b'.tasks → t'.pc.running = true → b'.ahead t' k →
    ∃ t ∈ b.tasks, t.pc.running = true ∧ b.ahead t k

theorem After.refl {b : Batch V D} (h : b.late) : After b b :=
  ⟨h, rfl, rfl, fun _ t h1 h2 => ⟨t, h1, h2, rfl⟩, fun _ => ⟨rfl, rfl⟩, fun _ h => absurd rfl h, fun t' _ h1 h2 h3 => ⟨t', h1, h2, h3⟩⟩

theorem After.trans {b1 b2 b3 : Batch V D} (h : After b1 b2) (h' : After b2 b3) : After b1 b3 := by
  refine ⟨h'.late, h'.ret.trans h.ret, h'.len.trans h.len, ?_, ?_, ?_, ?_⟩
  · intro i t h1 h2
    obtain ⟨t', h3, h4, h5⟩ := h.idle i t h1 h2
    obtain ⟨t2, h6, h7, h8⟩ := h'.idle i t' h3 h4
    exact ⟨t2, h6, h7, h8.trans h5⟩
  · intro hn
    obtain ⟨e1, e2⟩ := h.still hn
    obtain ⟨e3, e4⟩ := h'.still (by
      intro t ht
      obtain ⟨i, hi⟩ := List.getElem?_of_mem ht
      have hil : i < b1.tasks.length := by rw [← h.len]; exact (List.getElem?_eq_some_iff.mp hi).1
      obtain ⟨t', h3, h4, _⟩ := h.idle i _ (List.getElem?_eq_getElem hil) (hn _ (List.getElem_mem hil))
      rw [hi] at h3; cases h3
      exact h4)
    exact ⟨e3.trans e1, e4.trans e2⟩
  · intro k hk
    by_cases h2 : b2.objs[k]? = b1.objs[k]?
    · obtain ⟨t, ht, hr, ha⟩ := h'.from' k (by rw [h2]; exact hk)
      exact h.back t k ht hr ha
    · exact h.from' k h2
  · intro t' k ht hr ha
    obtain ⟨t, h1, h2, h3⟩ := h'.back t' k ht hr ha
    exact h.back t k h1 h2 h3

/-- a step of a running task. -/
theorem After.set {b b' : Batch V D} {i : Nat} {t t' : Task} (hl : b.late) (ht : b.tasks[i]? = some t) (hrun : t.pc.running = true)
    (h : b'.tasks = b.tasks.set i t') (hret : b'.ret = b.ret) (hctx : b.ctxDone = true → b'.ctxDone = true)
    (hq : ∀ k, k ∈ b'.queue → k ∈ b.queue)
    (ha : ∀ k, t'.pc = .fetch k ∨ k ∈ t'.todo → b.ahead t k)
    (hobj : ∀ k : Nat, b'.objs[k]? ≠ b.objs[k]? → t.pc = .fetch k) : After b b' := by
  have hmem := List.mem_of_getElem? ht
  refine ⟨⟨by rw [hret]; exact hl.1, ?_⟩, hret, by rw [h, List.length_set], ?_, ?_, ?_, ?_⟩
  · rcases hl.2 with hc | hc
    · exact Or.inl (hctx hc)
    · have := hc t hmem
      unfold TPC.running at hrun
      rw [this] at hrun
      simp at hrun
  · intro j x hx hxr
    have hne : i ≠ j := by
      rintro rfl
      rw [ht] at hx; cases hx
      rw [hrun] at hxr; cases hxr
    exact ⟨x, by rw [h, List.getElem?_set_ne hne]; exact hx, hxr, rfl⟩
  · intro hn
    have := hn t hmem
    rw [hrun] at this; cases this
  · intro k hk
    exact ⟨t, hmem, hrun, Or.inl (hobj k hk)⟩
  · intro x k hx hxr hxa
    rw [h] at hx
    rcases List.mem_or_eq_of_mem_set hx with hx | hx
    · refine ⟨x, hx, hxr, ?_⟩
      rcases hxa with e | e | e
      · exact Or.inl e
      · exact Or.inr (Or.inl e)
      · exact Or.inr (Or.inr (hq k e))
    · subst hx
      refine ⟨t, hmem, hrun, ?_⟩
      rcases hxa with e | e | e
      · exact ha k (Or.inl e)
      · exact ha k (Or.inr e)
      · exact Or.inr (Or.inr (hq k e))

theorem work_after {fixed : Bool} {L : Lib V D} {b b' : Batch V D} {i : Nat} {env : InsEnv} (hl : b.late)
    (h : b.work fixed L i env = some b') : After b b' := by
  unfold Batch.work at h
  cases ht : b.tasks[i]? with
  | none => rw [ht] at h; cases h
  | some t =>
    rw [ht] at h
    dsimp only at h
    have go : ∀ (b1 : Batch V D) (pc : TPC), t.pc.running = true → b1.tasks = b.tasks → b1.queue = b.queue → b1.ret = b.ret →
        b1.err = b.err → b1.cancelled = b.cancelled → (∀ k : Nat, b1.objs[k]? ≠ b.objs[k]? → t.pc = .fetch k) →
        (∀ k, pc ≠ .fetch k) → After b (b1.goto i t pc) := by
      intro b1 pc hr h1 h2 h3 h4 h5 h6 h7
      refine After.set (t' := { t with pc := pc }) hl ht hr (by show b1.tasks.set i _ = _; rw [h1]) h3 ?_
        (fun k hk => by rw [← h2]; exact hk) ?_ h6
      · intro hc; unfold Batch.ctxDone at *; show (b1.err.isSome || b1.cancelled) = true; rw [h4, h5]; exact hc
      · rintro k (e | e)
        · exact absurd e (h7 k)
        · exact Or.inr (Or.inl e)
    have fl : ∀ (b1 : Batch V D) (e : Err), t.pc.running = true → b1.tasks = b.tasks → b1.queue = b.queue → b1.ret = b.ret →
        b1.objs = b.objs → After b (b1.fail i t e) := by
      intro b1 e hr h1 h2 h3 h4
      refine After.set (t' := { t with pc := .failed e }) hl ht hr (by show b1.tasks.set i _ = _; rw [h1]) h3 ?_
        (fun k hk => by rw [← h2]; exact hk) ?_ ?_
      · intro _
        show ((b1.err <|> some (GroupErr.task e)).isSome || b1.cancelled) = true
        cases b1.err <;> rfl
      · rintro k (e | e)
        · cases e
        · exact Or.inr (Or.inl e)
      · intro k hk
        exact absurd (by show b1.objs[k]? = _; rw [h4]) hk
    have obj0 : ∀ k : Nat, b.objs[k]? ≠ b.objs[k]? → t.pc = .fetch k := fun k hk => absurd rfl hk
    split at h
    · rename_i hpc
      have hc : b.ctxDone = true := by
        rcases hl.2 with hc | hc
        · exact hc
        · have := hc t (List.mem_of_getElem? ht)
          rw [hpc] at this; cases this
      rw [if_pos hc] at h
      cases h
      refine ⟨⟨hl.1, Or.inl hc⟩, rfl, by show (b.tasks.set i _).length = _; rw [List.length_set], ?_, fun _ => ⟨rfl, rfl⟩, fun k hk => absurd rfl hk, ?_⟩
      · intro j x hx hxr
        show ∃ t', (b.tasks.set i { t with pc := .skipped })[j]? = some t' ∧ _
        by_cases hij : i = j
        · subst hij
          rw [ht] at hx; cases hx
          exact ⟨{ t with pc := .skipped }, by rw [List.getElem?_set_self (List.getElem?_eq_some_iff.mp ht).1], rfl, rfl⟩
        · exact ⟨x, by rw [List.getElem?_set_ne hij]; exact hx, hxr, rfl⟩
      · intro x k hx hxr hxa
        rcases List.mem_or_eq_of_mem_set hx with hx | hx
        · exact ⟨x, hx, hxr, hxa⟩
        · subst hx; cases hxr
    · rename_i hpc
      have hr : t.pc.running = true := by rw [hpc]; rfl
      split at h
      · rename_i k ks hk
        cases h
        refine After.set (t' := { todo := ks, pc := .fetch k }) hl ht hr rfl rfl (fun h => h) (fun k hk => hk) ?_ obj0
        rintro k' (e | e)
        · cases e; exact Or.inr (Or.inl (by rw [hk]; exact List.mem_cons_self))
        · exact Or.inr (Or.inl (by rw [hk]; exact List.mem_cons_of_mem _ e))
      · rename_i hk
        split at h
        · rename_i k q hq
          cases h
          refine After.set (t' := { todo := [], pc := .fetch k }) hl ht hr rfl rfl (fun h => h)
            (fun k' hk' => by rw [hq]; exact List.mem_cons_of_mem _ hk') ?_ obj0
          rintro k' (e | e)
          · cases e; exact Or.inr (Or.inr (by rw [hq]; exact List.mem_cons_self))
          · cases e
        · cases h; exact go b .done hr rfl rfl rfl rfl rfl obj0 (fun k => by simp)
    · rename_i k hpc
      have hr : t.pc.running = true := by rw [hpc]; rfl
      split at h <;> cases h
      · exact fl _ _ hr rfl rfl rfl rfl
      · refine go _ (.putObj k) hr rfl rfl rfl rfl rfl ?_ (fun k => by simp)
        intro k' hk'
        by_cases e : k = k'
        · rw [hpc, e]
        · exfalso
          apply hk'
          show (b.objs.modify k _)[k']? = _
          rw [List.getElem?_modify]
          cases b.objs[k']? <;> simp [e]
    · rename_i k hpc
      have hr : t.pc.running = true := by rw [hpc]; rfl
      split at h
      · cases h
      · split at h
        · cases h; exact fl _ _ hr rfl rfl rfl rfl
        · split at h <;> cases h
          · exact fl _ _ hr rfl rfl rfl rfl
          · exact go _ (.putVec k) hr rfl rfl rfl rfl rfl obj0 (fun k => by simp)
    · rename_i k hpc
      have hr : t.pc.running = true := by rw [hpc]; rfl
      split at h
      · cases h
      · split at h <;> cases h
        · exact fl _ _ hr rfl rfl rfl rfl
        · exact go _ (.index k) hr rfl rfl rfl rfl rfl obj0 (fun k => by simp)
    · rename_i k hpc
      have hr : t.pc.running = true := by rw [hpc]; rfl
      split at h
      · cases h
      · split at h
        · cases h
        · rename_i th _
          cases h
          refine go _ (afterIndex k th.pc) hr rfl rfl rfl rfl rfl obj0 (fun k => ?_)
          unfold afterIndex
          split <;> simp
    all_goals cases h

theorem step_after {fixed : Bool} {L : Lib V D} {b b' : Batch V D} {a : BAct} (hl : b.late) (h : b.step fixed L a = some b') :
    After b b' := by
  cases a with
  | work i env => exact work_after hl h
  | cancel =>
    cases h
    have r := After.refl hl
    exact ⟨⟨hl.1, Or.inl (by unfold Batch.ctxDone; simp)⟩, rfl, rfl, r.idle, r.still, r.from', r.back⟩
  | finish ff =>
    simp only [Batch.step] at h
    rw [if_neg (fun h => hl.1 h.1)] at h
    cases h
  | giveUp =>
    simp only [Batch.step] at h
    rw [if_neg (fun h => hl.1 h.1)] at h
    cases h

theorem run_after {fixed : Bool} {L : Lib V D} : ∀ (acts : List BAct) (b b' : Batch V D), b.late → b.run fixed L acts = some b' →
    After b b' := by
  intro acts
  induction acts with
  | nil => intro b b' hl h; cases h; exact After.refl hl
  | cons a as ih =>
    intro b b' hl h
    simp only [Batch.run] at h
    split at h
    · cases h
    · rename_i b1 h1
      have s := step_after hl h1
      exact s.trans (ih _ _ s.late h)

theorem BatchAt.late {fixed two : Bool} {L : Lib V D} {dim workers : Nat} {X : UInt64 → Prop} {c : Coll} {os : List (Object V)}
    {embed : Embed V} {acts : List BAct} {b : Batch V D} (i : WInv False L dim X c) (h : BatchAt fixed two L dim workers c os embed acts b)
    (hret : b.ret ≠ none) : b.late := by
  obtain ⟨objs, _, _, _, _, _, ⟨F, A, B, X0, X1, X2, js, _, s⟩, _⟩ := h.state i
  refine ⟨hret, ?_⟩
  rcases s with ⟨v, hr | ⟨e, hr, he⟩⟩ | ⟨c1, ff, v, hover, _⟩
  · exact absurd hr hret
  · left
    unfold Batch.ctxDone
    cases hb : b.err with
    | none => exact absurd hb he
    | some _ => rfl
  · exact Or.inr (List.all_eq_true.mp hover)

/-- **C56, exactly.** Once `InsertBatch` or `InsertBatch2` has returned - with or without an error - then whatever happens afterwards:
workers that had not started by then never start and workers that had ended stay so; if no worker was running at the return nothing
changes any more, neither the collection nor the caller's objects; and an object of the batch that receives an id after the return is one
that a worker running at the return still had before it. Objects that could be read before the call read the same throughout. -/
theorem C56_exact (fixed two : Bool) (L : Lib V D) (dim workers : Nat) (c : Coll) (hr : ReachAnyConc fixed L dim c)
    (os : List (Object V)) (embed : Embed V) (acts : List BAct) (b : Batch V D)
    (h : BatchAt fixed two L dim workers c os embed acts b) (hret : b.ret ≠ none) (more : List BAct) (b' : Batch V D)
    (hm : b.run fixed L more = some b') (hlev : ∀ i env, BAct.work i env ∈ more → env.level < 4294967296) :
    b'.ret = b.ret ∧
    (∀ (i : Nat) (t : Task), b.tasks[i]? = some t → t.pc.running = false →
      ∃ t', b'.tasks[i]? = some t' ∧ t'.pc.running = false ∧ t'.todo = t.todo) ∧
    ((∀ t ∈ b.tasks, t.pc.running = false) → b'.c = b.c ∧ b'.objs = b.objs) ∧
    (∀ k : Nat, b'.objs[k]? ≠ b.objs[k]? → ∃ t ∈ b.tasks, t.pc.running = true ∧ b.ahead t k) ∧
    (∀ (id : UInt64) (o : Object V), c.get L [id] = .ok [o] → b'.c.get L [id] = .ok [o]) := by
  have a := run_after more b b' (h.late hr.inv.1 hret) hm
  refine ⟨a.ret, a.idle, a.still, a.from', fun id o ho => ?_⟩
  obtain ⟨h1, h2, h3, h4, objs, b0, h5, h6, h7⟩ := h
  have hb : BatchAt fixed two L dim workers c os embed (acts ++ more) b' := by
    refine ⟨h1, h2, h3, ?_, objs, b0, h5, h6, ?_⟩
    · intro i env hi
      rcases List.mem_append.mp hi with hi | hi
      · exact h4 i env hi
      · exact hlev i env hi
    · rw [Batch.run_append acts more b0 b h7]; exact hm
  exact C09_batch_any_schedule fixed two L dim workers c hr os embed (acts ++ more) b' hb id o ho

/-- **C56, when nothing runs.** If no worker failed and the context was not given up on - so the call returned nil or the error of the
final flush - no worker is running at the return. -/
theorem C56_nothing_running (fixed two : Bool) (L : Lib V D) (dim workers : Nat) (c : Coll) (hr : ReachAnyConc fixed L dim c)
    (os : List (Object V)) (embed : Embed V) (acts : List BAct) (b : Batch V D)
    (h : BatchAt fixed two L dim workers c os embed acts b) (hret : b.ret ≠ none) (hn : b.err = none) :
    ∀ t ∈ b.tasks, t.pc.running = false := by
  obtain ⟨objs, _, _, _, _, _, ⟨F, A, B, X0, X1, X2, js, _, s⟩, _⟩ := h.state hr.inv.1
  rcases s with ⟨v, hr | ⟨e, hr, he⟩⟩ | ⟨c1, ff, v, hover, _⟩
  · exact absurd hr hret
  · exact absurd hn he
  · intro t ht
    have := List.all_eq_true.mp hover t ht
    unfold TPC.running
    rw [this]; simp

/-- the run of `C56_fails` at the return: the second worker is running and still has its object before it. -/
example : ∃ b, BatchAt false false demoLib 1 2 (Coll.new demoCfg ["a"] false) [demoObj 3, demoObj 5] noEmbed
    [.work 0 {}, .work 1 {}, .work 1 {}, .work 0 {}, .work 0 { counterFails := true }, .giveUp] b ∧ b.ret = some (some (.task .io)) ∧
    b.tasks.map (fun t => t.pc) = [.failed .io, .fetch 1] := by
  obtain ⟨b, h, hp⟩ := bleads_sound (cfg := demoCfg) (two := false) (fixed := false) (workers := 2) (os := [demoObj 3, demoObj 5])
    (acts := [.work 0 {}, .work 1 {}, .work 1 {}, .work 0 {}, .work 0 { counterFails := true }, .giveUp])
    (P := fun b => decide (b.ret = some (some (.task .io))) && decide (b.tasks.map (fun t => t.pc) = [.failed .io, .fetch 1])) (by decide +kernel)
  simp only [Bool.and_eq_true, decide_eq_true_eq] at hp
  exact ⟨b, h, hp.1, hp.2⟩

end Vectory.Conc
