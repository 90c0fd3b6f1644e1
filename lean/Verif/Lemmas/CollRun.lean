import Verif.Lemmas.CollConc
import Verif.Spec.CollSched
import Verif.Props.Batch
import Verif.Lemmas.Crash
/-! From the start of a batch to its end. -/
namespace Vectory.Conc
open Vectory
variable {V D : Type}

/-! ### The start -/

theorem Dat.start (L : Lib V D) (c : Coll) (objs : List (Object V)) : Dat L c objs c.stores c.counter objs [] [] [] [] := by
  refine ⟨fun _ => rfl, by simp, fun _ _ => rfl, by simp, rfl, fun _ => rfl, fun f0 h => ⟨f0, h, Nat.le_refl _, by simp⟩, by simp, by simp,
    by simp, by simp, by simp, by simp, by simp, by simp, by simp⟩

theorem binv_start {fixed : Bool} {L : Lib V D} {dim : Nat} {c : Coll} {objs : List (Object V)} {n : Nat} {b : Batch V D}
    (hc : b.c = c) (ht : b.ts = (Mach.init c.index n).ts) (ho : b.objs = objs) (hlen : b.tasks.length = n)
    (hw : ∀ t ∈ b.tasks, t.pc = .wait)
    (hcnt : ∀ k, b.queue.count k + tsum (pend k) b.tasks = (List.range objs.length).count k) :
    BInv fixed L dim c objs n b [] [] [] [] [] [] [] := by
  refine ⟨by rw [hc]; exact ⟨rfl, rfl, rfl⟩, ⟨fun k => ?_, fun k => ?_, fun k => ?_⟩, by rw [hc, ho]; exact Dat.start L c objs, ?_, rfl, hlen,
    by rw [ht]; simp [Mach.init], ?_, ?_, ?_, ?_⟩
  · have := hcnt k; simpa using this
  · have : tsum (at1 k) b.tasks = 0 := tsum_zero _ _ (fun t h => by unfold at1; rw [hw t h]; rfl)
    simpa using this
  · have : tsum (at2 k) b.tasks = 0 := tsum_zero _ _ (fun t h => by unfold at2; rw [hw t h]; rfl)
    simpa using this
  · rw [hc, ht]; exact Sched.start
  · intro i t th h1 h2
    rw [hw t (List.mem_of_getElem? h1)]
    rw [ht] at h2
    exact init_quiet _ _ th (List.mem_of_getElem? h2)
  · rintro (h | h | h | ⟨t, h1, e, h2⟩)
    · exact absurd rfl h
    · exact absurd rfl h
    · exact absurd rfl h
    · rw [hw t h1] at h2; cases h2
  · rintro ⟨t, h1, h2⟩
    rw [hw t h1] at h2; cases h2
  · intro t h1 h2
    rw [hw t h1] at h2; cases h2

theorem startBatch_inv {fixed : Bool} {L : Lib V D} {dim : Nat} {c : Coll} {objs : List (Object V)} {n : Nat} {b : Batch V D}
    (hn : 0 < n) (h : startBatch c objs n = some b) : BInv fixed L dim c objs n b [] [] [] [] [] [] [] ∧ b.ret = none ∧
      b.err = none ∧ b.cancelled = false := by
  obtain ⟨todos, h1, h2, h3⟩ := C13_partition (List.range objs.length) n hn
  rw [List.length_range] at h1
  unfold startBatch at h
  simp only [h1] at h
  cases h
  refine ⟨binv_start rfl rfl rfl (by simpa using h2) (by simp) ?_, rfl, rfl, rfl⟩
  intro k
  rw [← h3]
  simp only [List.count_nil, Nat.zero_add, tsum, List.map_map]
  clear h1 h2 h3
  induction todos with
  | nil => rfl
  | cons x xs ih =>
    rw [List.map_cons, List.sum_cons, List.flatten_cons, List.count_append, ih]
    simp [pend]

theorem startBatch2_inv {fixed : Bool} {L : Lib V D} {dim : Nat} {c : Coll} {objs : List (Object V)} {n : Nat} :
    BInv fixed L dim c objs n (startBatch2 c objs n) [] [] [] [] [] [] [] := by
  refine binv_start rfl rfl rfl (by simp [startBatch2]) (by simp [startBatch2]) ?_
  intro k
  rw [tsum_zero]
  · rfl
  · intro t ht
    simp only [startBatch2, List.mem_replicate] at ht
    rw [ht.2]
    simp [pend]

/-! ### The run -/

/-- the batch is running, or has given up, or has ended with the error of a task; or it has ended and the log was flushed. -/
def BState (fixed : Bool) (L : Lib V D) (dim : Nat) (c0 : Coll) (objs0 : List (Object V)) (n : Nat) (P : Nat → Prop) (b : Batch V D) :
    Prop :=
  ∃ F A B X0 X1 X2 js, (∀ j ∈ js, P j.level) ∧
    ((BInv fixed L dim c0 objs0 n b F A B X0 X1 X2 js ∧ (b.ret = none ∨ ∃ e, b.ret = some (some e) ∧ b.err ≠ none)) ∨
    (∃ c1 ff, BInv fixed L dim c0 objs0 n { b with c := c1 } F A B X0 X1 X2 js ∧ b.tasks.all (fun t => t.pc.over) = true ∧
      b.err = none ∧ b.c = (c1.flush ff).1 ∧ b.ret = some ((c1.flush ff).2.map .task)))

theorem work_over {fixed : Bool} {L : Lib V D} {b : Batch V D} (h : b.tasks.all (fun t => t.pc.over) = true) (i : Nat) (env : InsEnv) :
    b.work fixed L i env = none := by
  cases ht : b.tasks[i]? with
  | none => simp [Batch.work, ht]
  | some t =>
    cases hw : b.work fixed L i env with
    | none => rfl
    | some b' =>
      have h1 := index_dead ht hw
      rw [List.all_eq_true] at h
      rw [h t (List.mem_of_getElem? ht)] at h1
      cases h1

theorem BState.step {fixed : Bool} {L : Lib V D} {dim : Nat} {c0 : Coll} {objs0 : List (Object V)} {n : Nat} {P : Nat → Prop}
    {b b' : Batch V D} (ok : BatchOK L dim c0 objs0) (s : BState fixed L dim c0 objs0 n P b) {a : BAct}
    (hl : ∀ i env, a = .work i env → env.level < 4294967296 ∧ P env.level) (h : b.step fixed L a = some b') :
    BState fixed L dim c0 objs0 n P b' := by
  obtain ⟨F, A, B, X0, X1, X2, js, hP, s⟩ := s
  rcases s with ⟨v, hret⟩ | ⟨c1, ff, v, hover, herr, hc, hret⟩
  · cases a with
    | work i env =>
      obtain ⟨h1, h2⟩ := hl i env rfl
      have hw : b.work fixed L i env = some b' := h
      obtain ⟨F', A', B', X0', X1', X2', js', v', hj⟩ := v.work ok h1 hw
      refine ⟨F', A', B', X0', X1', X2', js', ?_, Or.inl ⟨v', ?_⟩⟩
      · rcases hj with rfl | ⟨j, rfl, hj⟩
        · exact hP
        · intro x hx
          rcases List.mem_append.mp hx with hx | hx
          · exact hP x hx
          · rw [List.mem_singleton] at hx; subst hx; rw [hj]; exact h2
      · have hr : b'.ret = b.ret ∧ (b.err ≠ none → b'.err ≠ none) := by
          cases ht : b.tasks[i]? with
          | none => simp [Batch.work, ht] at hw
          | some t =>
            simp only [Batch.work, ht] at hw
            cases hpc : t.pc <;> simp only [hpc] at hw
            case wait => split at hw <;> cases hw <;> exact ⟨rfl, fun h => h⟩
            case loop =>
              split at hw
              · cases hw; exact ⟨rfl, fun h => h⟩
              · split at hw <;> cases hw <;> exact ⟨rfl, fun h => h⟩
            case fetch =>
              split at hw <;> cases hw
              · exact ⟨rfl, fun _ => orElse_ne _ _⟩
              · exact ⟨rfl, fun h => h⟩
            case putObj =>
              split at hw
              · cases hw
              · split at hw
                · cases hw; exact ⟨rfl, fun _ => orElse_ne _ _⟩
                · split at hw <;> cases hw
                  · exact ⟨rfl, fun _ => orElse_ne _ _⟩
                  · exact ⟨rfl, fun h => h⟩
            case putVec =>
              split at hw
              · cases hw
              · split at hw <;> cases hw
                · exact ⟨rfl, fun _ => orElse_ne _ _⟩
                · exact ⟨rfl, fun h => h⟩
            case index =>
              split at hw
              · cases hw
              · split at hw <;> cases hw
                exact ⟨rfl, fun h => h⟩
            all_goals cases hw
        rw [hr.1]
        exact hret.imp (fun h => h) (fun ⟨e, h3, h4⟩ => ⟨e, h3, hr.2 h4⟩)
    | cancel =>
      cases h
      exact ⟨F, A, B, X0, X1, X2, js, hP, Or.inl ⟨v.frozen rfl rfl rfl rfl rfl (fun h => h) (fun _ => rfl), hret⟩⟩
    | finish ff =>
      simp only [Batch.step] at h
      split at h
      · rename_i hc
        cases he : b.err with
        | some e =>
          simp only [he] at h
          cases h
          exact ⟨F, A, B, X0, X1, X2, js, hP, Or.inl ⟨v.frozen rfl rfl rfl rfl rfl (fun _ => by simp) (fun h => h), Or.inr ⟨e, rfl, by simp⟩⟩⟩
        | none =>
          simp only [he] at h
          cases h
          refine ⟨F, A, B, X0, X1, X2, js, hP, Or.inr ⟨b.c, ff, ?_, hc.2, rfl, rfl, rfl⟩⟩
          exact v.frozen rfl rfl rfl rfl rfl (fun h => absurd he h) (fun h => h)
      · cases h
    | giveUp =>
      simp only [Batch.step] at h
      split at h
      · cases h
        exact ⟨F, A, B, X0, X1, X2, js, hP, Or.inl ⟨v.frozen rfl rfl rfl rfl rfl (fun _ => by simp) (fun h => h), Or.inr ⟨_, rfl, by simp⟩⟩⟩
      · cases h
  · cases a with
    | work i env =>
      have hw : b.work fixed L i env = some b' := h
      rw [work_over hover] at hw; cases hw
    | cancel =>
      cases h
      exact ⟨F, A, B, X0, X1, X2, js, hP, Or.inr ⟨c1, ff, v.frozen rfl rfl rfl rfl rfl (fun h => h) (fun _ => rfl), hover, herr, hc, hret⟩⟩
    | finish ff => simp [Batch.step, hret] at h
    | giveUp => simp [Batch.step, hret] at h

theorem BState.run {fixed : Bool} {L : Lib V D} {dim : Nat} {c0 : Coll} {objs0 : List (Object V)} {n : Nat} {P : Nat → Prop}
    (ok : BatchOK L dim c0 objs0) : ∀ (acts : List BAct) (b b' : Batch V D), BState fixed L dim c0 objs0 n P b →
      (∀ i env, BAct.work i env ∈ acts → env.level < 4294967296 ∧ P env.level) → b.run fixed L acts = some b' →
      BState fixed L dim c0 objs0 n P b' := by
  intro acts
  induction acts with
  | nil => intro b b' s _ h; cases h; exact s
  | cons a as ih =>
    intro b b' s hl h
    simp only [Batch.run] at h
    cases hs : b.step fixed L a with
    | none => simp only [hs] at h; cases h
    | some b1 =>
      simp only [hs] at h
      exact ih b1 b' (s.step ok (fun i env e => hl i env (by rw [e]; exact List.mem_cons_self)) hs)
        (fun i env hm => hl i env (List.mem_cons_of_mem _ hm)) h

/-- nothing cancels the group's context except a task's error. -/
theorem run_cancelled {fixed : Bool} {L : Lib V D} : ∀ (acts : List BAct) (b b' : Batch V D), b.cancelled = false →
    BAct.cancel ∉ acts → b.run fixed L acts = some b' → b'.cancelled = false := by
  intro acts
  induction acts with
  | nil => intro b b' s _ h; cases h; exact s
  | cons a as ih =>
    intro b b' s hl h
    simp only [Batch.run] at h
    cases hs : b.step fixed L a with
    | none => simp only [hs] at h; cases h
    | some b1 =>
      simp only [hs] at h
      refine ih b1 b' ?_ (fun hm => hl (List.mem_cons_of_mem _ hm)) h
      cases a with
      | cancel => exact absurd List.mem_cons_self hl
      | finish ff =>
        simp only [Batch.step] at hs
        split at hs
        · split at hs <;> cases hs <;> exact s
        · cases hs
      | giveUp =>
        simp only [Batch.step] at hs
        split at hs
        · cases hs; exact s
        · cases hs
      | work i env =>
        have hw : b.work fixed L i env = some b1 := hs
        rw [← s]
        cases ht : b.tasks[i]? with
        | none => simp [Batch.work, ht] at hw
        | some t =>
          simp only [Batch.work, ht] at hw
          cases hpc : t.pc <;> simp only [hpc] at hw
          case wait => split at hw <;> cases hw <;> rfl
          case loop =>
            split at hw
            · cases hw; rfl
            · split at hw <;> cases hw <;> rfl
          case fetch => split at hw <;> cases hw <;> rfl
          case putObj =>
            split at hw
            · cases hw
            · split at hw
              · cases hw; rfl
              · split at hw <;> cases hw <;> rfl
          case putVec =>
            split at hw
            · cases hw
            · split at hw <;> cases hw <;> rfl
          case index =>
            split at hw
            · cases hw
            · split at hw <;> cases hw
              rfl
          all_goals cases hw

end Vectory.Conc
