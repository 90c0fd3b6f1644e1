import Verif.Lemmas.Growth
import Verif.Spec.GrowthConc
import Verif.Lemmas.CollEnd
import Verif.Lemmas.DiskWhole
/-! # How the index log grows while several workers insert -/
namespace Vectory.Conc
open Vectory
variable {V D : Type}

/-- the most records a goroutine may still add to the log in the search of phase `ph`. -/
def Phase.left (m level : Nat) : Phase → Nat
  | .lookup _ => 1 + (level + 1) * (m + 1)
  | .construct l => 1 + (l + 1) * (m + 1)

/-- the most records a goroutine may still add to the log in this call. -/
def PC.left (m level : Nat) : PC D → Nat
  | .idle => 0
  | .start => perObject m level
  | .create => perObject m level
  | .publish => 1 + (level + 1) * (m + 1)
  | .enter => 1 + (level + 1) * (m + 1)
  | .layer _ ph _ => ph.left m level
  | .pop _ ph _ _ => ph.left m level
  | .copy _ ph _ _ _ _ => ph.left m level
  | .visit _ ph _ _ _ => ph.left m level
  | .logOwn _ l _ ns => 2 + ns.length + l * (m + 1)
  | .setOwn _ l _ ns => 1 + ns.length + l * (m + 1)
  | .link _ l _ todo => 1 + todo.length + l * (m + 1)
  | .addLog _ l _ _ rest => 2 + rest.length + l * (m + 1)
  | .addRead _ l _ _ rest => 1 + rest.length + l * (m + 1)
  | .addWrite _ l _ _ rest _ => 1 + rest.length + l * (m + 1)
  | .pruneLog _ l _ _ rest _ => 2 + rest.length + l * (m + 1)
  | .pruneSet _ l _ _ rest _ => 1 + rest.length + l * (m + 1)
  | .finish _ => 1
  | .dead _ _ => 0

def Phase.owes : Phase → Nat
  | .lookup _ => 1
  | .construct l => l + 1

/-- the records a goroutine will still add to the log at least, if it does not panic. -/
def PC.owes : PC D → Nat
  | .start => 2
  | .create => 2
  | .publish => 1
  | .enter => 1
  | .layer _ ph _ => ph.owes
  | .pop _ ph _ _ => ph.owes
  | .copy _ ph _ _ _ _ => ph.owes
  | .visit _ ph _ _ _ => ph.owes
  | .logOwn _ l _ _ => l + 1
  | .setOwn _ l _ _ => l
  | .link _ l _ _ => l
  | .addLog _ l _ _ _ => l
  | .addRead _ l _ _ _ => l
  | .addWrite _ l _ _ _ _ => l
  | .pruneLog _ l _ _ _ _ => l
  | .pruneSet _ l _ _ _ _ => l
  | _ => 0

/-- the links a goroutine is about to log are not more than allowed. -/
def PC.small (cfg : Cfg) : PC D → Prop
  | .logOwn _ _ _ ns => ns.length ≤ cfg.m
  | .pruneLog _ _ _ _ _ new => new.length ≤ cfg.mMax0
  | _ => True

/-- what one step does to the log. -/
def Moves (h : Hnsw) (level : Nat) (pc : PC D) (h' : Hnsw) (pc' : PC D) : Prop :=
  pc'.small h.cfg ∧ ∃ n, Adds n n h h' ∧ n + pc'.left h.cfg.m level ≤ pc.left h.cfg.m level ∧
    (pc'.panicked = false → pc.owes ≤ n + pc'.owes)

theorem Moves.dead (h : Hnsw) (level : Nat) (pc : PC D) (p : Panic) (x : Option UInt64) : Moves h level pc h (.dead p x) :=
  ⟨trivial, 0, Adds.refl _, by show 0 + 0 ≤ _; omega, (fun h => nomatch h)⟩

/-- a step that writes nothing to the log. -/
theorem Moves.quiet {h h' : Hnsw} {level : Nat} {pc pc' : PC D} (hw : h'.wal = h.wal) (hc : h'.cfg = h.cfg) (hs : pc'.small h.cfg)
    (hl : pc'.left h.cfg.m level ≤ pc.left h.cfg.m level) (ho : pc.owes ≤ pc'.owes) : Moves h level pc h' pc' :=
  ⟨hs, 0, (Adds.refl h).same rfl rfl hw hc, by omega, fun _ => by omega⟩

theorem Moves.orDie {A : Type} {h : Hnsw} {level : Nat} {pc : PC D} {x : Option UInt64} {r : Except Panic A} {k : A → PC D}
    (hk : ∀ a, r = .ok a → Moves h level pc h (k a)) : Moves h level pc h (orDie x r k) := by
  cases r with
  | error p => exact Moves.dead ..
  | ok a => exact hk a rfl

theorem afterSearch_moves {M : Metric D} {h : Hnsw} {j : Job} {cur : Nat} {ph : Phase} {nns : List (Elem D)} {pc : PC D}
    (hl : pc.left h.cfg.m j.level = ph.left h.cfg.m j.level) (ho : pc.owes = ph.owes) : Moves h j.level pc h (afterSearch M h j cur ph nns) := by
  have hmul : (min cur j.level + 1) * (h.cfg.m + 1) ≤ (j.level + 1) * (h.cfg.m + 1) := Nat.mul_le_mul_right _ (by omega)
  cases ph with
  | lookup n =>
    simp only [afterSearch]
    cases nns with
    | nil => exact Moves.dead ..
    | cons e es =>
      cases n with
      | zero =>
        refine Moves.quiet rfl rfl trivial ?_ ?_
        · rw [hl]; simp only [PC.left, Phase.left]; omega
        · rw [ho]; simp only [PC.owes, Phase.owes]; omega
      | succ n =>
        refine Moves.quiet rfl rfl trivial ?_ ?_
        · rw [hl]; simp only [PC.left, Phase.left]; omega
        · rw [ho]; simp only [PC.owes, Phase.owes]; omega
  | construct l =>
    simp only [afterSearch]
    refine Moves.orDie ?_
    intro ns hn
    have := selectNeighbors_length hn
    refine Moves.quiet rfl rfl this ?_ ?_
    · rw [hl]; simp only [PC.left, Phase.left]; rw [Nat.succ_mul]; omega
    · rw [ho]; simp only [PC.owes, Phase.owes]; omega

theorem Moves.logs {h : Hnsw} {level : Nat} {pc pc' : PC D} {r : Bytes} {h' : Hnsw} (hr : r.length ≤ largestRecord h.cfg)
    (hw : h'.wal = (h.log r).wal) (hc : h'.cfg = h.cfg) (hs : pc'.small h.cfg)
    (hl : 1 + pc'.left h.cfg.m level ≤ pc.left h.cfg.m level) (ho : pc.owes ≤ 1 + pc'.owes) : Moves h level pc h' pc' :=
  ⟨hs, 1, (adds_log h hr).same rfl rfl hw hc, hl, fun _ => ho⟩

theorem stepPC_moves {fixed : Bool} {M : Metric D} {h h' : Hnsw} {locked : UInt64 → Bool} {j : Job} {pc pc' : PC D}
    (hs : stepPC fixed M h locked j pc = some (h', pc')) (hp : pc.small h.cfg) : Moves h j.level pc h' pc' := by
  have h13 : 13 ≤ largestRecord h.cfg := by unfold largestRecord; omega
  have h21 : 21 ≤ largestRecord h.cfg := by unfold largestRecord; omega
  cases pc with
  | idle => cases hs
  | start =>
    simp only [stepPC] at hs
    split at hs
    · cases hs
      have a := adds_log h (r := recSetEntryPoint j.id 0) h13
      have b := adds_log (h.log (recSetEntryPoint j.id 0)) (r := recAddVertex j.id 0) h13
      refine ⟨trivial, 2, (a.trans b).same rfl rfl rfl rfl, ?_, fun _ => ?_⟩
      · simp only [PC.left, perObject]; omega
      · simp only [PC.owes]; omega
    · cases hs; exact Moves.quiet rfl rfl trivial (Nat.le_refl _) (Nat.le_refl _)
  | create =>
    simp only [stepPC] at hs
    split at hs
    · cases hs; exact Moves.dead ..
    · cases hs
      refine Moves.logs (r := recAddVertex j.id (UInt32.ofNat j.level)) h13 rfl rfl trivial ?_ ?_
      · simp only [PC.left, perObject]; omega
      · simp only [PC.owes]; omega
  | publish =>
    simp only [stepPC] at hs
    cases hs
    exact Moves.quiet rfl rfl trivial (Nat.le_refl _) (Nat.le_refl _)
  | enter =>
    simp only [stepPC] at hs
    cases hs
    refine Moves.orDie ?_
    intro d _
    have hmul : (min h.maxLayer j.level + 1) * (h.cfg.m + 1) ≤ (j.level + 1) * (h.cfg.m + 1) := Nat.mul_le_mul_right _ (by omega)
    refine Moves.quiet rfl rfl trivial ?_ ?_
    · simp only [PC.left]; split <;> simp only [Phase.left] <;> omega
    · simp only [PC.owes]; split <;> simp only [Phase.owes] <;> omega
  | layer cur ph eps =>
    simp only [stepPC] at hs
    split at hs
    · cases hs; exact Moves.dead ..
    · cases hs; exact Moves.quiet rfl rfl trivial (Nat.le_refl _) (Nat.le_refl _)
  | pop cur ph s buf =>
    simp only [stepPC] at hs
    split at hs
    · cases hs; exact afterSearch_moves rfl rfl
    · split at hs
      · cases hs; exact Moves.dead ..
      · split at hs
        · cases hs; exact afterSearch_moves rfl rfl
        · split at hs
          · cases hs; exact Moves.dead ..
          · split at hs
            · cases hs
            · cases hs
              refine Moves.orDie ?_
              intro conns _
              split
              · exact Moves.dead ..
              · exact Moves.quiet rfl rfl trivial (Nat.le_refl _) (Nat.le_refl _)
  | copy cur ph s buf c n =>
    simp only [stepPC] at hs
    cases hs
    refine Moves.orDie ?_
    intro conns _
    exact Moves.quiet rfl rfl trivial (Nat.le_refl _) (Nat.le_refl _)
  | visit cur ph s buf todo =>
    cases todo with
    | nil =>
      simp only [stepPC] at hs
      cases hs
      exact Moves.quiet rfl rfl trivial (Nat.le_refl _) (Nat.le_refl _)
    | cons x todo =>
      simp only [stepPC] at hs
      cases hs
      refine Moves.orDie ?_
      intro conns _
      exact Moves.quiet rfl rfl trivial (Nat.le_refl _) (Nat.le_refl _)
  | logOwn cur l nns ns =>
    simp only [stepPC] at hs
    split at hs
    · cases hs
    · cases hs
      have : ns.length ≤ h.cfg.m := hp
      refine Moves.logs (r := recSetConnections j.id (UInt32.ofNat l) ns) ?_ rfl rfl trivial ?_ ?_
      · rw [recSetConnections_length]; unfold largestRecord; omega
      · simp only [PC.left]; omega
      · simp only [PC.owes]; omega
  | setOwn cur l nns ns =>
    simp only [stepPC] at hs
    split at hs
    · cases hs; exact Moves.dead ..
    · cases hs; exact Moves.quiet rfl rfl trivial (Nat.le_refl _) (Nat.le_refl _)
  | link cur l nns todo =>
    cases todo with
    | nil =>
      simp only [stepPC] at hs
      cases l with
      | zero => cases hs; exact Moves.quiet rfl rfl trivial (by simp only [PC.left]; omega) (Nat.le_refl _)
      | succ l => cases hs; exact Moves.quiet rfl rfl trivial (by simp only [PC.left, Phase.left, List.length_nil]; omega) (Nat.le_refl _)
    | cons n rest =>
      simp only [stepPC] at hs
      split at hs
      · cases hs; exact Moves.dead ..
      · split at hs
        · cases hs
        · cases hs
          refine Moves.orDie ?_
          intro conns _
          split
          · exact Moves.quiet rfl rfl trivial (by simp only [PC.left, List.length_cons]; omega) (Nat.le_refl _)
          · refine Moves.orDie ?_
            intro new hn
            unfold prune at hn
            obtain ⟨d, _, hn⟩ := (bind_ok_iff _ _ _).mp hn
            obtain ⟨es, _, hn⟩ := (bind_ok_iff _ _ _).mp hn
            have h1 := selectNeighbors_length hn
            have h2 : maxConn h.cfg l ≤ h.cfg.mMax0 := by unfold maxConn Cfg.mMax0; split <;> omega
            exact Moves.quiet rfl rfl (Nat.le_trans h1 h2) (by simp only [PC.left, List.length_cons]; omega) (Nat.le_refl _)
  | addLog cur l nns n rest =>
    simp only [stepPC] at hs
    cases hs
    refine Moves.logs (r := recAddConnection n (UInt32.ofNat l) j.id) h21 rfl rfl trivial ?_ ?_
    · simp only [PC.left]; omega
    · simp only [PC.owes]; omega
  | addRead cur l nns n rest =>
    simp only [stepPC] at hs
    cases hs
    refine Moves.orDie ?_
    intro conns _
    exact Moves.quiet rfl rfl trivial (Nat.le_refl _) (Nat.le_refl _)
  | addWrite cur l nns n rest c =>
    simp only [stepPC] at hs
    split at hs
    · cases hs; exact Moves.dead ..
    · cases hs; exact Moves.quiet rfl rfl trivial (Nat.le_refl _) (Nat.le_refl _)
  | pruneLog cur l nns n rest new =>
    simp only [stepPC] at hs
    cases hs
    have : new.length ≤ h.cfg.mMax0 := hp
    refine Moves.logs (r := recSetConnections n (UInt32.ofNat l) new) ?_ rfl rfl trivial ?_ ?_
    · rw [recSetConnections_length]; unfold largestRecord; omega
    · simp only [PC.left]; omega
    · simp only [PC.owes]; omega
  | pruneSet cur l nns n rest new =>
    simp only [stepPC] at hs
    split at hs
    · cases hs; exact Moves.dead ..
    · cases hs; exact Moves.quiet rfl rfl trivial (Nat.le_refl _) (Nat.le_refl _)
  | finish cur =>
    simp only [stepPC] at hs
    split at hs
    · cases hs
      refine Moves.logs (r := recSetEntryPoint j.id (UInt32.ofNat j.level)) h13 rfl rfl trivial ?_ ?_
      · simp only [PC.left]; omega
      · simp only [PC.owes]; omega
    · cases hs; exact Moves.quiet rfl rfl trivial (by simp only [PC.left]; omega) (Nat.le_refl _)
  | dead p x => cases hs

/-! ## A batch -/

/-- the objects of a task that have not reached the index. -/
def TPC.holds : TPC → Nat
  | .fetch _ => 1
  | .putObj _ => 1
  | .putVec _ => 1
  | _ => 0

def Task.waiting (t : Task) : Nat := t.todo.length + t.pc.holds

def Thread.left (m : Nat) (t : Thread D) : Nat := t.pc.left m t.job.level
def Thread.owes (t : Thread D) : Nat := t.pc.owes

/-- a batch of `len` objects on the collection `c0`, before its flush; no object adds more than `K` records. -/
structure LInv (c0 : Coll) (len K : Nat) (b : Batch V D) : Prop where
  grow : ∃ n, Adds n n c0.index b.c.index ∧
    n + (b.ts.map (Thread.left c0.index.cfg.m)).sum + K * (tsum Task.waiting b.tasks + b.queue.length) ≤ K * len ∧
    (b.err = none → b.noPanic → 2 * len ≤ n + (b.ts.map Thread.owes).sum + 2 * (tsum Task.waiting b.tasks + b.queue.length))
  small : ∀ th ∈ b.ts, th.pc.small c0.index.cfg
  same : b.tasks.length = b.ts.length
  thr : ∀ (i : Nat) (th : Thread D), b.ts[i]? = some th → (∃ (t : Task) (k : Nat), b.tasks[i]? = some t ∧ t.pc = .index k) ∨ th.pc.owes = 0
  fin : ∀ t ∈ b.tasks, t.pc = .done → t.todo = [] ∧ b.queue = []
  errs : ∀ t ∈ b.tasks, ∀ e, t.pc = .failed e → b.err ≠ none
  skip : ∀ t ∈ b.tasks, t.pc = .skipped → b.err ≠ none ∨ b.cancelled = true

theorem LInv.quiet {c0 : Coll} {len K : Nat} {b b' : Batch V D} (v : LInv c0 len K b) {i : Nat} {t t' : Task} (ht : b.tasks[i]? = some t)
    (hi : ∀ k, t.pc ≠ .index k) (hp : t.pc ≠ .panicked) (htasks : b'.tasks = b.tasks.set i t') (hts : b'.ts = b.ts)
    (hidx : b'.c.index = b.c.index) (hle : t'.waiting + b'.queue.length ≤ t.waiting + b.queue.length)
    (hge : b'.err = none → t.waiting + b.queue.length ≤ t'.waiting + b'.queue.length) (herr : b.err ≠ none → b'.err ≠ none)
    (hfin : t'.pc = .done → t'.todo = [] ∧ b'.queue = []) (hq : b.queue = [] → b'.queue = [])
    (hfail : ∀ e, t'.pc = .failed e → b'.err ≠ none) (hskip : t'.pc = .skipped → b'.err ≠ none ∨ b'.cancelled = true)
    (hcan : b'.cancelled = b.cancelled) : LInv c0 len K b' := by
  obtain ⟨n, a, up, low⟩ := v.grow
  have hsum := tsum_set Task.waiting b.tasks i t t' ht
  have hmem : ∀ x ∈ b.tasks.set i t', x ∈ b.tasks ∨ x = t' := fun x hx => List.mem_or_eq_of_mem_set hx
  refine ⟨⟨n, by rw [hidx]; exact a, ?_, ?_⟩, by rw [hts]; exact v.small, by rw [htasks, hts, List.length_set]; exact v.same, ?_, ?_, ?_, ?_⟩
  · rw [hts, htasks]
    refine Nat.le_trans (Nat.add_le_add_left (Nat.mul_le_mul_left K ?_) _) up
    omega
  · intro he hn
    have h0 : b.err = none := by
      cases h : b.err with
      | none => rfl
      | some e => exact absurd he (herr (by rw [h]; simp))
    have h1 : b.noPanic := by
      intro x hx
      obtain ⟨j, hj⟩ := List.getElem?_of_mem hx
      by_cases hij : i = j
      · subst hij; rw [ht] at hj; cases hj; exact hp
      · refine hn x ?_
        rw [htasks]
        exact List.mem_of_getElem? (i := j) (by rw [List.getElem?_set_ne hij]; exact hj)
    have := low h0 h1
    have := hge he
    rw [hts, htasks]
    omega
  · intro j th hj
    rw [hts] at hj
    rcases v.thr j th hj with ⟨x, k, h1, h2⟩ | h
    · left
      by_cases hij : i = j
      · subst hij; rw [ht] at h1; cases h1; exact absurd h2 (hi k)
      · exact ⟨x, k, by rw [htasks, List.getElem?_set_ne hij]; exact h1, h2⟩
    · exact Or.inr h
  · intro x hx hd
    rw [htasks] at hx
    rcases hmem x hx with h | rfl
    · exact ⟨(v.fin x h hd).1, hq (v.fin x h hd).2⟩
    · exact hfin hd
  · intro x hx e hd
    rw [htasks] at hx
    rcases hmem x hx with h | rfl
    · exact herr (v.errs x h e hd)
    · exact hfail e hd
  · intro x hx hd
    rw [htasks] at hx
    rcases hmem x hx with h | rfl
    · exact (v.skip x h hd).imp herr (fun h => by rw [hcan]; exact h)
    · exact hskip hd

theorem LInv.work {fixed : Bool} {L : Lib V D} {c0 : Coll} {len K : Nat} {b b' : Batch V D} (v : LInv c0 len K b) {i : Nat} {env : InsEnv}
    (hK : perObject c0.index.cfg.m env.level ≤ K) (h : b.work fixed L i env = some b') : LInv c0 len K b' := by
  cases ht : b.tasks[i]? with
  | none => simp [Batch.work, ht] at h
  | some t =>
    simp only [Batch.work, ht] at h
    obtain ⟨todo, pc⟩ := t
    cases pc with
    | wait =>
      dsimp only at h
      split at h
      · rename_i hd
        cases h
        refine v.quiet (b' := b.goto i ⟨todo, .wait⟩ .skipped) ht (by simp) (by simp) rfl rfl rfl (Nat.le_refl _) (fun _ => Nat.le_refl _) (fun h => h) (fun h => nomatch h) (fun h => h) (fun _ h => nomatch h) (fun _ => ?_) rfl
        simp only [Batch.ctxDone, Bool.or_eq_true] at hd
        rcases hd with h | h
        · left; intro h2
          have : b.err = none := h2
          rw [this] at h; cases h
        · right; exact h
      · cases h
        exact v.quiet (b' := b.goto i ⟨todo, .wait⟩ .loop) ht (by simp) (by simp) rfl rfl rfl (Nat.le_refl _) (fun _ => Nat.le_refl _) (fun h => h) (fun h => nomatch h) (fun h => h) (fun _ h => nomatch h) (fun h => nomatch h) rfl
    | loop =>
      dsimp only at h
      cases todo with
      | cons k ks =>
        cases h
        refine v.quiet (t' := ⟨ks, .fetch k⟩) ht (by simp) (by simp) rfl rfl rfl ?_ (fun _ => ?_) (fun h => h) (fun h => nomatch h) (fun h => h) (fun _ h => nomatch h) (fun h => nomatch h) rfl
        · simp only [Task.waiting, TPC.holds, List.length_cons]; omega
        · simp only [Task.waiting, TPC.holds, List.length_cons]; omega
      | nil =>
        dsimp only at h
        split at h
        · rename_i k q hq
          cases h
          refine v.quiet (t' := ⟨[], .fetch k⟩) ht (by simp) (by simp) rfl rfl rfl ?_ (fun _ => ?_) (fun h => h) (fun h => nomatch h) (fun h => ?_) (fun _ h => nomatch h) (fun h => nomatch h) rfl
          · rw [hq]; simp only [Task.waiting, TPC.holds, List.length_cons]; omega
          · rw [hq]; simp only [Task.waiting, TPC.holds, List.length_cons]; omega
          · rw [hq] at h; cases h
        · rename_i hq
          cases h
          exact v.quiet (b' := b.goto i ⟨[], .loop⟩ .done) ht (by simp) (by simp) rfl rfl rfl (Nat.le_refl _) (fun _ => Nat.le_refl _) (fun h => h) (fun _ => ⟨rfl, hq⟩) (fun h => h) (fun _ h => nomatch h) (fun h => nomatch h) rfl
    | fetch k =>
      dsimp only at h
      split at h
      · cases h
        refine v.quiet (t' := ⟨todo, .failed _⟩) ht (by simp) (by simp) rfl rfl rfl ?_ (fun h => absurd h (orElse_ne _ _)) (fun _ => orElse_ne _ _) (fun h => nomatch h) (fun h => h) (fun _ _ => orElse_ne _ _) (fun h => nomatch h) rfl
        simp only [Task.waiting, TPC.holds, Batch.fail]; omega
      · cases h
        exact v.quiet (t' := ⟨todo, .putObj k⟩) ht (by simp) (by simp) rfl rfl rfl (Nat.le_refl _) (fun _ => Nat.le_refl _) (fun h => h) (fun h => nomatch h) (fun h => h) (fun _ h => nomatch h) (fun h => nomatch h) rfl
    | putObj k =>
      dsimp only at h
      split at h
      · cases h
      · split at h
        · cases h
          refine v.quiet (t' := ⟨todo, .failed _⟩) ht (by simp) (by simp) rfl rfl rfl ?_ (fun h => absurd h (orElse_ne _ _)) (fun _ => orElse_ne _ _) (fun h => nomatch h) (fun h => h) (fun _ _ => orElse_ne _ _) (fun h => nomatch h) rfl
          simp only [Task.waiting, TPC.holds, Batch.fail]; omega
        · split at h
          · cases h
            refine v.quiet (t' := ⟨todo, .failed _⟩) ht (by simp) (by simp) rfl rfl rfl ?_ (fun h => absurd h (orElse_ne _ _)) (fun _ => orElse_ne _ _) (fun h => nomatch h) (fun h => h) (fun _ _ => orElse_ne _ _) (fun h => nomatch h) rfl
            simp only [Task.waiting, TPC.holds, Batch.fail]; omega
          · cases h
            exact v.quiet (t' := ⟨todo, .putVec k⟩) ht (by simp) (by simp) rfl rfl rfl (Nat.le_refl _) (fun _ => Nat.le_refl _) (fun h => h) (fun h => nomatch h) (fun h => h) (fun _ h => nomatch h) (fun h => nomatch h) rfl
    | putVec k =>
      dsimp only at h
      split at h
      · cases h
      · rename_i o ho
        split at h
        · cases h
          refine v.quiet (t' := ⟨todo, .failed _⟩) ht (by simp) (by simp) rfl rfl rfl ?_ (fun h => absurd h (orElse_ne _ _)) (fun _ => orElse_ne _ _) (fun h => nomatch h) (fun h => h) (fun _ _ => orElse_ne _ _) (fun h => nomatch h) rfl
          simp only [Task.waiting, TPC.holds, Batch.fail]; omega
        · cases h
          obtain ⟨n, a, up, low⟩ := v.grow
          have hlt : i < b.ts.length := by
            rw [← v.same]
            exact (List.getElem?_eq_some_iff.mp ht).1
          obtain ⟨th, hth⟩ : ∃ th, b.ts[i]? = some th := ⟨_, List.getElem?_eq_getElem hlt⟩
          have hz : th.pc.owes = 0 := by
            rcases v.thr i th hth with ⟨x, k', h1, h2⟩ | h
            · rw [ht] at h1; cases h1; cases h2
            · exact h
          have hsum := tsum_set Task.waiting b.tasks i ⟨todo, .putVec k⟩ ⟨todo, .index k⟩ ht
          have hw : Task.waiting ⟨todo, .putVec k⟩ = Task.waiting ⟨todo, .index k⟩ + 1 := rfl
          have hl := Vectory.DiskAnn.sum_set (Thread.left c0.index.cfg.m) b.ts i th { job := ⟨o.id, o.vec.getD [], env.level⟩, pc := .start } hth
          have ho := Vectory.DiskAnn.sum_set Thread.owes b.ts i th { job := ⟨o.id, o.vec.getD [], env.level⟩, pc := .start } hth
          have hl1 : Thread.left c0.index.cfg.m ({ job := ⟨o.id, o.vec.getD [], env.level⟩, pc := .start } : Thread D) =
            perObject c0.index.cfg.m env.level := rfl
          have ho1 : Thread.owes ({ job := ⟨o.id, o.vec.getD [], env.level⟩, pc := .start } : Thread D) = 2 := rfl
          have ho2 : Thread.owes th = 0 := hz
          rw [hl1] at hl
          rw [ho1, ho2] at ho
          have hmem : ∀ x ∈ b.tasks.set i ⟨todo, .index k⟩, x ∈ b.tasks ∨ x = ⟨todo, .index k⟩ := fun x hx => List.mem_or_eq_of_mem_set hx
          refine ⟨⟨n, a, ?_, ?_⟩, ?_, ?_, ?_, ?_, ?_, ?_⟩
          · show n + ((b.ts.set i _).map _).sum + K * (tsum Task.waiting (b.tasks.set i ⟨todo, .index k⟩) + b.queue.length) ≤ _
            have e : K * (tsum Task.waiting b.tasks + b.queue.length) =
                K * (tsum Task.waiting (b.tasks.set i ⟨todo, .index k⟩) + b.queue.length) + K := by
              rw [← Nat.mul_succ]; congr 1; omega
            rw [e] at up
            omega
          · intro he hn
            have h1 : b.noPanic := by
              intro x hx
              obtain ⟨j, hj⟩ := List.getElem?_of_mem hx
              by_cases hij : i = j
              · subst hij; rw [ht] at hj; cases hj; simp
              · refine hn x ?_
                show x ∈ b.tasks.set i _
                exact List.mem_of_getElem? (i := j) (by rw [List.getElem?_set_ne hij]; exact hj)
            have := low he h1
            show _ ≤ n + ((b.ts.set i _).map _).sum + 2 * (tsum Task.waiting (b.tasks.set i ⟨todo, .index k⟩) + b.queue.length)
            omega
          · intro x hx
            rcases List.mem_or_eq_of_mem_set hx with h | rfl
            · exact v.small x h
            · trivial
          · show (b.tasks.set i _).length = (b.ts.set i _).length
            rw [List.length_set, List.length_set]; exact v.same
          · intro j x hj
            by_cases hij : i = j
            · subst hij
              left
              exact ⟨⟨todo, .index k⟩, k, by show (b.tasks.set i _)[i]? = _; rw [List.getElem?_set_self (List.getElem?_eq_some_iff.mp ht).1], rfl⟩
            · have hj' : (b.ts.set i _)[j]? = some x := hj
              rw [List.getElem?_set_ne hij] at hj'
              rcases v.thr j x hj' with ⟨y, k', h1, h2⟩ | h
              · exact Or.inl ⟨y, k', by show (b.tasks.set i _)[j]? = _; rw [List.getElem?_set_ne hij]; exact h1, h2⟩
              · exact Or.inr h
          · intro x hx hd
            rcases hmem x hx with h | rfl
            · exact v.fin x h hd
            · cases hd
          · intro x hx e hd
            rcases hmem x hx with h | rfl
            · exact v.errs x h e hd
            · cases hd
          · intro x hx hd
            rcases hmem x hx with h | rfl
            · exact v.skip x h hd
            · cases hd
    | index k =>
      dsimp only at h
      split at h
      · cases h
      · rename_i m hm
        split at h
        · cases h
        · rename_i th' hth'
          cases h
          simp only [Mach.step] at hm
          split at hm
          · cases hm
          · rename_i th hth
            split at hm
            · cases hm
            · rename_i h' pc' hs
              cases hm
              have hlt := (List.getElem?_eq_some_iff.mp hth).1
              have e1 : (b.ts.set i { th with pc := pc' })[i]? = some th' := hth'
              rw [List.getElem?_set_self hlt] at e1
              cases e1
              obtain ⟨n, a, up, low⟩ := v.grow
              have hsm : th.pc.small b.c.index.cfg := by rw [a.1]; exact v.small th (List.mem_of_getElem? hth)
              obtain ⟨s1, n1, a1, l1, o1⟩ := stepPC_moves hs hsm
              rw [a.1] at s1 l1
              have hsum := tsum_set Task.waiting b.tasks i ⟨todo, .index k⟩ ⟨todo, afterIndex k pc'⟩ ht
              have hw : Task.waiting ⟨todo, .index k⟩ = Task.waiting ⟨todo, afterIndex k pc'⟩ := by cases pc' <;> rfl
              have hl := Vectory.DiskAnn.sum_set (Thread.left c0.index.cfg.m) b.ts i th { th with pc := pc' } hth
              have ho := Vectory.DiskAnn.sum_set Thread.owes b.ts i th { th with pc := pc' } hth
              have hl1 : Thread.left c0.index.cfg.m ({ th with pc := pc' } : Thread D) = pc'.left c0.index.cfg.m th.job.level := rfl
              have hl2 : Thread.left c0.index.cfg.m th = th.pc.left c0.index.cfg.m th.job.level := rfl
              have ho1 : Thread.owes ({ th with pc := pc' } : Thread D) = pc'.owes := rfl
              have ho2 : Thread.owes th = th.pc.owes := rfl
              rw [hl1, hl2] at hl
              rw [ho1, ho2] at ho
              have hmem : ∀ x ∈ b.tasks.set i ⟨todo, afterIndex k pc'⟩, x ∈ b.tasks ∨ x = ⟨todo, afterIndex k pc'⟩ :=
                fun x hx => List.mem_or_eq_of_mem_set hx
              have hai : afterIndex k pc' ≠ .done ∧ (∀ e, afterIndex k pc' ≠ .failed e) ∧ afterIndex k pc' ≠ .skipped := by
                cases pc' <;> simp [afterIndex]
              have hself : (b.tasks.set i ⟨todo, afterIndex k pc'⟩)[i]? = some ⟨todo, afterIndex k pc'⟩ :=
                List.getElem?_set_self (List.getElem?_eq_some_iff.mp ht).1
              have htw : tsum Task.waiting (b.tasks.set i ⟨todo, afterIndex k pc'⟩) = tsum Task.waiting b.tasks := by omega
              refine ⟨⟨n + n1, a.trans a1, ?_, ?_⟩, ?_, ?_, ?_, ?_, ?_, ?_⟩
              · show n + n1 + ((b.ts.set i { th with pc := pc' }).map (Thread.left c0.index.cfg.m)).sum +
                  K * (tsum Task.waiting (b.tasks.set i ⟨todo, afterIndex k pc'⟩) + b.queue.length) ≤ _
                rw [htw]
                omega
              · intro he hn
                have h1 : b.noPanic := by
                  intro x hx
                  obtain ⟨j, hj⟩ := List.getElem?_of_mem hx
                  by_cases hij : i = j
                  · subst hij; rw [ht] at hj; cases hj; simp
                  · refine hn x ?_
                    show x ∈ b.tasks.set i _
                    exact List.mem_of_getElem? (i := j) (by rw [List.getElem?_set_ne hij]; exact hj)
                have h2 := low he h1
                have h3 : pc'.panicked = false := by
                  have := hn ⟨todo, afterIndex k pc'⟩ (List.mem_of_getElem? hself)
                  cases pc' <;> first | rfl | exact absurd rfl this
                have h4 := o1 h3
                show _ ≤ n + n1 + ((b.ts.set i { th with pc := pc' }).map Thread.owes).sum +
                  2 * (tsum Task.waiting (b.tasks.set i ⟨todo, afterIndex k pc'⟩) + b.queue.length)
                rw [htw]
                omega
              · intro x hx
                rcases List.mem_or_eq_of_mem_set hx with h | rfl
                · exact v.small x h
                · exact s1
              · show (b.tasks.set i _).length = (b.ts.set i _).length
                rw [List.length_set, List.length_set]; exact v.same
              · intro j x hj
                by_cases hij : i = j
                · subst hij
                  have hj' : (b.ts.set i { th with pc := pc' })[i]? = some x := hj
                  rw [List.getElem?_set_self hlt] at hj'
                  cases hj'
                  by_cases hx : afterIndex k pc' = .index k
                  · exact Or.inl ⟨_, k, hself, hx⟩
                  · right
                    cases pc' <;> first | rfl | exact absurd rfl hx
                · have hj' : (b.ts.set i { th with pc := pc' })[j]? = some x := hj
                  rw [List.getElem?_set_ne hij] at hj'
                  rcases v.thr j x hj' with ⟨y, k', h1, h2⟩ | h
                  · exact Or.inl ⟨y, k', by show (b.tasks.set i _)[j]? = _; rw [List.getElem?_set_ne hij]; exact h1, h2⟩
                  · exact Or.inr h
              · intro x hx hd
                rcases hmem x hx with h | rfl
                · exact v.fin x h hd
                · exact absurd hd hai.1
              · intro x hx e hd
                rcases hmem x hx with h | rfl
                · exact v.errs x h e hd
                · exact absurd hd (hai.2.1 e)
              · intro x hx hd
                rcases hmem x hx with h | rfl
                · exact v.skip x h hd
                · exact absurd hd hai.2.2
    | done => cases h
    | failed e => cases h
    | skipped => cases h
    | panicked => cases h

theorem work_ret {fixed : Bool} {L : Lib V D} {b b' : Batch V D} {i : Nat} {env : InsEnv} (hw : b.work fixed L i env = some b') :
    b'.ret = b.ret ∧ b'.tasks.length = b.tasks.length := by
  cases ht : b.tasks[i]? with
  | none => simp [Batch.work, ht] at hw
  | some t =>
    simp only [Batch.work, ht] at hw
    cases hpc : t.pc <;> simp only [hpc] at hw
    case wait => split at hw <;> cases hw <;> exact ⟨rfl, List.length_set⟩
    case loop =>
      split at hw
      · cases hw; exact ⟨rfl, List.length_set⟩
      · split at hw <;> cases hw <;> exact ⟨rfl, List.length_set⟩
    case fetch => split at hw <;> cases hw <;> exact ⟨rfl, List.length_set⟩
    case putObj =>
      split at hw
      · cases hw
      · split at hw
        · cases hw; exact ⟨rfl, List.length_set⟩
        · split at hw <;> cases hw <;> exact ⟨rfl, List.length_set⟩
    case putVec =>
      split at hw
      · cases hw
      · split at hw <;> cases hw <;> exact ⟨rfl, List.length_set⟩
    case index =>
      split at hw
      · cases hw
      · split at hw <;> cases hw
        exact ⟨rfl, List.length_set⟩
    all_goals cases hw

/-- before the flush; or after it, when all tasks have ended. -/
def LogState (c0 : Coll) (len K : Nat) (b : Batch V D) : Prop :=
  (LInv c0 len K b ∧ b.ret ≠ some none) ∨
  (b.tasks.all (fun t => t.pc.over) = true ∧ b.ret ≠ none ∧ LogMove 0 (K * len) c0 b.c ∧ (b.accepts → LogMove (2 * len) (K * len) c0 b.c))

/-- changes outside the collection and the tasks. -/
theorem LInv.frozen {c0 : Coll} {len K : Nat} {b b' : Batch V D} (v : LInv c0 len K b) (h1 : b'.c = b.c) (h2 : b'.ts = b.ts)
    (h3 : b'.tasks = b.tasks) (h4 : b'.queue = b.queue) (h5 : b.err ≠ none → b'.err ≠ none) (h6 : b.cancelled = true → b'.cancelled = true) :
    LInv c0 len K b' := by
  obtain ⟨⟨n, a, up, low⟩, a2, a3, a4, a5, a6, a7⟩ := v
  refine ⟨⟨n, by rw [h1]; exact a, by rw [h2, h3, h4]; exact up, ?_⟩, by rw [h2]; exact a2, by rw [h3, h2]; exact a3, by rw [h2, h3]; exact a4,
    by rw [h3, h4]; exact a5, by rw [h3]; exact fun t ht e he => h5 (a6 t ht e he), by rw [h3]; exact fun t ht e => (a7 t ht e).imp h5 h6⟩
  intro he hn
  rw [h2, h3, h4]
  refine low ?_ (by intro t ht; exact hn t (by rw [h3]; exact ht))
  cases h : b.err with
  | none => rfl
  | some e => exact absurd he (h5 (by rw [h]; simp))

theorem LogState.step {fixed : Bool} {L : Lib V D} {c0 : Coll} {len K top : Nat} {b b' : Batch V D} (s : LogState c0 len K b) (hlen : 0 < b.tasks.length)
    (hK : perObject c0.index.cfg.m top ≤ K) {a : BAct} (hl : ∀ i env, a = .work i env → env.level ≤ top)
    (h : b.step fixed L a = some b') : LogState c0 len K b' := by
  rcases s with ⟨v, hret⟩ | ⟨hover, hret, hm, hacc⟩
  · cases a with
    | work i env =>
      have hw : b.work fixed L i env = some b' := h
      have h1 := hl i env rfl
      refine Or.inl ⟨v.work (Nat.le_trans ?_ hK) hw, ?_⟩
      · unfold perObject
        exact Nat.add_le_add_left (Nat.mul_le_mul_right _ (by omega)) _
      · rw [(work_ret hw).1]; exact hret
    | cancel => cases h; exact Or.inl ⟨v.frozen rfl rfl rfl rfl (fun h => h) (fun _ => rfl), hret⟩
    | finish ff =>
      simp only [Batch.step] at h
      split at h
      · rename_i hc
        cases he : b.err with
        | some e =>
          simp only [he] at h
          cases h
          exact Or.inl ⟨v.frozen rfl rfl rfl rfl (fun _ => by simp) (fun h => h), by simp⟩
        | none =>
          simp only [he] at h
          cases h
          obtain ⟨n, ad, up, low⟩ := v.grow
          have hn : n ≤ K * len := by omega
          have hm := LogMove.of_flush ad ff
          refine Or.inr ⟨hc.2, by simp, hm.mono (Nat.zero_le _) hn, ?_⟩
          rintro ⟨r1, r2, r3⟩
          have r1' : some ((b.c.flush ff).2.map GroupErr.task) = some none := r1
          have hf : (b.c.flush ff).2 = none := by
            cases hx : (b.c.flush ff).2 with
            | none => rfl
            | some x => rw [hx] at r1'; cases r1'
          rw [if_pos hf] at hm
          refine hm.mono ?_ hn
          have hdone : ∀ t ∈ b.tasks, t.pc = .done := by
            intro t ht
            have h1 := List.all_eq_true.mp hc.2 t ht
            have h2 := r3 t ht
            have h3 := v.errs t ht
            have h4 := v.skip t ht
            have h5 : b.cancelled = false := r2
            cases hpc : t.pc with
            | done => rfl
            | failed e => exact absurd he (h3 e hpc)
            | skipped =>
              rcases h4 hpc with h | h
              · exact absurd he h
              · rw [h5] at h; cases h
            | panicked => exact absurd hpc h2
            | wait => rw [hpc] at h1; cases h1
            | loop => rw [hpc] at h1; cases h1
            | fetch k => rw [hpc] at h1; cases h1
            | putObj k => rw [hpc] at h1; cases h1
            | putVec k => rw [hpc] at h1; cases h1
            | index k => rw [hpc] at h1; cases h1
          have hlow := low he r3
          have hz1 : tsum Task.waiting b.tasks = 0 := by
            refine tsum_zero _ _ ?_
            intro t ht
            unfold Task.waiting
            rw [(v.fin t ht (hdone t ht)).1, hdone t ht]; rfl
          have hz2 : b.queue = [] := (v.fin _ (List.getElem_mem hlen) (hdone _ (List.getElem_mem hlen))).2
          have hz3 : (b.ts.map Thread.owes).sum = 0 := by
            rw [List.sum_eq_zero_iff_forall_eq_nat]
            intro x hx
            obtain ⟨th, hth, rfl⟩ := List.mem_map.mp hx
            obtain ⟨j, hj⟩ := List.getElem?_of_mem hth
            rcases v.thr j th hj with ⟨t, k, h1, h2⟩ | h
            · rw [hdone t (List.mem_of_getElem? h1)] at h2; cases h2
            · exact h
          rw [hz1, hz2, hz3] at hlow
          simpa using hlow
      · cases h
    | giveUp =>
      simp only [Batch.step] at h
      split at h
      · cases h
        exact Or.inl ⟨v.frozen rfl rfl rfl rfl (fun _ => by simp) (fun h => h), by simp⟩
      · cases h
  · cases a with
    | work i env =>
      have hw : b.work fixed L i env = some b' := h
      rw [work_over hover] at hw; cases hw
    | cancel =>
      cases h
      exact Or.inr ⟨hover, hret, hm, fun ⟨_, h2, _⟩ => nomatch h2⟩
    | finish ff => simp [Batch.step, hret] at h
    | giveUp => simp [Batch.step, hret] at h

theorem step_tasks {fixed : Bool} {L : Lib V D} {b b' : Batch V D} {a : BAct} (h : b.step fixed L a = some b') :
    b'.tasks.length = b.tasks.length := by
  cases a with
  | work i env => exact (work_ret h).2
  | cancel => cases h; rfl
  | finish ff =>
    simp only [Batch.step] at h
    split at h
    · split at h <;> cases h <;> rfl
    · cases h
  | giveUp =>
    simp only [Batch.step] at h
    split at h <;> cases h
    rfl

theorem LogState.run {fixed : Bool} {L : Lib V D} {c0 : Coll} {len K top : Nat} (hK : perObject c0.index.cfg.m top ≤ K) :
    ∀ (acts : List BAct) (b b' : Batch V D), LogState c0 len K b → 0 < b.tasks.length → (∀ i env, BAct.work i env ∈ acts → env.level ≤ top) →
      b.run fixed L acts = some b' → LogState c0 len K b' := by
  intro acts
  induction acts with
  | nil => intro b b' s _ _ h; cases h; exact s
  | cons a as ih =>
    intro b b' s hn hl h
    simp only [Batch.run] at h
    cases hs : b.step fixed L a with
    | none => simp only [hs] at h; cases h
    | some b1 =>
      simp only [hs] at h
      exact ih b1 b' (s.step hn hK (fun i env e => hl i env (by rw [e]; exact List.mem_cons_self)) hs) (by rw [step_tasks hs]; exact hn)
        (fun i env hm => hl i env (List.mem_cons_of_mem _ hm)) h

theorem linv_start {c : Coll} {len K workers : Nat} {b : Batch V D} (hc : b.c = c) (ht : b.ts = (Mach.init c.index workers).ts)
    (hn : b.tasks.length = workers) (hw : ∀ t ∈ b.tasks, t.pc = .wait) (hlen : tsum Task.waiting b.tasks + b.queue.length = len) :
    LInv c len K b := by
  have hidle : ∀ th ∈ b.ts, th.pc = .idle := by
    intro th h
    rw [ht] at h
    simp only [Mach.init, List.mem_replicate] at h
    rw [h.2]
  refine ⟨⟨0, by rw [hc]; exact Adds.refl _, ?_, ?_⟩, ?_, ?_, ?_, ?_, ?_, ?_⟩
  · have : (b.ts.map (Thread.left c.index.cfg.m)).sum = 0 := by
      rw [List.sum_eq_zero_iff_forall_eq_nat]
      intro x hx
      obtain ⟨th, hth, rfl⟩ := List.mem_map.mp hx
      unfold Thread.left; rw [hidle th hth]; rfl
    rw [this, hlen]; omega
  · intro _ _; rw [hlen]; omega
  · intro th h; rw [hidle th h]; trivial
  · rw [hn, ht]; simp [Mach.init]
  · intro j th h; right; rw [hidle th (List.mem_of_getElem? h)]; rfl
  · intro t h1 h2; rw [hw t h1] at h2; cases h2
  · intro t h1 e h2; rw [hw t h1] at h2; cases h2
  · intro t h1 h2; rw [hw t h1] at h2; cases h2

/-- what a batch does to the log, whatever its workers do. -/
theorem batch_logMove {fixed two : Bool} {L : Lib V D} {workers top : Nat} {c : Coll} {os : List (Object V)} {embed : Embed V}
    {acts : List BAct} {b : Batch V D} (h : BatchRun fixed two L workers top c os embed acts b) :
    LogMove 0 (os.length * perObject c.index.cfg.m top) c b.c ∧
    (b.accepts → LogMove (2 * os.length) (os.length * perObject c.index.cfg.m top) c b.c) := by
  obtain ⟨hw, hl, objs, b0, hp, h0, hr⟩ := h
  have hlen : objs.length = os.length := by
    unfold prepare at hp
    split at hp
    · cases hp
    · split at hp
      · cases hp
      · exact embed_length hp
  have s0 : LogState c os.length (perObject c.index.cfg.m top) b0 ∧ b0.tasks.length = workers := by
    cases two with
    | true =>
      cases h0
      refine ⟨Or.inl ⟨linv_start rfl rfl (by simp [startBatch2]) (by simp [startBatch2]) ?_, by simp [startBatch2]⟩, by simp [startBatch2]⟩
      rw [tsum_zero]
      · simp [startBatch2, hlen]
      · intro t ht
        simp only [startBatch2, List.mem_replicate] at ht
        rw [ht.2]; rfl
    | false =>
      obtain ⟨todos, h1, h2, h3⟩ := C13_partition (List.range objs.length) workers hw
      rw [List.length_range] at h1
      have h0' : startBatch c objs workers = some b0 := h0
      unfold startBatch at h0'
      simp only [h1] at h0'
      cases h0'
      refine ⟨Or.inl ⟨linv_start rfl rfl (by simpa using h2) (by simp) ?_, by simp⟩, by simpa using h2⟩
      have h4 := congrArg List.length h3
      rw [List.length_range, hlen] at h4
      rw [← h4]
      simp only [List.length_nil, Nat.add_zero, tsum, List.map_map]
      clear h1 h2 h3 h4 h0 hr
      induction todos with
      | nil => rfl
      | cons x xs ih =>
        rw [List.map_cons, List.sum_cons, List.flatten_cons, List.length_append, ih]
        rfl
  have s := LogState.run (Nat.le_refl _) acts b0 b s0.1 (by rw [s0.2]; exact hw) hl hr
  rw [Nat.mul_comm os.length]
  rcases s with ⟨v, hret⟩ | ⟨_, _, h1, h2⟩
  · obtain ⟨n, ad, up, _⟩ := v.grow
    refine ⟨(LogMove.of_adds ad).mono (Nat.le_refl _) (by omega), fun h => absurd h.1 hret⟩
  · exact ⟨h1, h2⟩

theorem history_logMove {fixed : Bool} {L : Lib V D} {c c' : Coll} {n most : Nat} (h : History fixed L c n most c') :
    LogMove (2 * n) most c c' := by
  induction h with
  | refl => exact LogMove.same _ rfl rfl
  | @event c1 c2 e n most _ hs ih =>
    have a := step_logMove hs
    rw [ih.cfg] at a
    rw [Nat.mul_add]
    exact ih.trans a
  | @batch c1 n most two workers top os embed acts b _ hb _ _ ih =>
    have a := (batch_logMove hb).1
    rw [ih.cfg] at a
    exact ih.trans a
  | @accepted c1 n most two workers top os embed acts b _ hb ha ih =>
    have a := (batch_logMove hb).2 ha
    rw [ih.cfg] at a
    rw [Nat.mul_add]
    exact ih.trans a
  | @crash c1 c2 n most two workers top os embed acts b _ hb ho ih =>
    have a := (batch_logMove hb).1
    rw [ih.cfg] at a
    exact (ih.trans a).trans (LogMove.of_open (hi := 0) ho rfl rfl)

end Vectory.Conc
