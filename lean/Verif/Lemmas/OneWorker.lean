import Verif.Lemmas.Adequate
import Verif.Props.Batch
import Verif.Model.CollConc
/-!
# A batch run by one worker does what the sequential model says
-/
namespace Vectory.Conc
open Vectory
variable {V D : Type}

/-! ### one goroutine: runs are determined -/

theorem Solo.det {fixed : Bool} {M : Metric D} {j : Job} {x y : Hnsw × PC D} (h : Solo fixed M j x y) :
    ∀ {z : Hnsw × PC D}, Solo fixed M j x z → stepPC fixed M y.1 (fun _ => false) j y.2 = none →
      stepPC fixed M z.1 (fun _ => false) j z.2 = none → y = z := by
  induction h with
  | refl x =>
    intro z hz hy _
    cases hz with
    | refl => rfl
    | step hs _ => rw [hy] at hs; cases hs
  | step hs _ ih =>
    intro z hz hy hzn
    cases hz with
    | refl => rw [hzn] at hs; cases hs
    | step hs' hz' => rw [hs] at hs'; cases hs'; exact ih hz' hy hzn

/-- alone, the goroutine that has come back has done `Hnsw.insert`. -/
theorem solo_idle {fixed : Bool} {M : Metric D} (hM : ∀ a b, M.dist a b ≠ .error .outOfFuel) {j : Job} {h h' : Hnsw}
    (s : Solo fixed M j (h, .start) (h', .idle)) : h.insert M j.vec j.id j.level = .ok h' := by
  have e := insert_ends (fixed := fixed) (M := M) (j := j) h
  cases hr : h.insert M j.vec j.id j.level with
  | ok h2 =>
    rw [hr] at e
    have := Solo.det e s rfl rfl
    cases this; rfl
  | error p =>
    rw [hr] at e
    rcases e with rfl | ⟨h2, held, e⟩
    · exact absurd hr (insert_fuel M hM h _ _ _)
    · have := Solo.det e s rfl rfl
      cases this

/-- alone, a goroutine that has panicked shows that `Hnsw.insert` panics. -/
theorem solo_dead {fixed : Bool} {M : Metric D} (hM : ∀ a b, M.dist a b ≠ .error .outOfFuel) {j : Job} {h h' : Hnsw} {p : Panic}
    {held : Option UInt64} (s : Solo fixed M j (h, .start) (h', .dead p held)) : h.insert M j.vec j.id j.level = .error p := by
  have e := insert_ends (fixed := fixed) (M := M) (j := j) h
  cases hr : h.insert M j.vec j.id j.level with
  | ok h2 =>
    rw [hr] at e
    have := Solo.det e s rfl rfl
    cases this
  | error p =>
    rw [hr] at e
    rcases e with rfl | ⟨h2, held, e⟩
    · exact absurd hr (insert_fuel M hM h _ _ _)
    · have := Solo.det e s rfl rfl
      cases this; rfl

/-- the only goroutine never waits. -/
theorem stepPC_alone (fixed : Bool) (M : Metric D) (h : Hnsw) (th : Thread D) :
    stepPC fixed M h (lockedBy fixed [th]) th.job th.pc = stepPC fixed M h (fun _ => false) th.job th.pc := by
  obtain ⟨j, pc⟩ := th
  have key : pc.held fixed j.id = none → ∀ x, lockedBy fixed [(⟨j, pc⟩ : Thread D)] x = false := by
    intro hn x
    simp [lockedBy, Thread.held, hn]
  cases pc with
  | pop cur ph s buf => simp only [stepPC, key rfl]
  | logOwn cur l nns ns => simp only [stepPC, key rfl]
  | link cur l nns todo =>
    cases todo with
    | nil => rfl
    | cons a t => simp only [stepPC, key rfl]
  | _ => rfl

/-! ### the loop of the worker -/

theorem insertAll_snoc {L : Lib V D} : ∀ (l : List (Object V × InsEnv)) {c ck : Coll} {done : List (Object V)} (x : Object V × InsEnv),
    c.insertAll L l = .ok (ck, done, none) →
    c.insertAll L (l ++ [x]) = (do
      let (c, o, e) ← ck.insertOne L x.1 x.2
      .ok (c, done ++ [o], e)) := by
  intro l
  induction l with
  | nil =>
    intro c ck done x h
    cases h
    obtain ⟨o, env⟩ := x
    show ((c.insertOne L o env) >>= _) = ((c.insertOne L o env) >>= _)
    cases c.insertOne L o env with
    | error p => rfl
    | ok r =>
      obtain ⟨c1, o1, e1⟩ := r
      cases e1 <;> rfl
  | cons p l ih =>
    intro c ck done x h
    obtain ⟨o, env⟩ := p
    unfold Coll.insertAll at h
    obtain ⟨⟨c1, o1, e1⟩, h1, h⟩ := (bind_ok_iff _ _ _).mp h
    cases e1 with
    | some e => cases h
    | none =>
      dsimp only at h
      obtain ⟨⟨c2, os2, e2⟩, h2, h⟩ := (bind_ok_iff _ _ _).mp h
      cases h
      rw [List.cons_append]
      show ((c.insertOne L o env) >>= _) = _
      rw [h1]
      show ((c1.insertAll L (l ++ [x])) >>= _) = _
      rw [ih x h2]
      cases Coll.insertOne L _ x.1 x.2 with
      | error p => rfl
      | ok r => rfl

theorem insertAll_len {L : Lib V D} : ∀ (l : List (Object V × InsEnv)) {c ck : Coll} {done : List (Object V)} {e : Option Err},
    c.insertAll L l = .ok (ck, done, e) → done.length = l.length := by
  intro l
  induction l with
  | nil => intro c ck done e h; cases h; rfl
  | cons p l ih =>
    intro c ck done e h
    obtain ⟨o, env⟩ := p
    unfold Coll.insertAll at h
    obtain ⟨⟨c1, o1, e1⟩, h1, h⟩ := (bind_ok_iff _ _ _).mp h
    cases e1 with
    | some e => cases h; simp
    | none =>
      dsimp only at h
      obtain ⟨⟨c2, os2, e2⟩, h2, h⟩ := (bind_ok_iff _ _ _).mp h
      cases h
      simp [ih h2]

/-- an error ends the loop. -/
theorem insertAll_stop {L : Lib V D} : ∀ (l : List (Object V × InsEnv)) {c ck : Coll} {done : List (Object V)} {e : Err}
    (r : List (Object V × InsEnv)), c.insertAll L l = .ok (ck, done, some e) →
    c.insertAll L (l ++ r) = .ok (ck, done ++ r.map Prod.fst, some e) := by
  intro l
  induction l with
  | nil => intro c ck done e r h; cases h
  | cons p l ih =>
    intro c ck done e r h
    obtain ⟨o, env⟩ := p
    unfold Coll.insertAll at h
    obtain ⟨⟨c1, o1, e1⟩, h1, h⟩ := (bind_ok_iff _ _ _).mp h
    rw [List.cons_append]
    unfold Coll.insertAll
    rw [h1]
    cases e1 with
    | some e => cases h; simp [bind, Except.bind]
    | none =>
      dsimp only at h
      obtain ⟨⟨c2, os2, e2⟩, h2, h⟩ := (bind_ok_iff _ _ _).mp h
      cases h
      show ((c1.insertAll L (l ++ r)) >>= _) = _
      rw [ih r h2]
      rfl

/-- where the worker is, after `k` objects: `ck` is the collection and `done` the objects then. -/
def Phase1 (fixed : Bool) (L : Lib V D) (P : Nat → Prop) (objs0 : List (Object V)) (b : Batch V D) (t : Task) (th : Thread D) (ck : Coll)
    (done : List (Object V)) (k : Nat) : Prop :=
  match t.pc with
  | .wait | .loop => b.err = none ∧ b.ret = none ∧ b.c = ck ∧ b.objs = done ++ objs0.drop k ∧
      t.todo ++ b.queue = List.range' k (objs0.length - k)
  | .fetch i => b.err = none ∧ b.ret = none ∧ i = k ∧ k < objs0.length ∧ b.c = ck ∧ b.objs = done ++ objs0.drop k ∧
      t.todo ++ b.queue = List.range' (k + 1) (objs0.length - (k + 1))
  | .putObj i => b.err = none ∧ b.ret = none ∧ i = k ∧ t.todo ++ b.queue = List.range' (k + 1) (objs0.length - (k + 1)) ∧
      ∃ o ctr id, objs0[k]? = some o ∧ fetchAndInc ck.counter false = (ctr, .ok id) ∧ b.c = { ck with counter := ctr } ∧
        b.objs = done ++ { o with id := id } :: objs0.drop (k + 1)
  | .putVec i => b.err = none ∧ b.ret = none ∧ i = k ∧ t.todo ++ b.queue = List.range' (k + 1) (objs0.length - (k + 1)) ∧
      ∃ o ctr id bytes, objs0[k]? = some o ∧ fetchAndInc ck.counter false = (ctr, .ok id) ∧
        serializeProperties L.json { o with id := id } = .ok bytes ∧
        b.c = { ck with counter := ctr, stores := { ck.stores with objects := ck.stores.objects.set (keyOf id) bytes } } ∧
        b.objs = done ++ { o with id := id } :: objs0.drop (k + 1)
  | .index i => b.err = none ∧ b.ret = none ∧ i = k ∧ t.todo ++ b.queue = List.range' (k + 1) (objs0.length - (k + 1)) ∧
      ∃ o ctr id st level, P level ∧ objs0[k]? = some o ∧ fetchAndInc ck.counter false = (ctr, .ok id) ∧
        putObject L.json ck.stores { o with id := id } .none = (st, none) ∧
        b.c = { ck with counter := ctr, stores := st, index := b.c.index } ∧
        b.objs = done ++ { o with id := id } :: objs0.drop (k + 1) ∧ th.job = ⟨id, o.vec.getD [], level⟩ ∧
        Solo fixed L.metric th.job (ck.index, .start) (b.c.index, th.pc)
  | .done => b.err = none ∧ k = objs0.length ∧ b.objs = done ∧
      ((b.ret = none ∧ b.c = ck) ∨ ∃ ff, b.ret = some ((ck.flush ff).2.map .task) ∧ b.c = (ck.flush ff).1)
  | .failed e => b.err = some (.task e) ∧ (b.ret = none ∨ b.ret = some (some (.task e))) ∧
      ∃ o o' env, P env.level ∧ objs0[k]? = some o ∧ ck.insertOne L o env = .ok (b.c, o', some e) ∧ b.objs = done ++ o' :: objs0.drop (k + 1)
  | .skipped => False
  | .panicked => b.err = none ∧ ∃ o env p, objs0[k]? = some o ∧ ck.insertOne L o env = .error p

/-- the state of a batch with one worker. -/
def One (fixed : Bool) (L : Lib V D) (P : Nat → Prop) (c0 : Coll) (objs0 : List (Object V)) (b : Batch V D) : Prop :=
  ∃ t th l ck done, b.tasks = [t] ∧ b.ts = [th] ∧ b.cancelled = false ∧ c0.insertAll L l = .ok (ck, done, none) ∧
    l.map Prod.fst = objs0.take l.length ∧ (∀ p ∈ l, P p.2.level) ∧ Phase1 fixed L P objs0 b t th ck done l.length

variable {fixed : Bool} {L : Lib V D} {P : Nat → Prop} {c0 : Coll} {objs0 : List (Object V)}

theorem take_snoc {A : Type} {l : List A} {k : Nat} {a : A} (h : l[k]? = some a) : l.take (k + 1) = l.take k ++ [a] := by
  rw [List.take_add_one, h]; rfl

theorem drop_split {A : Type} {l : List A} {k : Nat} {a : A} (h : l[k]? = some a) : l.drop k = a :: l.drop (k + 1) := by
  obtain ⟨hk, rfl⟩ := List.getElem?_eq_some_iff.mp h
  exact List.drop_eq_getElem_cons hk

theorem modify_at {A : Type} (xs ys : List A) (a : A) (k : Nat) (hk : xs.length = k) (g : A → A) :
    (xs ++ a :: ys).modify k g = xs ++ g a :: ys := by
  subst hk
  induction xs with
  | nil => rfl
  | cons x xs ih => simp [ih]

theorem One.work (hM : ∀ a b, L.metric.dist a b ≠ .error .outOfFuel) {b b' : Batch V D} (o : One fixed L P c0 objs0 b) {i : Nat}
    {env : InsEnv} (hP0 : P 0) (hPe : P env.level) (h : b.work fixed L i env = some b') : One fixed L P c0 objs0 b' := by
  obtain ⟨t, th, l, ck, done, ht, hth, hca, hpre, hobj, hP, hp⟩ := o
  have hlen := insertAll_len _ hpre
  obtain ⟨todo, pc⟩ := t
  have hi : i = 0 := by
    unfold Batch.work at h
    rw [ht] at h
    cases i with
    | zero => rfl
    | succ i => simp at h
  subst hi
  have hset : ∀ x, b.tasks.set 0 x = [x] := fun x => by rw [ht]; rfl
  cases pc with
  | wait =>
    simp only [Phase1] at hp
    obtain ⟨he, hr, hc, ho, hq⟩ := hp
    simp only [Batch.work, ht, List.getElem?_cons_zero, Batch.ctxDone, he, hca] at h
    cases h
    exact ⟨⟨todo, .loop⟩, th, l, ck, done, (by first | rfl | exact hset _), hth, hca, hpre, hobj, hP, he, hr, hc, ho, hq⟩
  | loop =>
    simp only [Phase1] at hp
    obtain ⟨he, hr, hc, ho, hq⟩ := hp
    simp only [Batch.work, ht, List.getElem?_cons_zero] at h
    have hcons : ∀ {x : Nat} {r : List Nat}, List.range' l.length (objs0.length - l.length) = x :: r →
        x = l.length ∧ l.length < objs0.length ∧ r = List.range' (l.length + 1) (objs0.length - (l.length + 1)) := by
      intro x r hx
      cases hn : objs0.length - l.length with
      | zero => rw [hn] at hx; cases hx
      | succ n =>
        rw [hn, List.range'_succ] at hx
        cases hx
        refine ⟨rfl, by omega, ?_⟩
        congr 1; omega
    cases todo with
    | cons x ks =>
      dsimp only at h
      cases h
      obtain ⟨h1, h2, h3⟩ := hcons hq.symm
      exact ⟨⟨ks, .fetch x⟩, th, l, ck, done, (by first | rfl | exact hset _), hth, hca, hpre, hobj, hP, he, hr, h1, h2, hc, ho, h3⟩
    | nil =>
      dsimp only at h
      cases hqq : b.queue with
      | cons x q =>
        rw [hqq] at h hq
        cases h
        obtain ⟨h1, h2, h3⟩ := hcons hq.symm
        exact ⟨⟨[], .fetch x⟩, th, l, ck, done, (by first | rfl | exact hset _), hth, hca, hpre, hobj, hP, he, hr, h1, h2, hc, ho, h3⟩
      | nil =>
        rw [hqq] at h hq
        cases h
        have hn : objs0.length - l.length = 0 := by
          cases hn : objs0.length - l.length with
          | zero => rfl
          | succ n => rw [hn] at hq; cases hq
        have hle : l.length ≤ objs0.length := by
          have := congrArg List.length hobj
          simp at this
          omega
        refine ⟨⟨[], .done⟩, th, l, ck, done, (by first | rfl | exact hset _), hth, hca, hpre, hobj, hP, he, by omega, ?_, Or.inl ⟨hr, hc⟩⟩
        show b.objs = done
        rw [ho, List.drop_eq_nil_of_le (by omega), List.append_nil]
  | fetch x =>
    simp only [Phase1] at hp
    obtain ⟨he, hr, rfl, hlt, hc, ho, hq⟩ := hp
    simp only [Batch.work, ht, List.getElem?_cons_zero] at h
    obtain ⟨o, hko⟩ : ∃ o, objs0[l.length]? = some o := ⟨_, List.getElem?_eq_getElem hlt⟩
    cases hf : fetchAndInc b.c.counter env.counterFails with
    | mk ctr r =>
      rw [hf] at h
      rw [hc] at hf
      cases r with
      | error e =>
        cases h
        refine ⟨⟨todo, .failed e⟩, th, l, ck, done, (by first | rfl | exact hset _), hth, hca, hpre, hobj, hP, ?_, Or.inl hr, o, o, env, hPe, hko, ?_, ?_⟩
        · show (b.err <|> some (GroupErr.task e)) = _
          rw [he]; rfl
        · unfold Coll.insertOne
          rw [hf]
          show _ = Except.ok (({ b.c with counter := ctr } : Coll), o, some e)
          rw [hc]
        · show b.objs = _
          rw [ho, drop_split hko]
      | ok id =>
        cases h
        have hf' : fetchAndInc ck.counter false = (ctr, .ok id) := by
          cases hcf : env.counterFails with
          | false => rw [hcf] at hf; exact hf
          | true => rw [hcf] at hf; simp [fetchAndInc] at hf
        refine ⟨⟨todo, .putObj l.length⟩, th, l, ck, done, (by first | rfl | exact hset _), hth, hca, hpre, hobj, hP, he, hr, rfl, hq, o, ctr, id, hko, hf', ?_, ?_⟩
        · show ({ b.c with counter := ctr } : Coll) = _
          rw [hc]
        · show b.objs.modify l.length (fun o => { o with id := id }) = _
          rw [ho, drop_split hko, modify_at _ _ _ _ hlen]
  | putObj x =>
    simp only [Phase1] at hp
    obtain ⟨he, hr, rfl, hq, o, ctr, id, hko, hf, hc, ho⟩ := hp
    have hb : b.objs[l.length]? = some { o with id := id } := by
      rw [ho, List.getElem?_append_right (by omega), hlen]; simp
    simp only [Batch.work, ht, List.getElem?_cons_zero, hb] at h
    cases hs : serializeProperties L.json { o with id := id } with
    | error e =>
      rw [hs] at h
      cases h
      refine ⟨⟨todo, .failed e⟩, th, l, ck, done, (by first | rfl | exact hset _), hth, hca, hpre, hobj, hP, ?_, Or.inl hr, o, { o with id := id }, {}, hP0, hko, ?_, ho⟩
      · show (b.err <|> some (GroupErr.task e)) = _
        rw [he]; rfl
      · unfold Coll.insertOne putObject
        rw [show fetchAndInc ck.counter (InsEnv.counterFails _) = (ctr, .ok id) from hf]
        dsimp only
        rw [hs]
        show _ = Except.ok (b.c, _, _)
        rw [hc]
    | ok bytes =>
      rw [hs] at h
      dsimp only at h
      by_cases hput : env.put = .objects
      · rw [if_pos hput] at h
        cases h
        refine ⟨⟨todo, .failed .io⟩, th, l, ck, done, (by first | rfl | exact hset _), hth, hca, hpre, hobj, hP, ?_, Or.inl hr, o, { o with id := id },
          { put := .objects }, hP0, hko, ?_, ho⟩
        · show (b.err <|> some (GroupErr.task .io)) = _
          rw [he]; rfl
        · unfold Coll.insertOne putObject
          rw [show fetchAndInc ck.counter (InsEnv.counterFails _) = (ctr, .ok id) from hf]
          dsimp only
          rw [hs]
          show _ = Except.ok (b.c, _, _)
          rw [hc]
          rfl
      · rw [if_neg hput] at h
        cases h
        refine ⟨⟨todo, .putVec l.length⟩, th, l, ck, done, (by first | rfl | exact hset _), hth, hca, hpre, hobj, hP, he, hr, rfl, hq, o, ctr, id, bytes, hko, hf, hs, ?_, ho⟩
        show ({ b.c with stores := _ } : Coll) = _
        rw [hc]
  | putVec x =>
    simp only [Phase1] at hp
    obtain ⟨he, hr, rfl, hq, o, ctr, id, bytes, hko, hf, hs, hc, ho⟩ := hp
    have hb : b.objs[l.length]? = some { o with id := id } := by
      rw [ho, List.getElem?_append_right (by omega), hlen]; simp
    simp only [Batch.work, ht, List.getElem?_cons_zero, hb] at h
    by_cases hput : env.put = .vectors
    · rw [if_pos hput] at h
      cases h
      refine ⟨⟨todo, .failed .io⟩, th, l, ck, done, (by first | rfl | exact hset _), hth, hca, hpre, hobj, hP, ?_, Or.inl hr, o, { o with id := id },
        { put := .vectors }, hP0, hko, ?_, ho⟩
      · show (b.err <|> some (GroupErr.task .io)) = _
        rw [he]; rfl
      · unfold Coll.insertOne putObject
        rw [show fetchAndInc ck.counter (InsEnv.counterFails _) = (ctr, .ok id) from hf]
        dsimp only
        rw [hs]
        show _ = Except.ok (b.c, _, _)
        rw [hc]
        rfl
    · rw [if_neg hput] at h
      cases h
      refine ⟨⟨todo, .index l.length⟩, { job := ⟨id, o.vec.getD [], env.level⟩, pc := .start }, l, ck, done, (by first | rfl | exact hset _), ?_, hca, hpre, hobj, hP, he, hr, rfl, hq,
        o, ctr, id, ⟨ck.stores.objects.set (keyOf id) bytes, ck.stores.vectors.set (keyOf id) (serializeVector (o.vec.getD []))⟩,
        env.level, hPe, hko, hf, ?_, ?_, ho, rfl, ?_⟩
      · show b.ts.set 0 _ = _
        rw [hth]; rfl
      · unfold putObject
        rw [hs]
        rfl
      · show ({ b.c with stores := _ } : Coll) = { ck with counter := ctr, stores := _, index := b.c.index }
        rw [hc]
      · show Solo fixed L.metric _ (ck.index, .start) (b.c.index, .start)
        rw [hc]
        exact .refl _
  | index x =>
    simp only [Phase1] at hp
    obtain ⟨he, hr, rfl, hq, o, ctr, id, st, level, hPl, hko, hf, hput, hc, ho, hj, hsolo⟩ := hp
    simp only [Batch.work, ht, List.getElem?_cons_zero, hth, Mach.step, stepPC_alone] at h
    cases hs : stepPC fixed L.metric b.c.index (fun _ => false) th.job th.pc with
    | none => rw [hs] at h; cases h
    | some r =>
      obtain ⟨h', pc'⟩ := r
      rw [hs] at h
      simp only [List.set_cons_zero, List.getElem?_cons_zero] at h
      cases h
      have hsolo' : Solo fixed L.metric th.job (ck.index, .start) (h', pc') := hsolo.trans (one hs)
      have hone : ∀ e, ck.insertOne L o { level := level } = e →
          e = ((ck.index.insert L.metric (o.vec.getD []) id level) >>= fun idx =>
            .ok ({ ck with counter := ctr, stores := st, index := idx }, { o with id := id }, none)) := by
        intro e h
        rw [← h]
        unfold Coll.insertOne
        rw [show fetchAndInc ck.counter ({ level := level } : InsEnv).counterFails = (ctr, .ok id) from hf]
        dsimp only
        rw [hput]
      have hone := hone _ rfl
      by_cases hidle : pc' = .idle
      · subst hidle
        have hins := solo_idle hM hsolo'
        rw [hj] at hins
        rw [hins] at hone
        have hle : l.length < objs0.length := (List.getElem?_eq_some_iff.mp hko).1
        refine ⟨⟨todo, .loop⟩, { th with pc := .idle }, l ++ [(o, { level := level })], { ck with counter := ctr, stores := st, index := h' },
          done ++ [{ o with id := id }], rfl, rfl, hca, ?_, ?_, ?_, ?_⟩
        · rw [insertAll_snoc l _ hpre]
          dsimp only
          rw [hone]
          rfl
        · rw [List.map_append, hobj, List.length_append]
          exact (take_snoc hko).symm
        · intro p hp
          rcases List.mem_append.mp hp with hp | hp
          · exact hP p hp
          · rw [List.mem_singleton.mp hp]; exact hPl
        · rw [List.length_append]
          refine ⟨he, hr, ?_, ?_, hq⟩
          · show ({ b.c with index := h' } : Coll) = _
            rw [hc]
          · show b.objs = _
            rw [ho, List.append_assoc]
            rfl
      · by_cases hdead : ∃ p held, pc' = .dead p held
        · obtain ⟨p, held, rfl⟩ := hdead
          have hins := solo_dead hM hsolo'
          rw [hj] at hins
          rw [hins] at hone
          exact ⟨⟨todo, .panicked⟩, { th with pc := .dead p held }, l, ck, done, (by first | rfl | exact hset _), rfl, hca, hpre, hobj, hP, he, o, _, p, hko, hone⟩
        · have ha : afterIndex l.length pc' = .index l.length := by
            cases pc' <;> first | rfl | (exact absurd rfl hidle) | (exact absurd ⟨_, _, rfl⟩ hdead)
          refine ⟨⟨todo, .index l.length⟩, { th with pc := pc' }, l, ck, done, by show [_] = _; rw [ha], rfl, hca, hpre, hobj, hP, he, hr, rfl, hq,
            o, ctr, id, st, level, hPl, hko, hf, hput, ?_, ho, hj, hsolo'⟩
          show ({ b.c with index := h' } : Coll) = { ck with counter := ctr, stores := st, index := h' }
          rw [hc]
  | done => simp [Batch.work, ht] at h
  | failed e => simp [Batch.work, ht] at h
  | skipped => simp [Batch.work, ht] at h
  | panicked => simp [Batch.work, ht] at h

theorem One.step (hM : ∀ a b, L.metric.dist a b ≠ .error .outOfFuel) {b b' : Batch V D} (o : One fixed L P c0 objs0 b) {a : BAct}
    (hcan : a ≠ .cancel) (hP0 : P 0) (hPa : ∀ i env, a = .work i env → P env.level) (h : b.step fixed L a = some b') : One fixed L P c0 objs0 b' := by
  cases a with
  | work i env => exact o.work hM hP0 (hPa i env rfl) h
  | cancel => exact absurd rfl hcan
  | finish ff =>
    obtain ⟨t, th, l, ck, done, ht, hth, hca, hpre, hobj, hP, hp⟩ := o
    obtain ⟨todo, pc⟩ := t
    simp only [Batch.step] at h
    split at h
    · rename_i hif
      obtain ⟨hr, hover⟩ := hif
      rw [ht] at hover
      cases pc with
      | done =>
        simp only [Phase1] at hp
        obtain ⟨he, hk, ho, hp⟩ := hp
        rw [he] at h
        cases h
        have hc : b.c = ck := by
          rcases hp with hp | ⟨ff', hp, _⟩
          · exact hp.2
          · rw [hr] at hp; cases hp
        refine ⟨⟨todo, .done⟩, th, l, ck, done, ht, hth, hca, hpre, hobj, hP, rfl, hk, ho, Or.inr ⟨ff, ?_⟩⟩
        rw [hc]
        exact ⟨rfl, rfl⟩
      | failed e =>
        simp only [Phase1] at hp
        obtain ⟨he, hp, hx⟩ := hp
        rw [he] at h
        cases h
        exact ⟨⟨todo, .failed e⟩, th, l, ck, done, ht, hth, hca, hpre, hobj, hP, rfl, Or.inr rfl, hx⟩
      | skipped => exact absurd hp (by simp [Phase1])
      | panicked =>
        simp only [Phase1] at hp
        obtain ⟨he, hx⟩ := hp
        rw [he] at h
        cases h
        exact ⟨⟨todo, .panicked⟩, th, l, ck, done, ht, hth, hca, hpre, hobj, hP, rfl, hx⟩
      | _ => simp [TPC.over] at hover
    · cases h
  | giveUp =>
    obtain ⟨t, th, l, ck, done, ht, hth, hca, hpre, hobj, hP, hp⟩ := o
    obtain ⟨todo, pc⟩ := t
    simp only [Batch.step] at h
    split at h
    · rename_i hif
      obtain ⟨hr, hd⟩ := hif
      cases h
      unfold Batch.ctxDone at hd
      rw [hca] at hd
      cases pc with
      | failed e =>
        simp only [Phase1] at hp
        obtain ⟨he, hp, hx⟩ := hp
        rw [he]
        exact ⟨⟨todo, .failed e⟩, th, l, ck, done, ht, hth, hca, hpre, hobj, hP, rfl, Or.inr rfl, hx⟩
      | skipped => exact absurd hp (by simp [Phase1])
      | _ =>
        simp only [Phase1] at hp
        rw [hp.1] at hd
        simp at hd
    · cases h

theorem One.run (hM : ∀ a b, L.metric.dist a b ≠ .error .outOfFuel) : ∀ (acts : List BAct) {b b' : Batch V D}, One fixed L P c0 objs0 b →
    BAct.cancel ∉ acts → P 0 → (∀ i env, BAct.work i env ∈ acts → P env.level) → b.run fixed L acts = some b' → One fixed L P c0 objs0 b' := by
  intro acts
  induction acts with
  | nil => intro b b' o _ _ _ h; cases h; exact o
  | cons a acts ih =>
    intro b b' o hc hP0 hPa h
    simp only [Batch.run] at h
    cases hs : b.step fixed L a with
    | none => rw [hs] at h; cases h
    | some b1 =>
      rw [hs] at h
      exact ih (o.step hM (fun e => hc (e ▸ List.mem_cons_self ..)) hP0 (fun i env e => hPa i env (e ▸ List.mem_cons_self ..)) hs) (fun hm => hc (List.mem_cons_of_mem _ hm)) hP0 (fun i env hm => hPa i env (List.mem_cons_of_mem _ hm)) h

theorem one_start {b : Batch V D} (h : startBatch c0 objs0 1 = some b) : One fixed L P c0 objs0 b := by
  obtain ⟨todos, h1, h2, h3⟩ := C13_partition (List.range objs0.length) 1 (Nat.zero_lt_one)
  rw [List.length_range] at h1
  unfold startBatch at h
  simp only [h1] at h
  cases h
  match todos, h2 with
  | [todo], _ =>
    simp only [List.flatten_cons, List.flatten_nil, List.append_nil] at h3
    subst h3
    exact ⟨⟨_, .wait⟩, _, [], c0, [], rfl, rfl, rfl, rfl, rfl, (fun _ h => nomatch h), rfl, rfl, rfl, rfl, by simp [List.range_eq_range']⟩

theorem one_start2 : One fixed L P c0 objs0 (startBatch2 c0 objs0 1 : Batch V D) :=
  ⟨⟨_, .wait⟩, _, [], c0, [], rfl, rfl, rfl, rfl, rfl, (fun _ h => nomatch h), rfl, rfl, rfl, rfl, by simp [List.range_eq_range', startBatch2]⟩

end Vectory.Conc
