import Verif.Lemmas.OneWorker
/-!
# Every outcome of the sequential batch is an outcome of a batch with one worker
-/
namespace Vectory.Conc
open Vectory
variable {V D : Type} {fixed : Bool} {L : Lib V D} {P : Nat → Prop}

/-- some schedule without a cancellation, with admissible levels, leads from `b` to `b'`. -/
def Goes (fixed : Bool) (L : Lib V D) (P : Nat → Prop) (b b' : Batch V D) : Prop :=
  ∃ acts, BAct.cancel ∉ acts ∧ (∀ i env, BAct.work i env ∈ acts → P env.level) ∧ b.run fixed L acts = some b'

theorem Goes.refl (b : Batch V D) : Goes fixed L P b b := ⟨[], by simp, by simp, rfl⟩

theorem Goes.work {b b1 b2 : Batch V D} {env : InsEnv} (hP : P env.level) (h : b.work fixed L 0 env = some b1)
    (h2 : Goes fixed L P b1 b2) : Goes fixed L P b b2 := by
  obtain ⟨acts, h3, h4, h5⟩ := h2
  refine ⟨.work 0 env :: acts, ?_, ?_, ?_⟩
  · intro hm
    rcases List.mem_cons.mp hm with hm | hm
    · cases hm
    · exact h3 hm
  · intro i env' hm
    rcases List.mem_cons.mp hm with hm | hm
    · cases hm; exact hP
    · exact h4 i env' hm
  · show (match b.work fixed L 0 env with | none => none | some b => b.run fixed L acts) = _
    rw [h]; exact h5

theorem Goes.finish {b b1 : Batch V D} {ff : Bool} (h : b.step fixed L (.finish ff) = some b1) : Goes fixed L P b b1 :=
  ⟨[.finish ff], by simp, by simp, by simp [Batch.run, h]⟩

theorem Goes.trans {b b1 b2 : Batch V D} (h : Goes fixed L P b b1) (h2 : Goes fixed L P b1 b2) : Goes fixed L P b b2 := by
  obtain ⟨acts, a1, a2, a3⟩ := h
  obtain ⟨acts2, b1', b2', b3⟩ := h2
  refine ⟨acts ++ acts2, ?_, ?_, ?_⟩
  · intro hm
    rcases List.mem_append.mp hm with hm | hm
    · exact a1 hm
    · exact b1' hm
  · intro i env hm
    rcases List.mem_append.mp hm with hm | hm
    · exact a2 i env hm
    · exact b2' i env hm
  · clear a1 a2 b1' b2'
    induction acts generalizing b with
    | nil => cases a3; exact b3
    | cons a acts ih =>
      simp only [Batch.run, List.cons_append] at a3 ⊢
      cases hs : b.step fixed L a with
      | none => rw [hs] at a3; cases a3
      | some b' => rw [hs] at a3; exact ih a3

theorem afterIndex_moving {h : Hnsw} {locked : UInt64 → Bool} {M : Metric D} {j : Job} {pc : PC D} {r : Hnsw × PC D} (k : Nat)
    (hs : stepPC fixed M h locked j pc = some r) : afterIndex k pc = .index k := by
  cases pc <;> first | rfl | (cases hs)

/-- the steps of the index as steps of the batch. -/
theorem goes_solo (hP0 : P 0) {j : Job} (k : Nat) (todo : List Nat) {x y : Hnsw × PC D} (s : Solo fixed L.metric j x y) : ∀ (b : Batch V D),
    b.c.index = x.1 → b.ts = [⟨j, x.2⟩] → b.tasks = [⟨todo, afterIndex k x.2⟩] →
    Goes fixed L P b { b with c := { b.c with index := y.1 }, ts := [⟨j, y.2⟩], tasks := [⟨todo, afterIndex k y.2⟩] } := by
  induction s with
  | refl x =>
    intro b h1 h2 h3
    have : ({ b with c := { b.c with index := x.1 }, ts := [⟨j, x.2⟩], tasks := [⟨todo, afterIndex k x.2⟩] } : Batch V D) = b := by
      rw [← h1, ← h2, ← h3]
    rw [this]
    exact .refl b
  | @step x y z hs _ ih =>
    intro b h1 h2 h3
    rw [afterIndex_moving k hs] at h3
    refine Goes.work (env := {}) hP0 (b1 := { b with c := { b.c with index := y.1 }, ts := [⟨j, y.2⟩], tasks := [⟨todo, afterIndex k y.2⟩] }) ?_ ?_
    · have ha := stepPC_alone fixed L.metric x.1 (⟨j, x.2⟩ : Thread D)
      dsimp only at ha
      simp only [Batch.work, h3, List.getElem?_cons_zero, h2, Mach.step, h1, ha, hs, List.set_cons_zero]
      simp only [Batch.goto, h3, List.set_cons_zero]
    · exact ih _ rfl rfl rfl

theorem modify_set {A : Type} {g : A → A} : ∀ {l : List A} {k : Nat} {a : A}, l[k]? = some a → l.modify k g = l.set k (g a) := by
  intro l
  induction l with
  | nil => intro k a h; cases h
  | cons x l ih =>
    intro k a h
    cases k with
    | zero => cases h; rfl
    | succ k =>
      simp only [List.getElem?_cons_succ] at h
      simp only [List.modify_succ_cons, List.set_cons_succ, ih h]

/-- where the batch is after one object. -/
theorem goes_one (hM : ∀ a b, L.metric.dist a b ≠ .error .outOfFuel) (hP0 : P 0) {b : Batch V D} {todo : List Nat} {k : Nat}
    {th : Thread D} {o o' : Object V} {env : InsEnv} {c' : Coll} {e : Option Err} (ht : b.tasks = [⟨todo, .fetch k⟩]) (hth : b.ts = [th])
    (he : b.err = none) (hP : P env.level) (hk : b.objs[k]? = some o) (h : b.c.insertOne L o env = .ok (c', o', e)) :
    ∃ th', Goes fixed L P b { b with
      c := c', objs := b.objs.set k o', ts := [th'], err := e.map .task,
      tasks := [⟨todo, match e with | none => .loop | some e => .failed e⟩] } := by
  unfold Coll.insertOne at h
  cases hf : fetchAndInc b.c.counter env.counterFails with
  | mk ctr r =>
    rw [hf] at h
    cases r with
    | error er =>
      cases h
      refine ⟨th, Goes.work hP (b1 := { b with c := { b.c with counter := ctr }, tasks := [⟨todo, .failed er⟩], err := some (.task er) }) ?_ ?_⟩
      · simp only [Batch.work, ht, List.getElem?_cons_zero, hf, Batch.fail, he, List.set_cons_zero]
        rfl
      · have : b.objs.set k o = b.objs := by
          obtain ⟨hl, rfl⟩ := List.getElem?_eq_some_iff.mp hk
          exact List.set_getElem_self hl
        rw [this, ← hth]
        exact .refl _
    | ok id =>
      dsimp only at h
      have hmod : b.objs.modify k (fun o => { o with id := id }) = b.objs.set k { o with id := id } := by
        exact modify_set hk
      have hk2 : (b.objs.set k { o with id := id })[k]? = some { o with id := id } := by
        rw [List.getElem?_set_self (List.getElem?_eq_some_iff.mp hk).1]
      have w1 : b.work fixed L 0 env = some { b with
          c := { b.c with counter := ctr }, objs := b.objs.set k { o with id := id }, tasks := [⟨todo, .putObj k⟩] } := by
        simp only [Batch.work, ht, List.getElem?_cons_zero, hf, Batch.goto, hmod, List.set_cons_zero]
      unfold putObject at h
      cases hs : serializeProperties L.json { o with id := id } with
      | error er =>
        rw [hs] at h
        cases h
        refine ⟨th, Goes.work hP w1 (Goes.work (env := env) hP ?_ (.refl _))⟩
        simp only [Batch.work, List.getElem?_cons_zero, hk2, hs, Batch.fail, he, List.set_cons_zero, hth]
        rfl
      | ok bytes =>
        rw [hs] at h
        dsimp only at h
        by_cases hpo : env.put = .objects
        · rw [if_pos hpo] at h
          cases h
          refine ⟨th, Goes.work hP w1 (Goes.work (env := env) hP ?_ (.refl _))⟩
          simp only [Batch.work, List.getElem?_cons_zero, hk2, hs, Batch.fail, he, List.set_cons_zero, hth, hpo, if_true]
          rfl
        · rw [if_neg hpo] at h
          have w2 : ({ b with
              c := { b.c with counter := ctr }, objs := b.objs.set k { o with id := id }, tasks := [⟨todo, .putObj k⟩] } : Batch V D).work
                fixed L 0 env = some { b with
              c := { b.c with counter := ctr, stores := { b.c.stores with objects := b.c.stores.objects.set (keyOf id) bytes } },
              objs := b.objs.set k { o with id := id }, tasks := [⟨todo, .putVec k⟩] } := by
            simp only [Batch.work, List.getElem?_cons_zero, hk2, hs, if_neg hpo, Batch.goto, List.set_cons_zero]
          by_cases hpv : env.put = .vectors
          · rw [if_pos hpv] at h
            cases h
            refine ⟨th, Goes.work hP w1 (Goes.work hP w2 (Goes.work (env := env) hP ?_ (.refl _)))⟩
            simp only [Batch.work, List.getElem?_cons_zero, hk2, Batch.fail, he, List.set_cons_zero, hth, hpv, if_true]
            rfl
          · rw [if_neg hpv] at h
            dsimp only at h
            obtain ⟨idx, hins, h⟩ := (bind_ok_iff _ _ _).mp h
            cases h
            have hsolo := insert_ends (fixed := fixed) (M := L.metric) (j := ⟨id, o.vec.getD [], env.level⟩) b.c.index
            rw [hins] at hsolo
            refine ⟨⟨⟨id, o.vec.getD [], env.level⟩, .idle⟩, Goes.work hP w1 (Goes.work hP w2 (Goes.work (env := env) hP
              (b1 := { b with
                c := { b.c with counter := ctr, stores := {
                    objects := b.c.stores.objects.set (keyOf id) bytes,
                    vectors := b.c.stores.vectors.set (keyOf id) (serializeVector (o.vec.getD [])) } },
                objs := b.objs.set k { o with id := id }, ts := [⟨⟨id, o.vec.getD [], env.level⟩, .start⟩], tasks := [⟨todo, .index k⟩] }) ?_ ?_))⟩
            · simp only [Batch.work, List.getElem?_cons_zero, hk2, if_neg hpv, Batch.goto, List.set_cons_zero, hth]
            · have := goes_solo (P := P) hP0 k todo hsolo { b with
                c := { b.c with counter := ctr, stores := {
                    objects := b.c.stores.objects.set (keyOf id) bytes,
                    vectors := b.c.stores.vectors.set (keyOf id) (serializeVector (o.vec.getD [])) } },
                objs := b.objs.set k { o with id := id }, ts := [⟨⟨id, o.vec.getD [], env.level⟩, .start⟩], tasks := [⟨todo, .index k⟩] } rfl rfl rfl
              rw [he] at this ⊢
              exact this

/-- the loop over the objects. -/
theorem goes_all (hM : ∀ a b, L.metric.dist a b ≠ .error .outOfFuel) (hP0 : P 0) : ∀ (l : List (Object V × InsEnv)) (b : Batch V D)
    (todo : List Nat) (th : Thread D) (pre : List (Object V)) {c' : Coll} {os : List (Object V)} {e : Option Err},
    b.tasks = [⟨todo, .loop⟩] → b.ts = [th] → b.err = none → b.objs = pre ++ l.map Prod.fst →
    todo ++ b.queue = List.range' pre.length l.length → (∀ p ∈ l, P p.2.level) → b.c.insertAll L l = .ok (c', os, e) →
    ∃ b', Goes fixed L P b b' ∧ b'.c = c' ∧ b'.objs = pre ++ os ∧ b'.err = e.map .task ∧ b'.ret = b.ret ∧
      b'.tasks.all (fun t => t.pc.over) = true := by
  intro l
  induction l with
  | nil =>
    intro b todo th pre c' os e ht hth he ho hq hP h
    cases h
    have hq : todo = [] ∧ b.queue = [] := by simpa using hq
    refine ⟨{ b with tasks := [⟨[], .done⟩] }, Goes.work (env := {}) hP0 ?_ (.refl _), rfl, by simpa using ho, he, rfl, rfl⟩
    simp only [Batch.work, ht, List.getElem?_cons_zero, hq.1, hq.2, Batch.goto, List.set_cons_zero]
  | cons p l ih =>
    obtain ⟨o, env⟩ := p
    intro b todo th pre c' os e ht hth he ho hq hP h
    have hPe : P env.level := hP (o, env) (List.mem_cons_self ..)
    have hk : b.objs[pre.length]? = some o := by rw [ho, List.getElem?_append_right (Nat.le_refl _)]; simp
    have hset : ∀ o', b.objs.set pre.length o' = pre ++ o' :: l.map Prod.fst := by
      intro o'; rw [ho, List.set_append_right _ _ (Nat.le_refl _)]; simp
    rw [List.length_cons, List.range'_succ] at hq
    obtain ⟨todo', q', w, hq'⟩ : ∃ todo' q', b.work fixed L 0 {} = some { b with tasks := [⟨todo', .fetch pre.length⟩], queue := q' } ∧
        todo' ++ q' = List.range' (pre.length + 1) l.length := by
      cases todo with
      | cons x xs =>
        have hq : x :: (xs ++ b.queue) = pre.length :: List.range' (pre.length + 1) l.length := hq
        injection hq with hx hq2
        subst hx
        refine ⟨xs, b.queue, ?_, hq2⟩
        simp only [Batch.work, ht, List.getElem?_cons_zero, List.set_cons_zero]
      | nil =>
        refine ⟨[], List.range' (pre.length + 1) l.length, ?_, rfl⟩
        simp only [List.nil_append] at hq
        simp only [Batch.work, ht, List.getElem?_cons_zero, List.set_cons_zero, hq]
    unfold Coll.insertAll at h
    obtain ⟨⟨c1, o1, e1⟩, h1, h⟩ := (bind_ok_iff _ _ _).mp h
    obtain ⟨th', hg⟩ := goes_one (fixed := fixed) (L := L) (P := P) hM hP0
      (b := { b with tasks := [⟨todo', .fetch pre.length⟩], queue := q' }) rfl hth he hPe hk h1
    have hg := Goes.work (env := {}) hP0 w hg
    dsimp only at hg
    rw [hset] at hg
    cases e1 with
    | some er =>
      cases h
      exact ⟨_, hg, rfl, rfl, rfl, rfl, rfl⟩
    | none =>
      dsimp only at h
      obtain ⟨⟨c2, os2, e2⟩, h2, h⟩ := (bind_ok_iff _ _ _).mp h
      cases h
      obtain ⟨b', g, i1, i2, i3, i4, i5⟩ := ih { b with
          c := c1, objs := pre ++ o1 :: l.map Prod.fst, ts := [th'], err := none, queue := q', tasks := [⟨todo', .loop⟩] }
        todo' th' (pre ++ [o1]) rfl rfl rfl
        (by simp) (by simpa using hq') (fun p hp => hP p (List.mem_cons_of_mem _ hp)) h2
      exact ⟨b', hg.trans g, i1, by rw [i2]; simp, i3, i4, i5⟩

end Vectory.Conc
