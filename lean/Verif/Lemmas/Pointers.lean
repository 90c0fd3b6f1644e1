import Verif.Spec.Pointers
import Verif.Lemmas.CollReach
import Verif.Props.Batch
/-!
# A batch of pointers does what the batch of the copies does, as long as no object is shared by two workers
-/
namespace Vectory.Conc
open Vectory
variable {V D : Type}

/-- the position a task works on, after `obj.Id = id`. -/
def TPC.now : TPC → Option Nat
  | .putObj k | .putVec k | .index k => some k
  | _ => none

/-- the position a task has taken and not yet given an id. -/
def TPC.next : TPC → List Nat
  | .fetch k => [k]
  | _ => []

def TPC.via (f : Nat → Nat) : TPC → TPC
  | .fetch k => .fetch (f k)
  | .putObj k => .putObj (f k)
  | .putVec k => .putVec (f k)
  | .index k => .index (f k)
  | pc => pc

def Task.via (f : Nat → Nat) (t : Task) : Task := ⟨t.todo.map f, t.pc.via f⟩

/-- `b` runs on objects, `b'` on positions; `own i` are the positions of worker `i`, `did i` those that have an id. -/
structure PSim (f : Nat → Nat) (n : Nat) (own did : Nat → List Nat) (b b' : Batch V D) : Prop where
  c : b.c = b'.c
  ts : b.ts = b'.ts
  err : b.err = b'.err
  canc : b.cancelled = b'.cancelled
  ret : b.ret = b'.ret
  tasks : b.tasks = b'.tasks.map (Task.via f)
  queue : b.queue = b'.queue.map f
  len : b'.objs.length = n
  data : ∀ (p : Nat) (o' : Object V), b'.objs[p]? = some o' → ∃ o : Object V, b.objs[f p]? = some o ∧ o.props = o'.props ∧ o.vec = o'.vec
  one : b'.queue = [] ∨ b'.tasks.length ≤ 1
  plan : ∀ (i : Nat) (t : Task), b'.tasks[i]? = some t → (∀ e, t.pc ≠ .failed e) → own i = did i ++ (t.pc.next ++ (t.todo ++ b'.queue))
  now : ∀ (i : Nat) (t : Task) (p : Nat), b'.tasks[i]? = some t → t.pc.now = some p → ∃ xs, did i = xs ++ [p]
  fin : ∀ (i : Nat) (t : Task), b'.tasks[i]? = some t → t.pc = .done → t.todo = [] ∧ b'.queue = []
  mem : ∀ i p, p ∈ did i → p ∈ own i
  cur : ∀ (i : Nat) (xs : List Nat) (p : Nat) (ys : List Nat), did i = xs ++ p :: ys → (∀ q ∈ ys, f q ≠ f p) → ∀ (o o' : Object V), b.objs[f p]? = some o →
    b'.objs[p]? = some o' → o.id = o'.id

/-- what is known about the owners. -/
structure Owners (f : Nat → Nat) (n : Nat) (own : Nat → List Nat) : Prop where
  nodup : ∀ i, (own i).Nodup
  lt : ∀ i, ∀ p ∈ own i, p < n
  apart : ∀ i j p q, p ∈ own i → q ∈ own j → f p = f q → i = j

variable {f : Nat → Nat} {n : Nat} {own did : Nat → List Nat} {b b' : Batch V D}

/-- a task moves on without touching the objects. -/
theorem PSim.move (s : PSim f n own did b b') {i : Nat} {t : Task} (hi : b'.tasks[i]? = some t) (t1 : Task) (q1 : List Nat)
    (hplan : (∀ e, t1.pc ≠ .failed e) → (∀ e, t.pc ≠ .failed e) ∧ t.pc.next ++ (t.todo ++ b'.queue) = t1.pc.next ++ (t1.todo ++ q1)) (hq : q1 = b'.queue ∨ b'.tasks.length ≤ 1)
    (hnow : ∀ p, t1.pc.now = some p → t.pc.now = some p) (hfin : t1.pc = .done → t1.todo = [] ∧ q1 = []) :
    PSim f n own did { b with tasks := b.tasks.set i (t1.via f), queue := q1.map f } { b' with tasks := b'.tasks.set i t1, queue := q1 } := by
  have hlt : i < b'.tasks.length := (List.getElem?_eq_some_iff.mp hi).1
  have key : ∀ (j : Nat) (t2 : Task), (b'.tasks.set i t1)[j]? = some t2 → (j = i ∧ t2 = t1) ∨ (j ≠ i ∧ b'.tasks[j]? = some t2 ∧ q1 = b'.queue) := by
    intro j t2 h
    rw [List.getElem?_set] at h
    by_cases hj : i = j
    · subst hj
      rw [if_pos rfl, if_pos hlt] at h
      cases h; exact Or.inl ⟨rfl, rfl⟩
    · rw [if_neg hj] at h
      refine Or.inr ⟨fun e => hj e.symm, h, ?_⟩
      rcases hq with hq | hq
      · exact hq
      · have := (List.getElem?_eq_some_iff.mp h).1
        omega
  refine ⟨s.c, s.ts, s.err, s.canc, s.ret, ?_, rfl, s.len, s.data, ?_, ?_, ?_, ?_, s.mem, s.cur⟩
  · show b.tasks.set i _ = (b'.tasks.set i t1).map _
    rw [s.tasks, List.map_set]
  · show q1 = [] ∨ (b'.tasks.set i t1).length ≤ 1
    rw [List.length_set]
    rcases hq with hq | hq
    · rw [hq]; exact s.one
    · exact Or.inr hq
  · intro j t2 h hf
    show own j = did j ++ (t2.pc.next ++ (t2.todo ++ q1))
    rcases key j t2 h with ⟨rfl, rfl⟩ | ⟨_, h, e⟩
    · rw [← (hplan hf).2]; exact s.plan _ _ hi (hplan hf).1
    · rw [e]; exact s.plan _ _ h hf
  · intro j t2 p h hp
    rcases key j t2 h with ⟨rfl, rfl⟩ | ⟨_, h, e⟩
    · exact s.now _ _ _ hi (hnow p hp)
    · exact s.now _ _ _ h hp
  · intro j t2 h hp
    rcases key j t2 h with ⟨rfl, rfl⟩ | ⟨_, h, e⟩
    · exact hfin hp
    · have := s.fin _ _ h hp
      exact ⟨this.1, by show q1 = []; rw [e]; exact this.2⟩

theorem PSim.goto (s : PSim f n own did b b') {i : Nat} {t : Task} (hi : b'.tasks[i]? = some t) (pc : TPC)
    (hnext : (∀ e, pc ≠ .failed e) → (∀ e, t.pc ≠ .failed e) ∧ t.pc.next = pc.next) (hnow : ∀ p, pc.now = some p → t.pc.now = some p) (hfin : pc = .done → t.todo = [] ∧ b'.queue = []) :
    PSim f n own did (b.goto i (t.via f) (pc.via f)) (b'.goto i t pc) := by
  have := s.move hi { t with pc := pc } b'.queue (fun h => ⟨(hnext h).1, by rw [(hnext h).2]⟩) (Or.inl rfl) hnow hfin
  rw [← s.queue] at this
  exact this

/-- the shared parts change in the same way. -/
theorem PSim.core (s : PSim f n own did b b') (c : Coll) (ts : List (Thread D)) (e : Option GroupErr) (ca : Bool) (r : Option (Option GroupErr)) :
    PSim f n own did { b with c := c, ts := ts, err := e, cancelled := ca, ret := r } { b' with c := c, ts := ts, err := e, cancelled := ca, ret := r } :=
  ⟨rfl, rfl, rfl, rfl, rfl, s.tasks, s.queue, s.len, s.data, s.one, s.plan, s.now, s.fin, s.mem, s.cur⟩

theorem PSim.both (s : PSim f n own did b b') (c : Coll) (ts : List (Thread D)) :
    PSim f n own did { b with c := c, ts := ts } { b' with c := c, ts := ts } :=
  ⟨rfl, rfl, s.err, s.canc, s.ret, s.tasks, s.queue, s.len, s.data, s.one, s.plan, s.now, s.fin, s.mem, s.cur⟩

theorem PSim.col (s : PSim f n own did b b') (c : Coll) : PSim f n own did { b with c := c } { b' with c := c } :=
  ⟨rfl, s.ts, s.err, s.canc, s.ret, s.tasks, s.queue, s.len, s.data, s.one, s.plan, s.now, s.fin, s.mem, s.cur⟩

theorem PSim.fail (s : PSim f n own did b b') {i : Nat} {t : Task} (hi : b'.tasks[i]? = some t) (e : Err) :
    PSim f n own did (b.fail i (t.via f) e) (b'.fail i t e) := by
  have := (s.goto hi (.failed e) (fun h => absurd rfl (h e)) (fun p h => nomatch h) (fun h => nomatch h)).core b.c b.ts (b.err <|> some (.task e)) b.cancelled b.ret
  obtain ⟨h1, h2, h3, h4, h5, h6, h7, h8, h9, h10, h11, h12, h13, h14, h15⟩ := this
  exact ⟨s.c, s.ts, (by show (b.err <|> _) = (b'.err <|> _); rw [s.err]), s.canc, s.ret, h6, h7, h8, h9, h10, h11, h12, h13, h14, h15⟩

/-- the position a task works on is the object, with the id of the position. -/
theorem PSim.same (s : PSim f n own did b b') (w : Owners f n own) {i : Nat} {t : Task} {p : Nat} (hi : b'.tasks[i]? = some t)
    (hp : t.pc.now = some p) : ∃ o : Object V, b.objs[f p]? = some o ∧ b'.objs[p]? = some o := by
  obtain ⟨xs, hx⟩ := s.now i t p hi hp
  have hm : p ∈ own i := s.mem i p (by rw [hx]; simp)
  have hlt : p < b'.objs.length := by rw [s.len]; exact w.lt i p hm
  obtain ⟨o, h1, h2, h3⟩ := s.data p _ (List.getElem?_eq_getElem hlt)
  have h4 := s.cur i xs p [] hx (fun q hq => nomatch hq) o _ h1 (List.getElem?_eq_getElem hlt)
  refine ⟨o, h1, ?_⟩
  rw [List.getElem?_eq_getElem hlt]
  obtain ⟨a1, a2, a3⟩ := o
  cases ho : b'.objs[p] with
  | mk b1 b2 b3 =>
    rw [ho] at h2 h3 h4
    dsimp only at h2 h3 h4
    subst h2; subst h3; subst h4; rfl

/-- the id of position `p` is drawn. -/
theorem PSim.fetched (s : PSim f n own did b b') (w : Owners f n own) {i : Nat} {t : Task} {p : Nat} (hi : b'.tasks[i]? = some t)
    (hp : t.pc = .fetch p) (id : UInt64) :
    PSim f n own (fun j => if j = i then did i ++ [p] else did j)
      (({ b with objs := b.objs.modify (f p) (fun o => { o with id := id }) } : Batch V D).goto i (t.via f) (.putObj (f p)))
      (({ b' with objs := b'.objs.modify p (fun o => { o with id := id }) } : Batch V D).goto i t (.putObj p)) := by
  have hlt : i < b'.tasks.length := (List.getElem?_eq_some_iff.mp hi).1
  have hplan := s.plan i t hi (by rw [hp]; exact fun e h => nomatch h)
  rw [hp] at hplan
  simp only [TPC.next] at hplan
  have hpo : p ∈ own i := by rw [hplan]; simp
  have hpd : ∀ j, p ∉ did j := by
    intro j hj
    have : j = i := w.apart j i p p (s.mem j p hj) hpo rfl
    subst this
    have hn := w.nodup j
    rw [hplan, List.nodup_append] at hn
    exact hn.2.2 p hj p (by simp) rfl
  have key : ∀ (j : Nat) (t2 : Task), (b'.tasks.set i { t with pc := .putObj p })[j]? = some t2 →
      (j = i ∧ t2 = { t with pc := .putObj p }) ∨ (j ≠ i ∧ b'.tasks[j]? = some t2) := by
    intro j t2 h
    rw [List.getElem?_set] at h
    by_cases hj : i = j
    · subst hj
      rw [if_pos rfl, if_pos hlt] at h
      cases h; exact Or.inl ⟨rfl, rfl⟩
    · rw [if_neg hj] at h
      exact Or.inr ⟨fun e => hj e.symm, h⟩
  refine ⟨s.c, s.ts, s.err, s.canc, s.ret, ?_, s.queue, ?_, ?_, ?_, ?_, ?_, ?_, ?_, ?_⟩
  · show b.tasks.set i _ = (b'.tasks.set i _).map _
    rw [s.tasks, List.map_set]; rfl
  · show (b'.objs.modify p _).length = n
    rw [List.length_modify]; exact s.len
  · intro q o' h
    change (b'.objs.modify p _)[q]? = some o' at h
    show ∃ o : Object V, (b.objs.modify (f p) _)[f q]? = some o ∧ _
    rw [List.getElem?_modify] at h ⊢
    cases hq : b'.objs[q]? with
    | none => rw [hq] at h; simp at h
    | some o1 =>
      obtain ⟨o, h1, h2, h3⟩ := s.data q o1 hq
      rw [hq] at h
      rw [h1]
      simp only [Option.map_some, Option.some.injEq, Functor.map] at h ⊢
      refine ⟨_, rfl, ?_, ?_⟩
      · rw [← h]; split <;> split <;> exact h2
      · rw [← h]; split <;> split <;> exact h3
  · show b'.queue = [] ∨ (b'.tasks.set i _).length ≤ 1
    rw [List.length_set]; exact s.one
  · intro j t2 h hf
    show own j = (if j = i then did i ++ [p] else did j) ++ (t2.pc.next ++ (t2.todo ++ b'.queue))
    rcases key j t2 h with ⟨rfl, rfl⟩ | ⟨hj, h⟩
    · rw [if_pos rfl, hplan]; simp [TPC.next]
    · rw [if_neg hj]; exact s.plan j t2 h hf
  · intro j t2 q h hq
    rcases key j t2 h with ⟨rfl, rfl⟩ | ⟨hj, h⟩
    · rw [if_pos rfl]
      cases hq
      exact ⟨_, rfl⟩
    · rw [if_neg hj]; exact s.now j t2 q h hq
  · intro j t2 h hd
    rcases key j t2 h with ⟨rfl, rfl⟩ | ⟨hj, h⟩
    · cases hd
    · exact s.fin j t2 h hd
  · intro j q hq
    split at hq
    · rename_i e
      subst e
      rcases List.mem_append.mp hq with hq | hq
      · exact s.mem _ _ hq
      · rw [List.mem_singleton.mp hq]; exact hpo
    · exact s.mem _ _ hq
  · intro j xs q ys h hys o o' ho ho'
    change (b.objs.modify (f p) _)[f q]? = some o at ho
    change (b'.objs.modify p _)[q]? = some o' at ho'
    rw [List.getElem?_modify] at ho ho'
    by_cases hj : j = i
    · subst hj
      rw [if_pos rfl] at h
      rcases List.eq_nil_or_concat ys with rfl | ⟨zs, z, rfl⟩
      · obtain ⟨h1, h2⟩ := List.append_inj' h rfl
        cases h2
        simp only [Functor.map, if_true] at ho ho'
        rw [show (fun a : Object V => ({ a with id := id } : Object V)) = (fun a => { a with id := id }) from rfl] at ho ho'
        obtain ⟨a, _, rfl⟩ := Option.map_eq_some_iff.mp ho
        obtain ⟨a', _, rfl⟩ := Option.map_eq_some_iff.mp ho'
        rfl
      · rw [List.concat_eq_append] at h hys
        rw [show xs ++ q :: (zs ++ [z]) = (xs ++ q :: zs) ++ [z] by simp] at h
        obtain ⟨h1, h2⟩ := List.append_inj' h rfl
        cases h2
        have hne : f p ≠ f q := hys p (by simp)
        have hne' : p ≠ q := fun e => hne (by rw [e])
        simp only [if_neg hne, if_neg hne'] at ho ho'
        exact s.cur j xs q zs h1 (fun r hr => hys r (by simp [hr])) o o' (by simpa using ho) (by simpa using ho')
    · rw [if_neg hj] at h
      have hqj : q ∈ own j := s.mem j q (by rw [h]; simp)
      have hne : f p ≠ f q := fun e => hj (w.apart j i q p hqj hpo e.symm)
      have hne' : p ≠ q := fun e => hne (by rw [e])
      simp only [if_neg hne, if_neg hne'] at ho ho'
      exact s.cur j xs q ys h hys o o' (by simpa using ho) (by simpa using ho')

/-- the step of a task on objects is the step of the task on positions. -/
theorem PSim.work (fixed : Bool) (L : Lib V D) (s : PSim f n own did b b') (w : Owners f n own) {i : Nat} {env : InsEnv} {b1 : Batch V D}
    (h : b.work fixed L i env = some b1) :
    ∃ (b1' : Batch V D) (did1 : Nat → List Nat), b'.work fixed L i env = some b1' ∧ PSim f n own did1 b1 b1' := by
  have hctx : b.ctxDone = b'.ctxDone := by unfold Batch.ctxDone; rw [s.err, s.canc]
  have ht' : b.tasks[i]? = (b'.tasks[i]?).map (Task.via f) := by rw [s.tasks, List.getElem?_map]
  unfold Batch.work at h
  rw [ht'] at h
  cases ht : b'.tasks[i]? with
  | none => rw [ht] at h; cases h
  | some t =>
    rw [ht] at h
    obtain ⟨todo, pc⟩ := t
    cases pc with
    | wait =>
      simp only [Option.map_some, Task.via, TPC.via, hctx] at h
      cases hc : b'.ctxDone with
      | true =>
        rw [hc] at h
        cases h
        refine ⟨b'.goto i ⟨todo, .wait⟩ .skipped, did, by simp [Batch.work, ht, hc], ?_⟩
        exact s.goto ht .skipped (fun _ => ⟨(fun e h => nomatch h), rfl⟩) (fun p h => nomatch h) (fun h => nomatch h)
      | false =>
        rw [hc] at h
        cases h
        refine ⟨b'.goto i ⟨todo, .wait⟩ .loop, did, by simp [Batch.work, ht, hc], ?_⟩
        exact s.goto ht .loop (fun _ => ⟨(fun e h => nomatch h), rfl⟩) (fun p h => nomatch h) (fun h => nomatch h)
    | loop =>
      cases todo with
      | cons k ks =>
        simp only [Option.map_some, Task.via, TPC.via, List.map_cons] at h
        cases h
        refine ⟨_, did, by simp only [Batch.work, ht]; rfl, ?_⟩
        have := s.move ht ⟨ks, .fetch k⟩ b'.queue (fun _ => ⟨(fun e h => nomatch h), rfl⟩) (Or.inl rfl) (fun p h => nomatch h) (fun h => nomatch h)
        rw [← s.queue] at this
        exact this
      | nil =>
        simp only [Option.map_some, Task.via, TPC.via, List.map_nil] at h
        cases hq : b'.queue with
        | nil =>
          rw [s.queue, hq] at h
          cases h
          refine ⟨b'.goto i ⟨[], .loop⟩ .done, did, by simp [Batch.work, ht, hq], ?_⟩
          exact s.goto ht .done (fun _ => ⟨(fun e h => nomatch h), rfl⟩) (fun p h => nomatch h) (fun _ => ⟨rfl, hq⟩)
        | cons k q =>
          rw [s.queue, hq] at h
          cases h
          refine ⟨{ b' with tasks := b'.tasks.set i ⟨[], .fetch k⟩, queue := q }, did, by simp [Batch.work, ht, hq], ?_⟩
          have hone : b'.tasks.length ≤ 1 := by
            rcases s.one with h | h
            · rw [hq] at h; cases h
            · exact h
          have := s.move ht ⟨[], .fetch k⟩ q (fun _ => ⟨(fun e h => nomatch h), by rw [hq]; rfl⟩) (Or.inr hone) (fun p h => nomatch h) (fun h => nomatch h)
          exact this
    | fetch k =>
      simp only [Option.map_some, Task.via, TPC.via] at h
      rw [s.c] at h
      cases hf : fetchAndInc b'.c.counter env.counterFails with
      | mk ctr r =>
        rw [hf] at h
        cases r with
        | error e =>
          cases h
          refine ⟨_, did, by simp only [Batch.work, ht, hf]; rfl, ?_⟩
          exact (s.col { b'.c with counter := ctr }).fail (i := i) (t := ⟨todo, .fetch k⟩) ht e
        | ok id =>
          cases h
          refine ⟨_, fun j => if j = i then did i ++ [k] else did j, by simp only [Batch.work, ht, hf]; rfl, ?_⟩
          exact (s.col { b'.c with counter := ctr }).fetched w (i := i) (t := ⟨todo, .fetch k⟩) ht rfl id
    | putObj k =>
      obtain ⟨o, h1, h2⟩ := s.same w ht rfl
      simp only [Option.map_some, Task.via, TPC.via, h1] at h
      cases hs : serializeProperties L.json o with
      | error e =>
        rw [hs] at h
        cases h
        refine ⟨b'.fail i ⟨todo, .putObj k⟩ e, did, by simp only [Batch.work, ht, h2, hs], ?_⟩
        exact s.fail ht e
      | ok bytes =>
        rw [hs] at h
        dsimp only at h
        by_cases hput : env.put = .objects
        · rw [if_pos hput] at h
          cases h
          refine ⟨b'.fail i ⟨todo, .putObj k⟩ .io, did, by simp only [Batch.work, ht, h2, hs, hput, if_true], ?_⟩
          exact s.fail ht .io
        · rw [if_neg hput] at h
          cases h
          refine ⟨_, did, by simp only [Batch.work, ht, h2, hs]; rw [if_neg hput], ?_⟩
          rw [← s.c]
          exact (s.col { b.c with stores := { b.c.stores with objects := b.c.stores.objects.set (keyOf o.id) bytes } }).goto
            (i := i) (t := ⟨todo, .putObj k⟩) ht (.putVec k) (fun _ => ⟨(fun e h => nomatch h), rfl⟩) (fun p h => h) (fun h => nomatch h)
    | putVec k =>
      obtain ⟨o, h1, h2⟩ := s.same w ht rfl
      simp only [Option.map_some, Task.via, TPC.via, h1] at h
      by_cases hput : env.put = .vectors
      · rw [if_pos hput] at h
        cases h
        refine ⟨b'.fail i ⟨todo, .putVec k⟩ .io, did, by simp only [Batch.work, ht, h2, hput, if_true], ?_⟩
        exact s.fail ht .io
      · rw [if_neg hput] at h
        cases h
        refine ⟨_, did, by simp only [Batch.work, ht, h2]; rw [if_neg hput], ?_⟩
        rw [← s.c, ← s.ts]
        exact (s.both { b.c with stores := { b.c.stores with vectors := b.c.stores.vectors.set (keyOf o.id) (serializeVector (o.vec.getD [])) } }
          (b.ts.set i { job := ⟨o.id, o.vec.getD [], env.level⟩, pc := .start })).goto
          (i := i) (t := ⟨todo, .putVec k⟩) ht (.index k) (fun _ => ⟨(fun e h => nomatch h), rfl⟩) (fun p h => h) (fun h => nomatch h)
    | index k =>
      simp only [Option.map_some, Task.via, TPC.via] at h
      cases hm : ({ h := b.c.index, ts := b.ts } : Mach D).step fixed L.metric (.run i) with
      | none => rw [hm] at h; cases h
      | some m =>
        rw [hm] at h
        dsimp only at h
        cases hth : m.ts[i]? with
        | none => rw [hth] at h; cases h
        | some th =>
          rw [hth] at h
          cases h
          refine ⟨_, did, by simp only [Batch.work, ht]; rw [← s.c, ← s.ts, hm]; dsimp only; rw [hth], ?_⟩
          have := (s.both { b.c with index := m.h } m.ts).goto
            (i := i) (t := ⟨todo, .index k⟩) ht (afterIndex k th.pc) (fun _ => ⟨(fun e h => nomatch h), by cases th.pc <;> rfl⟩)
              (fun p h => by revert h; cases th.pc <;> intro h <;> first | exact h | cases h) (fun h => by revert h; cases th.pc <;> intro h <;> cases h)
          rw [show (afterIndex k th.pc).via f = afterIndex (f k) th.pc by cases th.pc <;> rfl] at this
          exact this
    | done => cases h
    | failed e => cases h
    | skipped => cases h
    | panicked => cases h

theorem PSim.step (fixed : Bool) (L : Lib V D) (s : PSim f n own did b b') (w : Owners f n own) {a : BAct} {b1 : Batch V D}
    (h : b.step fixed L a = some b1) :
    ∃ (b1' : Batch V D) (did1 : Nat → List Nat), b'.step fixed L a = some b1' ∧ PSim f n own did1 b1 b1' := by
  have hctx : b.ctxDone = b'.ctxDone := by unfold Batch.ctxDone; rw [s.err, s.canc]
  cases a with
  | work i env => exact s.work fixed L w h
  | cancel =>
    cases h
    exact ⟨_, did, rfl, ⟨s.c, s.ts, s.err, rfl, s.ret, s.tasks, s.queue, s.len, s.data, s.one, s.plan, s.now, s.fin, s.mem, s.cur⟩⟩
  | finish ff =>
    have hover : (b.tasks.all fun t => t.pc.over) = (b'.tasks.all fun t => t.pc.over) := by
      rw [s.tasks, List.all_map]
      congr 1
      funext t
      obtain ⟨todo, pc⟩ := t
      cases pc <;> rfl
    simp only [Batch.step, s.ret, hover] at h ⊢
    split at h
    · rename_i hif
      rw [if_pos hif]
      rw [s.err] at h
      cases he : b'.err with
      | some e =>
        rw [he] at h
        cases h
        exact ⟨_, did, rfl, ⟨s.c, s.ts, rfl, s.canc, rfl, s.tasks, s.queue, s.len, s.data, s.one, s.plan, s.now, s.fin, s.mem, s.cur⟩⟩
      | none =>
        rw [he] at h
        cases h
        exact ⟨_, did, rfl, ⟨by show (b.c.flush ff).1 = (b'.c.flush ff).1; rw [s.c], s.ts, rfl, s.canc,
          by show some ((b.c.flush ff).2.map GroupErr.task) = some ((b'.c.flush ff).2.map GroupErr.task); rw [s.c], s.tasks, s.queue, s.len, s.data, s.one, s.plan, s.now, s.fin, s.mem, s.cur⟩⟩
    · cases h
  | giveUp =>
    simp only [Batch.step, s.ret, hctx] at h ⊢
    split at h
    · rename_i hif
      rw [if_pos hif]
      cases h
      exact ⟨_, did, rfl, ⟨s.c, s.ts, by show some _ = some _; rw [s.err], s.canc, by show some (some _) = some (some _); rw [s.err], s.tasks, s.queue, s.len, s.data, s.one, s.plan, s.now, s.fin, s.mem, s.cur⟩⟩
    · cases h

theorem PSim.run (fixed : Bool) (L : Lib V D) (w : Owners f n own) : ∀ (acts : List BAct) {b b' b1 : Batch V D} {did : Nat → List Nat},
    PSim f n own did b b' → b.run fixed L acts = some b1 →
    ∃ (b1' : Batch V D) (did1 : Nat → List Nat), b'.run fixed L acts = some b1' ∧ PSim f n own did1 b1 b1' := by
  intro acts
  induction acts with
  | nil => intro b b' b1 did s h; cases h; exact ⟨b', did, rfl, s⟩
  | cons a acts ih =>
    intro b b' b1 did s h
    simp only [Batch.run] at h ⊢
    cases hs : b.step fixed L a with
    | none => rw [hs] at h; cases h
    | some b2 =>
      rw [hs] at h
      obtain ⟨b2', did2, h1, s2⟩ := s.step fixed L w hs
      rw [h1]
      exact ih s2 h

end Vectory.Conc
