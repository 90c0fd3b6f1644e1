import Verif.Lemmas.CollReach
import Verif.Props.Conc
/-!
# Batches run by several workers (C09, C14, C15, C56, C57)

`BatchAt` (Spec/CollSched.lean) is any moment of a call of `InsertBatch` or `InsertBatch2` under any schedule of its workers, with any
failing write. The collection the batch started from is any one reachable by calls, crashes, reopens and earlier batches.
-/
namespace Vectory.Conc
open Vectory
variable {V D : Type}

/-- a batch without the race does not panic, at any moment. -/
theorem raceFree_noPanic {fixed two : Bool} {L : Lib V D} {dim workers : Nat} {X : UInt64 → Prop} {c : Coll} {os : List (Object V)}
    {embed : Embed V} {acts : List BAct} {b : Batch V D} (i : WInv False L dim X c)
    (h : BatchAt fixed two L dim workers c os embed acts b) (ht : NoRace fixed two L dim workers c os embed acts) : b.noPanic := by
  obtain ⟨objs, _, _, _, _, ok, ⟨F, A, B, X0, X1, X2, js, hj, s⟩, _⟩ := (NoRace.fix ht i h).state i
  rcases s with ⟨v, _⟩ | ⟨c1, ff, v, _⟩
  · exact v.calm ok (Or.inl rfl)
  · exact v.calm ok (Or.inl rfl)

/-- with the lock, with one worker or on the ground layer a batch does not panic. -/
theorem tame_noPanic {fixed two : Bool} {L : Lib V D} {dim workers : Nat} {X : UInt64 → Prop} {c : Coll} {os : List (Object V)}
    {embed : Embed V} {acts : List BAct} {b : Batch V D} (i : WInv False L dim X c)
    (h : BatchAt fixed two L dim workers c os embed acts b) (ht : Low fixed workers acts) : b.noPanic :=
  raceFree_noPanic i h (ht.noRace i)

/-! ### Success (C14, C15, C57) -/

/-- C14, when no worker panicked: `InsertBatch` returned without error, so whatever the schedule every object is stored under its own
fresh id, the ids are exactly the next ones, and the size grew by the length of the batch.
Excluded: schedules in which a worker panics, where it is false (`C57_fails`); and calls whose context is cancelled, where
`Wait` can return without an error although tasks were skipped. -/
theorem C14_no_panic (L : Lib V D) (dim workers : Nat) (c : Coll) (hr : ReachAnyConc false L dim c) (os : List (Object V))
    (embed : Embed V) (acts : List BAct) (b : Batch V D) (h : BatchAt false false L dim workers c os embed acts b)
    (hcan : BAct.cancel ∉ acts) (hp : b.noPanic) (hret : b.returned none) : AllStored L c os b.c b.objs :=
  allStored hr.inv.1 h hcan hp hret

/-- C14 for all schedules that never pass through the race of `Spec/Race.lean`, whatever levels are drawn. -/
theorem C14_race_free (L : Lib V D) (dim workers : Nat) (c : Coll) (hr : ReachAnyConc false L dim c) (os : List (Object V))
    (embed : Embed V) (acts : List BAct) (b : Batch V D) (h : BatchAt false false L dim workers c os embed acts b)
    (ht : NoRace false false L dim workers c os embed acts) (hcan : BAct.cancel ∉ acts) (hret : b.returned none) :
    AllStored L c os b.c b.objs :=
  allStored hr.inv.1 h hcan (raceFree_noPanic hr.inv.1 h ht) hret

/-- C14 for all schedules in which the levels drawn are 0, and all schedules of one worker. -/
theorem C14_tame (L : Lib V D) (dim workers : Nat) (c : Coll) (hr : ReachAnyConc false L dim c) (os : List (Object V))
    (embed : Embed V) (acts : List BAct) (b : Batch V D) (h : BatchAt false false L dim workers c os embed acts b)
    (ht : Low false workers acts) (hcan : BAct.cancel ∉ acts) (hret : b.returned none) : AllStored L c os b.c b.objs :=
  allStored hr.inv.1 h hcan (tame_noPanic hr.inv.1 h ht) hret

/-- C14 for all schedules and all levels, for the program in which `insert.go:73-75` runs under the lock of the new vertex. -/
theorem C14_with_lock (L : Lib V D) (dim workers : Nat) (c : Coll) (hr : ReachAnyConc true L dim c) (os : List (Object V))
    (embed : Embed V) (acts : List BAct) (b : Batch V D) (h : BatchAt true false L dim workers c os embed acts b)
    (hcan : BAct.cancel ∉ acts) (hret : b.returned none) : AllStored L c os b.c b.objs :=
  allStored hr.inv.1 h hcan (tame_noPanic hr.inv.1 h (Or.inl rfl)) hret

/-- C15, when no worker panicked. -/
theorem C15_no_panic (L : Lib V D) (dim workers : Nat) (c : Coll) (hr : ReachAnyConc false L dim c) (os : List (Object V))
    (embed : Embed V) (acts : List BAct) (b : Batch V D) (h : BatchAt false true L dim workers c os embed acts b)
    (hcan : BAct.cancel ∉ acts) (hp : b.noPanic) (hret : b.returned none) : AllStored L c os b.c b.objs :=
  allStored hr.inv.1 h hcan hp hret

/-- C15 for all schedules that never pass through the race of `Spec/Race.lean`, whatever levels are drawn. -/
theorem C15_race_free (L : Lib V D) (dim workers : Nat) (c : Coll) (hr : ReachAnyConc false L dim c) (os : List (Object V))
    (embed : Embed V) (acts : List BAct) (b : Batch V D) (h : BatchAt false true L dim workers c os embed acts b)
    (ht : NoRace false true L dim workers c os embed acts) (hcan : BAct.cancel ∉ acts) (hret : b.returned none) :
    AllStored L c os b.c b.objs :=
  allStored hr.inv.1 h hcan (raceFree_noPanic hr.inv.1 h ht) hret

/-- C15 for all schedules in which the levels drawn are 0, and all schedules of one worker. -/
theorem C15_tame (L : Lib V D) (dim workers : Nat) (c : Coll) (hr : ReachAnyConc false L dim c) (os : List (Object V))
    (embed : Embed V) (acts : List BAct) (b : Batch V D) (h : BatchAt false true L dim workers c os embed acts b)
    (ht : Low false workers acts) (hcan : BAct.cancel ∉ acts) (hret : b.returned none) : AllStored L c os b.c b.objs :=
  allStored hr.inv.1 h hcan (tame_noPanic hr.inv.1 h ht) hret

/-- C15 for all schedules and all levels, for the program in which `insert.go:73-75` runs under the lock of the new vertex. -/
theorem C15_with_lock (L : Lib V D) (dim workers : Nat) (c : Coll) (hr : ReachAnyConc true L dim c) (os : List (Object V))
    (embed : Embed V) (acts : List BAct) (b : Batch V D) (h : BatchAt true true L dim workers c os embed acts b)
    (hcan : BAct.cancel ∉ acts) (hret : b.returned none) : AllStored L c os b.c b.objs :=
  allStored hr.inv.1 h hcan (tame_noPanic hr.inv.1 h (Or.inl rfl)) hret

/-- C57 for both batch calls and all schedules without the race: no worker panicked and the batch did happen. With the race it is
false (`C57_fails`); what exactly is stored then is `C57_exact`. -/
theorem C57_race_free (two : Bool) (L : Lib V D) (dim workers : Nat) (c : Coll) (hr : ReachAnyConc false L dim c)
    (os : List (Object V)) (embed : Embed V) (acts : List BAct) (b : Batch V D)
    (h : BatchAt false two L dim workers c os embed acts b) (ht : NoRace false two L dim workers c os embed acts)
    (hcan : BAct.cancel ∉ acts) (hret : b.returned none) : b.noPanic ∧ AllStored L c os b.c b.objs :=
  ⟨raceFree_noPanic hr.inv.1 h ht, allStored hr.inv.1 h hcan (raceFree_noPanic hr.inv.1 h ht) hret⟩

/-- C57 for both batch calls, under the condition of `C14_tame`: the levels drawn are 0, or there is one worker.
For levels above 0 see `C57_fails` and `C57_exact`. -/
theorem C57_tame (two : Bool) (L : Lib V D) (dim workers : Nat) (c : Coll) (hr : ReachAnyConc false L dim c)
    (os : List (Object V)) (embed : Embed V) (acts : List BAct) (b : Batch V D)
    (h : BatchAt false two L dim workers c os embed acts b) (ht : Low false workers acts) (hcan : BAct.cancel ∉ acts)
    (hret : b.returned none) : b.noPanic ∧ AllStored L c os b.c b.objs :=
  ⟨tame_noPanic hr.inv.1 h ht, allStored hr.inv.1 h hcan (tame_noPanic hr.inv.1 h ht) hret⟩

/-! ### What a batch leaves alone -/

/-- C09 for batches: at every moment of a batch, under every schedule, with failing writes and with panicking workers, and also
after it returned, every object that could be read before it reads the same. -/
theorem C09_batch_any_schedule (fixed two : Bool) (L : Lib V D) (dim workers : Nat) (c : Coll) (hr : ReachAnyConc fixed L dim c)
    (os : List (Object V)) (embed : Embed V) (acts : List BAct) (b : Batch V D)
    (h : BatchAt fixed two L dim workers c os embed acts b) (id : UInt64) (o : Object V)
    (ho : c.get L [id] = .ok [o]) : b.c.get L [id] = .ok [o] := by
  have i := hr.inv.1
  obtain ⟨objs, _, hopen, _, _, ok, ⟨F, A, B, X0, X1, X2, js, hj, s⟩, _⟩ := h.state i
  have key : ∀ b' : Batch V D, BInv fixed L dim c objs workers b' F A B X0 X1 X2 js →
      b'.c.closed = c.closed ∧ getObject L.json b'.c.stores id = getObject L.json c.stores id := by
    intro b' v
    refine ⟨v.conf.2.2, v.keep ok id ?_⟩
    intro hm
    obtain ⟨p, hp, rfl⟩ := List.mem_map.mp hm
    have hf := v.dat.lo p (v.dat.subA p (v.dat.subB p hp))
    have h1 := getObject_used i ((get_single_some hopen).mp ho)
    have h2 := i.file_le
    omega
  have fin : b.c.closed = false ∧ getObject L.json b.c.stores id = getObject L.json c.stores id := by
    rcases s with ⟨v, _⟩ | ⟨c1, ff, v, _, _, hc, _⟩
    · obtain ⟨a, b⟩ := key _ v; exact ⟨a.trans hopen, b⟩
    · obtain ⟨a, b⟩ := key _ v
      rw [hc]; exact ⟨a.trans hopen, b⟩
  rw [get_single_some fin.1, fin.2]
  exact (get_single_some hopen).mp ho

/-- what the state of a batch says about its ids. -/
theorem batch_ids {fixed two : Bool} {L : Lib V D} {dim workers : Nat} {X : UInt64 → Prop} {c : Coll} {os : List (Object V)}
    {embed : Embed V} {acts : List BAct} {b : Batch V D} (i : WInv False L dim X c)
    (h : BatchAt fixed two L dim workers c os embed acts b) :
    ∃ order : List Nat, order.Nodup ∧ b.objs.length = os.length ∧
      (∀ (k : Nat) (o o' : Object V), os[k]? = some o → b.objs[k]? = some o' → k ∉ order → o'.id = o.id) ∧
      (order.filterMap (fun k => (b.objs[k]?).map (fun o : Object V => o.id.toNat))).Pairwise (· < ·) ∧
      (∀ k ∈ order, ∃ o : Object V, b.objs[k]? = some o ∧ c.counter.count.toNat ≤ o.id.toNat ∧ o.id.toNat < fileCount b.c) ∧
      fileCount c ≤ fileCount b.c ∧ fileCount b.c ≤ b.c.counter.count.toNat := by
  obtain ⟨objs, _, hopen, hemb, _, ok, ⟨F, A, B, X0, X1, X2, js, hj, s⟩, _⟩ := h.state i
  have key : ∃ b' : Batch V D, BInv fixed L dim c objs workers b' F A B X0 X1 X2 js ∧ b'.objs = b.objs ∧ b'.c.counter = b.c.counter := by
    rcases s with ⟨v, _⟩ | ⟨c1, ff, v, _, _, hc, _⟩
    · exact ⟨b, v, rfl, rfl⟩
    · exact ⟨_, v, rfl, by rw [hc]; rfl⟩
  obtain ⟨b', v, e1, e2⟩ := key
  obtain ⟨nF, _, _⟩ := v.nodups
  obtain ⟨f0, hf0, _⟩ := i.ids
  obtain ⟨f, hf, hle, hlt⟩ := v.dat.ctrOK f0 hf0
  rw [e2] at hf
  have hids : ∀ p ∈ F, ∃ o : Object V, b.objs[p.1]? = some o ∧ o.id = p.2 := by
    intro p hp; rw [← e1]; exact v.dat.ids p hp
  refine ⟨F.map Prod.fst, nF, by rw [← e1, v.lenO, embed_length hemb], ?_, ?_, ?_, ?_, ?_⟩
  · intro k o o' ho ho' hk
    have h1 := v.dat.rest k hk
    rw [e1, ho'] at h1
    exact (embed_keep hemb k o o' ho h1.symm).2.1
  · have : (F.map Prod.fst).filterMap (fun k => (b.objs[k]?).map (fun o : Object V => o.id.toNat)) = F.map (fun p => p.2.toNat) := by
      clear s v hle hlt nF hj
      induction F with
      | nil => rfl
      | cons p F ih =>
        obtain ⟨o, ho, e⟩ := hids p (List.mem_cons_self ..)
        have := ih (fun q hq => hids q (List.mem_cons_of_mem _ hq))
        simp [ho, e, this]
    rw [this]; exact v.dat.inc
  · intro k hk
    obtain ⟨p, hp, rfl⟩ := List.mem_map.mp hk
    obtain ⟨o, ho, e⟩ := hids p hp
    refine ⟨o, ho, by rw [e]; exact v.dat.lo p hp, ?_⟩
    rw [fileCount_of hf, e]; exact hlt p hp
  · rw [fileCount_of hf0, fileCount_of hf]; exact hle
  · rw [fileCount_of hf]; exact hf.2

/-- C04 for batches: at every moment of a batch, under every schedule, with failing writes and panicking workers, the objects that have
received an id, in the order in which they received it, have strictly increasing ids, all of them at least the next id of the
collection when the batch began and below its next id now; the other objects still carry the id the caller gave. -/
theorem C04_batch_any_schedule (fixed two : Bool) (L : Lib V D) (dim workers : Nat) (c : Coll) (hr : ReachAnyConc fixed L dim c)
    (os : List (Object V)) (embed : Embed V) (acts : List BAct) (b : Batch V D)
    (h : BatchAt fixed two L dim workers c os embed acts b) :
    ∃ order : List Nat, order.Nodup ∧
      (∀ (k : Nat) (o o' : Object V), os[k]? = some o → b.objs[k]? = some o' → k ∉ order → o'.id = o.id) ∧
      (order.filterMap (fun k => (b.objs[k]?).map (fun o : Object V => o.id.toNat))).Pairwise (· < ·) ∧
      ∀ k ∈ order, ∃ o : Object V, b.objs[k]? = some o ∧ c.counter.count.toNat ≤ o.id.toNat ∧
        o.id.toNat < b.c.counter.count.toNat := by
  obtain ⟨order, h1, _, h2, h3, h4, _, h6⟩ := batch_ids hr.inv.1 h
  refine ⟨order, h1, h2, h3, fun k hk => ?_⟩
  obtain ⟨o, a, b, c⟩ := h4 k hk
  exact ⟨o, a, b, by omega⟩

theorem reopen_count {c c' : Coll} {f : UInt64} (hf : CounterOK c.counter f) (h : c.reopen = .ok c') : c'.counter.count = f := by
  unfold Coll.reopen openColl at h
  obtain ⟨ctr, hc, h⟩ := (bind_ok_iff _ _ _).mp h
  obtain ⟨hh, _, h⟩ := (bind_ok_iff _ _ _).mp h
  obtain ⟨hp, _, h⟩ := (bind_ok_iff _ _ _).mp h
  cases h
  show ctr.count = f
  have hc : liftErr (newIdCounter c.counter.file) = .ok ctr := hc
  have : newIdCounter c.counter.file = .ok { count := f, file := c.counter.file } := by
    rcases hf.1 with ⟨h1, rfl⟩ | h1
    · rw [h1]; rfl
    · rw [h1]; simpa using newIdCounter_put f []
  rw [this] at hc
  cases hc; rfl

/-- C05 for batches: if the process stops at any moment of a batch (or after it), under every schedule, and the collection is opened
again, its next id is above every id that any object of the batch has received, and not below the next id it would have been without
the batch. (A counter write that is cut short is excluded here as in `C05_ids_after_crash`: the counter file is written
atomically in the steps of `Model/CollConc.lean`.) -/
theorem C05_batch_any_schedule (fixed two : Bool) (L : Lib V D) (dim workers : Nat) (c : Coll) (hr : ReachAnyConc fixed L dim c)
    (os : List (Object V)) (embed : Embed V) (acts : List BAct) (b : Batch V D)
    (h : BatchAt fixed two L dim workers c os embed acts b) (c' : Coll) (hc : b.c.reopen = .ok c') :
    (∀ (k : Nat) (o o' : Object V), os[k]? = some o → b.objs[k]? = some o' → o'.id ≠ o.id → o'.id.toNat < c'.counter.count.toNat) ∧
    ∀ c2, c.reopen = .ok c2 → c2.counter.count.toNat ≤ c'.counter.count.toNat := by
  have i := hr.inv.1
  obtain ⟨order, h1, _, h2, h3, h4, h5, h6⟩ := batch_ids i h
  obtain ⟨f0, hf0, _⟩ := i.ids
  have hb : ∃ f, CounterOK b.c.counter f := by
    obtain ⟨objs, _, hopen, hemb, _, ok, ⟨F, A, B, X0, X1, X2, js, hj, s⟩, _⟩ := h.state i
    rcases s with ⟨v, _⟩ | ⟨c1, ff, v, _, _, hc, _⟩
    · obtain ⟨f, hf, _⟩ := v.dat.ctrOK f0 hf0; exact ⟨f, hf⟩
    · obtain ⟨f, hf, _⟩ := v.dat.ctrOK f0 hf0; exact ⟨f, by rw [hc]; exact hf⟩
  obtain ⟨f, hf⟩ := hb
  rw [reopen_count hf hc]
  refine ⟨?_, fun c2 h2 => ?_⟩
  · intro k o o' ho ho' hne
    have hk : k ∈ order := Classical.byContradiction fun hk => hne (h2 k o o' ho ho' hk)
    obtain ⟨o2, a, _, b⟩ := h4 k hk
    rw [ho'] at a; cases a
    rwa [fileCount_of hf] at b
  · rw [reopen_count hf0 h2]
    rwa [fileCount_of hf0, fileCount_of hf] at h5

/-! ### After the return (C56) -/

/-- C56 for calls that return without an error: once `InsertBatch` (or `InsertBatch2`) has returned nil, no step of a worker changes
the collection or the caller's objects, whatever happens.
For calls that return an error see `C56_exact`. -/
theorem C56_success (fixed two : Bool) (L : Lib V D) (dim workers : Nat) (c : Coll) (hr : ReachAnyConc fixed L dim c)
    (os : List (Object V)) (embed : Embed V) (acts : List BAct) (b : Batch V D)
    (h : BatchAt fixed two L dim workers c os embed acts b) (hret : b.returned none) (more : List BAct) (b' : Batch V D)
    (hm : b.run fixed L more = some b') : b'.c = b.c ∧ b'.objs = b.objs ∧ b'.returned none := by
  obtain ⟨objs, _, hopen, hemb, _, ok, ⟨F, A, B, X0, X1, X2, js, hj, s⟩, hx⟩ := h.state hr.inv.1
  clear hx
  have hall : b.tasks.all (fun t => t.pc.over) = true := by
    rcases s with ⟨_, hr⟩ | ⟨c1, ff, v, hover, _⟩
    · exfalso
      unfold Batch.returned at hret
      rcases hr with hr | ⟨e, hr, _⟩ <;> rw [hret] at hr <;> cases hr
    · exact hover
  clear s h
  unfold Batch.returned at *
  induction more generalizing b with
  | nil => cases hm; exact ⟨rfl, rfl, hret⟩
  | cons a as ih =>
    cases hs : b.step fixed L a with
    | none => simp only [Batch.run, hs] at hm; cases hm
    | some b1 =>
      simp only [Batch.run, hs] at hm
      have h1 : b1.c = b.c ∧ b1.objs = b.objs ∧ b1.ret = some none ∧ b1.tasks = b.tasks := by
        cases a with
        | work i env => rw [show b.step fixed L (.work i env) = b.work fixed L i env from rfl, work_over hall] at hs; cases hs
        | cancel => cases hs; exact ⟨rfl, rfl, hret, rfl⟩
        | finish ff => simp only [Batch.step, hret] at hs; simp at hs
        | giveUp => simp only [Batch.step, hret] at hs; simp at hs
      obtain ⟨e1, e2, e3, e4⟩ := h1
      obtain ⟨g1, g2, g3⟩ := ih b1 e3 hm (by rw [e4]; exact hall)
      exact ⟨g1.trans e1, g2.trans e2, g3⟩

/-! ### Concrete schedules -/

/-- what happens to a batch on the demo collection, checked. -/
def bleads (cfg : Cfg) (two fixed : Bool) (workers : Nat) (os : List (Object UInt8)) (acts : List BAct) (P : Batch UInt8 Nat → Bool) :
    Bool :=
  let c := Coll.new cfg ["a"] false
  decide (0 < workers) && decide (os.length < 18446744073709551616) &&
  acts.all (fun a => match a with | .work _ env => decide (env.level < 4294967296) | _ => true) &&
  (match prepare c os noEmbed with
  | .ok (.ok objs) =>
    objs.all (fun o => (o.vec.getD []).length == 1) &&
    (match (if two then some (startBatch2 c objs workers) else startBatch c objs workers : Option (Batch UInt8 Nat)) with
    | some b0 => (match b0.run fixed demoLib acts with | some b => P b | none => false)
    | none => false)
  | _ => false)

theorem bleads_sound {cfg : Cfg} {two fixed : Bool} {workers : Nat} {os : List (Object UInt8)} {acts : List BAct}
    {P : Batch UInt8 Nat → Bool} (h : bleads cfg two fixed workers os acts P = true) :
    ∃ b, BatchAt fixed two demoLib 1 workers (Coll.new cfg ["a"] false) os noEmbed acts b ∧ P b = true := by
  unfold bleads at h
  simp only [Bool.and_eq_true, decide_eq_true_eq] at h
  obtain ⟨⟨⟨h1, h2⟩, h3⟩, h4⟩ := h
  split at h4
  · rename_i objs hp
    simp only [Bool.and_eq_true] at h4
    obtain ⟨h4, h5⟩ := h4
    split at h5
    · rename_i b0 hb0
      split at h5
      · rename_i b hb
        refine ⟨b, ⟨h1, ⟨.ok objs, ?_, ?_⟩, ?_, ?_, objs, b0, hp, hb0, hb⟩, h5⟩
        · unfold prepare at hp
          split at hp
          · cases hp
          · split at hp
            · cases hp
            · exact hp
        · intro os' e; cases e
          intro o ho
          simpa using List.all_eq_true.mp h4 o ho
        · simpa [Coll.new] using h2
        · intro i env hm
          simpa using List.all_eq_true.mp h3 _ hm
      · cases h5
    · cases h5
  · cases h4

theorem demo_reachAny (cfg : Cfg) (hc : CfgOK cfg) (ms : List String) (fixed : Bool) :
    ReachAnyConc fixed demoLib 1 (Coll.new cfg ms false) :=
  .new ⟨demoJson_ok, fun a b ha hb => demoDist_ok a b (by omega), by decide, hc⟩

/-- `n` steps of task `i`, drawing the level `l`. -/
def works (i n : Nat) (l : Nat := 0) : List BAct := List.replicate n (.work i { level := l })

/-- a schedule found by a round robin of the tasks, at most `n` rounds; the level drawn is `lev`. -/
def robin (fixed : Bool) (lev : Nat) : Nat → Nat → Batch UInt8 Nat → List BAct
  | 0, _, _ => []
  | n + 1, i, b =>
    if b.tasks.all (fun t => t.pc.over) then []
    else
      match b.work fixed demoLib (i % b.tasks.length) { level := lev } with
      | none => robin fixed lev n (i + 1) b
      | some b' => .work (i % b.tasks.length) { level := lev } :: robin fixed lev n (i + 1) b'

def c14Objs : List (Object UInt8) := [demoObj 10, demoObj 50, demoObj 30, demoObj 31]

def c14Acts (two : Bool) : List BAct :=
  (match (if two then some (startBatch2 (Coll.new demoCfg ["a"] false) c14Objs 2)
      else startBatch (Coll.new demoCfg ["a"] false) c14Objs 2 : Option (Batch UInt8 Nat)) with
    | some b => robin false 0 400 0 b
    | none => []) ++ [.finish false]

theorem c14_low (two : Bool) : Low false 2 (c14Acts two) := by
  refine Or.inr (Or.inr ?_)
  have : (c14Acts two).all (fun a => match a with | .work _ env => decide (env.level = 0) | _ => true) = true := by
    cases two <;> decide +kernel
  intro i env hm
  simpa using List.all_eq_true.mp this _ hm

theorem c14_calm {two : Bool} : NoRace false two demoLib 1 2 (Coll.new demoCfg ["a"] false) c14Objs noEmbed (c14Acts two) :=
  (c14_low two).noRace (ReachAnyConc.new (fixed := false) ⟨demoJson_ok, fun a b ha hb => demoDist_ok a b (by omega), by decide,
    by constructor <;> decide⟩).inv.1

/-- no state of the run is in the race. -/
def calmRun (b : Batch UInt8 Nat) : List BAct → Bool
  | [] => !raceAny b.ts
  | a :: as => !raceAny b.ts && (match b.step false demoLib a with | some b' => calmRun b' as | none => true)

theorem calmRun_sound : ∀ (as : List BAct) (b : Batch UInt8 Nat), calmRun b as = true → ∀ pre b', pre <+: as → b.run false demoLib pre = some b' →
    ¬ Race ⟨b'.c.index, b'.ts⟩ := by
  intro as
  induction as with
  | nil =>
    intro b h pre b' hp hr
    have : pre = [] := List.prefix_nil.mp hp
    subst this
    cases hr
    exact raceAny_sound (by simpa [calmRun] using h)
  | cons a as ih =>
    intro b h pre b' hp hr
    simp only [calmRun, Bool.and_eq_true] at h
    cases pre with
    | nil => cases hr; exact raceAny_sound (by simpa using h.1)
    | cons x xs =>
      obtain ⟨rfl, hp'⟩ := List.cons_prefix_cons.mp hp
      simp only [Batch.run] at hr
      cases hs : b.step false demoLib x with
      | none => rw [hs] at hr; cases hr
      | some b2 =>
        rw [hs] at hr
        have h2 := h.2
        rw [hs] at h2
        exact ih b2 h2 xs b' hp' hr

/-- the schedule in which the workers take turns, with levels above 0. -/
def calmActs (two : Bool) : List BAct :=
  (match (if two then some (startBatch2 (Coll.new demoCfg ["a"] false) c14Objs 2)
      else startBatch (Coll.new demoCfg ["a"] false) c14Objs 2 : Option (Batch UInt8 Nat)) with
    | some b => robin true 1 600 0 b
    | none => []) ++ [.finish false]

/-- two workers, four objects, all on two layers, interleaved step by step, and no race: the hypotheses of `C14_race_free`,
`C15_race_free` and `C57_race_free` are met by a batch that is not `Low`. -/
example (two : Bool) : ∃ b, BatchAt false two demoLib 1 2 (Coll.new demoCfg ["a"] false) c14Objs noEmbed (calmActs two) b ∧
    NoRace false two demoLib 1 2 (Coll.new demoCfg ["a"] false) c14Objs noEmbed (calmActs two) ∧ ¬ Low false 2 (calmActs two) ∧
    BAct.cancel ∉ calmActs two ∧ b.returned none ∧ b.objs.map Object.id = (if two then [0, 1, 2, 3] else [0, 2, 1, 3]) ∧
    b.c.index.maxLayer = 1 := by
  obtain ⟨b, h, hp⟩ := bleads_sound (cfg := demoCfg) (two := two) (fixed := false) (workers := 2) (os := c14Objs)
    (acts := calmActs two) (P := fun b => decide (b.ret = some none) && (decide (b.objs.map Object.id = (if two then [0, 1, 2, 3] else [0, 2, 1, 3])) &&
      decide (b.c.index.maxLayer = 1))) (by cases two <;> decide +kernel)
  simp only [Bool.and_eq_true, decide_eq_true_eq] at hp
  refine ⟨b, h, ?_, ?_, by cases two <;> decide +kernel, hp.1, hp.2.1, hp.2.2⟩
  · intro pre b' hpre hb
    obtain ⟨_, _, _, _, objs, b0, h5, h6, h7⟩ := hb
    have hc : (match (if two then some (startBatch2 (Coll.new demoCfg ["a"] false) c14Objs 2)
        else startBatch (Coll.new demoCfg ["a"] false) c14Objs 2 : Option (Batch UInt8 Nat)) with
      | some b => calmRun b (calmActs two)
      | none => false) = true := by cases two <;> decide +kernel
    have ho : objs = c14Objs := by
      have : prepare (Coll.new demoCfg ["a"] false) c14Objs noEmbed = .ok (.ok c14Objs) := rfl
      rw [this] at h5
      exact (Except.ok.inj (Except.ok.inj h5)).symm
    subst ho
    rw [h6] at hc
    exact calmRun_sound _ b0 hc pre b' hpre h7
  · rintro (h | h | h)
    · cases h
    · cases h
    · have : (calmActs two).any (fun a => match a with | .work _ env => decide (env.level = 1) | _ => false) = true := by
        cases two <;> decide +kernel
      obtain ⟨a, ha, hw⟩ := List.any_eq_true.mp this
      cases a with
      | work i env =>
        have := h i env ha
        have := of_decide_eq_true hw
        omega
      | _ => cases hw

/-- two workers, four objects, interleaved step by step: the ids are shared out in turn. -/
example : ∃ b, BatchAt false false demoLib 1 2 (Coll.new demoCfg ["a"] false) c14Objs noEmbed (c14Acts false) b ∧
    Low false 2 (c14Acts false) ∧ BAct.cancel ∉ c14Acts false ∧ b.returned none ∧ b.objs.map Object.id = [0, 2, 1, 3] := by
  obtain ⟨b, h, hp⟩ := bleads_sound (cfg := demoCfg) (two := false) (fixed := false) (workers := 2) (os := c14Objs)
    (acts := c14Acts false) (P := fun b => decide (b.ret = some none) && decide (b.objs.map Object.id = [0, 2, 1, 3])) (by decide +kernel)
  simp only [Bool.and_eq_true, decide_eq_true_eq] at hp
  exact ⟨b, h, c14_low false, by decide +kernel, hp.1, hp.2⟩

/-- the same for `InsertBatch2`. -/
example : ∃ b, BatchAt false true demoLib 1 2 (Coll.new demoCfg ["a"] false) c14Objs noEmbed (c14Acts true) b ∧
    Low false 2 (c14Acts true) ∧ BAct.cancel ∉ c14Acts true ∧ b.returned none ∧ b.objs.map Object.id = [0, 1, 2, 3] := by
  obtain ⟨b, h, hp⟩ := bleads_sound (cfg := demoCfg) (two := true) (fixed := false) (workers := 2) (os := c14Objs)
    (acts := c14Acts true) (P := fun b => decide (b.ret = some none) && decide (b.objs.map Object.id = [0, 1, 2, 3])) (by decide +kernel)
  simp only [Bool.and_eq_true, decide_eq_true_eq] at hp
  exact ⟨b, h, c14_low true, by decide +kernel, hp.1, hp.2⟩

/-- seven objects; the worker of the last four is the one that panics. -/
def c57Objs : List (Object UInt8) := [10, 50, 30, 31, 32, 12, 77].map demoObj

/-- the race of `tornActs` (Props/Conc.lean) inside `InsertBatch`: the panic ends the second task, the pool recovers it, and `Wait`
reports no error. -/
def c57Acts : List BAct :=
  works 0 1 ++ works 0 4 ++ works 0 1 ++ works 0 4 2 ++ works 0 17 ++ works 0 4 2 ++ works 0 22 ++
  works 1 1 ++ works 1 4 1 ++ works 1 39 ++ works 1 4 1 ++ works 1 53 ++ works 1 4 1 ++ works 1 16 ++
  works 0 28 ++ works 0 1 ++ works 1 5 ++ [.finish false]

/-- C57 (and C14) fail for the program as it is: from a new collection, with two workers, no failing write and no cancelled context,
some schedule of `InsertBatch` returns no error although only six of the seven objects were stored. -/
theorem C57_fails : ∃ (c : Coll) (os : List (Object UInt8)) (acts : List BAct) (b : Batch UInt8 Nat),
    ReachAnyConc false demoLib 1 c ∧ BatchAt false false demoLib 1 2 c os noEmbed acts b ∧ BAct.cancel ∉ acts ∧
    (∀ i env, BAct.work i env ∈ acts → env.counterFails = false ∧ env.put = .none) ∧
    b.returned none ∧ os.length = 7 ∧ c.getSize = .ok 0 ∧ b.c.getSize = .ok 6 := by
  obtain ⟨b, h, hp⟩ := bleads_sound (cfg := demoCfg) (two := false) (fixed := false) (workers := 2) (os := c57Objs)
    (acts := c57Acts) (P := fun b => decide (b.ret = some none) && (decide (b.c.closed = false) && decide (b.c.stores.size = 6))) (by decide +kernel)
  simp only [Bool.and_eq_true, decide_eq_true_eq] at hp
  refine ⟨_, c57Objs, c57Acts, b, demo_reachAny demoCfg (by constructor <;> decide) _ _, h, by decide +kernel, ?_, hp.1, rfl, rfl, ?_⟩
  · have : c57Acts.all (fun a => match a with | .work _ env => decide (env.counterFails = false ∧ env.put = .none) | _ => true) = true := by
      decide +kernel
    intro i env hm
    simpa using List.all_eq_true.mp this _ hm
  · unfold Coll.getSize
    rw [hp.2.1, hp.2.2]; rfl

/-- C56 fails for the program as it is: one worker cannot write the counter file, `InsertBatch` returns its error, and afterwards the
other worker still stores its object. -/
theorem C56_fails : ∃ (c : Coll) (os : List (Object UInt8)) (acts more : List BAct) (b b' : Batch UInt8 Nat) (e : GroupErr),
    ReachAnyConc false demoLib 1 c ∧ BatchAt false false demoLib 1 2 c os noEmbed acts b ∧ b.returned (some e) ∧
    b.run false demoLib more = some b' ∧ b.c.getSize = .ok 0 ∧ b'.c.getSize = .ok 1 := by
  let acts : List BAct := [.work 0 {}, .work 1 {}, .work 1 {}, .work 0 {}, .work 0 { counterFails := true }, .giveUp]
  obtain ⟨b, h, hp⟩ := bleads_sound (cfg := demoCfg) (two := false) (fixed := false) (workers := 2) (os := [demoObj 3, demoObj 5])
    (acts := acts) (P := fun b => decide (b.ret = some (some (.task .io))) && (decide (b.c.closed = false) &&
      (decide (b.c.stores.size = 0) && (match b.run false demoLib (works 1 4) with
        | some b' => decide (b'.c.closed = false) && decide (b'.c.stores.size = 1)
        | none => false)))) (by decide +kernel)
  simp only [Bool.and_eq_true, decide_eq_true_eq] at hp
  obtain ⟨h1, h2, h3, h4⟩ := hp
  split at h4
  · rename_i b' hb'
    simp only [Bool.and_eq_true, decide_eq_true_eq] at h4
    refine ⟨_, _, acts, works 1 4, b, b', _, demo_reachAny demoCfg (by constructor <;> decide) _ _, h, h1, hb', ?_, ?_⟩
    · unfold Coll.getSize; rw [h2, h3]; rfl
    · unfold Coll.getSize; rw [h4.1, h4.2]; rfl
  · cases h4

end Vectory.Conc
