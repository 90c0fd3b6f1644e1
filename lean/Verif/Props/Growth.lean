import Verif.Lemmas.Growth
import Verif.Spec.Demo
/-!
# C81: what is kept for ever

The index log is only ever appended to, also by deletes, crashes and reopening; the theorems bound what a history leaves there from above and
from below. Neither the log nor the vertices in memory are given back when objects are deleted.
-/
namespace Vectory
variable {V D : Type}

/-- **C81.** Whatever happens to a collection (calls with any arguments, failures, crashes inside inserts and deletes, reopening): what the log on
disk contained it still contains, in the same place. -/
theorem C81_append_only {L : Lib V D} {c c' : Coll} {h : List (Ev V D)} (r : Events L c h c') : c.disk.log <+: c'.disk.log :=
  (events_logMove r).keep

/-- **C81.** Every object that was accepted leaves at least two records in the log, whatever is deleted later. -/
theorem C81_least {L : Lib V D} {c c' : Coll} {h : List (Ev V D)} (r : Events L c h c') :
    c.disk.log.length + 2 * (h.map Ev.accepted).sum ≤ c'.disk.log.length :=
  (events_logMove r).least

/-- **C81.** A new collection's log is never longer than the sum of what its calls may log: per inserted object two records and, for each layer up
to its level, `m + 1`; one per delete; nothing for the other calls, for refused calls and for opening. -/
theorem C81_most {L : Lib V D} {cfg : Cfg} {ms : List String} {he : Bool} {c : Coll} {h : List (Ev V D)}
    (r : Events L (Coll.new cfg ms he) h c) : c.disk.log.length ≤ (h.map (Ev.mayLog cfg.m)).sum := by
  have m := (events_logMove r).most
  have e : (Coll.new cfg ms he).index.wal.records.length = 0 := rfl
  rw [e, Nat.zero_add] at m
  exact Nat.le_trans (disk_prefix _).length_le m

/-- **C81.** No record of a new collection's log is larger than `17 + 8 · max (m, 2·mMax)` bytes (and 25 for `m = mMax = 0`). -/
theorem C81_records {L : Lib V D} {cfg : Cfg} {ms : List String} {he : Bool} {c : Coll} {h : List (Ev V D)}
    (r : Events L (Coll.new cfg ms he) h c) : ∀ b ∈ c.disk.log, b.length ≤ largestRecord cfg := by
  intro b hb
  rcases (events_logMove r).small b ((disk_prefix _).subset hb) with h | h
  · cases h
  · exact h

theorem bytesOf_le {log : List Bytes} {B : Nat} (h : ∀ b ∈ log, b.length ≤ B) : bytesOf log ≤ B * log.length := by
  induction log with
  | nil => exact Nat.zero_le _
  | cons b bs ih =>
    have h1 := ih (fun x hx => h x (List.mem_cons_of_mem _ hx))
    have h2 := h b (by simp)
    unfold bytesOf at h1 ⊢
    rw [List.map_cons, List.sum_cons, List.length_cons, Nat.mul_succ]
    omega

/-- **C81.** The same in bytes. -/
theorem C81_bytes {L : Lib V D} {cfg : Cfg} {ms : List String} {he : Bool} {c : Coll} {h : List (Ev V D)}
    (r : Events L (Coll.new cfg ms he) h c) : bytesOf c.disk.log ≤ largestRecord cfg * (h.map (Ev.mayLog cfg.m)).sum :=
  Nat.le_trans (bytesOf_le (C81_records r)) (Nat.mul_le_mul_left _ (C81_most r))

/-- **C81.** A successful delete of a stored object makes the log longer: by one record of nine bytes, when nothing was waiting. -/
theorem C81_delete {L : Lib V D} {c c' : Coll} {id : UInt64} {df ff : Bool} {o : Object V}
    (ho : getObject L.json c.stores id = .ok (some o)) (hw : c.index.wal.batch = [])
    (h : c.apply L (.delete id df ff) = .ok (c', .deleted none)) : ∃ b : Bytes, b.length = 9 ∧ c'.disk.log = c.disk.log ++ [b] := by
  simp only [Coll.apply] at h
  obtain ⟨⟨c1, e⟩, h1, h⟩ := (bind_ok_iff _ _ _).mp h
  cases h
  replace h1 := liftPanic_ok h1
  unfold Coll.delete at h1
  split at h1
  · cases h1
  · rw [ho] at h1
    dsimp only at h1
    split at h1
    · cases h1
    · refine ⟨recDeleteVertex id, rfl, ?_⟩
      have key : ∀ (g g' : Coll) (x : Option Err), g.index.wal.disk = c.index.wal.disk →
          g.index.wal.records = c.index.wal.disk ++ [recDeleteVertex id] → (g.flush ff).1 = g' → (g.flush ff).2 = none →
          g'.disk.log = c.disk.log ++ [recDeleteVertex id] := by
        intro g g' x h1 h2 h3 h4
        rcases coll_flush_cases g ff with ⟨_, f2, _, _⟩ | ⟨f1, _, _⟩
        · rw [← h3]; show (g.flush ff).1.index.wal.disk = _; rw [f2, h2]; rfl
        · exact absurd h4 f1
      refine key { ({ c with stores := deleteObject c.stores id } : Coll) with index := c.index.delete id } _ none rfl ?_
        (Prod.mk.inj (Except.ok.inj h1)).1 (Prod.mk.inj (Except.ok.inj h1)).2
      show c.index.wal.disk ++ (c.index.wal.batch ++ [(_, recDeleteVertex id)]).map Prod.snd = _
      rw [hw]; rfl

theorem insertOne_vertices {S : Prop} {X : UInt64 → Prop} {L : Lib V D} {dim : Nat} {c c' : Coll} (i : WInv S L dim X c) {o o' : Object V} {env : InsEnv}
    {e : Option Err} (hd : (o.vec.getD []).length = dim) (hl : env.level < 4294967296) (hc : c.counter.count.toNat + 1 < 18446744073709551616)
    (h : c.insertOne L o env = .ok (c', o', e)) :
    c'.vertices = c.vertices + (if e = none then 1 else 0) ∧ WInv S L dim X c' ∧ c'.counter.count = c.counter.count + 1 := by
  obtain ⟨c1, o1, e1, h1, i1, f⟩ := insertOne_spec i hd hl hc
  rw [h1] at h
  cases h
  refine ⟨?_, i1, f.count⟩
  cases e with
  | none =>
    have k := (f.ok rfl).2.2.2.1.keys
    have := congrArg List.length k
    rw [List.length_append] at this
    simp only [AMap.keys, List.length_map, List.length_cons, List.length_nil] at this
    rw [if_pos rfl]; exact this
  | some x => rw [if_neg (by simp)]; unfold Coll.vertices; rw [(f.bad x rfl).2]; rfl

theorem insertAll_vertices {S : Prop} {X : UInt64 → Prop} {L : Lib V D} {dim : Nat} : ∀ (xs : List (Object V × InsEnv)) (c c' : Coll) (os : List (Object V))
    (e : Option Err), WInv S L dim X c → (∀ p ∈ xs, (p.1.vec.getD []).length = dim) → (∀ p ∈ xs, p.2.level < 4294967296) →
    c.counter.count.toNat + xs.length < 18446744073709551616 → c.insertAll L xs = .ok (c', os, e) →
    c.vertices + (if e = none then xs.length else 0) ≤ c'.vertices ∧ c'.vertices ≤ c.vertices + xs.length := by
  intro xs
  induction xs with
  | nil => intro c c' os e _ _ _ _ h; cases h; exact ⟨Nat.le_refl _, Nat.le_refl _⟩
  | cons x xs ih =>
    intro c c' os e i hd hl hc h
    obtain ⟨o, env⟩ := x
    simp only [List.length_cons] at hc ⊢
    unfold Coll.insertAll at h
    obtain ⟨⟨c1, o1, e1⟩, h1, h⟩ := (bind_ok_iff _ _ _).mp h
    obtain ⟨v1, i1, n1⟩ := insertOne_vertices i (hd (o, env) (by simp)) (hl (o, env) (by simp)) (by omega) h1
    dsimp only at h
    cases e1 with
    | some x =>
      cases h
      rw [if_neg (by simp)] at v1 ⊢
      constructor <;> omega
    | none =>
      obtain ⟨⟨c2, os2, e2⟩, h2, h⟩ := (bind_ok_iff _ _ _).mp h
      cases h
      dsimp only
      have hcnt : (c.counter.count + 1).toNat = c.counter.count.toNat + 1 := by
        rw [UInt64.toNat_add]
        show (c.counter.count.toNat + 1) % 2 ^ 64 = _
        omega
      obtain ⟨a, b⟩ := ih c1 _ _ _ i1 (fun p hp => hd p (List.mem_cons_of_mem _ hp)) (fun p hp => hl p (List.mem_cons_of_mem _ hp))
        (by rw [n1, hcnt]; omega) h2
      rw [if_pos rfl] at v1
      constructor
      · split at a <;> rename_i he
        · rw [if_pos he]; omega
        · rw [if_neg he]; omega
      · omega

theorem flush_vertices (c : Coll) (b : Bool) : (c.flush b).1.vertices = c.vertices := rfl

/-- one legal call. -/
theorem apply_vertices {S : Prop} {X : UInt64 → Prop} {L : Lib V D} {dim : Nat} {c c' : Coll} (i : WInv S L dim X c) {op : Op V} {out : Out V D}
    (hl : Legal dim c op) (h : c.apply L op = .ok (c', out)) :
    c.vertices + accepted (op, out) ≤ c'.vertices ∧ c'.vertices ≤ c.vertices + op.objects := by
  have zero : ∀ {n m : Nat} {d : Coll}, n = 0 → d.vertices = c.vertices → c.vertices + n ≤ d.vertices ∧ d.vertices ≤ c.vertices + m := by
    intro n m d hn hd; subst hn; rw [hd]; constructor <;> omega
  cases op with
  | insert o embed env ff =>
    simp only [Coll.apply] at h
    obtain ⟨⟨c1, o1, e⟩, h1, h⟩ := (bind_ok_iff _ _ _).mp h
    cases h
    obtain ⟨⟨r, hr, hd⟩, hlev, hcnt⟩ := hl
    cases insert_res (liftPanic_ok h1) with
    | closed _ => exact zero rfl rfl
    | invalid _ _ _ => exact zero rfl rfl
    | embed _ _ _ _ => exact zero rfl rfl
    | storage o1 _ _ x _ _ he hi =>
      rw [he] at hr; cases hr
      have v := (insertOne_vertices i (hd _ rfl o1 (by simp)) hlev hcnt hi).1
      exact zero rfl v
    | done o1 _ c1 _ _ he hi =>
      rw [he] at hr; cases hr
      have v := (insertOne_vertices i (hd _ rfl o1 (by simp)) hlev hcnt hi).1
      rw [if_pos rfl] at v
      rw [flush_vertices, v]
      refine ⟨?_, Nat.le_refl _⟩
      cases (c1.flush ff).2 with
      | none => exact Nat.le_refl _
      | some x => exact Nat.le_add_right _ _
  | insertBatch os embed envs ff =>
    simp only [Coll.apply] at h
    obtain ⟨⟨c1, o1, e⟩, h1, h⟩ := (bind_ok_iff _ _ _).mp h
    cases h
    obtain ⟨⟨r, hr, hd⟩, hlev, hcnt⟩ := hl
    cases batch_res (liftPanic_ok h1) with
    | closed _ => exact zero rfl rfl
    | invalid _ _ _ => exact zero rfl rfl
    | embed _ _ _ _ => exact zero rfl rfl
    | storage os1 _ _ x _ _ he hi =>
      rw [he] at hr; cases hr
      obtain ⟨z1, z2⟩ := zipIdx_dim (envs := envs) (hd _ rfl) hlev
      have hlen : (os1.zipIdx.map (fun p => (p.1, envs p.2))).length = os.length := by simp [embed_length he]
      obtain ⟨a, b⟩ := insertAll_vertices _ _ _ _ _ i z1 z2 (by rw [hlen]; exact hcnt) hi
      rw [hlen] at b
      exact ⟨a, b⟩
    | done os1 _ c1 _ _ he hi =>
      rw [he] at hr; cases hr
      obtain ⟨z1, z2⟩ := zipIdx_dim (envs := envs) (hd _ rfl) hlev
      have hlen : (os1.zipIdx.map (fun p => (p.1, envs p.2))).length = os.length := by simp [embed_length he]
      obtain ⟨a, b⟩ := insertAll_vertices _ _ _ _ _ i z1 z2 (by rw [hlen]; exact hcnt) hi
      rw [hlen] at a b
      rw [if_pos rfl] at a
      rw [flush_vertices]
      refine ⟨?_, b⟩
      cases (c1.flush ff).2 with
      | none => exact a
      | some x => exact Nat.le_trans (Nat.le_add_right _ _) a
  | delete id df ff =>
    simp only [Coll.apply] at h
    obtain ⟨⟨c1, e⟩, h1, h⟩ := (bind_ok_iff _ _ _).mp h
    cases h
    replace h1 := liftPanic_ok h1
    unfold Coll.delete at h1
    split at h1
    · cases h1; exact zero rfl rfl
    · split at h1
      · cases h1
      · cases h1; exact zero rfl rfl
      · cases h1; exact zero rfl rfl
      · split at h1
        · cases h1; exact zero rfl rfl
        · cases h1; exact zero rfl rfl
  | get ids => simp only [Coll.apply] at h; cases h; exact zero rfl rfl
  | search o embed k => simp only [Coll.apply] at h; cases h; exact zero rfl rfl
  | size => simp only [Coll.apply] at h; cases h; exact zero rfl rfl
  | update o => simp only [Coll.apply] at h; cases h; exact zero rfl rfl
  | close sf =>
    simp only [Coll.apply] at h
    cases h
    refine zero rfl ?_
    unfold Coll.close; dsimp only; split
    · rfl
    · split <;> rfl
  | reopen =>
    simp only [Coll.apply] at h
    obtain ⟨c1, h1, h⟩ := (bind_ok_iff _ _ _).mp h
    cases h
    obtain ⟨f, c2, _, h5, _, hro, _⟩ := coll_reopen i hl (fun _ => False)
    rw [h5] at h1
    cases h1
    exact zero rfl (hro.nodes.length i.idx.m.good.graph.keysNd)

/-- **C81.** Memory: in a run of legal calls the index never holds fewer vertices than before plus the objects accepted since, whatever was deleted
meanwhile and however often the collection was reopened; and never more than one per object handed to an insert. -/
theorem C81_memory {L : Lib V D} {dim : Nat} {c c' : Coll} (hc : Reach L dim c) {h : List (Op V × Out V D)} (r : Runs L dim c h c') :
    c.vertices + (h.map accepted).sum ≤ c'.vertices ∧ c'.vertices ≤ c.vertices + (h.map (fun p => p.1.objects)).sum := by
  have i := hc.inv
  clear hc
  induction r with
  | nil c => exact ⟨Nat.le_refl _, Nat.le_refl _⟩
  | @cons c c1 c2 op out h hl ha _ ih =>
    obtain ⟨a, b⟩ := apply_vertices i hl ha
    obtain ⟨c1', out', ha', i1, _⟩ := apply_spec i op hl
    rw [ha] at ha'
    cases ha'
    obtain ⟨a', b'⟩ := ih i1
    simp only [List.map_cons, List.sum_cons]
    constructor <;> omega

/-- three inserts (the second on two layers), two deletes, a reopen. -/
def c81Ops : List (Op UInt8) :=
  [demoInsert 1 0, demoInsert 5 1, .delete 0 false false, demoInsert 9 0, .delete 1 false false, .delete 2 false false, .reopen, .size]

/-- the numbers of a run: accepted objects, size, vertices, log records, the bound. -/
def c81Counts : Option (Nat × Option Nat × Nat × Nat × Nat) :=
  (playLegal demoLib 1 (Coll.new demoCfg ["a"] false) c81Ops).map (fun r =>
    ((r.2.map accepted).sum, r.1.getSize.toOption, r.1.vertices, r.1.disk.log.length, (r.2.map (fun p => p.1.mayLog demoCfg.m)).sum))

/-- non-vacuity: three objects are accepted and deleted again; the collection is empty, its log is not: ten records from the inserts and three
from the deletes (of at most 21); three vertices are in memory after the reopen. -/
example : c81Counts = some (3, some 0, 3, 13, 21) := by decide +kernel

theorem trace_events {L : Lib V D} {c c' : Coll} {h : List (Op V × Out V D)} (t : Trace L c h c') :
    Events L c (h.map (fun p => Ev.call p.1 p.2)) c' := by
  induction t with
  | nil c => exact .nil _
  | cons ha _ ih => exact .cons (.call ha) ih

/-- and with a crash: the process stops inside a delete, after its flush; three records are on disk when the collection is opened again. -/
example : ∃ c2 out, Events demoLib (Coll.new demoCfg ["a"] false) [.call (demoInsert 1 0) out, .crashDelete 0 .flushed] c2 ∧
    c2.disk.log.length = 3 :=
  ⟨_, _, .cons (c1 := demoState demoCfg [demoInsert 1 0]) (.call rfl) (.cons (.crashDelete rfl) (.nil _)), rfl⟩

end Vectory
