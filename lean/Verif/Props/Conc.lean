import Verif.Lemmas.ConcReal
import Verif.Lemmas.Weaken
import Verif.Lemmas.Within
import Verif.Spec.Demo
/-!
# Concurrent index inserts (C50, C51)

Several workers of `InsertBatch` run `Hnsw.Insert` at the same time. A schedule is any interleaving of their steps
(`Model/Conc.lean`), with any number of workers and calls.

The code writes the list of the new vertex without its lock (`insert.go:75`), although from the second layer on other workers can
already reach that vertex. C50 and C51 fail because of that: see the counterexamples at the end. What is proved for every schedule:
both hold when all the levels drawn are 0 (the vertex is then unreachable until its only list is written), and both hold for all
levels when that write is done under the vertex's lock.
-/
namespace Vectory.Conc
open Vectory
variable {V D : Type}

theorem good_sound {h : Hnsw} {S : Prop} (g : Good S h) (hc : CfgOK h.cfg) : Sound h := by
  refine ⟨fun id v l links hv hl => ?_, fun hne => ?_⟩
  · obtain ⟨_, h1, h2⟩ := g.graph.linkOK id l links (link?_of hv hl)
    have : degBound h.cfg l ≤ 2 * h.cfg.mMax := hc.deg l
    exact ⟨by omega, h2⟩
  · rcases g.entry with h1 | h1
    · exact absurd h1 hne
    · exact h1

/-- the state in which a batch starts. -/
theorem reach_start {L : Lib V D} {dim : Nat} {c : Coll} (hr : ReachAny L dim c) (n : Nat) :
    ∃ an, MachInv L.metric dim (Mach.init c.index n : Mach D).h an (Mach.init c.index n : Mach D).ts :=
  ⟨_, quiet_inv (init_quiet _ _) hr.weak.1.idx.weaken hr.weak.1.cfg hr.weak.1.vecs⟩

theorem inv_sound {M : Metric D} {dim : Nat} {h : Hnsw} {an : AMap UInt64 Vertex} {ts : List (Thread D)}
    (i : MachInv M dim h an ts) :
    (∀ t ∈ ts, t.pc.panicked = false) ∧ Sound h ∧
      ∀ p, p <+: logOf h → ∃ s, loadFromWAL (Hnsw.empty h.cfg p) p = .ok s ∧ Sound s := by
  refine ⟨?_, good_sound i.mem i.cfg, ?_⟩
  · intro t ht
    obtain ⟨k, hk⟩ := List.getElem?_of_mem ht
    have := i.thr k t hk
    cases hp : t.pc <;> first | rfl | (rw [hp] at this; exact this.elim)
  · intro p hp
    obtain ⟨s, h1, h2, h3⟩ := i.ghost.log.pre p hp
    have h4 := loadFromWAL_wal (newWal p) p { cfg := h.cfg }
    unfold loadLog at h1
    have h1 : loadFromWAL { cfg := h.cfg } p = .ok s := h1
    rw [h1] at h4
    have h3 : s.cfg = h.cfg := h3
    exact ⟨_, h4, good_sound (h := { s with wal := newWal p }) ⟨h2.graph, h2.entry⟩ (by show CfgOK s.cfg; rw [h3]; exact i.cfg)⟩

theorem inv_matches {h : Hnsw} {S : Prop} (i : Inv S h) : LogMatches h := by
  obtain ⟨s, h1, r⟩ := i.m.log.load
  have h4 := loadFromWAL_wal (newWal (logOf h)) h.wal.records { cfg := h.cfg }
  unfold loadLog at h1
  rw [h1] at h4
  have e := r.rest
  refine ⟨_, h4, ?_, by rw [e]; rfl, by rw [e]; rfl, by rw [e]; rfl⟩
  intro id
  show (AMap.get? s.nodes id).map Vertex.conns = _
  rw [r.nodes.get]
  show ((h.nodes.mapVals Vertex.strip).get? id).map _ = _
  rw [AMap.get?_mapVals]
  cases h.nodes.get? id <;> rfl

/-- C50 for the program as it is, when every level drawn in the batch is 0: whatever the interleaving, at every moment no worker
has panicked, the graph is sound, and every prefix of the log replays to a sound graph.
Excluded: levels above 0, where it is false (`C50_fails`). -/
theorem C50_level_zero (L : Lib V D) (dim : Nat) (c : Coll) (hr : ReachAny L dim c) (n : Nat) (js : List Job) (m : Mach D)
    (hs : Sched false L.metric dim (Mach.init c.index n) js m) (h0 : ∀ j ∈ js, j.level = 0) :
    (∀ t ∈ m.ts, t.pc.panicked = false) ∧ Sound m.h ∧
      ∀ p, p <+: logOf m.h → ∃ s, loadFromWAL (Hnsw.empty m.h.cfg p) p = .ok s ∧ Sound s := by
  have hd := hr.weak.1.dimM
  have hf := (sched_level0 hd (init_quiet _ _) (reach_start hr n) hs h0).1
  obtain ⟨an, i⟩ := sched_inv hd hf (reach_start hr n)
  exact inv_sound i

/-- C50 for all levels, for the program in which `insert.go:73-75` runs under the lock of the new vertex. -/
theorem C50_with_lock (L : Lib V D) (dim : Nat) (c : Coll) (hr : ReachAny L dim c) (n : Nat) (js : List Job) (m : Mach D)
    (hs : Sched true L.metric dim (Mach.init c.index n) js m) :
    (∀ t ∈ m.ts, t.pc.panicked = false) ∧ Sound m.h ∧
      ∀ p, p <+: logOf m.h → ∃ s, loadFromWAL (Hnsw.empty m.h.cfg p) p = .ok s ∧ Sound s := by
  obtain ⟨an, i⟩ := sched_inv hr.weak.1.dimM hs (reach_start hr n)
  exact inv_sound i

/-- the batch is over. -/
theorem over {L : Lib V D} {dim : Nat} {c : Coll} (hr : ReachAny L dim c) {n : Nat} {js : List Job} {m : Mach D}
    (hs : Sched true L.metric dim (Mach.init c.index n) js m) (hq : m.quiet) :
    LogMatches m.h ∧ Grown c.index js m.h ∧
      ∀ (q : Vec) (k : Int), q.length = dim → 0 ≤ k → m.h.nodes ≠ [] → ∃ r, m.h.search L.metric q k = .ok r := by
  obtain ⟨an, i⟩ := sched_inv hr.weak.1.dimM hs (reach_start hr n)
  have s := i.settled hq
  refine ⟨inv_matches s, sched_grown (init_quiet _ _) hs hq, ?_⟩
  intro q k h1 h2 h3
  obtain ⟨r, hr', _⟩ := search_spec hr.weak.1.dimM s i.cfg i.vec h3 h1 h2
  exact ⟨r, hr'⟩

/-- C51 for the program as it is, when every level drawn is 0: when the workers are done, replaying the log gives the graph in
memory; exactly the vertices of the batch were added, with their vectors; and searches do not panic.
Excluded: levels above 0, where it is false (`C51_fails`). -/
theorem C51_level_zero (L : Lib V D) (dim : Nat) (c : Coll) (hr : ReachAny L dim c) (n : Nat) (js : List Job) (m : Mach D)
    (hs : Sched false L.metric dim (Mach.init c.index n) js m) (h0 : ∀ j ∈ js, j.level = 0) (hq : m.quiet) :
    LogMatches m.h ∧ Grown c.index js m.h ∧
      ∀ (q : Vec) (k : Int), q.length = dim → 0 ≤ k → m.h.nodes ≠ [] → ∃ r, m.h.search L.metric q k = .ok r :=
  over hr (sched_level0 hr.weak.1.dimM (init_quiet _ _) (reach_start hr n) hs h0).1 hq

/-- C51 for all levels, for the program in which `insert.go:73-75` runs under the lock of the new vertex. -/
theorem C51_with_lock (L : Lib V D) (dim : Nat) (c : Coll) (hr : ReachAny L dim c) (n : Nat) (js : List Job) (m : Mach D)
    (hs : Sched true L.metric dim (Mach.init c.index n) js m) (hq : m.quiet) :
    LogMatches m.h ∧ Grown c.index js m.h ∧
      ∀ (q : Vec) (k : Int), q.length = dim → 0 ≤ k → m.h.nodes ≠ [] → ∃ r, m.h.search L.metric q k = .ok r :=
  over hr hs hq

/-! ### The counterexamples -/

/-- run a schedule, checking that its calls are legal; the calls are returned. -/
def Mach.play (fixed : Bool) (M : Metric D) (dim : Nat) : Mach D → List Act → Option (List Job × Mach D)
  | m, [] => some ([], m)
  | m, .run i :: as =>
    match m.step fixed M (.run i) with
    | none => none
    | some m => m.play fixed M dim as
  | m, .call i j :: as =>
    if m.h.nodes.has j.id = false ∧ (m.ts.all (fun t => !(t.pc.active) || t.job.id != j.id)) = true ∧ j.vec.length = dim ∧
        j.level < 4294967296 then
      match m.step fixed M (.call i j) with
      | none => none
      | some m =>
        match m.play fixed M dim as with
        | none => none
        | some (js, m) => some (j :: js, m)
    else none

theorem sched_trans {fixed : Bool} {M : Metric D} {dim : Nat} {m m1 m2 : Mach D} {js js' : List Job}
    (h1 : Sched fixed M dim m js m1) (h2 : Sched fixed M dim m1 js' m2) : Sched fixed M dim m (js ++ js') m2 := by
  induction h2 with
  | start => simpa using h1
  | run i _ h ih => exact .run i ih h
  | call i j _ hf hj h ih => rw [← List.append_assoc]; exact .call i j ih hf hj h

theorem play_sched {fixed : Bool} {M : Metric D} {dim : Nat} : ∀ (as : List Act) (m m' : Mach D) (js : List Job),
    m.play fixed M dim as = some (js, m') → Sched fixed M dim m js m' := by
  intro as
  induction as with
  | nil => intro m m' js h; cases h; exact .start
  | cons a as ih =>
    intro m m' js h
    cases a with
    | run i =>
      simp only [Mach.play] at h
      cases hs : m.step fixed M (.run i) with
      | none => rw [hs] at h; cases h
      | some m1 => rw [hs] at h; exact sched_trans (.run i .start hs) (ih m1 m' js h)
    | call i j =>
      simp only [Mach.play] at h
      split at h
      · rename_i hc
        obtain ⟨c1, c2, c3, c4⟩ := hc
        cases hs : m.step fixed M (.call i j) with
        | none => rw [hs] at h; cases h
        | some m1 =>
          rw [hs] at h
          dsimp only at h
          cases hp : m1.play fixed M dim as with
          | none => rw [hp] at h; cases h
          | some r =>
            rw [hp] at h
            obtain ⟨js1, m2⟩ := r
            cases h
            refine sched_trans (js := [j]) (.call i j .start ⟨?_, ?_⟩ ⟨c3, c4⟩ hs) (ih m1 _ _ hp)
            · rw [← AMap.has_iff, c1]; simp
            · intro t ht ha hid
              have := List.all_eq_true.mp c2 t ht
              rw [ha, hid] at this
              simp at this
      · cases h

def runs (i n : Nat) : List Act := List.replicate n (.run i)

/-- the machine of the counterexamples: two workers, an empty index. -/
def raceStart (cfg : Cfg) : Mach Nat := Mach.init (Coll.new cfg [] false).index 2

theorem race_reach (cfg : Cfg) (hc : CfgOK cfg) : ReachAny demoLib 1 (Coll.new cfg [] false) :=
  ⟨cfg, [], false, [], ⟨demoJson_ok, fun a b ha hb => demoDist_ok a b (by omega), by decide, hc⟩, .nil _⟩

/-- worker 0 inserts vertex 2 on three layers and is stopped when it is about to write its list of layer 1, which it has already
logged (`insert.go:75`); worker 1 inserts 3 and 4, which find 2 through layer 2 and link themselves to it. -/
def raceActs (v1 : UInt32) : List Act :=
  .call 0 ⟨0, [10], 0⟩ :: runs 0 1 ++ .call 0 ⟨1, [v1], 2⟩ :: runs 0 17 ++ .call 0 ⟨2, [30], 2⟩ :: runs 0 22 ++
  .call 1 ⟨3, [31], 1⟩ :: runs 1 39 ++ .call 1 ⟨4, [32], 1⟩ :: runs 1 53

/-- then worker 1, inserting 5, reads the length of the list of 2; worker 0 overwrites the list; worker 1 copies it. The list is
shorter now, so a zero from the fresh buffer is taken for a neighbour. -/
def tornActs : List Act := raceActs 50 ++ .call 1 ⟨5, [12], 1⟩ :: runs 1 16 ++ runs 0 28 ++ runs 1 5

/-- does the schedule lead to a state with property `P`? -/
def leadsTo (cfg : Cfg) (acts : List Act) (P : Mach Nat → Bool) : Bool :=
  match (raceStart cfg).play false demoLib.metric 1 acts with
  | some r => P r.2
  | none => false

theorem leadsTo_sched {cfg : Cfg} {acts : List Act} {P : Mach Nat → Bool} (h : leadsTo cfg acts P = true) :
    ∃ js m, Sched false demoLib.metric 1 (Mach.init (Coll.new cfg [] false).index 2) js m ∧ P m = true := by
  unfold leadsTo at h
  split at h
  · rename_i r hr
    obtain ⟨js, m⟩ := r
    exact ⟨js, m, play_sched _ _ _ _ hr, h⟩
  · cases h

/-- C50 fails for the program as it is: some schedule of legal inserts makes a worker panic, from a new collection. -/
theorem C50_fails : ∃ (c : Coll) (js : List Job) (m : Mach Nat), ReachAny demoLib 1 c ∧
    Sched false demoLib.metric 1 (Mach.init c.index 2) js m ∧ ∃ t ∈ m.ts, t.pc.panicked = true := by
  obtain ⟨js, m, h1, h2⟩ := leadsTo_sched (cfg := demoCfg) (acts := tornActs)
    (P := fun m => m.ts.any (fun t => t.pc.panicked)) (by decide +kernel)
  obtain ⟨t, ht, hp⟩ := List.any_eq_true.mp h2
  exact ⟨_, js, m, race_reach demoCfg (by constructor <;> decide), h1, t, ht, hp⟩

/-- worker 0 overwrites the list and both finish. -/
def lostActs : List Act := raceActs 20 ++ runs 0 24

/-- C51 fails for the program as it is: after a schedule in which all the inserts returned, the log describes other links than
those in memory. -/
theorem C51_fails : ∃ (c : Coll) (js : List Job) (m : Mach Nat), ReachAny demoLib 1 c ∧
    Sched false demoLib.metric 1 (Mach.init c.index 2) js m ∧ m.quiet ∧ ¬ LogMatches m.h := by
  obtain ⟨js, m, h1, h2⟩ := leadsTo_sched (cfg := demoCfg) (acts := lostActs)
    (P := fun m => m.ts.all (fun t => !t.pc.active) &&
      (match loadFromWAL (Hnsw.empty m.h.cfg (logOf m.h)) (logOf m.h) with
        | .ok s => decide ((AMap.get? s.nodes 2).map Vertex.conns ≠ (AMap.get? m.h.nodes 2).map Vertex.conns)
        | .error _ => false)) (by decide +kernel)
  rw [Bool.and_eq_true] at h2
  refine ⟨_, js, m, race_reach demoCfg (by constructor <;> decide), h1, ?_, ?_⟩
  · intro t ht; simpa using List.all_eq_true.mp h2.1 t ht
  · rintro ⟨s, e1, e2, _⟩
    have h3 := h2.2
    rw [e1] at h3
    exact (of_decide_eq_true h3) (e2 2)

/-- C63 fails for the program as it is: all the inserts returned and nothing was deleted, but no search whatever returns the
inserted vertices 3 and 4. -/
theorem C63_lost_objects : ∃ (c : Coll) (js : List Job) (m : Mach Nat), ReachAny demoLib 1 c ∧
    Sched false demoLib.metric 1 (Mach.init c.index 2) js m ∧ m.quiet ∧ m.h.deleted = [] ∧
    (∃ j ∈ js, j.id = 3) ∧ (∃ j ∈ js, j.id = 4) ∧
    ∀ q k r, m.h.search demoLib.metric q k = .ok r → ∀ e ∈ r, e.id ≠ 3 ∧ e.id ≠ 4 := by
  obtain ⟨js, m, h1, h2⟩ := leadsTo_sched (cfg := demoCfg) (acts := lostActs)
    (P := fun m => m.ts.all (fun t => !t.pc.active) && (m.h.deleted.isEmpty && (decide (m.h.entry = 1) && (
      m.h.nodes.has 3 && (m.h.nodes.has 4 &&
      m.h.nodes.all (fun p => p.1 == 3 || p.1 == 4 || p.2.conns.all (fun c => c.all (fun n => n != 3 && n != 4)))))))) (by decide +kernel)
  simp only [Bool.and_eq_true] at h2
  obtain ⟨a1, a2, a3, a4, a5, a6⟩ := h2
  have a3 : m.h.entry = 1 := of_decide_eq_true a3
  have hq : m.quiet := by intro t ht; simpa using List.all_eq_true.mp a1 t ht
  have g := sched_grown (init_quiet _ _) h1 hq
  have hin : ∀ x, m.h.nodes.has x = true → ∃ j ∈ js, j.id = x := by
    intro x hx
    rcases g.only x ((AMap.has_iff _ _).mp hx) with h | h
    · exact absurd h List.not_mem_nil
    · obtain ⟨j, hj, e⟩ := List.mem_map.mp h; exact ⟨j, hj, e⟩
  refine ⟨_, js, m, race_reach demoCfg (by constructor <;> decide), h1, hq, List.isEmpty_iff.mp a2, hin 3 a4, hin 4 a5, ?_⟩
  intro q k r hr
  refine search_within (R := fun x => x ≠ 3 ∧ x ≠ 4) ?_ (by rw [a3]; decide) hr
  intro x v l c hx hc hR n hn
  have h := List.all_eq_true.mp a6 (x, v) (AMap.mem_of_get? hx)
  dsimp only at h
  simp only [Bool.or_eq_true, beq_iff_eq] at h
  rcases h with (h | h) | h
  · exact absurd h hR.1
  · exact absurd h hR.2
  · have := List.all_eq_true.mp (List.all_eq_true.mp h c (List.mem_of_getElem? hc)) n hn
    simpa using this

/-- the same race with `m = 2`, `m_max = 1`, on layer 0. -/
def overCfg : Cfg := { m := 2, mMax := 1, efC := 4, ef := 4, heuristic := false }

def overActs : List Act :=
  .call 0 ⟨0, [10], 0⟩ :: runs 0 1 ++ .call 0 ⟨1, [20], 1⟩ :: runs 0 17 ++ .call 0 ⟨2, [30], 1⟩ :: runs 0 23 ++
  .call 1 ⟨3, [31], 0⟩ :: runs 1 27 ++ .call 1 ⟨4, [32], 0⟩ :: runs 1 36 ++ runs 0 11

/-- the damage is durable: after a schedule in which all the inserts returned, the index loaded from the log and the vectors has a
list longer than the search buffer, and a search on it panics. -/
theorem C51_durable_damage : ∃ (c : Coll) (js : List Job) (m : Mach Nat) (s s' : Hnsw) (q : Vec), ReachAny demoLib 1 c ∧
    Sched false demoLib.metric 1 (Mach.init c.index 2) js m ∧ m.quiet ∧
    loadFromWAL (Hnsw.empty m.h.cfg (logOf m.h)) (logOf m.h) = .ok s ∧
    populate s (m.h.nodes.map (fun p => (p.1, p.2.vec))) = .ok s' ∧ q.length = 1 ∧
    s'.search demoLib.metric q 1 = .error .sliceBounds := by
  obtain ⟨js, m, h1, h2⟩ := leadsTo_sched (cfg := overCfg) (acts := overActs)
    (P := fun m => m.ts.all (fun t => !t.pc.active) &&
      (match loadFromWAL (Hnsw.empty m.h.cfg (logOf m.h)) (logOf m.h) with
        | .ok s =>
          (match populate s (m.h.nodes.map (fun p => (p.1, p.2.vec))) with
          | .ok s' =>
            (match s'.search demoLib.metric [31] 1 with
            | .error .sliceBounds => true
            | _ => false)
          | .error _ => false)
        | .error _ => false)) (by decide +kernel)
  rw [Bool.and_eq_true] at h2
  obtain ⟨a1, a2⟩ := h2
  have hq : m.quiet := by intro t ht; simpa using List.all_eq_true.mp a1 t ht
  split at a2
  · rename_i s hs
    split at a2
    · rename_i s' hs'
      split at a2
      · rename_i hp
        exact ⟨_, js, m, s, s', [31], race_reach overCfg (by constructor <;> decide), h1, hq, hs, hs', rfl, hp⟩
      · cases a2
    · cases a2
  · cases a2

end Vectory.Conc
