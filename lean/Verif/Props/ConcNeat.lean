import Verif.Lemmas.ConcNeat
import Verif.Props.ConcFound
import Verif.Props.ConcRace
/-!
# Self links, double links and the top layer after concurrent batches: the rest of C26

`C26_links_concurrent` leaves out "no vector links to itself or twice to another one, nothing lives above the top layer". With only level 0
drawn in batches, this holds as well, at every moment of every schedule. With other levels it does not, not even with the lock missing at
`insert.go:73-75`: a worker finds its own new vertex through another worker's links; and of two workers that raise the top layer, the one with
the lower level may be the last to say so.
-/
namespace Vectory.Conc
open Vectory
variable {V D : Type}

theorem ReachGround.tidy {L : Lib V D} {dim : Nat} {c : Coll} (h : ReachGround L dim c) : Tidy0 c.index := by
  induction h with
  | new hs =>
    refine ⟨?_, ?_⟩
    · intro x l c hc
      obtain ⟨v, hv, _⟩ := link?_some hc
      cases hv
    · rintro x l ⟨v, hv, _⟩
      cases hv
  | call h0 hl ha ih => exact apply_tidy h0.conc.inv hl ha ih
  | @batch c two workers os embed acts b h0 hb hl0 hr ho ih =>
    have i := h0.conc.inv
    obtain ⟨objs, _, _, _, _, ok, ⟨F, A, B, X0, X1, X2, js, hj, s⟩, _⟩ := hb.state i
    have hj0 : ∀ j ∈ js, j.level = 0 := by
      intro j hjm
      obtain ⟨k, env, h1, h2⟩ := hj j hjm
      rw [← h2]; exact hl0 k env h1
    have main : ∀ b1 : Batch V D, BInv false L dim c objs workers b1 F A B X0 X1 X2 js → Tidy0 b1.c.index := by
      intro b1 v
      exact (tidy_sched i.dimM (m := Mach.init c.index workers) (init_quiet' _ _)
        ⟨_, quiet_inv (init_quiet' _ _) i.idx i.cfg i.vecs⟩ ih v.sched hj0).all
    rcases s with ⟨v, _⟩ | ⟨c1, ff, v, _, _, hc, _⟩
    · exact main b v
    · rw [hc]
      exact (main { b with c := c1 } v).like rfl rfl

/-- **C26 after concurrent batches that draw only level 0**: everything C26 says. -/
theorem C26_level_zero (L : Lib V D) (dim : Nat) (c : Coll) (hr : ReachGround L dim c) :
    (∀ (id : UInt64) (v : Vertex) (l : Nat) (links : List UInt64), AMap.get? c.index.nodes id = some v →
      v.conns[l]? = some links →
      links.Nodup ∧ id ∉ links ∧
        ∀ n ∈ links, ∃ vn : Vertex, AMap.get? c.index.nodes n = some vn ∧ l < vn.conns.length) ∧
    (c.index.nodes ≠ [] → ∃ v : Vertex, AMap.get? c.index.nodes c.index.entry = some v ∧
      v.conns.length = c.index.maxLayer + 1 ∧
      ∀ (id : UInt64) (v' : Vertex), AMap.get? c.index.nodes id = some v' → v'.conns.length ≤ c.index.maxLayer + 1) := by
  have i := hr.conc.inv
  have p := hr.tidy
  have htop : ∀ (id : UInt64) (v' : Vertex), AMap.get? c.index.nodes id = some v' → v'.conns.length ≤ c.index.maxLayer + 1 := by
    intro id v' hv'
    by_cases hlen : v'.conns.length = 0
    · omega
    · have := p.top id (v'.conns.length - 1) ⟨v', hv', by omega⟩
      omega
  refine ⟨?_, ?_⟩
  · intro id v l links hv hl
    have hk := link?_of hv hl
    obtain ⟨a, b⟩ := p.neat id l links hk
    exact ⟨a, b, (i.idx.m.good.graph.linkOK id l links hk).2.2⟩
  · intro hne
    rcases i.idx.m.good.entry with h1 | ⟨v, hv, hl⟩
    · exact absurd h1 hne
    · have := htop _ v hv
      exact ⟨v, hv, by omega, htop⟩

/-- the same at every moment of the inserts, while workers are still running. -/
theorem C26_level_zero_any_moment (L : Lib V D) (dim : Nat) (c : Coll) (hr : ReachGround L dim c) (n : Nat) (js : List Job) (m : Mach D)
    (hs : Sched false L.metric dim (Mach.init c.index n) js m) (h0 : ∀ j ∈ js, j.level = 0) (id : UInt64) (v : Vertex)
    (hv : AMap.get? m.h.nodes id = some v) :
    (∀ (l : Nat) (links : List UInt64), v.conns[l]? = some links → links.Nodup ∧ id ∉ links) ∧ v.conns.length ≤ m.h.maxLayer + 1 := by
  have i := hr.conc.inv
  have p := (tidy_sched i.dimM (m := Mach.init c.index n) (init_quiet' _ _)
    ⟨_, quiet_inv (init_quiet' _ _) i.idx i.cfg i.vecs⟩ hr.tidy hs h0).all
  refine ⟨fun l links hl => p.neat id l links (link?_of hv hl), ?_⟩
  by_cases hlen : v.conns.length = 0
  · omega
  · have := p.top id (v.conns.length - 1) ⟨v, hv, by omega⟩
    omega

/-! ### Other levels -/

theorem leadsFree {cfg : Cfg} (hc : CfgOK cfg) {acts : List Act} {P : Mach Nat → Bool}
    (h : (match (raceStart cfg).play true demoLib.metric 1 acts with
      | some r => P r.2
      | none => false) = true) :
    ∃ js m, RaceFree demoLib.metric 1 (Mach.init (Coll.new cfg [] false).index 2) js m ∧
      Sched true demoLib.metric 1 (Mach.init (Coll.new cfg [] false).index 2) js m ∧ P m = true := by
  split at h
  · rename_i r hr
    obtain ⟨js, m⟩ := r
    have hs := play_sched _ _ _ _ hr
    have hr := race_reach cfg hc
    exact ⟨js, m, fixed_race_free hr.weak.1.dimM (reach_start hr 2) hs, hs, h⟩
  · cases h

/-- worker 0 inserts vertex 2 on layers 1 and 0 and is stopped between them; worker 1 inserts vertex 3, finds 2 through layer 1 and links
it on layer 0; worker 0 goes on, and its search of layer 0 finds 3, and through 3 vertex 2 itself. -/
def selfActs : List Act :=
  .call 0 ⟨0, [10], 0⟩ :: runs 0 1 ++ .call 0 ⟨1, [20], 1⟩ :: runs 0 17 ++ .call 0 ⟨2, [22], 1⟩ :: runs 0 16 ++
  .call 1 ⟨3, [21], 1⟩ :: runs 1 46 ++ runs 0 28

/-- **C26 fails for other levels**: after some schedule that never passes through the race of C50 (and that is also one of the program with
the missing lock), when all the inserts have returned, a vertex links to itself, and twice. -/
theorem C26_self_link : ∃ (c : Coll) (js : List Job) (m : Mach Nat) (id : UInt64) (v : Vertex) (links : List UInt64), ReachAny demoLib 1 c ∧
    RaceFree demoLib.metric 1 (Mach.init c.index 2) js m ∧ Sched true demoLib.metric 1 (Mach.init c.index 2) js m ∧ m.quiet ∧
    AMap.get? m.h.nodes id = some v ∧ v.conns[0]? = some links ∧ id ∈ links ∧ ¬ links.Nodup := by
  obtain ⟨js, m, h1, h2, h3⟩ := leadsFree (cfg := demoCfg) (by constructor <;> decide) (acts := selfActs)
    (P := fun m => m.ts.all (fun t => !t.pc.active) && decide ((AMap.get? m.h.nodes 2).map Vertex.conns = some [[2, 3, 2], [1, 3]])) (by decide +kernel)
  rw [Bool.and_eq_true, decide_eq_true_eq] at h3
  obtain ⟨a1, a2⟩ := h3
  cases hv : AMap.get? m.h.nodes 2 with
  | none => rw [hv] at a2; cases a2
  | some v =>
    rw [hv] at a2
    have hcs : v.conns = [[2, 3, 2], [1, 3]] := Option.some.inj a2
    refine ⟨_, js, m, 2, v, [2, 3, 2], race_reach demoCfg (by constructor <;> decide), h1, h2, ?_, hv, by rw [hcs]; rfl, by decide, by decide⟩
    intro t ht; simpa using List.all_eq_true.mp a1 t ht

/-- vertices 1 (three layers) and 2 (two layers) are inserted at the same time into an index with one layer; 2 is the last to finish. -/
def topActs : List Act :=
  .call 0 ⟨0, [10], 0⟩ :: runs 0 1 ++ .call 0 ⟨1, [20], 2⟩ :: runs 0 4 ++ .call 1 ⟨2, [22], 1⟩ :: runs 1 4 ++ runs 0 13 ++ runs 1 22

/-- **C26 fails for other levels**: after some such schedule a vertex lives above the top layer. -/
theorem C26_above_top : ∃ (c : Coll) (js : List Job) (m : Mach Nat) (id : UInt64) (v : Vertex), ReachAny demoLib 1 c ∧
    RaceFree demoLib.metric 1 (Mach.init c.index 2) js m ∧ Sched true demoLib.metric 1 (Mach.init c.index 2) js m ∧ m.quiet ∧
    AMap.get? m.h.nodes id = some v ∧ m.h.maxLayer + 1 < v.conns.length := by
  obtain ⟨js, m, h1, h2, h3⟩ := leadsFree (cfg := demoCfg) (by constructor <;> decide) (acts := topActs)
    (P := fun m => m.ts.all (fun t => !t.pc.active) && (decide ((AMap.get? m.h.nodes 1).map (fun v => v.conns.length) = some 3) &&
      decide (m.h.maxLayer = 1))) (by decide +kernel)
  simp only [Bool.and_eq_true, decide_eq_true_eq] at h3
  obtain ⟨a1, a2, a3⟩ := h3
  cases hv : AMap.get? m.h.nodes 1 with
  | none => rw [hv] at a2; cases a2
  | some v =>
    rw [hv] at a2
    have hcs : v.conns.length = 3 := Option.some.inj a2
    refine ⟨_, js, m, 1, v, race_reach demoCfg (by constructor <;> decide), h1, h2, ?_, hv, by omega⟩
    intro t ht; simpa using List.all_eq_true.mp a1 t ht

-- the hypotheses of `C26_level_zero` are met by a collection of four vectors that two workers have filled
example : ∃ c, ReachGround demoLib 1 c ∧ c.index.nodes.length = 4 ∧ (AMap.get? c.index.nodes 1).map Vertex.conns = some [[0, 3]] := by
  obtain ⟨c, h1, _, h3, _, _, h6, _⟩ := c63_ground
  exact ⟨c, h1, h3, h6⟩

-- the hypotheses of `C26_level_zero_any_moment`: two workers in the middle of their inserts
example : ∃ (js : List Job) (m : Mach Nat), Sched false demoLib.metric 1 (Mach.init (Coll.new demoCfg [] false).index 2) js m ∧
    (∀ j ∈ js, j.level = 0) ∧ m.ts.all (fun t => t.pc.active) = true ∧ m.h.nodes.length = 3 := by
  have h : (match (raceStart demoCfg).play false demoLib.metric 1 (.call 0 ⟨0, [10], 0⟩ :: runs 0 1 ++ .call 0 ⟨1, [20], 0⟩ :: runs 0 8 ++
        .call 1 ⟨2, [22], 0⟩ :: runs 1 6) with
      | some (js, m) => js.all (fun j => decide (j.level = 0)) && (m.ts.all (fun t => t.pc.active) && decide (m.h.nodes.length = 3))
      | none => false) = true := by decide +kernel
  split at h
  · rename_i js m hp
    simp only [Bool.and_eq_true, decide_eq_true_eq] at h
    obtain ⟨h1, h2, h3⟩ := h
    exact ⟨js, m, play_sched _ _ _ _ hp, fun j hj => of_decide_eq_true (List.all_eq_true.mp h1 j hj), h2, h3⟩
  · cases h

end Vectory.Conc
