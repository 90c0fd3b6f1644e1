import Verif.Lemmas.ConcFlat
import Verif.Props.SearchFixed
import Verif.Props.ConcHistory
/-!
# Batches of several workers in small collections: C63

`C63_lost_objects` (`Props/Conc.lean`) shows that a batch run by several workers can lose objects when a level above 0 is drawn. Here the
opposite is proved for batches in which only level 0 is drawn, as long as no more than `2·mMax + 1` vectors are indexed.
-/
namespace Vectory.Conc
open Vectory
variable {V D : Type}

/-- `c` is reached from a new collection by legal calls, by reopens with no log record waiting, and by batches run by any number of
workers under any schedule in which every vertex drew level 0, that have returned and whose tasks have all ended. -/
inductive ReachGround (L : Lib V D) (dim : Nat) : Coll → Prop where
  | new {cfg : Cfg} {ms : List String} {he : Bool} : Setup L dim cfg → ReachGround L dim (Coll.new cfg ms he)
  | call {c c' : Coll} {op : Op V} {out : Out V D} : ReachGround L dim c → Legal dim c op → c.apply L op = .ok (c', out) →
      ReachGround L dim c'
  | batch {c : Coll} {two : Bool} {workers : Nat} {os : List (Object V)} {embed : Embed V} {acts : List BAct} {b : Batch V D} :
      ReachGround L dim c → BatchAt false two L dim workers c os embed acts b →
      (∀ i env, BAct.work i env ∈ acts → env.level = 0) → b.ret ≠ none → (∀ t ∈ b.tasks, t.pc.over = true) → ReachGround L dim b.c

theorem ReachGround.conc {L : Lib V D} {dim : Nat} {c : Coll} (h : ReachGround L dim c) : ReachConc false L dim c := by
  induction h with
  | new hs => exact .new hs
  | call _ hl ha ih => exact .call ih hl ha
  | batch _ hb hl hr ho ih => exact .batch ih hb (Low.noRace (Or.inr (Or.inr hl)) ih.inv) hr ho

theorem orderFree_connected : OrderFree (fun cfg nodes => nodes.length ≤ cfg.mMax0 + 1 → Proper nodes ∧ Connected nodes) := by
  intro cfg a b hab hba p hlen
  have hlk : ∀ x, link? a x 0 = link? b x 0 := fun x => by unfold link?; rw [hab.get]
  have hk : ∀ x, x ∈ a.keys ↔ x ∈ b.keys := fun x => by rw [← AMap.get?_isSome_iff, ← AMap.get?_isSome_iff, hab.get]
  have hle : b.length ≤ a.length := by
    rw [← AMap.length_keys, ← AMap.length_keys]
    exact nodup_length_le hba.nd (fun x hx => (hk x).mpr hx)
  obtain ⟨p1, p2⟩ := p (by omega)
  have hl : ∀ x y, Vectory.Linked a x y ↔ Vectory.Linked b x y := fun x y => by unfold Vectory.Linked; rw [hlk]
  refine ⟨fun x c hc => p1 x c (by rw [← hlk]; exact hc), fun x y h => (hl y x).mpr (p2.both x y ((hl x y).mp h)), ?_⟩
  intro x y hx hy
  exact (p2.all x y ((hk x).mp hx) ((hk y).mp hy)).mono (fun x y h => (hl x y).mpr h)

theorem ReachGround.connected {L : Lib V D} {dim : Nat} {c : Coll} (h : ReachGround L dim c) :
    c.index.nodes.length ≤ c.index.cfg.mMax0 + 1 → Proper c.index.nodes ∧ Connected c.index.nodes := by
  induction h with
  | @new cfg ms he hs => exact connected_nil cfg
  | call h0 hl ha ih =>
    exact apply_kept (P := fun cfg nodes => nodes.length ≤ cfg.mMax0 + 1 → Proper nodes ∧ Connected nodes)
      (connected_keptS h0.conc.inv.dimM) (Or.inr orderFree_connected) h0.conc.inv hl ha ih
  | @batch c two workers os embed acts b h0 hb hl0 hr ho ih =>
    intro hlen
    have i := h0.conc.inv
    obtain ⟨objs, _, _, _, _, ok, ⟨F, A, B, X0, X1, X2, js, hj, s⟩, _⟩ := hb.state i
    have hj0 : ∀ j ∈ js, j.level = 0 := by
      intro j hjm
      obtain ⟨k, env, h1, h2⟩ := hj j hjm
      rw [← h2]; exact hl0 k env h1
    have main : ∀ b1 : Batch V D, BInv false L dim c objs workers b1 F A B X0 X1 X2 js → (∀ t ∈ b1.tasks, t.pc.over = true) →
        b1.c.index.nodes.length ≤ b1.c.index.cfg.mMax0 + 1 → Proper b1.c.index.nodes ∧ Connected b1.c.index.nodes := by
      intro b1 v hover hlen
      have hq := v.quiet hover (v.calm ok (Or.inr (Or.inr hj0)))
      have g := sched_grown (init_quiet' _ _) v.sched hq
      have hcfg : b1.c.index.cfg = c.index.cfg := g.cfg
      have hle : c.index.nodes.length ≤ b1.c.index.nodes.length := by
        rw [← AMap.length_keys, ← AMap.length_keys]
        refine nodup_length_le i.idx.m.good.graph.keysNd ?_
        intro x hx
        obtain ⟨w, hw⟩ := Option.isSome_iff_exists.mp ((AMap.get?_isSome_iff _ _).mpr hx)
        obtain ⟨w', hw', _⟩ := g.old x w hw
        rw [← AMap.get?_isSome_iff, hw']; rfl
      rw [hcfg] at hlen
      obtain ⟨p1, p2⟩ := ih (by omega)
      exact flat_connected i.dimM (m := Mach.init c.index workers) (init_quiet' _ _)
        ⟨_, quiet_inv (init_quiet' _ _) i.idx i.cfg i.vecs⟩ p1 p2 v.sched hj0 hlen hq
    rcases s with ⟨v, _⟩ | ⟨c1, ff, v, _, _, hc, _⟩
    · exact main b v ho hlen
    · rw [hc] at hlen ⊢
      exact main { b with c := c1 } v ho hlen

/-- **C63, batches that draw only level 0.** In a collection of up to `2·mMax + 1` vectors that was filled by batches of any number of
workers under any schedule (and by ordinary calls, whatever level they draw), every stored object can be reached along links from the
entry point, and from every indexed vector. -/
theorem C63_level_zero (L : Lib V D) (dim : Nat) (c : Coll) (hr : ReachGround L dim c)
    (hn : c.index.nodes.length ≤ c.index.cfg.mMax0 + 1) (id : UInt64) (x : Object V) (hg : c.get L [id] = .ok [x]) :
    Reaches c.index.nodes c.index.entry id ∧ ∀ y ∈ c.index.nodes.keys, Reaches c.index.nodes y id := by
  have i := hr.conc.inv
  have con := (hr.connected hn).2
  have hc : c.closed = false := by
    cases hcl : c.closed with
    | false => rfl
    | true => unfold Coll.get at hg; rw [hcl] at hg; cases hg
  have hgo := (get_single_some hc).mp hg
  obtain ⟨r0, hr0, hs0, _⟩ := getObject_eq i id
  rw [hgo] at hr0; cases hr0
  have hkn := (vkey_iff i id).mp (hs0.mp rfl).2
  refine ⟨?_, fun y hy => con.all y id hy hkn⟩
  refine con.all _ _ ?_ hkn
  rcases i.idx.m.good.entry with h1 | ⟨v, hv, _⟩
  · rw [h1] at hkn; cases hkn
  · rw [← AMap.get?_isSome_iff, hv]; rfl

/-- **C63, with `Peek` repaired.** In the same collections, every search with `ef` at least the number of vectors would be exact if
`MaxHeap.Peek` returned the root of the heap. -/
theorem C63_with_peek (L : Lib V D) (dim : Nat) (c : Coll) (hr : ReachGround L dim c)
    (hn : c.index.nodes.length ≤ c.index.cfg.mMax0 + 1) (hef : c.index.nodes.length ≤ c.index.cfg.ef)
    (o : Object V) (embed : Embed V) (w : ∀ q, queryVector embed o = some q → Ranks L c q) (k : Int) (he : EmbedOK c embed dim [o]) (r : SearchResult V D)
    (h : c.semanticSearchR L o embed k = .ok r) : ∃ q, queryVector embed o = some q ∧ ExactAnswer L c q k r :=
  exact_of_reachable hr.conc.inv (fun x hx id o hg => (C63_level_zero L dim c hr hn id o hg).2 x hx) hef w he h

/-- the batch of `c14Acts` (two workers, four objects, level 0), and what its bottom layer looks like: 1 and 2 were inserted at the same
time and are not linked to each other, but everything is reachable. -/
theorem c63_ground : ∃ c, ReachGround demoLib 1 c ∧ c.hasEmbedder = false ∧ c.index.nodes.length = 4 ∧ c.index.cfg = demoCfg ∧
    (c.get demoLib [2]).toOption.map (List.map Object.id) = some [2] ∧
    (AMap.get? c.index.nodes 1).map Vertex.conns = some [[0, 3]] ∧
    hitList (c.semanticSearchR demoLib (demoObj 29) noEmbed 4) = some [(1, 1), (3, 2), (0, 19), (2, 21)] := by
  obtain ⟨b, h, hp⟩ := bleads_sound (cfg := demoCfg) (two := false) (fixed := false) (workers := 2) (os := c14Objs)
    (acts := c14Acts false) (P := fun b => decide (b.ret ≠ none) && (b.tasks.all (fun t => t.pc.over) &&
      (!b.c.hasEmbedder && (decide (b.c.index.nodes.length = 4) && (decide (b.c.index.cfg = demoCfg) &&
      (decide ((b.c.get demoLib [2]).toOption.map (List.map Object.id) = some [2]) &&
      (decide ((AMap.get? b.c.index.nodes 1).map Vertex.conns = some [[0, 3]]) &&
      decide (hitList (b.c.semanticSearchR demoLib (demoObj 29) noEmbed 4) = some [(1, 1), (3, 2), (0, 19), (2, 21)])))))))) (by decide +kernel)
  simp only [Bool.and_eq_true, decide_eq_true_eq, Bool.not_eq_true'] at hp
  obtain ⟨h1, h2, h3, h4, h5, h6, h7, h8⟩ := hp
  refine ⟨b.c, .batch (.new ⟨demoJson_ok, fun a b ha hb => demoDist_ok a b (by omega), by decide, by constructor <;> decide⟩) h ?_ h1
    (List.all_eq_true.mp h2), h3, h4, h5, h6, h7, h8⟩
  rcases c14_low false with hx | hx | hx
  · cases hx
  · cases hx
  · exact hx

-- the hypotheses of `C63_level_zero` and `C63_with_peek` are met
example : ∃ c, ReachGround demoLib 1 c ∧ (∀ q, Ranks demoLib c q) ∧ c.index.nodes.length ≤ c.index.cfg.mMax0 + 1 ∧ c.index.nodes.length ≤ c.index.cfg.ef ∧
    EmbedOK c (noEmbed (V := UInt8)) 1 [demoObj 29] ∧ Reaches c.index.nodes 1 2 ∧ Reaches c.index.nodes 2 1 := by
  obtain ⟨c, h1, h2, h3, h4, h5, h6, _⟩ := c63_ground
  have hn : c.index.nodes.length ≤ c.index.cfg.mMax0 + 1 := by rw [h3, h4]; decide
  have k1 : (1 : UInt64) ∈ c.index.nodes.keys := by
    rw [← AMap.get?_isSome_iff]
    cases hv : AMap.get? c.index.nodes 1 with
    | none => rw [hv] at h6; cases h6
    | some v => rfl
  have hr : Reaches c.index.nodes 1 2 := by
    cases hg : c.get demoLib [2] with
    | error e => rw [hg] at h5; cases h5
    | ok l =>
      match l, hg, h5 with
      | [x], hg, _ => exact (C63_level_zero demoLib 1 c h1 hn 2 x hg).2 1 k1
      | [], hg, h5 => rw [hg] at h5; cases h5
      | _ :: _ :: _, hg, h5 => rw [hg] at h5; simp [Except.toOption] at h5
  exact ⟨c, h1, fun _ => demo_ord.on _, hn, by rw [h3, h4]; decide, demo_embedOK c h2 29, hr, Reaches.back (h1.connected hn).2.both hr⟩

end Vectory.Conc
