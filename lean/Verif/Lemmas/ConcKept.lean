import Verif.Lemmas.CollReach
import Verif.Spec.GrowthConc
import Verif.Props.Growth
/-! # The vertices in memory in histories with batches and crashes -/
namespace Vectory.Conc
open Vectory
variable {V D : Type}

theorem reopen_vertices {S : Prop} {X : UInt64 → Prop} {L : Lib V D} {dim : Nat} {c c' : Coll} (i : WInv S L dim X c) (d : DInv S c.index)
    (h : c.reopen = .ok c') : c'.vertices = c.vertices := by
  rcases reopen_any i d with ⟨c3, h1, _, _, _, hn, _⟩ | ⟨h1, _⟩
  · rw [h] at h1; cases h1
    exact hn.length i.idx.m.good.graph.keysNd
  · rw [h] at h1; cases h1

theorem event_vertices {S : Prop} {L : Lib V D} {dim : Nat} {c c' : Coll} {e : Ev V D} (i : WInv S L dim (fun _ => True) c)
    (dv : DInv S c.index) (hl : e.Legal L dim c) (h : e.Step L c c') :
    c.vertices + e.accepted ≤ c'.vertices ∧ c'.vertices ≤ c.vertices + e.objects := by
  cases h with
  | @call op out _ h =>
    by_cases hre : ∃ (_ : op = .reopen), True
    · obtain ⟨rfl, _⟩ := hre
      simp only [Coll.apply] at h
      obtain ⟨c3, h3, h4⟩ := (bind_ok_iff _ _ _).mp h
      cases h4
      rw [reopen_vertices i dv h3]
      exact ⟨Nat.le_refl _, Nat.le_refl _⟩
    · have hl' : Legal dim c op := by
        cases op <;> first | exact hl | exact absurd ⟨rfl, trivial⟩ hre
      exact apply_vertices i hl' h
  | @crashInsert pre o level p c1 _ os d h1 h2 h3 =>
    obtain ⟨_, hcc, hpre, hd, hlev, hj, hcnt, hu⟩ := hl
    obtain ⟨c1', os', e', g1, i1, ev, _, g5, _⟩ := insertAll_spec (fun _ => False) pre c i (fun p hp => (hpre p hp).1)
      (fun p hp => (hpre p hp).2) (by omega)
    rw [h1] at g1; cases g1
    have d1 := insertAll_dinv _ _ _ _ _ i dv (fun p hp => (hpre p hp).1) (fun p hp => (hpre p hp).2) (by omega) h1
    have hc1 := insertAll_count _ _ _ _ _ i (fun p hp => (hpre p hp).1) (fun p hp => (hpre p hp).2) (by omega) h1
    obtain ⟨v1, v2⟩ := insertAll_vertices _ _ _ _ _ i (fun p hp => (hpre p hp).1) (fun p hp => (hpre p hp).2) (by omega) h1
    obtain ⟨d', c2, k1, k2, k3, k4, k5, k6, k7, k8, _, k9⟩ := crash_insert (o := o) (level := level) i1 d1 (by rw [g5, hcc]) hd hlev hj
      (by omega) p (by intro j hj; subst hj; exact hu)
    rw [h2] at k1; cases k1
    have hopen : c2.reopen = .ok c' := by
      unfold Coll.reopen
      rw [k5, k6, k7, k2, ev.cfg, ev.mappings, ev.embedder]
      exact h3
    rw [reopen_vertices k3 k4 hopen]
    have hv : c1.vertices ≤ c2.vertices ∧ c2.vertices ≤ c1.vertices + 1 := by
      by_cases hp : p = .vector ∨ p = .flushed
      · obtain ⟨c3, o', eff, _, _, e1, e2⟩ := k9 hp
        have k := (eff.ok rfl).2.2.2.1.keys
        have := congrArg List.length k
        rw [List.length_append] at this
        simp only [AMap.keys, List.length_map, List.length_cons, List.length_nil] at this
        have this : c3.vertices = c1.vertices + 1 := this
        have e3 : c2.vertices = c3.vertices := by
          rcases hp with hp | hp
          · rw [e1 hp]
          · rw [(e2 hp).1]; exact flush_vertices _ _
        omega
      · rw [not_or] at hp
        have := (k8 hp.1 hp.2).1
        unfold Coll.vertices
        rw [this]
        constructor <;> omega
    rw [if_pos rfl] at v1
    show c.vertices + 0 ≤ _ ∧ _ ≤ c.vertices + (pre.length + 1)
    omega
  | @crashDelete id p _ h =>
    obtain ⟨hc, o, ho⟩ := hl
    have hk : keyOf id ∈ c.stores.objects.keys := by
      obtain ⟨r, h1, h2, _⟩ := getObject_eq i id
      rw [get_single_some hc] at ho
      rw [ho] at h1; cases h1
      exact (h2.mp rfl).1
    obtain ⟨c2, k1, k2, k3, k4, k5, k6, _, _, e1, _, e2, e3⟩ := crash_delete i dv hk p
    have hopen : c2.reopen = .ok c' := by
      unfold Coll.reopen
      rw [k4, k5, k6, k1]
      exact h
    rw [reopen_vertices k2 k3 hopen]
    have : c2.vertices = c.vertices := by
      cases p with
      | start => rw [e1 rfl]
      | erased => unfold Coll.vertices; rw [e2 rfl]
      | flushed => unfold Coll.vertices; rw [(e3 rfl).1]; rfl
    rw [this]
    exact ⟨Nat.le_refl _, Nat.le_refl _⟩

/-- a list of new vertices, all with different ids. -/
theorem grown_vertices {h0 h : Hnsw} {js : List Job} (g : Grown h0 js h) (n0 : h0.nodes.keys.Nodup) (n1 : h.nodes.keys.Nodup)
    (nj : (js.map Job.id).Nodup) (hf : ∀ j ∈ js, j.id ∉ h0.nodes.keys) : h.nodes.length = h0.nodes.length + js.length := by
  have hl : ∀ m : AMap UInt64 Vertex, m.length = m.keys.length := fun m => by simp [AMap.keys]
  have hN : (h0.nodes.keys ++ js.map Job.id).Nodup := by
    rw [List.nodup_append]
    refine ⟨n0, nj, ?_⟩
    rintro a ha b hb rfl
    obtain ⟨j, hj, rfl⟩ := List.mem_map.mp hb
    exact hf j hj ha
  have e : (h0.nodes.keys ++ js.map Job.id).length = h0.nodes.length + js.length := by
    rw [List.length_append, List.length_map, hl]
  rw [← e, hl h.nodes]
  apply Nat.le_antisymm
  · exact nodup_length_le n1 (fun x hx => List.mem_append.mpr (g.only x hx))
  · refine nodup_length_le hN ?_
    intro x hx
    rcases List.mem_append.mp hx with hx | hx
    · obtain ⟨w0, hw0⟩ := Option.isSome_iff_exists.mp ((AMap.get?_isSome_iff _ _).mpr hx)
      obtain ⟨w', hw', _⟩ := g.old x w0 hw0
      exact (AMap.get?_isSome_iff _ _).mp (by rw [hw']; rfl)
    · obtain ⟨j, hj, rfl⟩ := List.mem_map.mp hx
      obtain ⟨w', hw', _⟩ := g.new j hj
      exact (AMap.get?_isSome_iff _ _).mp (by rw [hw']; rfl)

section
variable {fixed : Bool} {L : Lib V D} {dim : Nat} {c0 : Coll} {objs0 : List (Object V)} {n : Nat} {b : Batch V D}
  {F A B : List (Nat × UInt64)} {X0 X1 X2 : List Nat} {js : List Job}

theorem BInv.lenB (v : BInv fixed L dim c0 objs0 n b F A B X0 X1 X2 js) : B.length ≤ objs0.length := by
  obtain ⟨_, _, nB⟩ := v.nodups
  have := nodup_length_le (l₂ := List.range objs0.length) nB (by
    intro x hx
    obtain ⟨p, hp, rfl⟩ := List.mem_map.mp hx
    obtain ⟨o, ho, _⟩ := v.dat.ids p (v.dat.subA p (v.dat.subB p hp))
    rw [List.mem_range, ← v.lenO]
    exact (List.getElem?_eq_some_iff.mp ho).1)
  simpa using this

theorem BInv.vertices (v : BInv fixed L dim c0 objs0 n b F A B X0 X1 X2 js) (ok : BatchOK L dim c0 objs0)
    (ht : fixed = true ∨ n = 1 ∨ ∀ j ∈ js, j.level = 0) (hover : ∀ t ∈ b.tasks, t.pc.over = true) :
    b.c.vertices = c0.vertices + B.length := by
  have hq := v.quiet hover (v.calm ok ht)
  obtain ⟨_, _, mi⟩ := tame_sched ok.inv v.sched ht
  have g := sched_grown (init_quiet' _ _) v.sched hq
  have hj : js.map Job.id = B.map Prod.snd := by
    have := congrArg (List.map Prod.fst) v.jobs
    simpa [List.map_map, Function.comp_def] using this
  obtain ⟨_, _, nB⟩ := v.nodups
  have hF : ∀ p ∈ B, p ∈ F := fun p hp => v.dat.subA p (v.dat.subB p hp)
  have nd : (B.map Prod.snd).Nodup := by
    have := nodup_keys nB (fun a b id h1 h2 => v.dat.inj (hF _ h1) (hF _ h2))
    have e : B.map (fun p => keyOf p.2) = (B.map Prod.snd).map keyOf := by rw [List.map_map]; rfl
    rw [e] at this
    exact List.Pairwise.of_map keyOf (fun a b hne e => hne (by rw [e])) this
  have hlen : js.length = B.length := by
    have := congrArg List.length hj
    simpa using this
  have := grown_vertices g ok.inv.idx.m.good.graph.keysNd (mi.settled hq).m.good.graph.keysNd (by rw [hj]; exact nd) (by
    intro j hjm
    have : j.id ∈ B.map Prod.snd := by rw [← hj]; exact List.mem_map.mpr ⟨j, hjm, rfl⟩
    obtain ⟨p, hp, e⟩ := List.mem_map.mp this
    rw [← e]
    exact (fresh_key ok.inv (v.dat.lo p (hF p hp))).2.2)
  rw [← hlen]; exact this

end

theorem batch_vertices {fixed two : Bool} {L : Lib V D} {dim workers : Nat} {X : UInt64 → Prop} {c : Coll} {os : List (Object V)}
    {embed : Embed V} {acts : List BAct} {b : Batch V D} (i : WInv False L dim X c)
    (h : BatchAt fixed two L dim workers c os embed acts b) (ht : NoRace fixed two L dim workers c os embed acts)
    (hover : ∀ t ∈ b.tasks, t.pc.over = true) :
    c.vertices + (if b.ret = some none ∧ b.cancelled = false then os.length else 0) ≤ b.c.vertices ∧
    b.c.vertices ≤ c.vertices + os.length := by
  have h' := NoRace.fix ht i h
  obtain ⟨objs, _, _, hemb, hw, ok, ⟨F, A, B, X0, X1, X2, js, hj, s⟩, _⟩ := h'.state i
  have hlo : objs.length = os.length := embed_length hemb
  have hjs : true = true ∨ workers = 1 ∨ ∀ j ∈ js, j.level = 0 := Or.inl rfl
  rcases s with ⟨v, hr⟩ | ⟨c1, ff, v, _, herr, hc, _⟩
  · have e := v.vertices ok hjs hover
    have := v.lenB
    rw [if_neg, e]
    · omega
    · rintro ⟨hret, _⟩
      rcases hr with hr | ⟨e, hr, _⟩ <;> rw [hret] at hr <;> cases hr
  · have e : c1.vertices = _ := v.vertices ok hjs hover
    have l := v.lenB
    have e2 : b.c.vertices = c1.vertices := by rw [hc]; exact flush_vertices _ _
    rw [e2, e]
    split
    · rename_i hret
      have hp := v.calm ok hjs
      have hno : ¬ (X0 ≠ [] ∨ X1 ≠ [] ∨ X2 ≠ [] ∨ ∃ t ∈ b.tasks, ∃ e, t.pc = .failed e) := fun h => v.errs h herr
      have hdone : ∀ t ∈ b.tasks, t.pc = .done := by
        intro t htm
        have h1 := hover t htm
        have h2 := hp t htm
        have h3 : t.pc ≠ .skipped := by
          intro e
          rcases v.skip ⟨t, htm, e⟩ with h | h
          · exact h herr
          · rw [show ({ b with c := c1 } : Batch V D).cancelled = b.cancelled from rfl, hret.2] at h; cases h
        have h4 : ∀ e, t.pc ≠ .failed e := fun e he => hno (Or.inr (Or.inr (Or.inr ⟨t, htm, e, he⟩)))
        revert h1 h2 h3 h4
        cases t.pc <;> intro h1 h2 h3 h4 <;>
          first | rfl | (cases h1; done) | exact absurd rfl h2 | exact absurd rfl h3 | exact absurd rfl (h4 _)
      have hX : X0 = [] ∧ X1 = [] ∧ X2 = [] :=
        ⟨Classical.byContradiction fun e => hno (Or.inl e), Classical.byContradiction fun e => hno (Or.inr (Or.inl e)),
          Classical.byContradiction fun e => hno (Or.inr (Or.inr (Or.inl e)))⟩
      have hall := v.complete hw hdone hX
      have := nodup_length_le (l₁ := List.range objs.length) (l₂ := B.map Prod.fst) List.nodup_range (by
        intro x hx
        obtain ⟨id, hid⟩ := hall x (List.mem_range.mp hx)
        exact List.mem_map.mpr ⟨_, hid, rfl⟩)
      simp only [List.length_range, List.length_map] at this
      omega
    · omega

theorem crash_vertices {fixed two : Bool} {L : Lib V D} {dim workers : Nat} {c c' : Coll} {os : List (Object V)}
    {embed : Embed V} {acts : List BAct} {b : Batch V D} (i : WInv False L dim (fun _ => True) c) (d : DInv False c.index)
    (h : BatchAt fixed two L dim workers c os embed acts b) (ht : NoRace fixed two L dim workers c os embed acts) (hr : b.c.reopen = .ok c') :
    c.vertices ≤ c'.vertices ∧ c'.vertices ≤ c.vertices + os.length := by
  obtain ⟨objs, _, _, _, _, ok, ⟨F, A, B, X0, X1, X2, js, hj, s⟩, _⟩ := h.state i
  rcases s with ⟨v, _⟩ | ⟨c1, ff, v, hover, _, hc, _⟩
  · cases js with
    | nil =>
      have e : b.c.index = c.index := congrArg Mach.h (sched_nil (init_quiet _ _) v.sched)
      have i2 := v.settle ok i (by rw [e]; exact i.idx) (by rw [e]; exact grown_refl _)
      rw [reopen_vertices i2 (by rw [e]; exact d) hr]
      unfold Coll.vertices
      rw [e]
      constructor <;> omega
    | cons j js =>
      exact (crash_inside d v ok hr).elim
  · have hover' : ∀ t ∈ b.tasks, t.pc.over = true := List.all_eq_true.mp hover
    obtain ⟨a, d2⟩ := batch_weak i h ht hover'
    rw [reopen_vertices a (d2 d) hr]
    obtain ⟨v1, v2⟩ := batch_vertices i h ht hover'
    omega

theorem Kept.bound {fixed : Bool} {L : Lib V D} {dim : Nat} {c c' : Coll} {n handed : Nat} (hc : ReachAnyConc fixed L dim c)
    (h : Kept fixed L dim c n handed c') :
    ReachAnyConc fixed L dim c' ∧ c.vertices + n ≤ c'.vertices ∧ c'.vertices ≤ c.vertices + handed := by
  induction h with
  | refl => exact ⟨hc, Nat.le_refl _, Nat.le_refl _⟩
  | event _ hl hs ih =>
    obtain ⟨r, a, b⟩ := ih
    obtain ⟨x, y⟩ := event_vertices r.inv.1 r.inv.2 hl hs
    exact ⟨.event r hl hs, by omega, by omega⟩
  | batch _ hb hn hr ho ih =>
    obtain ⟨r, a, b⟩ := ih
    obtain ⟨x, y⟩ := batch_vertices r.inv.1 hb hn ho
    exact ⟨.batch r hb hn hr ho, by omega, by omega⟩
  | crash _ hb hn hr ih =>
    obtain ⟨r, a, b⟩ := ih
    obtain ⟨x, y⟩ := crash_vertices r.inv.1 r.inv.2 hb hn hr
    exact ⟨.crash r hb hn hr, by omega, by omega⟩

end Vectory.Conc
