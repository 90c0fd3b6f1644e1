import Verif.Lemmas.ConcRun
/-! What any schedule, of the program as it is or of the fixed one, adds to the index. -/
namespace Vectory.Conc
open Vectory
variable {D : Type} {M : Metric D} {dim : Nat}

theorem setConns_shape {a b : AMap UInt64 Vertex} {id : UInt64} {l : Nat} {c : List UInt64} (h : setConns a id l c = .ok b) :
    Shape a b := by
  unfold setConns at h
  cases hv : a.get? id with
  | none => unfold nodeAt at h; rw [hv] at h; cases h
  | some v =>
    rw [nodeAt_of hv, ok_bind] at h
    split at h
    · cases h; exact shape_put (l := l) c hv
    · cases h

/-- before the vertex is in the map. -/
def PC.early : PC D → Bool
  | .start => true
  | .create => true
  | .publish => true
  | _ => false

/-- what a step does to the index, in terms of vertices. -/
structure StepEff (h h' : Hnsw) (j : Job) (pc pc' : PC D) : Prop where
  cfg : h'.cfg = h.cfg
  deleted : h'.deleted = h.deleted
  disk : h'.wal.disk = h.wal.disk
  act : pc.active = true
  early : pc'.early = true → pc.early = true
  nodes : (Shape h.nodes h'.nodes ∧ (pc.early = true → pc'.early = true ∨ pc'.panicked = true)) ∨
    (pc.early = true ∧ pc'.early = false ∧ ∃ cs, h'.nodes = h.nodes.set j.id ⟨j.id, cs, j.vec⟩)

theorem orDie_early {A : Type} {held : Option UInt64} {r : Except Panic A} {k : A → PC D} (hk : ∀ a, (k a).early = false) :
    (orDie held r k).early = false := by
  unfold orDie; split
  · exact hk _
  · rfl

theorem afterSearch_early {h : Hnsw} {j : Job} {cur : Nat} {ph : Phase} {nns : List (Elem D)} :
    (afterSearch M h j cur ph nns).early = false := by
  unfold afterSearch
  split
  · split
    · rfl
    · split <;> rfl
  · exact orDie_early (fun _ => rfl)

/-- a step that leaves the vertices alone and starts and ends after the vertex was published. -/
theorem StepEff.late {h h' : Hnsw} {j : Job} {pc pc' : PC D} (c : h'.cfg = h.cfg) (d : h'.deleted = h.deleted)
    (k : h'.wal.disk = h.wal.disk) (ha : pc.active = true) (he : pc.early = false) (he' : pc'.early = false)
    (hn : Shape h.nodes h'.nodes) : StepEff h h' j pc pc' :=
  ⟨c, d, k, ha, (fun h1 => by rw [he'] at h1; exact absurd h1 (by decide)),
    Or.inl ⟨hn, (fun h1 => by rw [he] at h1; exact absurd h1 (by decide))⟩⟩

theorem stepPC_eff {fixed : Bool} {h h' : Hnsw} {locked : UInt64 → Bool} {j : Job} {pc pc' : PC D}
    (hs : stepPC fixed M h locked j pc = some (h', pc')) : StepEff h h' j pc pc' := by
  cases pc with
  | idle => cases hs
  | start =>
    simp only [stepPC] at hs
    split at hs
    · cases hs; exact ⟨rfl, rfl, rfl, rfl, fun _ => rfl, Or.inr ⟨rfl, rfl, _, rfl⟩⟩
    · cases hs; exact ⟨rfl, rfl, rfl, rfl, fun _ => rfl, Or.inl ⟨Shape.refl _, fun _ => Or.inl rfl⟩⟩
  | create =>
    simp only [stepPC] at hs
    split at hs
    · cases hs; exact ⟨rfl, rfl, rfl, rfl, fun _ => rfl, Or.inl ⟨Shape.refl _, fun _ => Or.inr rfl⟩⟩
    · cases hs; exact ⟨rfl, rfl, rfl, rfl, fun _ => rfl, Or.inl ⟨Shape.refl _, fun _ => Or.inl rfl⟩⟩
  | publish => cases hs; exact ⟨rfl, rfl, rfl, rfl, fun _ => rfl, Or.inr ⟨rfl, rfl, _, rfl⟩⟩
  | enter => cases hs; exact .late rfl rfl rfl rfl rfl (orDie_early (fun _ => rfl)) (Shape.refl _)
  | layer _ _ _ =>
    simp only [stepPC] at hs
    split at hs <;> cases hs <;> exact .late rfl rfl rfl rfl rfl rfl (Shape.refl _)
  | pop _ _ s _ =>
    simp only [stepPC] at hs
    split at hs
    · cases hs; exact .late rfl rfl rfl rfl rfl afterSearch_early (Shape.refl _)
    · split at hs
      · cases hs; exact .late rfl rfl rfl rfl rfl rfl (Shape.refl _)
      · split at hs
        · cases hs; exact .late rfl rfl rfl rfl rfl afterSearch_early (Shape.refl _)
        · split at hs
          · cases hs; exact .late rfl rfl rfl rfl rfl rfl (Shape.refl _)
          · split at hs
            · cases hs
            · cases hs
              exact .late rfl rfl rfl rfl rfl (orDie_early (fun a => by split <;> rfl)) (Shape.refl _)
  | copy _ _ _ _ _ _ => cases hs; exact .late rfl rfl rfl rfl rfl (orDie_early (fun _ => rfl)) (Shape.refl _)
  | visit _ _ _ _ todo =>
    cases todo with
    | nil => cases hs; exact .late rfl rfl rfl rfl rfl rfl (Shape.refl _)
    | cons _ _ => cases hs; exact .late rfl rfl rfl rfl rfl (orDie_early (fun _ => rfl)) (Shape.refl _)
  | logOwn _ _ _ _ =>
    simp only [stepPC] at hs
    split at hs
    · cases hs
    · cases hs; exact .late rfl rfl rfl rfl rfl rfl (Shape.refl _)
  | setOwn _ l _ ns =>
    simp only [stepPC] at hs
    split at hs
    · cases hs; exact .late rfl rfl rfl rfl rfl rfl (Shape.refl _)
    · rename_i hn; cases hs; exact .late rfl rfl rfl rfl rfl rfl (setConns_shape hn)
  | link _ l _ todo =>
    cases todo with
    | nil => cases l <;> cases hs <;> exact .late rfl rfl rfl rfl rfl rfl (Shape.refl _)
    | cons n rest =>
      simp only [stepPC] at hs
      split at hs
      · cases hs; exact .late rfl rfl rfl rfl rfl rfl (Shape.refl _)
      · split at hs
        · cases hs
        · cases hs
          exact .late rfl rfl rfl rfl rfl
            (orDie_early (fun a => by
              split
              · rfl
              · exact orDie_early (fun _ => rfl))) (Shape.refl _)
  | addLog _ _ _ _ _ => cases hs; exact .late rfl rfl rfl rfl rfl rfl (Shape.refl _)
  | addRead _ _ _ _ _ => cases hs; exact .late rfl rfl rfl rfl rfl (orDie_early (fun _ => rfl)) (Shape.refl _)
  | addWrite _ _ _ _ _ _ =>
    simp only [stepPC] at hs
    split at hs
    · cases hs; exact .late rfl rfl rfl rfl rfl rfl (Shape.refl _)
    · rename_i hn; cases hs; exact .late rfl rfl rfl rfl rfl rfl (setConns_shape hn)
  | pruneLog _ _ _ _ _ _ => cases hs; exact .late rfl rfl rfl rfl rfl rfl (Shape.refl _)
  | pruneSet _ _ _ _ _ _ =>
    simp only [stepPC] at hs
    split at hs
    · cases hs; exact .late rfl rfl rfl rfl rfl rfl (Shape.refl _)
    · rename_i hn; cases hs; exact .late rfl rfl rfl rfl rfl rfl (setConns_shape hn)
  | finish _ =>
    simp only [stepPC] at hs
    split at hs <;> cases hs <;> exact .late rfl rfl rfl rfl rfl rfl (Shape.refl _)
  | dead _ _ => cases hs

/-- the growth invariant. -/
structure GI (h₀ : Hnsw) (js : List Job) (m : Mach D) : Prop where
  cfg : m.h.cfg = h₀.cfg
  deleted : m.h.deleted = h₀.deleted
  disk : m.h.wal.disk = h₀.wal.disk
  old : ∀ x v, h₀.nodes.get? x = some v → ∃ w, m.h.nodes.get? x = some w ∧ w.conns.length = v.conns.length ∧ w.vec = v.vec
  new : ∀ j ∈ js, (∃ w, m.h.nodes.get? j.id = some w ∧ w.vec = j.vec) ∨
    ∃ (k : Nat) (u : Thread D), m.ts[k]? = some u ∧ u.job = j ∧ (u.pc.early = true ∨ u.pc.panicked = true)
  only : ∀ x, x ∈ m.h.nodes.keys → x ∈ h₀.nodes.keys ∨ x ∈ js.map Job.id
  fresh : ∀ (k : Nat) (u : Thread D), m.ts[k]? = some u → u.pc.early = true → m.h.nodes.get? u.job.id = none
  ids : ∀ (i k : Nat) (t u : Thread D), m.ts[i]? = some t → m.ts[k]? = some u → t.pc.active = true → u.pc.active = true →
    t.job.id = u.job.id → i = k
  mine : ∀ (k : Nat) (u : Thread D), m.ts[k]? = some u → u.pc.active = true → u.job ∈ js

theorem PC.early_active {pc : PC D} (h : pc.early = true) : pc.active = true := by
  cases pc <;> first | rfl | cases h

theorem GI.step {h₀ : Hnsw} {js : List Job} {m m' : Mach D} {fixed : Bool} {i : Nat} (g : GI h₀ js m)
    (h : m.step fixed M (.run i) = some m') : GI h₀ js m' := by
  obtain ⟨t, pc, ht, hs, e⟩ := step_run h
  have ef := stepPC_eff hs
  have hext : ∀ x v, m.h.nodes.get? x = some v → ∃ w, m'.h.nodes.get? x = some w ∧ w.conns.length = v.conns.length ∧ w.vec = v.vec := by
    intro x v hv
    rcases ef.nodes with ⟨sh, _⟩ | ⟨he, _, cs, hn⟩
    · obtain ⟨w, h1, _, h2, h3⟩ := sh.get_some hv; exact ⟨w, h1, h2, h3⟩
    · refine ⟨v, ?_, rfl, rfl⟩
      rw [hn, AMap.get?_set_ne]
      · exact hv
      · intro hx; rw [← hx, g.fresh i t ht he] at hv; cases hv
  have htj := g.mine i t ht ef.act
  refine ⟨ef.cfg.trans g.cfg, ef.deleted.trans g.deleted, ef.disk.trans g.disk, ?_, ?_, ?_, ?_, ?_, ?_⟩
  · intro x v hv
    obtain ⟨w, h1, h2, h3⟩ := g.old x v hv
    obtain ⟨w', k1, k2, k3⟩ := hext x w h1
    exact ⟨w', k1, k2.trans h2, k3.trans h3⟩
  · intro j hj
    rcases g.new j hj with ⟨w, h1, h2⟩ | ⟨k, u, hu, h1, h2⟩
    · obtain ⟨w', k1, _, k3⟩ := hext _ w h1
      exact Or.inl ⟨w', k1, k3.trans h2⟩
    · by_cases hk : k = i
      · subst hk
        rw [ht] at hu; cases hu
        rcases ef.nodes with ⟨_, h3⟩ | ⟨_, _, cs, hn⟩
        · refine Or.inr ⟨k, { t with pc := pc }, by rw [e]; exact set_this ht, h1, ?_⟩
          rcases h2 with h2 | h2
          · exact h3 h2
          · exfalso
            cases hp : t.pc with
            | dead _ _ => rw [hp] at hs; cases hs
            | _ => rw [hp] at h2; cases h2
        · left
          refine ⟨_, by rw [hn, h1]; exact AMap.get?_set_self _ _ _, rfl⟩
      · exact Or.inr ⟨k, u, by rw [e]; exact set_other hk hu, h1, h2⟩
  · intro x hx
    rcases ef.nodes with ⟨sh, _⟩ | ⟨_, _, cs, hn⟩
    · rw [sh.keys] at hx; exact g.only x hx
    · by_cases hxi : x = t.job.id
      · exact Or.inr (List.mem_map.mpr ⟨t.job, htj, hxi.symm⟩)
      · apply g.only
        rw [← AMap.get?_isSome_iff] at hx ⊢
        rw [hn, AMap.get?_set_ne _ _ _ _ (fun e => hxi e.symm)] at hx
        exact hx
  · intro k u hu he
    rw [e] at hu
    have base : ∀ x, m.h.nodes.get? x = none → x ≠ t.job.id → m'.h.nodes.get? x = none := by
      intro x hx hne
      rcases ef.nodes with ⟨sh, _⟩ | ⟨_, _, cs, hn⟩
      · cases hb : m'.h.nodes.get? x with
        | none => rfl
        | some w =>
          obtain ⟨w', h1, _⟩ := sh.symm.get_some hb
          rw [hx] at h1; cases h1
      · rw [hn, AMap.get?_set_ne _ _ _ _ (fun e => hne e.symm)]; exact hx
    rcases set_get hu with ⟨rfl, rfl⟩ | ⟨hk, hu2⟩
    · have hn0 := g.fresh k t ht (ef.early he)
      rcases ef.nodes with ⟨sh, _⟩ | ⟨_, h2, _⟩
      · cases hb : m'.h.nodes.get? t.job.id with
        | none => rfl
        | some w =>
          obtain ⟨w', h1, _⟩ := sh.symm.get_some hb
          rw [hn0] at h1; cases h1
      · dsimp only at he
        rw [h2] at he; cases he
    · have hu3 := g.fresh k u hu2 he
      apply base _ hu3
      intro hid
      exact hk (g.ids k i u t hu2 ht (PC.early_active he) ef.act hid)
  · intro a b ta tb ha hb h1 h2 h3
    rw [e] at ha hb
    rcases set_get ha with ⟨rfl, rfl⟩ | ⟨ha', ha2⟩ <;> rcases set_get hb with ⟨rfl, rfl⟩ | ⟨hb', hb2⟩
    · rfl
    · exact g.ids a b t tb ht hb2 ef.act h2 h3
    · exact g.ids a b ta t ha2 ht h1 ef.act h3
    · exact g.ids a b ta tb ha2 hb2 h1 h2 h3
  · intro k u hu h1
    rw [e] at hu
    rcases set_get hu with ⟨rfl, rfl⟩ | ⟨hk, hu2⟩
    · exact htj
    · exact g.mine k u hu2 h1

theorem GI.call {h₀ : Hnsw} {js : List Job} {m m' : Mach D} {fixed : Bool} {i : Nat} {j : Job} (g : GI h₀ js m)
    (hf : FreshCall m j) (h : m.step fixed M (.call i j) = some m') : GI h₀ (js ++ [j]) m' := by
  obtain ⟨t, ht, hp, e⟩ := step_call h
  subst e
  have hne : ∀ (k : Nat) (u : Thread D), m.ts[k]? = some u → u.pc.active = true → k ≠ i := by
    rintro k u hu h1 rfl
    rw [ht] at hu; cases hu
    rw [hp] at h1; cases h1
  refine ⟨g.cfg, g.deleted, g.disk, g.old, ?_, ?_, ?_, ?_, ?_⟩
  · intro x hx
    rcases List.mem_append.mp hx with hx | hx
    · rcases g.new x hx with h1 | ⟨k, u, hu, h1, h2⟩
      · exact Or.inl h1
      · refine Or.inr ⟨k, u, set_other (hne k u hu ?_) hu, h1, h2⟩
        rcases h2 with h2 | h2
        · exact PC.early_active h2
        · cases hup : u.pc <;> rw [hup] at h2 <;> first | rfl | cases h2
    · simp at hx; subst hx
      exact Or.inr ⟨i, _, set_this ht, rfl, Or.inl rfl⟩
  · intro x hx
    rcases g.only x hx with h1 | h1
    · exact Or.inl h1
    · exact Or.inr (by rw [List.map_append]; exact List.mem_append.mpr (Or.inl h1))
  · intro k u hu he
    rcases set_get hu with ⟨rfl, rfl⟩ | ⟨hk, hu2⟩
    · exact (AMap.get?_none_iff _ _).mpr hf.1
    · exact g.fresh k u hu2 he
  · intro a b ta tb ha hb h1 h2 h3
    rcases set_get ha with ⟨rfl, rfl⟩ | ⟨ha', ha2⟩ <;> rcases set_get hb with ⟨rfl, rfl⟩ | ⟨hb', hb2⟩
    · rfl
    · exact absurd h3.symm (hf.2 tb (List.mem_of_getElem? hb2) h2)
    · exact absurd h3 (hf.2 ta (List.mem_of_getElem? ha2) h1)
    · exact g.ids a b ta tb ha2 hb2 h1 h2 h3
  · intro k u hu h1
    rcases set_get hu with ⟨rfl, rfl⟩ | ⟨hk, hu2⟩
    · simp
    · exact List.mem_append.mpr (Or.inl (g.mine k u hu2 h1))

theorem sched_grow {fixed : Bool} {m m' : Mach D} {js : List Job} (hq : m.quiet) (hs : Sched fixed M dim m js m') :
    GI m.h js m' := by
  induction hs with
  | start =>
    have hna : ∀ (k : Nat) (u : Thread D), m.ts[k]? = some u → u.pc.active = true → False := by
      intro k u hu ha
      rw [hq u (List.mem_of_getElem? hu)] at ha; cases ha
    exact ⟨rfl, rfl, rfl, fun x v hv => ⟨v, hv, rfl, rfl⟩, by simp, fun x hx => Or.inl hx,
      fun k u hu he => (hna k u hu (PC.early_active he)).elim, fun a b ta tb ha _ h1 => (hna a ta ha h1).elim,
      fun k u hu ha => (hna k u hu ha).elim⟩
  | run i _ h ih => exact ih.step h
  | call i j _ hf _ h ih => exact ih.call hf h

/-- once nobody is inside `Insert`, exactly the called vertices were added. -/
theorem sched_grown {fixed : Bool} {m m' : Mach D} {js : List Job} (hq : m.quiet) (hs : Sched fixed M dim m js m')
    (hq' : m'.quiet) : Grown m.h js m'.h := by
  have g := sched_grow hq hs
  refine ⟨g.cfg, g.deleted, g.disk, g.old, ?_, g.only⟩
  intro j hj
  rcases g.new j hj with h1 | ⟨k, u, hu, _, h2⟩
  · exact h1
  · exfalso
    have := hq' u (List.mem_of_getElem? hu)
    rcases h2 with h2 | h2
    · rw [PC.early_active h2] at this; cases this
    · cases hup : u.pc <;> rw [hup] at h2 this <;> simp [PC.active, PC.panicked] at h2 this

end Vectory.Conc
