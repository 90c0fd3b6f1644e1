import Verif.Lemmas.ConcInv
/-! Whole schedules of the fixed program; what every schedule of either program adds; progress. -/
namespace Vectory.Conc
open Vectory
variable {D : Type} {M : Metric D} {dim : Nat}

theorem call_inv {h : Hnsw} {an : AMap UInt64 Vertex} {ts : List (Thread D)} (c : MachInv M dim h an ts) {i : Nat} {t : Thread D}
    (ht : ts[i]? = some t) (hpc : t.pc = .idle) {j : Job} (hf : FreshCall ⟨h, ts⟩ j) (hj : JobOK dim j) :
    MachInv M dim h an (ts.set i { job := j, pc := .start }) := by
  have hnone : h.nodes.get? j.id = none := (AMap.get?_none_iff _ _).mpr hf.1
  have hfa : ∀ (k : Nat) (u : Thread D), ts[k]? = some u → u.pc.active = true → u.job.id ≠ j.id :=
    fun k u hu ha => hf.2 u (List.mem_of_getElem? hu) ha
  have hnone' : an.get? j.id = none := by
    cases ha : an.get? j.id with
    | none => rfl
    | some v =>
      exfalso
      rcases c.keys _ _ ha with ⟨w, hw⟩ | ⟨k, u, hu, h1, h2⟩
      · rw [hnone] at hw; cases hw
      · refine hfa k u hu ?_ h2
        cases hup : u.pc <;> rw [hup] at h1 <;> first | rfl | cases h1
  have hne : ∀ (k : Nat) (u : Thread D), ts[k]? = some u → (u.pc.isPublish = true ∨ (∃ x l, Pend u.job.id x l u.pc)) → k ≠ i := by
    rintro k u hu h1 rfl
    rw [ht] at hu; cases hu
    rw [hpc] at h1
    rcases h1 with h1 | ⟨_, _, h1⟩
    · cases h1
    · exact h1
  refine ⟨c.cfg, c.top32, c.ghost, c.mem, c.vec, c.once, ?_, c.agree, ?_, ?_, ?_, ?_, ?_⟩
  · intro x v hv
    rcases c.keys x v hv with h1 | ⟨k, u, hu, h1, h2⟩
    · exact Or.inl h1
    · exact Or.inr ⟨k, u, set_other (hne k u hu (Or.inl h1)) hu, h1, h2⟩
  · intro x l hl
    rcases c.link x l hl with h1 | ⟨k, u, hu, h1⟩
    · exact Or.inl h1
    · exact Or.inr ⟨k, u, set_other (hne k u hu (Or.inr ⟨x, l, h1⟩)) hu, h1⟩
  · intro a b ta tb x ha hb h1 h2
    rcases set_get ha with ⟨rfl, rfl⟩ | ⟨ha', ha2⟩
    · cases h1
    · rcases set_get hb with ⟨rfl, rfl⟩ | ⟨hb', hb2⟩
      · cases h2
      · exact c.excl a b ta tb x ha2 hb2 h1 h2
  · intro a b ta tb ha hb h1 h2 h3
    rcases set_get ha with ⟨rfl, rfl⟩ | ⟨ha', ha2⟩ <;> rcases set_get hb with ⟨rfl, rfl⟩ | ⟨hb', hb2⟩
    · rfl
    · exact absurd h3.symm (hfa b tb hb2 h2)
    · exact absurd h3 (hfa a ta ha2 h1)
    · exact c.ids a b ta tb ha2 hb2 h1 h2 h3
  · intro a ta ha h1
    rcases set_get ha with ⟨rfl, rfl⟩ | ⟨ha', ha2⟩
    · exact hj
    · exact c.job a ta ha2 h1
  · intro a ta ha
    rcases set_get ha with ⟨rfl, rfl⟩ | ⟨ha', ha2⟩
    · exact ⟨hnone, hnone'⟩
    · exact c.thr a ta ha2

theorem step_run {fixed : Bool} {m m' : Mach D} {i : Nat} (h : m.step fixed M (.run i) = some m') :
    ∃ t pc, m.ts[i]? = some t ∧ stepPC fixed M m.h (lockedBy fixed m.ts) t.job t.pc = some (m'.h, pc) ∧
      m'.ts = m.ts.set i { t with pc := pc } := by
  unfold Mach.step at h
  cases ht : m.ts[i]? with
  | none => simp only [ht] at h; cases h
  | some t =>
    simp only [ht] at h
    cases hs : stepPC fixed M m.h (lockedBy fixed m.ts) t.job t.pc with
    | none => simp only [hs] at h; cases h
    | some p =>
      obtain ⟨h1, pc⟩ := p
      simp only [hs] at h
      cases h
      exact ⟨t, pc, rfl, hs, rfl⟩

theorem step_call {fixed : Bool} {m m' : Mach D} {i : Nat} {j : Job} (h : m.step fixed M (.call i j) = some m') :
    ∃ t, m.ts[i]? = some t ∧ t.pc = .idle ∧ m' = ⟨m.h, m.ts.set i { job := j, pc := .start }⟩ := by
  unfold Mach.step at h
  cases ht : m.ts[i]? with
  | none => simp only [ht] at h; cases h
  | some t =>
    simp only [ht] at h
    cases hp : t.pc with
    | idle => rw [hp] at h; cases h; exact ⟨t, rfl, hp, rfl⟩
    | _ => rw [hp] at h; cases h

/-- the invariant holds in every reachable state of the fixed program. -/
theorem sched_inv (hM : DimOK M dim) {m m' : Mach D} {js : List Job} (hs : Sched true M dim m js m')
    (hi : ∃ an, MachInv M dim m.h an m.ts) : ∃ an, MachInv M dim m'.h an m'.ts := by
  induction hs with
  | start => exact hi
  | run i _ h ih =>
    obtain ⟨an, c⟩ := ih
    obtain ⟨t, pc, ht, hs, e⟩ := step_run h
    obtain ⟨an', c'⟩ := step_inv hM c ht hs
    exact ⟨an', by rw [e]; exact c'⟩
  | call i j _ hf hj h ih =>
    obtain ⟨an, c⟩ := ih
    obtain ⟨t, ht, hp, e⟩ := step_call h
    subst e
    exact ⟨an, call_inv c ht hp hf hj⟩

theorem quiet_inv {h : Hnsw} {ts : List (Thread D)} (hq : ∀ t ∈ ts, t.pc.active = false) (hi : Inv False h) (hcfg : CfgOK h.cfg)
    (hv : VecOK dim h.nodes) : MachInv M dim h h.nodes ts := by
  have hidle : ∀ (k : Nat) (t : Thread D), ts[k]? = some t → t.pc = .idle := by
    intro k t ht
    have := hq t (List.mem_of_getElem? ht)
    cases hp : t.pc <;> rw [hp] at this <;> first | rfl | cases this
  refine ⟨hcfg, hi.top32, hi.m, hi.m.good, hv, hi.once, fun x v hx => Or.inl ⟨v, hx⟩, Ext.refl _, fun x l _ => Or.inl rfl, ?_, ?_,
    ?_, ?_⟩
  · intro a b ta tb x ha hb h1 h2
    unfold Thread.held at h1
    rw [hidle a ta ha] at h1; cases h1
  · intro a b ta tb ha hb h1
    rw [hidle a ta ha] at h1; cases h1
  · intro a ta ha h1
    rw [hidle a ta ha] at h1; cases h1
  · intro a ta ha
    rw [hidle a ta ha]; trivial

theorem init_quiet (h : Hnsw) (n : Nat) : ∀ t ∈ (Mach.init h n : Mach D).ts, t.pc.active = false := by
  intro t ht
  rw [(List.mem_replicate.mp ht).2]; rfl

/-- when nobody is inside `Insert` the log describes exactly the memory. -/
theorem MachInv.settled {h : Hnsw} {an : AMap UInt64 Vertex} {ts : List (Thread D)} (c : MachInv M dim h an ts)
    (hq : ∀ t ∈ ts, t.pc.active = false) : Inv False h := by
  have hidle : ∀ (k : Nat) (t : Thread D), ts[k]? = some t → t.pc = .idle := by
    intro k t ht
    have := hq t (List.mem_of_getElem? ht)
    cases hp : t.pc <;> rw [hp] at this <;> first | rfl | cases this
  have hsame : SameMap an h.nodes := by
    refine ⟨c.ghost.good.graph.keysNd, ?_⟩
    intro x
    cases hv : h.nodes.get? x with
    | none =>
      cases ha : an.get? x with
      | none => rfl
      | some w =>
        exfalso
        rcases c.keys x w ha with ⟨v, hv'⟩ | ⟨k, u, hu, h1, _⟩
        · rw [hv] at hv'; cases hv'
        · rw [hidle k u hu] at h1; cases h1
    | some v =>
      obtain ⟨w, hw, h1, h2, h3⟩ := c.agree x v hv
      rw [hw]
      have : w.conns = v.conns := by
        apply List.ext_getElem?
        intro l
        by_cases hl : l < v.conns.length
        · rcases c.link x l ⟨v, hv, hl⟩ with h4 | ⟨k, u, hu, h4⟩
          · unfold link? at h4
            rw [hw, hv] at h4
            simpa using h4
          · rw [hidle k u hu] at h4; exact h4.elim
        · rw [List.getElem?_eq_none (by omega), List.getElem?_eq_none (by omega)]
      cases w; cases v; simp at h1 h3 this; simp [h1, h3, this]
  refine ⟨⟨c.mem, ?_, c.ghost.wal⟩, fun hf => hf.elim, c.once, c.top32⟩
  obtain ⟨s, hs, r⟩ := c.ghost.log.load
  refine ⟨⟨s, hs, ?_, ?_, fun hf => hf.elim⟩, c.ghost.log.pre⟩
  · have := r.rest
    rw [this]
    simp [Hnsw.strip]
  · refine ⟨r.nodes.nd, ?_⟩
    intro k
    rw [r.nodes.get k]
    simp only [Hnsw.strip]
    rw [AMap.get?_mapVals, AMap.get?_mapVals, hsame.get]

end Vectory.Conc
