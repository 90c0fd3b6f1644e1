import Verif.Lemmas.ConcGrow
/-! The program as it is (`fixed = false`) compared with the fixed one. -/
namespace Vectory.Conc
open Vectory
variable {D : Type} {M : Metric D} {dim : Nat}

theorem held_le {t : Thread D} {x : UInt64} (h : t.held false = some x) : t.held true = some x := by
  unfold Thread.held at *
  cases hp : t.pc <;> rw [hp] at h <;> first | exact h | cases h

theorem locked_le {ts : List (Thread D)} {x : UInt64} (h : lockedBy true ts x = false) : lockedBy false ts x = false := by
  cases hf : lockedBy false ts x with
  | false => rfl
  | true =>
    unfold lockedBy at hf
    obtain ⟨t, ht, hx⟩ := List.any_eq_true.mp hf
    have : lockedBy true ts x = true := List.any_eq_true.mpr ⟨t, ht, by
      have h1 : t.held false = some x := by simpa using hx
      rw [held_le h1]; simp⟩
    rw [this] at h; cases h

theorem stepPC_le {h : Hnsw} {L₁ L₂ : UInt64 → Bool} (hL : ∀ x, L₁ x = false → L₂ x = false) {j : Job} {pc : PC D}
    {r : Hnsw × PC D} (hs : stepPC true M h L₁ j pc = some r) : stepPC false M h L₂ j pc = some r := by
  cases pc with
  | pop cur ph s buf =>
    simp only [stepPC] at hs ⊢
    split at hs
    · exact hs
    · split at hs
      · exact hs
      · split at hs
        · rename_i hc; rw [if_pos hc]; exact hs
        · rename_i hc
          rw [if_neg hc]
          split at hs
          · exact hs
          · split at hs
            · cases hs
            · rename_i hl
              rw [if_neg (by rw [hL _ (by simpa using hl)]; simp)]
              exact hs
  | link cur l nns todo =>
    cases todo with
    | nil => exact hs
    | cons n rest =>
      simp only [stepPC] at hs ⊢
      split at hs
      · exact hs
      · split at hs
        · cases hs
        · rename_i hl
          rw [if_neg (by rw [hL _ (by simpa using hl)]; simp)]
          exact hs
  | logOwn cur l nns ns =>
    simp only [stepPC] at hs ⊢
    split at hs
    · cases hs
    · simpa using hs
  | _ => exact hs

/-- a step of the fixed program is a step of the program as it is. -/
theorem step_real {m m' : Mach D} {a : Act} (h : m.step true M a = some m') : m.step false M a = some m' := by
  cases a with
  | call i j => exact h
  | run i =>
    unfold Mach.step at h ⊢
    cases ht : m.ts[i]? with
    | none => simp only [ht] at h; cases h
    | some t =>
      simp only [ht] at h ⊢
      cases hs : stepPC true M m.h (lockedBy true m.ts) t.job t.pc with
      | none => simp only [hs] at h; cases h
      | some r =>
        simp only [hs] at h
        rw [stepPC_le (fun x hx => locked_le hx) hs]
        exact h

theorem sched_real {m m' : Mach D} {js : List Job} (h : Sched true M dim m js m') : Sched false M dim m js m' := by
  induction h with
  | start => exact .start
  | run i _ h ih => exact .run i ih (step_real h)
  | call i j _ hf hj h ih => exact .call i j ih hf hj (step_real h)

/-! ### Inserts of level 0 do not meet the race -/

/-- the vertices a goroutine may touch next. -/
def PC.ments : PC D → List UInt64
  | .layer _ _ eps => eps.map Elem.id
  | .pop _ _ s _ => s.visited
  | .copy _ _ s _ c _ => c :: s.visited
  | .visit _ _ s _ todo => s.visited ++ todo
  | .logOwn _ _ nns ns => nns.map Elem.id ++ ns
  | .setOwn _ _ nns ns => nns.map Elem.id ++ ns
  | .link _ _ nns todo => nns.map Elem.id ++ todo
  | .addLog _ _ nns n rest => nns.map Elem.id ++ n :: rest
  | .addRead _ _ nns n rest => nns.map Elem.id ++ n :: rest
  | .addWrite _ _ nns n rest c => nns.map Elem.id ++ (n :: rest ++ c)
  | .pruneLog _ _ nns n rest new => nns.map Elem.id ++ (n :: rest ++ new)
  | .pruneSet _ _ nns n rest new => nns.map Elem.id ++ (n :: rest ++ new)
  | _ => []

/-- nobody else has learnt of the new vertex yet. -/
def PC.hidden : PC D → Bool
  | .start => true
  | .create => true
  | .publish => true
  | .enter => true
  | .layer _ _ _ => true
  | .pop _ _ _ _ => true
  | .copy _ _ _ _ _ _ => true
  | .visit _ _ _ _ _ => true
  | .logOwn _ _ _ _ => true
  | .setOwn _ _ _ _ => true
  | _ => false

/-- linked from somewhere. -/
def Linked (h : Hnsw) (x : UInt64) : Prop := ∃ y l c, link? h.nodes y l = some c ∧ x ∈ c

/-- where the ids that occur after a step come from. -/
structure Flow (h h' : Hnsw) (id : UInt64) (pc pc' : PC D) : Prop where
  ments : ∀ x ∈ pc'.ments, x ∈ pc.ments ∨ Linked h x ∨ (h.nodes ≠ [] ∧ x = h.entry) ∨ (pc.hidden = false ∧ x = id)
  links : ∀ x, Linked h' x → Linked h x ∨ x ∈ pc.ments ∨ (pc.hidden = false ∧ x = id)
  entry : (h'.entry = h.entry ∧ (h'.nodes ≠ [] → h.nodes ≠ [])) ∨ (h'.entry = id ∧ pc'.hidden = false)
  hidden : pc'.hidden = true → pc.hidden = true

theorem Flow.calm {h h' : Hnsw} {id : UInt64} {pc pc' : PC D} (hn : h'.nodes = h.nodes) (he : h'.entry = h.entry)
    (hh : pc'.hidden = true → pc.hidden = true)
    (hm : ∀ x ∈ pc'.ments, x ∈ pc.ments ∨ Linked h x ∨ (h.nodes ≠ [] ∧ x = h.entry) ∨ (pc.hidden = false ∧ x = id)) :
    Flow h h' id pc pc' :=
  ⟨hm, fun x hx => Or.inl (by unfold Linked at hx ⊢; rw [hn] at hx; exact hx), Or.inl ⟨he, by rw [hn]; exact fun h1 => h1⟩, hh⟩

theorem Flow.put {h : Hnsw} {v : Vertex} {y id : UInt64} {l : Nat} {cs : List UInt64} {pc pc' : PC D}
    (hv : h.nodes.get? y = some v) (hl : l < v.conns.length) (hcs : ∀ x ∈ cs, x ∈ pc.ments ∨ (pc.hidden = false ∧ x = id))
    (hh : pc'.hidden = true → pc.hidden = true) (hm : ∀ x ∈ pc'.ments, x ∈ pc.ments) :
    Flow h { h with nodes := putConns h.nodes y v l cs } id pc pc' := by
  refine ⟨fun x hx => Or.inl (hm x hx), ?_, Or.inl ⟨rfl, fun hne hn => hne ((shape_put (l := l) cs hv).nil_iff.mpr hn)⟩, hh⟩
  rintro x ⟨y', l', c, hc, hx⟩
  dsimp only at hc
  rw [link?_put cs hv hl] at hc
  split at hc
  · cases hc; exact Or.inr (hcs x hx)
  · exact Or.inl ⟨y', l', c, hc, hx⟩

theorem visited_visitOne {nodes : AMap UInt64 Vertex} {q : Vec} {ef : Nat} {s s' : SL D} {nid : UInt64}
    (h : visitOne M nodes q ef s nid = .ok s') : ∀ x ∈ s'.visited, x = nid ∨ x ∈ s.visited := by
  unfold visitOne at h
  split at h
  · cases h; intro x hx; exact Or.inr hx
  · split at h
    · cases h
    · cases h1 : nodeAt nodes nid with
      | error p => rw [h1] at h; cases h
      | ok nb =>
        rw [h1, ok_bind] at h
        cases h2 : M.dist nb.vec q with
        | error p => rw [h2] at h; cases h
        | ok d =>
          rw [h2, ok_bind] at h
          split at h
          · dsimp only at h
            split at h
            · split at h
              · cases h
              · cases h; intro x hx; exact List.mem_cons.mp hx
            · cases h; intro x hx; exact List.mem_cons.mp hx
          · cases h; intro x hx; exact List.mem_cons.mp hx

theorem afterSearch_flow {h : Hnsw} {j : Job} {cur : Nat} {ph : Phase} {s : SL D} {ef : Nat}
    {q : Vec} {P : UInt64 → Prop} (hM : DimOK M dim) (hv : VecOK dim h.nodes) (i : SInv M h.nodes q ef P s) :
    ∀ x ∈ (afterSearch M h j cur ph s.nn).ments, x ∈ s.visited := by
  intro x hx
  have hnn : ∀ y ∈ s.nn.map Elem.id, y ∈ s.visited := by
    intro y hy
    obtain ⟨e, he, rfl⟩ := List.mem_map.mp hy
    exact i.nnVis e he
  unfold afterSearch at hx
  cases ph with
  | lookup n =>
    dsimp only at hx
    cases hs : s.nn with
    | nil => rw [hs] at hx; cases hx
    | cons e r =>
      rw [hs] at hx
      have : e.id ∈ s.visited := i.nnVis e (by rw [hs]; simp)
      cases n <;> (simp [PC.ments] at hx; subst hx; exact this)
  | construct l =>
    obtain ⟨ns, h1, sel⟩ := selectNeighbors_spec M h.cfg h.nodes s.nn h.cfg.m (hv.pair hM)
      (fun e he' => by obtain ⟨w, hw, _⟩ := i.nnD e he'; exact ⟨w, hw⟩)
    simp only [h1, orDie, PC.ments] at hx
    rcases List.mem_append.mp hx with h2 | h2
    · exact hnn x h2
    · exact hnn x (sel.sub x h2)

/-- pruning keeps old neighbours and the new vertex only. -/
theorem prune_mem (hM : DimOK M dim) {h : Hnsw} {an : AMap UInt64 Vertex} {ts : List (Thread D)} (c : MachInv M dim h an ts)
    {j : Job} (hj : JobOK dim j) {l : Nat} (hown : HasLevel h.nodes j.id l) {n : UInt64} {nv : Vertex} {cs : List UInt64}
    (hnv : h.nodes.get? n = some nv) (hcs : ∀ x ∈ cs, HasLevel h.nodes x l) :
    ∃ new, prune M h j l nv cs = .ok new ∧ (∀ x ∈ new, x = j.id ∨ x ∈ cs) ∧ new.length ≤ maxConn h.cfg l := by
  have hnd := c.vec n nv hnv
  obtain ⟨d, hd⟩ := hM nv.vec j.vec hnd hj.1
  obtain ⟨es, he1, he2, he3⟩ := elemsOf_spec M h.nodes nv (fun y vy hy => hM _ _ hnd (c.vec y vy hy)) cs
    (fun x hx => get_of_hasLevel (hcs x hx))
  have hids : ((({ id := j.id, dist := d } : Elem D) :: es).map Elem.id) = j.id :: cs := by simp [he2]
  obtain ⟨r, hr, sel⟩ := selectNeighbors_spec M h.cfg h.nodes (({ id := j.id, dist := d } : Elem D) :: es)
    (maxConn h.cfg l) (c.vec.pair hM) (by
      intro e he
      rcases List.mem_cons.mp he with rfl | he
      · exact get_of_hasLevel hown
      · obtain ⟨w, hw, _⟩ := he3 e he; exact ⟨w, hw⟩)
  refine ⟨r, ?_, ?_, sel.len⟩
  · unfold prune
    rw [hd, ok_bind, he1, ok_bind, hr]
  · intro x hx
    have := sel.sub x hx
    rw [hids] at this
    exact List.mem_cons.mp this

/-- every step of a goroutine whose level is 0 keeps the ids apart. -/
theorem step_flow (hM : DimOK M dim) {h : Hnsw} {an : AMap UInt64 Vertex} {ts : List (Thread D)} (c : MachInv M dim h an ts)
    {i : Nat} {t : Thread D} (ht : ts[i]? = some t) (h0 : t.job.level = 0) {L : UInt64 → Bool} {h' : Hnsw} {pc' : PC D}
    (hs : stepPC true M h L t.job t.pc = some (h', pc')) : Flow h h' t.job.id t.pc pc' := by
  have ok := c.thr i t ht
  cases hpc : t.pc with
  | idle => rw [hpc] at hs; cases hs
  | start =>
    rw [hpc] at hs
    simp only [stepPC] at hs
    split at hs
    · rename_i hh
      cases hs
      refine ⟨fun x hx => absurd hx List.not_mem_nil, ?_, Or.inr ⟨rfl, rfl⟩, fun h1 => by cases h1⟩
      rintro x ⟨y, l, cs, hl, hx⟩
      exfalso
      obtain ⟨v, hv, hvc⟩ := link?_some hl
      simp only [Hnsw.insertFirst, hh.2] at hv
      by_cases hy : y = t.job.id
      · subst hy
        rw [AMap.get?_set_self] at hv
        cases hv
        have := List.mem_of_getElem? hvc
        have : cs = [] := List.mem_singleton.mp this
        subst this; cases hx
      · rw [AMap.get?_set_ne _ _ _ _ (fun e => hy e.symm)] at hv
        have hv : (AMap.get? [] y : Option Vertex) = some v := hv
        simp at hv
    · cases hs
      exact .calm rfl rfl (fun _ => rfl) (fun x hx => absurd hx List.not_mem_nil)
  | create =>
    rw [hpc] at hs
    simp only [stepPC] at hs
    split at hs <;> cases hs <;> exact .calm rfl rfl (fun _ => rfl) (fun x hx => absurd hx List.not_mem_nil)
  | publish =>
    rw [hpc] at hs ok
    cases hs
    refine ⟨fun x hx => absurd hx List.not_mem_nil, ?_, Or.inl ⟨rfl, fun _ => ok.2.2⟩, fun _ => rfl⟩
    rintro x ⟨y, l, cs, hl, hx⟩
    left
    obtain ⟨v, hv, hvc⟩ := link?_some hl
    dsimp only at hv
    by_cases hy : y = t.job.id
    · exfalso
      subst hy
      rw [AMap.get?_set_self] at hv
      cases hv
      have := List.mem_of_getElem? hvc
      rw [List.mem_replicate] at this
      rw [this.2] at hx; cases hx
    · rw [AMap.get?_set_ne _ _ _ _ (fun e => hy e.symm)] at hv
      exact ⟨y, l, cs, link?_of hv hvc, hx⟩
  | enter =>
    have hact : t.pc.active = true := by rw [hpc]; rfl
    rw [hpc] at ok
    have hown : Own h.nodes t.job := ok
    obtain ⟨d, hd, he⟩ := enter_ok hM c (c.job i t ht hact) hown
    rw [hpc] at hs
    simp only [stepPC, hd, orDie] at hs
    cases hs
    refine .calm rfl rfl (fun _ => rfl) ?_
    intro x hx
    simp [PC.ments] at hx
    refine Or.inr (Or.inr (Or.inl ⟨?_, hx⟩))
    intro hn
    obtain ⟨v, hv, _⟩ := hown
    rw [hn] at hv; simp at hv
  | layer cur ph eps =>
    rw [hpc] at hs
    simp only [stepPC] at hs
    split at hs <;> cases hs
    · exact .calm rfl rfl (fun _ => rfl) (fun x hx => absurd hx List.not_mem_nil)
    · exact .calm rfl rfl (fun _ => rfl) (fun x hx => Or.inl hx)
  | pop cur ph s buf =>
    rw [hpc] at ok
    have ok : Searching M h t.job ph s buf := ok
    rw [hpc] at hs
    simp only [stepPC] at hs
    have hafter : Flow h h t.job.id (.pop cur ph s buf) (afterSearch M h t.job cur ph s.nn) :=
      .calm rfl rfl (fun _ => rfl) (fun x hx => Or.inl (afterSearch_flow hM c.vec ok.inv x hx))
    cases hp : Heap.pop (minLess M.lt) s.cands with
    | none => rw [hp] at hs; cases hs; exact hafter
    | some p =>
      obtain ⟨e, rest⟩ := p
      have hem : e ∈ s.cands := (Heap.pop_perm _ _ _ _ hp).symm.mem_iff.mp (by simp)
      obtain ⟨f, hf⟩ := peek_some ok.inv.ne
      simp only [hp, hf] at hs
      split at hs
      · cases hs; exact hafter
      · split at hs
        · cases hs; exact .calm rfl rfl (fun _ => rfl) (fun x hx => absurd hx List.not_mem_nil)
        · split at hs
          · cases hs
          · cases hs
            refine .calm rfl rfl (fun _ => rfl) ?_
            intro x hx
            unfold orDie at hx
            split at hx
            · dsimp only at hx
              split at hx
              · cases hx
              · left
                rcases List.mem_cons.mp hx with rfl | hx
                · exact ok.inv.cdVis e hem
                · exact hx
            · cases hx
  | copy cur ph s buf cid n =>
    rw [hpc] at ok
    obtain ⟨o1, cs, o2, o3, o4⟩ := ok
    obtain ⟨v, hv, hvc⟩ := link?_some o2
    rw [hpc] at hs
    simp only [stepPC, nodeAt_of hv, ok_bind, connsAt_of hvc, orDie] at hs
    cases hs
    have htk : cs.take n = cs := by rw [o3, List.take_length]
    refine .calm rfl rfl (fun _ => rfl) ?_
    intro x hx
    simp only [PC.ments, htk] at hx
    rw [o3, List.take_left] at hx
    rcases List.mem_append.mp hx with hx | hx
    · exact Or.inl (List.mem_cons_of_mem _ hx)
    · exact Or.inr (Or.inl ⟨_, _, _, o2, hx⟩)
  | visit cur ph s buf todo =>
    rw [hpc] at hs
    cases todo with
    | nil =>
      cases hs
      exact .calm rfl rfl (fun _ => rfl) (fun x hx => Or.inl (List.mem_append.mpr (Or.inl hx)))
    | cons nid rest =>
      simp only [stepPC] at hs
      cases hs
      refine .calm rfl rfl (fun _ => rfl) ?_
      intro x hx
      left
      unfold orDie at hx
      split at hx
      · rename_i s' hv
        simp only [PC.ments] at hx ⊢
        rcases List.mem_append.mp hx with hx | hx
        · rcases visited_visitOne hv x hx with rfl | h1
          · simp
          · exact List.mem_append.mpr (Or.inl h1)
        · exact List.mem_append.mpr (Or.inr (List.mem_cons_of_mem _ hx))
      · cases hx
  | logOwn cur l nns ns =>
    rw [hpc] at hs
    simp only [stepPC] at hs
    split at hs
    · cases hs
    · cases hs; exact .calm rfl rfl (fun _ => rfl) (fun x hx => Or.inl hx)
  | setOwn cur l nns ns =>
    rw [hpc] at ok
    obtain ⟨o1, _⟩ := ok
    obtain ⟨v, hv, hvl⟩ := o1.own.at o1.lvl
    rw [hpc] at hs
    simp only [stepPC, setConns_ok ns hv hvl] at hs
    cases hs
    exact .put hv hvl (fun x hx => Or.inl (List.mem_append.mpr (Or.inr hx))) (fun _ => rfl) (fun x hx => hx)
  | link cur l nns todo =>
    rw [hpc] at ok
    have o1 : Linking M h t.job l nns todo := ok
    have hj := c.job i t ht (by rw [hpc]; rfl)
    rw [hpc] at hs
    cases todo with
    | nil =>
      cases l with
      | zero => cases hs; exact .calm rfl rfl (fun h1 => by cases h1) (fun x hx => absurd hx List.not_mem_nil)
      | succ l => have := o1.lvl; omega
    | cons n rest =>
      have hnl := o1.todo n (by simp)
      obtain ⟨cs, hcs, hcl, hcm⟩ := c.linkOf hnl
      obtain ⟨v, hv, hvc⟩ := link?_some hcs
      simp only [stepPC, hv] at hs
      split at hs
      · cases hs
      · simp only [connsAt_of hvc, orDie] at hs
        split at hs
        · cases hs; exact .calm rfl rfl (fun h1 => by cases h1) (fun x hx => Or.inl hx)
        · obtain ⟨new, p1, p2, p3⟩ := prune_mem hM c hj (o1.own.at o1.lvl) hv hcm
          simp only [p1] at hs
          cases hs
          refine .calm rfl rfl (fun h1 => by cases h1) ?_
          intro x hx
          simp only [PC.ments] at hx ⊢
          rcases List.mem_append.mp hx with hx | hx
          · exact Or.inl (List.mem_append.mpr (Or.inl hx))
          · rcases List.mem_append.mp hx with hx | hx
            · exact Or.inl (List.mem_append.mpr (Or.inr hx))
            · rcases p2 x hx with rfl | h1
              · exact Or.inr (Or.inr (Or.inr ⟨rfl, rfl⟩))
              · exact Or.inr (Or.inl ⟨_, _, _, hcs, h1⟩)
  | addLog cur l nns n rest =>
    rw [hpc] at hs
    cases hs; exact .calm rfl rfl (fun h1 => by cases h1) (fun x hx => Or.inl hx)
  | addRead cur l nns n rest =>
    rw [hpc] at ok
    obtain ⟨o1, cs, o2, o3, o4⟩ := ok
    obtain ⟨v, hv, hvc⟩ := link?_some o2
    rw [hpc] at hs
    simp only [stepPC, nodeAt_of hv, ok_bind, connsAt_of hvc, orDie] at hs
    cases hs
    refine .calm rfl rfl (fun h1 => by cases h1) ?_
    intro x hx
    simp only [PC.ments] at hx ⊢
    rcases List.mem_append.mp hx with hx | hx
    · exact Or.inl (List.mem_append.mpr (Or.inl hx))
    · rcases List.mem_append.mp hx with hx | hx
      · exact Or.inl (List.mem_append.mpr (Or.inr hx))
      · exact Or.inr (Or.inl ⟨_, _, _, o2, hx⟩)
  | addWrite cur l nns n rest cs =>
    rw [hpc] at ok
    obtain ⟨o1, o2, o3, o4⟩ := ok
    obtain ⟨v, hv, hvc⟩ := link?_some o2
    have hvl : l < v.conns.length := (List.getElem?_eq_some_iff.mp hvc).1
    rw [hpc] at hs
    simp only [stepPC, setConns_ok _ hv hvl] at hs
    cases hs
    refine .put hv hvl ?_ (fun h1 => by cases h1) ?_
    · intro x hx
      rcases List.mem_append.mp hx with h1 | h1
      · left; simp [PC.ments, h1]
      · simp at h1; exact Or.inr ⟨rfl, h1⟩
    · intro x hx
      simp only [PC.ments] at hx ⊢
      rcases List.mem_append.mp hx with hx | hx <;> simp [hx]
  | pruneLog cur l nns n rest new =>
    rw [hpc] at hs
    cases hs; exact .calm rfl rfl (fun h1 => by cases h1) (fun x hx => Or.inl hx)
  | pruneSet cur l nns n rest new =>
    rw [hpc] at ok
    obtain ⟨o1, o2, o3, o4, o5⟩ := ok
    obtain ⟨v, hv, hvl⟩ := o2
    rw [hpc] at hs
    simp only [stepPC, setConns_ok new hv hvl] at hs
    cases hs
    refine .put hv hvl ?_ (fun h1 => by cases h1) ?_
    · intro x hx; left; simp [PC.ments, hx]
    · intro x hx
      simp only [PC.ments] at hx ⊢
      rcases List.mem_append.mp hx with hx | hx <;> simp [hx]
  | finish cur =>
    rw [hpc] at hs
    simp only [stepPC] at hs
    rw [if_neg (by omega)] at hs
    cases hs
    exact .calm rfl rfl (fun h1 => by cases h1) (fun x hx => absurd hx List.not_mem_nil)
  | dead p x => rw [hpc] at hs; cases hs

/-- the vertices a goroutine may touch are in the map. -/
theorem PCOK.mentsIn {h : Hnsw} {an : AMap UInt64 Vertex} {ts : List (Thread D)} (c : MachInv M dim h an ts) {j : Job}
    {pc : PC D} (k : PCOK M h an j pc) {x : UInt64} (hx : x ∈ pc.ments) : ∃ l, HasLevel h.nodes x l := by
  have eps : ∀ {q : Vec} {l : Nat} {nns : List (Elem D)}, EpsOK M h.nodes q (At h.nodes l) nns → x ∈ nns.map Elem.id →
      ∃ l, HasLevel h.nodes x l := by
    intro q l nns e hx
    obtain ⟨y, hy, rfl⟩ := List.mem_map.mp hx
    exact ⟨l, e.mem y hy⟩
  cases pc with
  | layer _ ph es => exact eps k.2.2.1 hx
  | pop _ ph s _ => exact ⟨_, k.inv.visP x hx⟩
  | copy _ ph s _ cid _ =>
    obtain ⟨o1, cs, o2, _⟩ := k
    rcases List.mem_cons.mp hx with rfl | hx
    · exact ⟨_, hasLevel_of_link o2⟩
    · exact ⟨_, o1.inv.visP x hx⟩
  | visit _ ph s _ todo =>
    rcases List.mem_append.mp hx with hx | hx
    · exact ⟨_, k.1.inv.visP x hx⟩
    · exact ⟨_, k.2 x hx⟩
  | logOwn _ l nns ns =>
    rcases List.mem_append.mp hx with hx | hx
    · exact eps k.1.eps hx
    · exact ⟨_, k.1.todo x hx⟩
  | setOwn _ l nns ns =>
    rcases List.mem_append.mp hx with hx | hx
    · exact eps k.1.eps hx
    · exact ⟨_, k.1.todo x hx⟩
  | link _ l nns todo =>
    rcases List.mem_append.mp hx with hx | hx
    · exact eps (Linking.eps k) hx
    · exact ⟨_, Linking.todo k x hx⟩
  | addLog _ l nns n rest =>
    obtain ⟨o1, cs, o2, _⟩ := k
    rcases List.mem_append.mp hx with hx | hx
    · exact eps o1.eps hx
    · rcases List.mem_cons.mp hx with rfl | hx
      · exact ⟨_, hasLevel_of_link o2⟩
      · exact ⟨_, o1.todo x hx⟩
  | addRead _ l nns n rest =>
    obtain ⟨o1, cs, o2, _⟩ := k
    rcases List.mem_append.mp hx with hx | hx
    · exact eps o1.eps hx
    · rcases List.mem_cons.mp hx with rfl | hx
      · exact ⟨_, hasLevel_of_link o2⟩
      · exact ⟨_, o1.todo x hx⟩
  | addWrite _ l nns n rest cs =>
    obtain ⟨o1, o2, _⟩ := k
    rcases List.mem_append.mp hx with hx | hx
    · exact eps o1.eps hx
    · rcases List.mem_append.mp hx with hx | hx
      · rcases List.mem_cons.mp hx with rfl | hx
        · exact ⟨_, hasLevel_of_link o2⟩
        · exact ⟨_, o1.todo x hx⟩
      · exact ⟨_, (c.mem.graph.linkOK _ _ _ o2).2.2 x hx⟩
  | pruneLog _ l nns n rest new =>
    obtain ⟨o1, o2, o3, _⟩ := k
    rcases List.mem_append.mp hx with hx | hx
    · exact eps o1.eps hx
    · rcases List.mem_append.mp hx with hx | hx
      · rcases List.mem_cons.mp hx with rfl | hx
        · exact ⟨_, o2⟩
        · exact ⟨_, o1.todo x hx⟩
      · exact ⟨_, o3 x hx⟩
  | pruneSet _ l nns n rest new =>
    obtain ⟨o1, o2, o3, _⟩ := k
    rcases List.mem_append.mp hx with hx | hx
    · exact eps o1.eps hx
    · rcases List.mem_append.mp hx with hx | hx
      · rcases List.mem_cons.mp hx with rfl | hx
        · exact ⟨_, o2⟩
        · exact ⟨_, o1.todo x hx⟩
      · exact ⟨_, o3 x hx⟩
  | _ => cases hx

/-- a vertex that its goroutine has not linked yet is known to nobody. -/
def Sec (h : Hnsw) (ts : List (Thread D)) : Prop :=
  ∀ (i : Nat) (t : Thread D), ts[i]? = some t → t.pc.hidden = true →
    ¬ Linked h t.job.id ∧ (h.nodes ≠ [] → h.entry ≠ t.job.id) ∧
    ∀ (k : Nat) (u : Thread D), ts[k]? = some u → t.job.id ∉ u.pc.ments

theorem PC.hidden_active {pc : PC D} (h : pc.hidden = true) : pc.active = true := by
  cases pc <;> first | rfl | cases h

theorem Sec.step (hM : DimOK M dim) {h h' : Hnsw} {an : AMap UInt64 Vertex} {ts : List (Thread D)} (c : MachInv M dim h an ts)
    (s : Sec h ts) {i : Nat} {t : Thread D} {pc' : PC D} (ht : ts[i]? = some t) (h0 : t.job.level = 0)
    (hs : stepPC true M h (lockedBy true ts) t.job t.pc = some (h', pc')) : Sec h' (ts.set i { t with pc := pc' }) := by
  have f := step_flow hM c ht h0 hs
  have hact : t.pc.active = true := (stepPC_eff hs).act
  -- the secret survives, for whoever holds it
  have main : ∀ x, ¬ Linked h x → (h.nodes ≠ [] → h.entry ≠ x) →
      (∀ (k : Nat) (u : Thread D), ts[k]? = some u → x ∉ u.pc.ments) → (x = t.job.id → t.pc.hidden = true) →
      (x = t.job.id → pc'.hidden = true) →
      ¬ Linked h' x ∧ (h'.nodes ≠ [] → h'.entry ≠ x) ∧
        ∀ (k : Nat) (u : Thread D), (ts.set i { t with pc := pc' })[k]? = some u → x ∉ u.pc.ments := by
    intro x h1 h2 h3 h4 h5
    have hown : ¬ (t.pc.hidden = false ∧ x = t.job.id) := by
      rintro ⟨a, b⟩
      rw [h4 b] at a; cases a
    refine ⟨?_, ?_, ?_⟩
    · intro hl
      rcases f.links x hl with h | h | h
      · exact h1 h
      · exact h3 i t ht h
      · exact hown h
    · intro hne hx
      rcases f.entry with ⟨a, b⟩ | ⟨a, b⟩
      · exact h2 (b hne) (by rw [← a]; exact hx)
      · rw [h5 (by rw [← hx, a])] at b; cases b
    · intro k u hu hx
      rcases set_get hu with ⟨rfl, rfl⟩ | ⟨_, hu2⟩
      · rcases f.ments x hx with h | h | ⟨h, h'⟩ | h
        · exact h3 k t ht h
        · exact h1 h
        · exact h2 h h'.symm
        · exact hown h
      · exact h3 k u hu2 hx
  intro a ta ha hh
  rcases set_get ha with ⟨rfl, rfl⟩ | ⟨hne, ha2⟩
  · have hb := f.hidden hh
    obtain ⟨h1, h2, h3⟩ := s a t ht hb
    exact main _ h1 h2 h3 (fun _ => hb) (fun _ => hh)
  · obtain ⟨h1, h2, h3⟩ := s a ta ha2 hh
    have hid : ta.job.id ≠ t.job.id := fun e => hne (c.ids a i ta t ha2 ht (PC.hidden_active hh) hact e)
    exact main _ h1 h2 h3 (fun e => absurd e hid) (fun e => absurd e hid)

theorem Sec.call {h : Hnsw} {an : AMap UInt64 Vertex} {ts : List (Thread D)} (c : MachInv M dim h an ts) (s : Sec h ts) {i : Nat}
    {t : Thread D} (ht : ts[i]? = some t) {j : Job} (hf : FreshCall ⟨h, ts⟩ j) :
    Sec h (ts.set i { job := j, pc := .start }) := by
  have hno : ∀ l, ¬ HasLevel h.nodes j.id l := by
    rintro l ⟨v, hv, _⟩
    apply hf.1
    rw [← AMap.get?_isSome_iff, hv]; rfl
  intro a ta ha hh
  rcases set_get ha with ⟨rfl, rfl⟩ | ⟨hne, ha2⟩
  · refine ⟨?_, ?_, ?_⟩
    · rintro ⟨y, l, cs, hl, hx⟩
      exact hno l ((c.mem.graph.linkOK _ _ _ hl).2.2 _ hx)
    · intro hne he
      rcases c.mem.entry with h1 | h1
      · exact hne h1
      · rw [he] at h1; exact hno _ h1
    · intro k u hu hx
      rcases set_get hu with ⟨rfl, rfl⟩ | ⟨_, hu2⟩
      · cases hx
      · obtain ⟨l, hl⟩ := (c.thr k u hu2).mentsIn c hx
        exact hno l hl
  · obtain ⟨h1, h2, h3⟩ := s a ta ha2 hh
    refine ⟨h1, h2, ?_⟩
    intro k u hu hx
    rcases set_get hu with ⟨rfl, rfl⟩ | ⟨_, hu2⟩
    · cases hx
    · exact h3 k u hu2 hx

theorem held_ments {h : Hnsw} {an : AMap UInt64 Vertex} {u : Thread D} (k : PCOK M h an u.job u.pc) {x : UInt64}
    (hx : u.held true = some x) : (∃ cur l nns ns, u.pc = .setOwn cur l nns ns ∧ x = u.job.id) ∨ x ∈ u.pc.ments := by
  unfold Thread.held at hx
  cases hp : u.pc with
  | setOwn cur l nns ns => rw [hp] at hx; cases hx; exact Or.inl ⟨_, _, _, _, rfl, rfl⟩
  | dead _ _ => rw [hp] at k; exact k.elim
  | _ => rw [hp] at hx; cases hx <;> (right; simp [PC.ments])

/-- if nobody knows of the unlinked vertices, the locks that only the fixed program takes are never contended. -/
theorem real_fixed {m m' : Mach D} {an : AMap UInt64 Vertex} (c : MachInv M dim m.h an m.ts) (s : Sec m.h m.ts) {i : Nat}
    (h : m.step false M (.run i) = some m') : m.step true M (.run i) = some m' := by
  obtain ⟨t, pc, ht, hs, e⟩ := step_run h
  have hfree : ∀ x, x ∈ t.pc.ments → lockedBy false m.ts x = false → lockedBy true m.ts x = false := by
    intro x hx hl
    cases hb : lockedBy true m.ts x with
    | false => rfl
    | true =>
      exfalso
      obtain ⟨u, hu, hux⟩ := List.any_eq_true.mp hb
      have hux : u.held true = some x := by simpa using hux
      obtain ⟨k, hk⟩ := List.getElem?_of_mem hu
      have hup : u.pc.hidden = true ∧ u.job.id = x := by
        have hnf := locked_false hl hk
        unfold Thread.held at hux hnf
        cases hp : u.pc <;> rw [hp] at hux hnf <;> first | exact absurd hux hnf | skip
        cases hux; exact ⟨rfl, rfl⟩
      apply (s k u hk hup.1).2.2 i t ht
      rw [hup.2]; exact hx
  have key : stepPC true M m.h (lockedBy true m.ts) t.job t.pc = some (m'.h, pc) := by
    have ok := c.thr i t ht
    cases hpc : t.pc with
    | pop cur ph sl buf =>
      rw [hpc] at hs ok
      have ok : Searching M m.h t.job ph sl buf := ok
      simp only [stepPC] at hs ⊢
      cases hp : Heap.pop (minLess M.lt) sl.cands with
      | none => rw [hp] at hs; exact hs
      | some p =>
        obtain ⟨e, rest⟩ := p
        have hem : e ∈ sl.cands := (Heap.pop_perm _ _ _ _ hp).symm.mem_iff.mp (by simp)
        rw [hp] at hs
        dsimp only at hs ⊢
        split at hs
        · exact hs
        · split at hs
          · rename_i hc; rw [if_pos hc]; exact hs
          · rename_i hc
            rw [if_neg hc]
            split at hs
            · exact hs
            · split at hs
              · cases hs
              · rename_i hl
                rw [if_neg]
                · exact hs
                · rw [hfree e.id (by rw [hpc]; exact ok.inv.cdVis e hem) (by simpa using hl)]; simp
    | link cur l nns todo =>
      rw [hpc] at hs
      cases todo with
      | nil => exact hs
      | cons n rest =>
        simp only [stepPC] at hs ⊢
        split at hs
        · exact hs
        · split at hs
          · cases hs
          · rename_i hl
            rw [if_neg]
            · exact hs
            · rw [hfree n (by rw [hpc]; simp [PC.ments]) (by simpa using hl)]; simp
    | logOwn cur l nns ns =>
      rw [hpc] at hs
      simp only [stepPC, Bool.false_and, Bool.true_and] at hs ⊢
      rw [if_neg]
      · simpa using hs
      · intro hb
        obtain ⟨u, hu, hux⟩ := List.any_eq_true.mp hb
        have hux : u.held true = some t.job.id := by simpa using hux
        obtain ⟨k, hk⟩ := List.getElem?_of_mem hu
        rcases held_ments (c.thr k u hk) hux with ⟨_, _, _, _, hp, hid⟩ | hx
        · have := c.ids i k t u ht hk (by rw [hpc]; rfl) (by rw [hp]; rfl) hid
          subst this
          rw [ht] at hk; cases hk
          rw [hpc] at hp; cases hp
        · exact (s i t ht (by rw [hpc]; rfl)).2.2 k u hk hx
    | _ => rw [hpc] at hs; exact hs
  simp only [Mach.step, ht, key]
  cases m' with
  | mk h1 ts1 => cases e; rfl

/-- all the inserts draw level 0 ⇒ the program as it is behaves like the fixed one. -/
theorem sched_level0 (hM : DimOK M dim) {m m' : Mach D} {js : List Job} (hq : m.quiet) (hi : ∃ an, MachInv M dim m.h an m.ts)
    (hs : Sched false M dim m js m') (h0 : ∀ j ∈ js, j.level = 0) :
    Sched true M dim m js m' ∧ Sec m'.h m'.ts := by
  induction hs with
  | start =>
    refine ⟨.start, ?_⟩
    intro a ta ha hh
    have := hq ta (List.mem_of_getElem? ha)
    rw [PC.hidden_active hh] at this; cases this
  | run i h1 h ih =>
    obtain ⟨f, s⟩ := ih h0
    obtain ⟨an, c⟩ := sched_inv hM f hi
    have h' := real_fixed c s h
    refine ⟨.run i f h', ?_⟩
    obtain ⟨t, pc, ht, hs, e⟩ := step_run h'
    rw [e]
    refine s.step hM c ht ?_ hs
    exact h0 _ ((sched_grow hq h1).mine i t ht (stepPC_eff hs).act)
  | call i j h1 hf hj h ih =>
    obtain ⟨f, s⟩ := ih (fun x hx => h0 x (List.mem_append.mpr (Or.inl hx)))
    obtain ⟨an, c⟩ := sched_inv hM f hi
    refine ⟨.call i j f hf hj h, ?_⟩
    obtain ⟨t, ht, hp, e⟩ := step_call h
    subst e
    exact s.call c ht hf

end Vectory.Conc
