import Verif.Lemmas.ConcStep
/-! Every step of the fixed program keeps the invariant (continued). -/
namespace Vectory.Conc
open Vectory
variable {D : Type} {M : Metric D} {dim : Nat} {h : Hnsw} {an : AMap UInt64 Vertex} {ts : List (Thread D)}

theorem held_none {pc' : PC D} {id : UInt64} (hh : pc'.held true id = none) {P : UInt64 → Prop} :
    ∀ x, pc'.held true id = some x → P x := by
  intro x hx; rw [hh] at hx; cases hx

theorem CfgOK.maxConn_le {cfg : Cfg} (c : CfgOK cfg) (l : Nat) : maxConn cfg l ≤ cfg.mMax0 := by
  unfold maxConn Cfg.mMax0; split <;> omega

theorem maxConn_deg (cfg : Cfg) (l : Nat) : maxConn cfg l ≤ degBound cfg l := by
  unfold maxConn degBound; omega

theorem m_deg (cfg : Cfg) (l : Nat) : cfg.m ≤ degBound cfg l := by
  unfold degBound; omega

theorem MachInv.linkOf (c : MachInv M dim h an ts) {x : UInt64} {l : Nat} (hl : HasLevel h.nodes x l) :
    ∃ cs, link? h.nodes x l = some cs ∧ cs.length ≤ degBound h.cfg l ∧ ∀ n ∈ cs, HasLevel h.nodes n l := by
  obtain ⟨cs, hcs⟩ := hasLevel_iff.mp hl
  obtain ⟨_, h1, h2⟩ := c.mem.graph.linkOK x l cs hcs
  exact ⟨cs, hcs, h1, h2⟩

/-- the entry points that `enter` finds. -/
theorem enter_ok (hM : DimOK M dim) (c : MachInv M dim h an ts) {j : Job} (hj : JobOK dim j) (hown : Own h.nodes j) :
    ∃ d, (do let epv ← nodeAt h.nodes h.entry; M.dist epv.vec j.vec) = Except.ok d ∧
      EpsOK M h.nodes j.vec (At h.nodes h.maxLayer) [{ id := h.entry, dist := d }] := by
  have hne : h.nodes ≠ [] := by
    intro hn
    obtain ⟨v, hv, _⟩ := hown
    rw [hn] at hv; simp at hv
  rcases c.mem.entry with h1 | h1
  · exact absurd h1 hne
  · obtain ⟨v, hv, hl⟩ := h1
    obtain ⟨d, hd⟩ := hM v.vec j.vec (c.vec _ _ hv) hj.1
    refine ⟨d, by rw [nodeAt_of hv, ok_bind, hd], by simp, by simp, ?_, ?_⟩
    · intro e he; simp at he; subst he; exact ⟨v, hv, hl⟩
    · intro e he; simp at he; subst he; exact ⟨v, hv, hd⟩

theorem SInv.eps {nodes : AMap UInt64 Vertex} {q : Vec} {ef : Nat} {P : UInt64 → Prop} {s : SL D}
    (i : SInv M nodes q ef P s) : EpsOK M nodes q P s.nn := ⟨i.ne, i.nnNd, fun e he => i.visP _ (i.nnVis e he), i.nnD⟩

/-- the end of a layer search. -/
theorem afterSearch_ok (hM : DimOK M dim) (c : MachInv M dim h an ts) {j : Job} {cur : Nat} {ph : Phase} {s : SL D}
    {buf : List UInt64} (k : Searching M h j ph s buf) :
    PCOK M h an j (afterSearch M h j cur ph s.nn) ∧ (afterSearch M h j cur ph s.nn).held true j.id = none := by
  have he := SInv.eps k.inv
  have hlen := k.inv.len
  have h1C := c.cfg.efC
  cases ph with
  | lookup n =>
    cases hn : s.nn with
    | nil => exact absurd hn k.inv.ne
    | cons e r =>
      rw [hn] at he
      have he1 := he.head
      cases n with
      | zero =>
        refine ⟨⟨k.own, Nat.min_le_right _ _, he1.mono ?_, ?_⟩, rfl⟩
        · intro x hx
          refine HasLevel.mono hx ?_
          show min cur j.level ≤ j.level + 0 + 1
          omega
        · simpa [Phase.ef] using h1C
      | succ n =>
        refine ⟨⟨k.own, trivial, he1.mono ?_, by simp [Phase.ef]⟩, rfl⟩
        intro x hx
        exact HasLevel.mono hx (show j.level + n + 1 ≤ j.level + (n + 1) + 1 by omega)
  | construct l =>
    obtain ⟨ns, hs, sel⟩ := selectNeighbors_spec M h.cfg h.nodes s.nn h.cfg.m (c.vec.pair hM)
      (fun e he' => by obtain ⟨w, hw, _⟩ := he.dist e he'; exact ⟨w, hw⟩)
    simp only [afterSearch, hs, orDie]
    refine ⟨⟨⟨k.own, k.phOK, he, hlen, ?_⟩, sel.len⟩, rfl⟩
    intro n hn
    obtain ⟨e, he', rfl⟩ := List.mem_map.mp (sel.sub n hn)
    exact he.mem e he'

theorem afterSearch_pend {j : Job} {cur : Nat} {ph : Phase} {nns : List (Elem D)} {x : UInt64} {l : Nat} :
    ¬ Pend j.id x l (afterSearch M h j cur ph nns) := by
  unfold afterSearch
  split
  · split
    · exact id
    · split <;> exact id
  · unfold orDie; split <;> exact id

/-- the distance computation for pruning succeeds. -/
theorem prune_ok (hM : DimOK M dim) (c : MachInv M dim h an ts) {j : Job} (hj : JobOK dim j) {l : Nat}
    (hown : HasLevel h.nodes j.id l) {n : UInt64} {nv : Vertex} {cs : List UInt64} (hnv : h.nodes.get? n = some nv)
    (hcs : ∀ x ∈ cs, HasLevel h.nodes x l) :
    ∃ new, prune M h j l nv cs = .ok new ∧ (∀ x ∈ new, HasLevel h.nodes x l) ∧ new.length ≤ maxConn h.cfg l := by
  have hnd := c.vec n nv hnv
  obtain ⟨d, hd⟩ := hM nv.vec j.vec hnd hj.1
  obtain ⟨es, he1, he2, he3⟩ := elemsOf_spec M h.nodes nv (fun y vy hy => hM _ _ hnd (c.vec y vy hy)) cs
    (fun x hx => get_of_hasLevel (hcs x hx))
  have hids : ((({ id := j.id, dist := d } : Elem D) :: es).map Elem.id) = j.id :: cs := by simp [he2]
  obtain ⟨r, hr, sel⟩ := selectNeighbors_spec M h.cfg h.nodes (({ id := j.id, dist := d } : Elem D) :: es)
    (maxConn h.cfg l) (c.vec.pair hM) (by
      intro e he
      rcases List.mem_cons.mp he with rfl | he
      · exact get_of_hasLevel hown
      · obtain ⟨w, hw, _⟩ := he3 e he; exact ⟨w, hw⟩)
  refine ⟨r, ?_, ?_, sel.len⟩
  · unfold prune
    rw [hd, ok_bind, he1, ok_bind, hr]
  · intro x hx
    have := sel.sub x hx
    rw [hids] at this
    rcases List.mem_cons.mp this with rfl | h1
    · exact hown
    · exact hcs x h1

theorem link_agree (c : MachInv M dim h an ts) {x : UInt64} {l : Nat} (hl : HasLevel h.nodes x l)
    (hfree : lockedBy true ts x = false) : link? an x l = link? h.nodes x l := by
  rcases c.link x l hl with h1 | ⟨k, u, hu, hp⟩
  · exact h1
  · exfalso
    apply locked_false hfree hu
    unfold Thread.held
    cases hup : u.pc <;> rw [hup] at hp <;> first | exact hp.elim | (obtain ⟨rfl, _⟩ := hp; rfl)

theorem step_inv (hM : DimOK M dim) (c : MachInv M dim h an ts) {i : Nat} {t : Thread D} (ht : ts[i]? = some t) {h' : Hnsw}
    {pc' : PC D} (hs : stepPC true M h (lockedBy true ts) t.job t.pc = some (h', pc')) :
    ∃ an', MachInv M dim h' an' (ts.set i { t with pc := pc' }) := by
  have ok := c.thr i t ht
  cases hpc : t.pc with
  | idle => rw [hpc] at hs; cases hs
  | start =>
    rw [hpc] at hs
    simp only [stepPC] at hs
    split at hs
    · rename_i hh; cases hs; exact step_first c ht hpc hh.1 hh.2
    · rename_i hh
      cases hs
      refine ⟨an, step_start c ht hpc ?_⟩
      intro hn
      cases ho : h.once with
      | false => exact hh ⟨ho, hn⟩
      | true => exact c.once ho hn
  | create =>
    rw [hpc] at hs
    simp only [stepPC] at hs
    have hm : ¬ h.cfg.m = 1 := by have := c.cfg.m2; omega
    rw [if_neg hm] at hs
    cases hs; exact step_create c ht hpc
  | publish =>
    rw [hpc] at hs
    cases hs; exact ⟨an, step_publish c ht hpc⟩
  | enter =>
    have hact : t.pc.active = true := by rw [hpc]; rfl
    rw [hpc] at ok
    have hown : Own h.nodes t.job := ok
    obtain ⟨d, hd, he⟩ := enter_ok hM c (c.job i t ht hact) hown
    have h1C := c.cfg.efC
    rw [hpc] at hs
    simp only [stepPC, hd, orDie] at hs
    cases hs
    refine ⟨an, c.quiet ht _ hact hown (by rw [hpc]; exact fun _ _ hp => hp.elim) (held_none rfl) ⟨hown, ?_, ?_, ?_⟩⟩
    · split
      · trivial
      · exact Nat.min_le_right _ _
    · split
      · have : Phase.layer t.job.level (.lookup (h.maxLayer - t.job.level - 1)) = h.maxLayer := by
          simp only [Phase.layer]; omega
        rw [this]; exact he
      · exact he.mono (fun x hx => hx.mono (Nat.min_le_left _ _))
    · split <;> simpa [Phase.ef] using h1C
  | layer cur ph eps =>
    have hact : t.pc.active = true := by rw [hpc]; rfl
    rw [hpc] at ok
    obtain ⟨o1, o2, o3, o4⟩ := ok
    rw [hpc] at hs
    simp only [stepPC] at hs
    rw [if_neg (by omega)] at hs
    cases hs
    exact ⟨an, c.quiet ht _ hact o1 (by rw [hpc]; exact fun _ _ hp => hp.elim) (held_none rfl)
      ⟨o1, o2, sinv_init M h.nodes t.job.vec _ _ eps o3 o4, by simp⟩⟩
  | pop cur ph s buf =>
    have hact : t.pc.active = true := by rw [hpc]; rfl
    rw [hpc] at ok
    have ok : Searching M h t.job ph s buf := ok
    have hpend : ∀ (pc' : PC D) x l, Pend t.job.id x l t.pc → Pend t.job.id x l pc' := by
      rw [hpc]; exact fun _ _ _ hp => hp.elim
    obtain ⟨ha1, ha2⟩ := afterSearch_ok (cur := cur) hM c ok
    rw [hpc] at hs
    simp only [stepPC] at hs
    cases hp : Heap.pop (minLess M.lt) s.cands with
    | none =>
      rw [hp] at hs; cases hs
      exact ⟨an, c.quiet ht _ hact ok.own (hpend _) (held_none ha2) ha1⟩
    | some p =>
      obtain ⟨e, rest⟩ := p
      obtain ⟨f, hf⟩ := peek_some ok.inv.ne
      simp only [hp, hf] at hs
      split at hs
      · cases hs
        exact ⟨an, c.quiet ht _ hact ok.own (hpend _) (held_none ha2) ha1⟩
      · have hpp := (Heap.pop_perm _ _ _ _ hp).symm
        have hem : e ∈ s.cands := hpp.mem_iff.mp (by simp)
        have hrm : ∀ x ∈ rest, x ∈ s.cands := fun x hx => hpp.mem_iff.mp (List.mem_cons_of_mem _ hx)
        have hl : HasLevel h.nodes e.id (ph.layer t.job.level) := ok.inv.visP _ (ok.inv.cdVis e hem)
        obtain ⟨cs, hcs, hcl, _⟩ := c.linkOf hl
        obtain ⟨v, hv, hvc⟩ := link?_some hcs
        rw [hv] at hs
        dsimp only at hs
        split at hs
        · cases hs
        · rename_i hfree
          have hdeg := c.cfg.deg (ph.layer t.job.level)
          simp only [connsAt_of hvc, orDie] at hs
          rw [if_neg (by omega)] at hs
          cases hs
          have hi := ok.inv
          refine ⟨an, c.quiet ht _ hact ok.own (hpend _) ?_ ⟨⟨ok.own, ok.phOK, ⟨hi.vis, hi.visP, hi.ne, hi.len, hi.nnNd, hi.nnVis,
            hi.nnD, fun x hx => hi.cdVis x (hrm x hx), fun x hx => hi.cdD x (hrm x hx)⟩, ok.buf⟩, cs, hcs, rfl, by omega⟩⟩
          intro x hx
          cases hx
          exact Or.inr (by simpa using hfree)
  | copy cur ph s buf cid n =>
    have hact : t.pc.active = true := by rw [hpc]; rfl
    rw [hpc] at ok
    obtain ⟨o1, cs, o2, o3, o4⟩ := ok
    obtain ⟨v, hv, hvc⟩ := link?_some o2
    obtain ⟨_, _, hlv⟩ := c.mem.graph.linkOK _ _ _ o2
    rw [hpc] at hs
    simp only [stepPC, nodeAt_of hv, ok_bind, connsAt_of hvc, orDie] at hs
    cases hs
    have htk : cs.take n = cs := by rw [o3, List.take_length]
    refine ⟨an, c.quiet ht _ hact o1.own (by rw [hpc]; exact fun _ _ hp => hp.elim) (held_none rfl)
      ⟨⟨o1.own, o1.phOK, o1.inv, ?_⟩, ?_⟩⟩
    · rw [htk]
      have := o1.buf
      simp; omega
    · rw [htk, o3, List.take_left]
      exact hlv
  | visit cur ph s buf todo =>
    have hact : t.pc.active = true := by rw [hpc]; rfl
    rw [hpc] at ok
    obtain ⟨o1, o2⟩ := ok
    have hpend : ∀ (pc' : PC D) x l, Pend t.job.id x l t.pc → Pend t.job.id x l pc' := by
      rw [hpc]; exact fun _ _ _ hp => hp.elim
    have hj := c.job i t ht hact
    rw [hpc] at hs
    cases todo with
    | nil => cases hs; exact ⟨an, c.quiet ht _ hact o1.own (hpend _) (held_none rfl) o1⟩
    | cons nid rest =>
      have h1C := c.cfg.efC
      obtain ⟨s', hv, hi, _⟩ := visitOne_spec M h.nodes t.job.vec (ph.ef h.cfg) (At h.nodes (ph.layer t.job.level)) s nid o1.inv
        (by cases ph <;> simp only [Phase.ef] <;> omega) (o2 nid (by simp)) (get_of_hasLevel (o2 nid (by simp)))
        (distOK_of hM c.vec hj.1 _)
      simp only [stepPC, hv, orDie] at hs
      cases hs
      exact ⟨an, c.quiet ht _ hact o1.own (hpend _) (held_none rfl)
        ⟨⟨o1.own, o1.phOK, hi, o1.buf⟩, fun x hx => o2 x (List.mem_cons_of_mem _ hx)⟩⟩
  | logOwn cur l nns ns =>
    have hact : t.pc.active = true := by rw [hpc]; rfl
    rw [hpc] at ok
    obtain ⟨o1, o2⟩ := ok
    have hj := c.job i t ht hact
    have ho1 := o1.own.at o1.lvl
    rw [hpc] at hs
    simp only [stepPC, Bool.true_and] at hs
    split at hs
    · cases hs
    · rename_i hfree
      cases hs
      have hlvl := o1.lvl
      have hm := c.cfg.mM
      have hsm := c.cfg.small
      obtain ⟨a', e, g, f, lk⟩ := setConnections_spec c.ghost (id := t.job.id) (l := l) (c := ns) (c.agree.hasLevel ho1)
        (by have := hj.2; omega) (by omega) (fun hf => hf.elim) (Nat.le_trans o2 (m_deg _ _))
        (fun n hn => c.agree.hasLevel (o1.todo n hn))
      have hae := setConnections_eq e
      rw [hae] at g
      refine ⟨a'.nodes, c.logged ht _ hact o1.own (recSetConnections t.job.id (UInt32.ofNat l) ns) g f.shape lk rfl ho1
        ⟨rfl, rfl⟩ (by rw [hpc]; exact fun _ _ => id) (Or.inr (by simpa using hfree))
        ⟨o1.ext rfl (Ext.refl _), o2, by rw [lk, if_pos ⟨rfl, rfl⟩]⟩⟩
  | setOwn cur l nns ns =>
    have hact : t.pc.active = true := by rw [hpc]; rfl
    rw [hpc] at ok
    obtain ⟨o1, o2, o3⟩ := ok
    obtain ⟨v, hv, hvl⟩ := o1.own.at o1.lvl
    rw [hpc] at hs
    simp only [stepPC, setConns_ok ns hv hvl] at hs
    cases hs
    refine ⟨an, c.written ht _ hact o1.own hv hvl (Nat.le_trans o2 (m_deg _ _)) o1.todo o3 (by unfold Thread.held; rw [hpc]; rfl)
      (by rw [hpc]; exact fun _ _ hp => hp) rfl ?_⟩
    exact o1.ext rfl (Ext.of_shape (shape_put _ hv))
  | link cur l nns todo =>
    have hact : t.pc.active = true := by rw [hpc]; rfl
    rw [hpc] at ok
    have o1 : Linking M h t.job l nns todo := ok
    have hpend : ∀ (pc' : PC D) x l, Pend t.job.id x l t.pc → Pend t.job.id x l pc' := by
      rw [hpc]; exact fun _ _ _ hp => hp.elim
    have hj := c.job i t ht hact
    rw [hpc] at hs
    cases todo with
    | nil =>
      cases l with
      | zero =>
        cases hs
        exact ⟨an, c.quiet ht _ hact o1.own (hpend _) (held_none rfl) o1.own⟩
      | succ l =>
        cases hs
        have hlvl := o1.lvl
        refine ⟨an, c.quiet ht _ hact o1.own (hpend _) (held_none rfl) ⟨o1.own, ?_, o1.eps.mono ?_, o1.len⟩⟩
        · show l ≤ t.job.level; omega
        · intro x hx; exact HasLevel.mono hx (Nat.le_succ l)
    | cons n rest =>
      have hnl := o1.todo n (by simp)
      obtain ⟨cs, hcs, hcl, hcm⟩ := c.linkOf hnl
      obtain ⟨v, hv, hvc⟩ := link?_some hcs
      simp only [stepPC, hv] at hs
      have o2 : Linking M h t.job l nns rest := ⟨o1.own, o1.lvl, o1.eps, o1.len, fun x hx => o1.todo x (List.mem_cons_of_mem _ hx)⟩
      split at hs
      · cases hs
      · rename_i hfree
        have hfree : lockedBy true ts n = false := by simpa using hfree
        simp only [connsAt_of hvc, orDie] at hs
        split at hs
        · rename_i hlt
          cases hs
          refine ⟨an, c.quiet ht _ hact o1.own (hpend _) ?_ ⟨o2, cs, hcs, ?_, hlt⟩⟩
          · intro x hx; cases hx; exact Or.inr hfree
          · rw [link_agree c hnl hfree]; exact hcs
        · obtain ⟨new, p1, p2, p3⟩ := prune_ok hM c hj (o1.own.at o1.lvl) hv hcm
          simp only [p1] at hs
          cases hs
          refine ⟨an, c.quiet ht _ hact o1.own (hpend _) ?_ ⟨o2, hnl, p2, p3⟩⟩
          intro x hx; cases hx; exact Or.inr hfree
  | addLog cur l nns n rest =>
    have hact : t.pc.active = true := by rw [hpc]; rfl
    rw [hpc] at ok
    obtain ⟨o1, cs, o2, o3, o4⟩ := ok
    have hj := c.job i t ht hact
    rw [hpc] at hs
    cases hs
    have hlvl := o1.lvl
    have hmd := maxConn_deg h.cfg l
    obtain ⟨a', e, g, f, lk⟩ := addConnection_spec c.ghost (id := n) (l := l) (n := t.job.id) o3
      (by have := hj.2; omega) (fun hf => hf.elim) (show cs.length + 1 ≤ degBound h.cfg l by omega)
      (c.agree.hasLevel (o1.own.at o1.lvl))
    have hae := addConnection_eq e
    rw [hae] at g
    exact ⟨a'.nodes, c.logged ht _ hact o1.own (recAddConnection n (UInt32.ofNat l) t.job.id) g f.shape lk rfl
      (hasLevel_of_link o2) ⟨rfl, rfl⟩ (by rw [hpc]; exact fun _ _ => id) (Or.inl (by unfold Thread.held; rw [hpc]; rfl))
      ⟨o1.ext rfl (Ext.refl _), cs, o2, by rw [lk, if_pos ⟨rfl, rfl⟩], o4⟩⟩
  | addRead cur l nns n rest =>
    have hact : t.pc.active = true := by rw [hpc]; rfl
    rw [hpc] at ok
    obtain ⟨o1, cs, o2, o3, o4⟩ := ok
    obtain ⟨v, hv, hvc⟩ := link?_some o2
    rw [hpc] at hs
    simp only [stepPC, nodeAt_of hv, ok_bind, connsAt_of hvc, orDie] at hs
    cases hs
    refine ⟨an, c.quiet ht _ hact o1.own (by rw [hpc]; exact fun _ _ hp => hp) ?_ ⟨o1, o2, o3, o4⟩⟩
    intro x hx
    exact Or.inl (by unfold Thread.held; rw [hpc]; exact hx)
  | addWrite cur l nns n rest cs =>
    have hact : t.pc.active = true := by rw [hpc]; rfl
    rw [hpc] at ok
    obtain ⟨o1, o2, o3, o4⟩ := ok
    obtain ⟨v, hv, hvc⟩ := link?_some o2
    have hvl : l < v.conns.length := (List.getElem?_eq_some_iff.mp hvc).1
    obtain ⟨_, _, hcm⟩ := c.mem.graph.linkOK _ _ _ o2
    have hmd := maxConn_deg h.cfg l
    rw [hpc] at hs
    simp only [stepPC, setConns_ok _ hv hvl] at hs
    cases hs
    refine ⟨an, c.written ht _ hact o1.own hv hvl (by simp; omega) ?_ o3 (by unfold Thread.held; rw [hpc]; rfl)
      (by rw [hpc]; exact fun _ _ hp => hp) rfl ?_⟩
    · intro x hx
      rcases List.mem_append.mp hx with h1 | h1
      · exact hcm x h1
      · simp at h1; subst h1; exact o1.own.at o1.lvl
    · exact o1.ext rfl (Ext.of_shape (shape_put _ hv))
  | pruneLog cur l nns n rest new =>
    have hact : t.pc.active = true := by rw [hpc]; rfl
    rw [hpc] at ok
    obtain ⟨o1, o2, o3, o4⟩ := ok
    have hj := c.job i t ht hact
    rw [hpc] at hs
    cases hs
    have hlvl := o1.lvl
    have hmd := maxConn_deg h.cfg l
    have hm0 := CfgOK.maxConn_le c.cfg l
    have hsm := c.cfg.small
    obtain ⟨a', e, g, f, lk⟩ := setConnections_spec c.ghost (id := n) (l := l) (c := new) (c.agree.hasLevel o2)
      (by have := hj.2; omega) (by omega) (fun hf => hf.elim) (Nat.le_trans o4 hmd)
      (fun x hx => c.agree.hasLevel (o3 x hx))
    have hae := setConnections_eq e
    rw [hae] at g
    exact ⟨a'.nodes, c.logged ht _ hact o1.own (recSetConnections n (UInt32.ofNat l) new) g f.shape lk rfl o2
      ⟨rfl, rfl⟩ (by rw [hpc]; exact fun _ _ => id) (Or.inl (by unfold Thread.held; rw [hpc]; rfl))
      ⟨o1.ext rfl (Ext.refl _), o2, o3, o4, by rw [lk, if_pos ⟨rfl, rfl⟩]⟩⟩
  | pruneSet cur l nns n rest new =>
    have hact : t.pc.active = true := by rw [hpc]; rfl
    rw [hpc] at ok
    obtain ⟨o1, o2, o3, o4, o5⟩ := ok
    obtain ⟨v, hv, hvl⟩ := o2
    rw [hpc] at hs
    simp only [stepPC, setConns_ok new hv hvl] at hs
    cases hs
    refine ⟨an, c.written ht _ hact o1.own hv hvl (Nat.le_trans o4 (maxConn_deg _ _)) o3 o5 (by unfold Thread.held; rw [hpc]; rfl)
      (by rw [hpc]; exact fun _ _ hp => hp) rfl ?_⟩
    exact o1.ext rfl (Ext.of_shape (shape_put _ hv))
  | finish cur =>
    rw [hpc] at hs
    simp only [stepPC] at hs
    split at hs
    · cases hs; exact ⟨an, step_finish c ht hpc⟩
    · cases hs
      have hact : t.pc.active = true := by rw [hpc]; rfl
      rw [hpc] at ok
      exact ⟨an, c.quiet ht _ hact ok (by rw [hpc]; exact fun _ _ hp => hp.elim) (held_none rfl) trivial⟩
  | dead p x => rw [hpc] at ok; exact ok.elim

end Vectory.Conc
