import Verif.Lemmas.Conc
/-! Every step of the fixed program keeps the invariant. -/
namespace Vectory.Conc
open Vectory
variable {D : Type} {M : Metric D} {dim : Nat} {h : Hnsw} {an : AMap UInt64 Vertex} {ts : List (Thread D)}

theorem get_of_hasLevel {nodes : AMap UInt64 Vertex} {x : UInt64} {l : Nat} (h : HasLevel nodes x l) :
    ∃ v, nodes.get? x = some v := by
  obtain ⟨v, hv, _⟩ := h; exact ⟨v, hv⟩

/-- steps that change local variables only. -/
theorem MachInv.quiet (c : MachInv M dim h an ts) {i : Nat} {t : Thread D} (ht : ts[i]? = some t) (pc' : PC D)
    (hact : t.pc.active = true) (hown : Own h.nodes t.job)
    (hpend : ∀ x l, Pend t.job.id x l t.pc → Pend t.job.id x l pc')
    (held : ∀ x, pc'.held true t.job.id = some x → t.held true = some x ∨ lockedBy true ts x = false)
    (tok : PCOK M h an t.job pc') : MachInv M dim h an (ts.set i { t with pc := pc' }) := by
  refine c.build ht pc' hact rfl c.top32 c.ghost c.mem c.vec c.once (Ext.refl _) ?_ c.agree ?_ held
    (fun _ _ _ _ _ => ⟨rfl, rfl⟩) (fun _ _ hn => ⟨hn, rfl⟩) tok
  · intro x v hv
    by_cases hx : x = t.job.id
    · subst hx; obtain ⟨w, hw, _⟩ := hown; exact Or.inl ⟨w, hw⟩
    · exact Or.inr (Or.inr ⟨hx, v, hv⟩)
  · intro x l hl
    by_cases hp : Pend t.job.id x l t.pc
    · exact Or.inr (Or.inl (hpend x l hp))
    · exact Or.inr (Or.inr ⟨hp, hl, rfl, rfl⟩)

/-- steps that write a log record about the list `(y, l)`. -/
theorem MachInv.logged (c : MachInv M dim h an ts) {i : Nat} {t : Thread D} (ht : ts[i]? = some t) (pc' : PC D)
    (hact : t.pc.active = true) (hown : Own h.nodes t.job) (r : Bytes) {an' : AMap UInt64 Vertex} {y : UInt64} {l : Nat}
    {cs : List UInt64} (ghost : MInv False { (h.log r) with nodes := an' }) (sh : Shape an an')
    (lk : ∀ x l', link? an' x l' = if x = y ∧ l' = l then some cs else link? an x l')
    (hy : pc'.held true t.job.id = some y) (hyl : HasLevel h.nodes y l) (hp : Pend t.job.id y l pc')
    (hp' : ∀ x l, ¬ Pend t.job.id x l t.pc)
    (held : t.held true = some y ∨ lockedBy true ts y = false)
    (tok : PCOK M (h.log r) an' t.job pc') : MachInv M dim (h.log r) an' (ts.set i { t with pc := pc' }) := by
  refine c.build (h' := h.log r) (an' := an') ht pc' hact rfl c.top32 ghost ⟨c.mem.graph, c.mem.entry⟩ c.vec c.once (Ext.refl _) ?_
    (c.agree.trans (Ext.of_shape sh)) ?_ ?_ ?_ ?_ ?_
  · intro x v hv
    by_cases hx : x = t.job.id
    · subst hx; obtain ⟨w, hw, _⟩ := hown; exact Or.inl ⟨w, hw⟩
    · obtain ⟨w, hw, _⟩ := sh.symm.get_some hv
      exact Or.inr (Or.inr ⟨hx, w, hw⟩)
  · intro x l' hl
    by_cases hxy : x = y ∧ l' = l
    · obtain ⟨rfl, rfl⟩ := hxy; exact Or.inr (Or.inl hp)
    · exact Or.inr (Or.inr ⟨hp' x l', hl, by rw [lk, if_neg hxy], rfl⟩)
  · intro x hx
    rw [hy] at hx; cases hx; exact held
  · intro x _ hx _ l'
    refine ⟨rfl, ?_⟩
    rw [lk, if_neg]
    rintro ⟨rfl, _⟩
    exact hx hy
  · intro x _ hn
    refine ⟨hn, ?_⟩
    obtain ⟨v, hv⟩ := get_of_hasLevel hyl
    have hxy : x ≠ y := by rintro rfl; rw [hv] at hn; cases hn
    cases ha : an.get? x with
    | none =>
      cases hb : an'.get? x with
      | none => rfl
      | some w =>
        obtain ⟨w', hw', _⟩ := sh.symm.get_some hb
        rw [ha] at hw'; cases hw'
    | some w =>
      obtain ⟨w', hw', h1, h2, h3⟩ := sh.get_some ha
      rw [hw']
      have : w'.conns = w.conns := by
        apply List.ext_getElem?
        intro k
        have := lk x k
        rw [if_neg (fun e => hxy e.1)] at this
        unfold link? at this
        rw [hw', ha] at this
        simpa using this
      cases w; cases w'; simp at h1 h3 this; simp [h1, h3, this]
  · exact tok

/-- steps that write the list `(y, l)` of a locked vertex in memory. -/
theorem MachInv.written (c : MachInv M dim h an ts) {i : Nat} {t : Thread D} (ht : ts[i]? = some t) (pc' : PC D)
    (hact : t.pc.active = true) (hown : Own h.nodes t.job) {v : Vertex} {y : UInt64} {l : Nat}
    {cs : List UInt64} (hv : h.nodes.get? y = some v) (hvl : l < v.conns.length) (hlen : cs.length ≤ degBound h.cfg l)
    (hlev : ∀ n ∈ cs, HasLevel h.nodes n l) (hcs : link? an y l = some cs)
    (hy : t.held true = some y) (hp : ∀ x l', Pend t.job.id x l' t.pc → x = y ∧ l' = l)
    (hh : pc'.held true t.job.id = none)
    (tok : PCOK M { h with nodes := putConns h.nodes y v l cs } an t.job pc') :
    MachInv M dim { h with nodes := putConns h.nodes y v l cs } an (ts.set i { t with pc := pc' }) := by
  have sh := shape_put (l := l) cs hv
  have lk := link?_put cs hv hvl
  refine c.build (h' := { h with nodes := putConns h.nodes y v l cs }) (an' := an) ht pc' hact rfl c.top32 c.ghost ?_ (c.vec.shape sh)
    (fun ho => (Ext.of_shape sh).ne (c.once ho)) (Ext.of_shape sh) ?_ ?_ ?_ ?_ ?_ ?_ tok
  · refine ⟨c.mem.graph.put hv hvl (fun hf => hf.elim) hlen hlev, ?_⟩
    rcases c.mem.entry with h1 | h1
    · exact Or.inl (sh.nil_iff.mpr h1)
    · exact Or.inr (sh.hasLevel h1)
  · intro x w hw
    by_cases hx : x = t.job.id
    · subst hx; obtain ⟨w, hw, _⟩ := (Ext.of_shape sh).own hown; exact Or.inl ⟨w, hw⟩
    · exact Or.inr (Or.inr ⟨hx, w, hw⟩)
  · exact (Ext.of_shape sh.symm).trans c.agree
  · intro x l' hl
    by_cases hxy : x = y ∧ l' = l
    · obtain ⟨rfl, rfl⟩ := hxy
      left
      show link? an x l' = link? (putConns h.nodes x v l' cs) x l'
      rw [lk, if_pos ⟨rfl, rfl⟩, hcs]
    · refine Or.inr (Or.inr ⟨fun hpe => hxy (hp x l' hpe), sh.symm.hasLevel hl, rfl, ?_⟩)
      show link? (putConns h.nodes y v l cs) x l' = _
      rw [lk, if_neg hxy]
  · intro x hx; rw [hh] at hx; cases hx
  · intro x _ _ hx l'
    refine ⟨?_, rfl⟩
    show link? (putConns h.nodes y v l cs) x l' = _
    rw [lk, if_neg]
    rintro ⟨rfl, _⟩
    exact hx hy
  · intro x _ hn
    refine ⟨?_, rfl⟩
    cases hb : (putConns h.nodes y v l cs).get? x with
    | none => rfl
    | some w =>
      obtain ⟨w', hw', _⟩ := sh.symm.get_some hb
      rw [hn] at hw'; cases hw'

end Vectory.Conc

namespace Vectory
/-- what `setConnections` leaves alone. -/
theorem setConnections_eq {a b : Hnsw} {id : UInt64} {l : Nat} {c : List UInt64} (e : a.setConnections id l c = .ok b) :
    b = { (a.log (recSetConnections id (UInt32.ofNat l) c)) with nodes := b.nodes } := by
  unfold Hnsw.setConnections at e
  dsimp only at e
  cases h : setConns (a.log (recSetConnections id (UInt32.ofNat l) c)).nodes id l c with
  | error p => rw [h] at e; cases e
  | ok n => rw [h] at e; cases e; rfl

theorem addConnection_eq {a b : Hnsw} {id : UInt64} {l : Nat} {n : UInt64} (e : a.addConnection id l n = .ok b) :
    b = { (a.log (recAddConnection id (UInt32.ofNat l) n)) with nodes := b.nodes } := by
  unfold Hnsw.addConnection at e
  dsimp only at e
  cases h : addConn (a.log (recAddConnection id (UInt32.ofNat l) n)).nodes id l n with
  | error p => rw [h] at e; cases e
  | ok n => rw [h] at e; cases e; rfl

theorem graph_isolated {S : Prop} {cfg : Cfg} {nodes : AMap UInt64 Vertex} (g : Graph S cfg nodes) {id : UInt64}
    (hid : nodes.get? id = none) (vec : Vec) (level : Nat) :
    Graph S cfg (nodes.set id ⟨id, List.replicate (level + 1) [], vec⟩) := by
  have hlk : ∀ x l, link? (nodes.set id ⟨id, List.replicate (level + 1) [], vec⟩) x l =
      if x = id then (if l ≤ level then some [] else none) else link? nodes x l := fun x l =>
    link?_isolated (h := { cfg := cfg, nodes := nodes }) x l
  have hlev : ∀ {x l}, HasLevel nodes x l → HasLevel (nodes.set id ⟨id, List.replicate (level + 1) [], vec⟩) x l := by
    intro x l hx
    obtain ⟨c, hc⟩ := hasLevel_iff.mp hx
    rw [hasLevel_iff]
    refine ⟨c, ?_⟩
    obtain ⟨v, hv, _⟩ := hx
    rw [hlk, if_neg (by rintro rfl; rw [hid] at hv; cases hv)]; exact hc
  refine ⟨AMap.keys_set_nodup g.keysNd _ _, ?_, ?_⟩
  · intro x v hx
    rw [AMap.get?_set] at hx
    split at hx
    · rename_i he; subst he; cases hx; exact ⟨rfl, by simp⟩
    · exact g.idOK x v hx
  · intro x l c hc
    rw [hlk] at hc
    split at hc
    · split at hc
      · cases hc; simp
      · simp at hc
    · obtain ⟨a, c1, d⟩ := g.linkOK x l c hc
      exact ⟨a, c1, fun n hn => hlev (d n hn)⟩
end Vectory

namespace Vectory.Conc
open Vectory
variable {D : Type} {M : Metric D} {dim : Nat} {h : Hnsw} {an : AMap UInt64 Vertex} {ts : List (Thread D)}

theorem ext_set {nodes : AMap UInt64 Vertex} {id : UInt64} (hid : nodes.get? id = none) (v : Vertex) :
    Ext nodes (nodes.set id v) := by
  intro x w hw
  refine ⟨w, ?_, rfl, rfl, rfl⟩
  rw [AMap.get?_set_ne _ _ _ _ (by rintro rfl; rw [hid] at hw; cases hw)]; exact hw

theorem link?_set_ne {nodes : AMap UInt64 Vertex} {id x : UInt64} (hx : x ≠ id) (v : Vertex) (l : Nat) :
    link? (nodes.set id v) x l = link? nodes x l := by
  unfold link?; rw [AMap.get?_set_ne _ _ _ _ (fun e => hx e.symm)]

/-- the very first vertex (`insert.go:19-29`, `129-144`). -/
theorem step_first (c : MachInv M dim h an ts) {i : Nat} {t : Thread D} (ht : ts[i]? = some t) (hpc : t.pc = .start)
    (ho : h.once = false) (hn : h.nodes = []) :
    ∃ an', MachInv M dim (({ h with once := true } : Hnsw).insertFirst t.job.vec t.job.id) an'
      (ts.set i { t with pc := .idle }) := by
  have han : an = [] := by
    cases ha : an with
    | nil => rfl
    | cons p r =>
      exfalso
      obtain ⟨k, v⟩ := p
      rcases c.keys k v (by rw [ha]; simp [AMap.get?]) with ⟨w, hw⟩ | ⟨k, u, hu, h1, _⟩
      · rw [hn] at hw; simp at hw
      · have := c.thr k u hu
        cases hup : u.pc with
        | publish => rw [hup] at this; exact this.2.2 hn
        | _ => rw [hup] at h1; cases h1
  have hg : MInv False h := by
    have := c.ghost
    rw [han] at this
    have e : ({ h with nodes := [] } : Hnsw) = h := by rw [← hn]
    rw [e] at this; exact this
  have hi : Inv False h := ⟨hg, fun hf => hf.elim, c.once, c.top32⟩
  have hi' := hi.first hn t.job.vec t.job.id
  have hnodes : (({ h with once := true } : Hnsw).insertFirst t.job.vec t.job.id).nodes =
      h.nodes.set t.job.id ⟨t.job.id, [[]], t.job.vec⟩ := rfl
  have hnone : ∀ x, h.nodes.get? x = none := by intro x; rw [hn]; rfl
  have hnone' : ∀ x, an.get? x = none := by intro x; rw [han]; rfl
  have hact : t.pc.active = true := by rw [hpc]; rfl
  refine ⟨_, c.build (an' := (({ h with once := true } : Hnsw).insertFirst t.job.vec t.job.id).nodes) ht .idle hact rfl
    hi'.top32 hi'.m hi'.m.good ?_ hi'.once ?_ ?_ (Ext.refl _) (fun x l _ => Or.inl rfl) ?_ ?_ ?_ trivial⟩
  · intro x v hv
    rw [hnodes, hn] at hv
    by_cases hx : t.job.id = x
    · simp [AMap.set, AMap.get?, hx] at hv; subst hv; exact (c.job i t ht hact).1
    · simp [AMap.set, AMap.get?, hx] at hv
  · intro x v hv; rw [hnone] at hv; cases hv
  · intro x v hv; exact Or.inl ⟨v, hv⟩
  · intro x hx; cases hx
  · rintro x ⟨l, hl⟩
    obtain ⟨v, hv⟩ := get_of_hasLevel hl
    rw [hnone] at hv; cases hv
  · intro x hx _
    have : (({ h with once := true } : Hnsw).insertFirst t.job.vec t.job.id).nodes.get? x = none := by
      rw [hnodes, AMap.get?_set_ne _ _ _ _ (fun e => hx e.symm)]; exact hnone x
    exact ⟨this, by rw [this, hnone']⟩

theorem step_start (c : MachInv M dim h an ts) {i : Nat} {t : Thread D} (ht : ts[i]? = some t) (hpc : t.pc = .start)
    (hn : h.nodes ≠ []) : MachInv M dim { h with once := true } an (ts.set i { t with pc := .create }) := by
  have hact : t.pc.active = true := by rw [hpc]; rfl
  have ok := c.thr i t ht
  rw [hpc] at ok
  refine c.build (h' := { h with once := true }) (an' := an) ht .create hact rfl c.top32 (c.ghost.withOnce true)
    (c.mem.withOnce true) c.vec (fun _ => hn) (Ext.refl _) ?_ c.agree ?_ ?_ (fun _ _ _ _ _ => ⟨rfl, rfl⟩)
    (fun _ _ h1 => ⟨h1, rfl⟩) ⟨ok.1, ok.2, hn⟩
  · intro x v hv
    refine Or.inr (Or.inr ⟨?_, v, hv⟩)
    rintro rfl
    rw [ok.2] at hv; cases hv
  · intro x l hl
    refine Or.inr (Or.inr ⟨?_, hl, rfl, rfl⟩)
    rw [hpc]; exact id
  · intro x hx; cases hx

theorem step_create (c : MachInv M dim h an ts) {i : Nat} {t : Thread D} (ht : ts[i]? = some t) (hpc : t.pc = .create) :
    ∃ an', MachInv M dim (h.log (recAddVertex t.job.id (UInt32.ofNat t.job.level))) an' (ts.set i { t with pc := .publish }) := by
  have hact : t.pc.active = true := by rw [hpc]; rfl
  have ok := c.thr i t ht
  rw [hpc] at ok
  obtain ⟨ok1, ok2, ok3⟩ := ok
  have hjob := c.job i t ht hact
  have hi : Inv False { h with nodes := an } := ⟨c.ghost, fun hf => hf.elim, fun _ => c.agree.ne ok3, c.top32⟩
  obtain ⟨g1, _⟩ := isolated_spec (h := { h with nodes := an }) hi (c.agree.ne ok3) (id := t.job.id)
    ((AMap.get?_none_iff _ _).mp ok2) t.job.vec hjob.2
  refine ⟨_, c.build (h' := h.log (recAddVertex t.job.id (UInt32.ofNat t.job.level)))
    (an' := an.set t.job.id ⟨t.job.id, List.replicate (t.job.level + 1) [], t.job.vec⟩) ht .publish hact rfl c.top32 g1
    ⟨c.mem.graph, c.mem.entry⟩ c.vec c.once (Ext.refl _) ?_ (c.agree.trans (ext_set ok2 _)) ?_ ?_ ?_ ?_
    ⟨ok1, AMap.get?_set_self _ _ _, ok3⟩⟩
  · intro x v hv
    by_cases hx : x = t.job.id
    · exact Or.inr (Or.inl ⟨rfl, hx.symm⟩)
    · rw [AMap.get?_set_ne _ _ _ _ (fun e => hx e.symm)] at hv
      exact Or.inr (Or.inr ⟨hx, v, hv⟩)
  · intro x l hl
    refine Or.inr (Or.inr ⟨by rw [hpc]; exact id, hl, ?_, rfl⟩)
    apply link?_set_ne
    rintro rfl
    obtain ⟨v, hv⟩ := get_of_hasLevel hl
    rw [show h.nodes.get? t.job.id = some v from hv] at ok1; cases ok1
  · intro x hx; cases hx
  · rintro x ⟨l0, hl0⟩ _ _ l
    refine ⟨rfl, link?_set_ne ?_ _ _⟩
    rintro rfl
    obtain ⟨v, hv⟩ := get_of_hasLevel hl0
    rw [hv] at ok1; cases ok1
  · intro x hx hn
    exact ⟨hn, AMap.get?_set_ne _ _ _ _ (fun e => hx e.symm)⟩

theorem step_publish (c : MachInv M dim h an ts) {i : Nat} {t : Thread D} (ht : ts[i]? = some t) (hpc : t.pc = .publish) :
    MachInv M dim { h with nodes := h.nodes.set t.job.id ⟨t.job.id, List.replicate (t.job.level + 1) [], t.job.vec⟩ } an
      (ts.set i { t with pc := .enter }) := by
  have hact : t.pc.active = true := by rw [hpc]; rfl
  have ok := c.thr i t ht
  rw [hpc] at ok
  obtain ⟨ok1, ok2, ok3⟩ := ok
  have hjob := c.job i t ht hact
  have hext := ext_set ok1 ⟨t.job.id, List.replicate (t.job.level + 1) [], t.job.vec⟩
  refine c.build (h' := { h with nodes := h.nodes.set t.job.id ⟨t.job.id, List.replicate (t.job.level + 1) [], t.job.vec⟩ })
    (an' := an) ht .enter hact rfl c.top32 c.ghost ?_ ?_ (fun _ => hext.ne ok3) hext ?_ ?_ ?_ ?_ ?_ ?_ ?_
  · refine ⟨graph_isolated c.mem.graph ok1 _ _, Or.inr ?_⟩
    rcases c.mem.entry with h1 | h1
    · exact absurd h1 ok3
    · exact hext.hasLevel h1
  · intro x v hv
    dsimp only at hv
    rw [AMap.get?_set] at hv
    split at hv
    · cases hv; exact hjob.1
    · exact c.vec x v hv
  · intro x v hv
    by_cases hx : x = t.job.id
    · subst hx; exact Or.inl ⟨_, AMap.get?_set_self _ _ _⟩
    · exact Or.inr (Or.inr ⟨hx, v, hv⟩)
  · intro x v hv
    dsimp only at hv
    rw [AMap.get?_set] at hv
    split at hv
    · rename_i e; subst e; cases hv
      exact ⟨_, ok2, rfl, rfl, rfl⟩
    · exact c.agree x v hv
  · intro x l hl
    by_cases hx : x = t.job.id
    · subst hx
      left
      dsimp only
      unfold link?
      rw [AMap.get?_set_self, ok2]
    · have e : link? (h.nodes.set t.job.id ⟨t.job.id, List.replicate (t.job.level + 1) [], t.job.vec⟩) x l =
          link? h.nodes x l := link?_set_ne hx _ _
      refine Or.inr (Or.inr ⟨by rw [hpc]; exact id, ?_, rfl, e⟩)
      rw [hasLevel_iff] at hl ⊢
      dsimp only at hl
      rw [e] at hl; exact hl
  · intro x hx; cases hx
  · rintro x ⟨l0, hl0⟩ _ _ l
    refine ⟨link?_set_ne ?_ _ _, rfl⟩
    rintro rfl
    obtain ⟨v, hv⟩ := get_of_hasLevel hl0
    rw [hv] at ok1; cases ok1
  · intro x hx hn
    refine ⟨?_, rfl⟩
    dsimp only
    rw [AMap.get?_set_ne _ _ _ _ (fun e => hx e.symm)]; exact hn
  · exact ⟨_, AMap.get?_set_self _ _ _, by simp, rfl⟩

theorem step_finish (c : MachInv M dim h an ts) {i : Nat} {t : Thread D} (ht : ts[i]? = some t) {cur : Nat}
    (hpc : t.pc = .finish cur) :
    MachInv M dim { (h.log (recSetEntryPoint t.job.id (UInt32.ofNat t.job.level))) with
      entry := t.job.id, maxLayer := t.job.level } an (ts.set i { t with pc := .idle }) := by
  have hact : t.pc.active = true := by rw [hpc]; rfl
  have ok := c.thr i t ht
  rw [hpc] at ok
  have hown : Own h.nodes t.job := ok
  have hjob := c.job i t ht hact
  have hlv := hown.at (Nat.le_refl _)
  refine c.build (h' := { (h.log (recSetEntryPoint t.job.id (UInt32.ofNat t.job.level))) with
      entry := t.job.id, maxLayer := t.job.level }) (an' := an) ht .idle hact rfl hjob.2 ?_ ⟨c.mem.graph, Or.inr hlv⟩ c.vec
      c.once (Ext.refl _) ?_ c.agree ?_ ?_ (fun _ _ _ _ _ => ⟨rfl, rfl⟩) (fun _ _ h1 => ⟨h1, rfl⟩) trivial
  · refine MInv.step c.ghost (recSetEntryPoint t.job.id (UInt32.ofNat t.job.level)) rfl rfl ?_
      ⟨c.ghost.good.graph, Or.inr (c.agree.hasLevel hlv)⟩
    rw [restore_setEntryPoint, toNat_level hjob.2]
    simp [Hnsw.strip, Hnsw.log]
  · intro x v hv
    by_cases hx : x = t.job.id
    · subst hx; obtain ⟨w, hw, _⟩ := hown; exact Or.inl ⟨w, hw⟩
    · exact Or.inr (Or.inr ⟨hx, v, hv⟩)
  · intro x l hl
    exact Or.inr (Or.inr ⟨by rw [hpc]; exact id, hl, rfl, rfl⟩)
  · intro x hx; cases hx

end Vectory.Conc
