import Verif.Spec.Sched
import Verif.Lemmas.Ops
/-! The invariant of concurrent inserts when the new vertex's list is written under its lock (`fixed = true`). -/
namespace Vectory.Conc
open Vectory
variable {D : Type}

/-- vertices, levels and vectors persist. -/
def Ext (a b : AMap UInt64 Vertex) : Prop :=
  ∀ x v, a.get? x = some v → ∃ v', b.get? x = some v' ∧ v'.id = v.id ∧ v'.conns.length = v.conns.length ∧ v'.vec = v.vec

theorem Ext.refl (a : AMap UInt64 Vertex) : Ext a a := fun _ v h => ⟨v, h, rfl, rfl, rfl⟩

theorem Ext.trans {a b c : AMap UInt64 Vertex} (h1 : Ext a b) (h2 : Ext b c) : Ext a c := by
  intro x v hv
  obtain ⟨v1, e1, a1, b1, c1⟩ := h1 x v hv
  obtain ⟨v2, e2, a2, b2, c2⟩ := h2 x v1 e1
  exact ⟨v2, e2, a2.trans a1, b2.trans b1, c2.trans c1⟩

theorem Ext.of_shape {a b : AMap UInt64 Vertex} (s : Shape a b) : Ext a b := by
  intro x v hv
  obtain ⟨v', h1, h2, h3, h4⟩ := s.get_some hv
  exact ⟨v', h1, h2, h3, h4⟩

theorem Ext.hasLevel {a b : AMap UInt64 Vertex} (e : Ext a b) {x : UInt64} {l : Nat} (h : HasLevel a x l) :
    HasLevel b x l := by
  obtain ⟨v, hv, hl⟩ := h
  obtain ⟨v', hv', _, h2, _⟩ := e x v hv
  exact ⟨v', hv', by omega⟩

theorem Ext.trueDist {a b : AMap UInt64 Vertex} (e : Ext a b) {M : Metric D} {q : Vec} {x : Elem D}
    (h : TrueDist M a q x) : TrueDist M b q x := by
  obtain ⟨v, hv, hd⟩ := h
  obtain ⟨v', hv', _, _, h3⟩ := e _ v hv
  exact ⟨v', hv', by rw [h3]; exact hd⟩

/-- the vertices that have layer `l`. -/
abbrev At (nodes : AMap UInt64 Vertex) (l : Nat) : UInt64 → Prop := fun x => HasLevel nodes x l

theorem Ext.epsOK {a b : AMap UInt64 Vertex} (e : Ext a b) {M : Metric D} {q : Vec} {l : Nat} {eps : List (Elem D)}
    (h : EpsOK M a q (At a l) eps) : EpsOK M b q (At b l) eps :=
  ⟨h.ne, h.nd, fun x hx => e.hasLevel (h.mem x hx), fun x hx => e.trueDist (h.dist x hx)⟩

theorem Ext.sinv {a b : AMap UInt64 Vertex} (e : Ext a b) {M : Metric D} {q : Vec} {l ef : Nat} {s : SL D}
    (h : SInv M a q ef (At a l) s) : SInv M b q ef (At b l) s :=
  ⟨h.vis, fun x hx => e.hasLevel (h.visP x hx), h.ne, h.len, h.nnNd, h.nnVis, fun x hx => e.trueDist (h.nnD x hx), h.cdVis,
    fun x hx => e.trueDist (h.cdD x hx)⟩

theorem Ext.ne {a b : AMap UInt64 Vertex} (e : Ext a b) (h : a ≠ []) : b ≠ [] := by
  rintro rfl
  cases a with
  | nil => exact h rfl
  | cons p a =>
    obtain ⟨k, v⟩ := p
    obtain ⟨v', h1, _⟩ := e k v (by simp [AMap.get?])
    simp at h1

/-- the new vertex is in the map. -/
def Own (nodes : AMap UInt64 Vertex) (j : Job) : Prop :=
  ∃ v, nodes.get? j.id = some v ∧ v.conns.length = j.level + 1 ∧ v.vec = j.vec

theorem Own.at {nodes : AMap UInt64 Vertex} {j : Job} (h : Own nodes j) {l : Nat} (hl : l ≤ j.level) :
    HasLevel nodes j.id l := by
  obtain ⟨v, hv, h1, _⟩ := h
  exact ⟨v, hv, by omega⟩

theorem Ext.own {a b : AMap UInt64 Vertex} (e : Ext a b) {j : Job} (h : Own a j) : Own b j := by
  obtain ⟨v, hv, h1, h2⟩ := h
  obtain ⟨v', hv', _, g1, g2⟩ := e _ v hv
  exact ⟨v', hv', by omega, by rw [g2]; exact h2⟩

/-- the construction phase stays on layers of the new vertex. -/
def PhOK (level : Nat) : Phase → Prop
  | .lookup _ => True
  | .construct l => l ≤ level

/-- between the searches of two layers. -/
structure Linking (M : Metric D) (h : Hnsw) (j : Job) (l : Nat) (nns : List (Elem D)) (todo : List UInt64) : Prop where
  own : Own h.nodes j
  lvl : l ≤ j.level
  eps : EpsOK M h.nodes j.vec (At h.nodes l) nns
  len : nns.length ≤ h.cfg.efC
  todo : ∀ n ∈ todo, HasLevel h.nodes n l

/-- inside `searchLayer`. -/
structure Searching (M : Metric D) (h : Hnsw) (j : Job) (ph : Phase) (s : SL D) (buf : List UInt64) : Prop where
  own : Own h.nodes j
  phOK : PhOK j.level ph
  inv : SInv M h.nodes j.vec (ph.ef h.cfg) (At h.nodes (ph.layer j.level)) s
  buf : buf.length = h.cfg.mMax0

/-- what is true at each program point. `an` is the vertex map that the log describes, with vectors. -/
def PCOK (M : Metric D) (h : Hnsw) (an : AMap UInt64 Vertex) (j : Job) : PC D → Prop
  | .idle => True
  | .start => h.nodes.get? j.id = none ∧ an.get? j.id = none
  | .create => h.nodes.get? j.id = none ∧ an.get? j.id = none ∧ h.nodes ≠ []
  | .publish => h.nodes.get? j.id = none ∧ an.get? j.id = some ⟨j.id, List.replicate (j.level + 1) [], j.vec⟩ ∧ h.nodes ≠ []
  | .enter => Own h.nodes j
  | .layer _ ph eps => Own h.nodes j ∧ PhOK j.level ph ∧ EpsOK M h.nodes j.vec (At h.nodes (ph.layer j.level)) eps ∧
      eps.length ≤ ph.ef h.cfg
  | .pop _ ph s buf => Searching M h j ph s buf
  | .copy _ ph s buf c n => Searching M h j ph s buf ∧
      ∃ conns, link? h.nodes c (ph.layer j.level) = some conns ∧ n = conns.length ∧ n ≤ h.cfg.mMax0
  | .visit _ ph s buf todo => Searching M h j ph s buf ∧ ∀ n ∈ todo, HasLevel h.nodes n (ph.layer j.level)
  | .logOwn _ l nns ns => Linking M h j l nns ns ∧ ns.length ≤ h.cfg.m
  | .setOwn _ l nns ns => Linking M h j l nns ns ∧ ns.length ≤ h.cfg.m ∧ link? an j.id l = some ns
  | .link _ l nns todo => Linking M h j l nns todo
  | .addLog _ l nns n rest => Linking M h j l nns rest ∧
      ∃ c, link? h.nodes n l = some c ∧ link? an n l = some c ∧ c.length < maxConn h.cfg l
  | .addRead _ l nns n rest => Linking M h j l nns rest ∧
      ∃ c, link? h.nodes n l = some c ∧ link? an n l = some (c ++ [j.id]) ∧ c.length < maxConn h.cfg l
  | .addWrite _ l nns n rest c => Linking M h j l nns rest ∧ link? h.nodes n l = some c ∧
      link? an n l = some (c ++ [j.id]) ∧ c.length < maxConn h.cfg l
  | .pruneLog _ l nns n rest new => Linking M h j l nns rest ∧ HasLevel h.nodes n l ∧
      (∀ x ∈ new, HasLevel h.nodes x l) ∧ new.length ≤ maxConn h.cfg l
  | .pruneSet _ l nns n rest new => Linking M h j l nns rest ∧ HasLevel h.nodes n l ∧
      (∀ x ∈ new, HasLevel h.nodes x l) ∧ new.length ≤ maxConn h.cfg l ∧ link? an n l = some new
  | .finish _ => Own h.nodes j
  | .dead _ _ => False

theorem Linking.ext {M : Metric D} {h h' : Hnsw} {j : Job} {l : Nat} {nns : List (Elem D)} {todo : List UInt64}
    (k : Linking M h j l nns todo) (hc : h'.cfg = h.cfg) (e : Ext h.nodes h'.nodes) : Linking M h' j l nns todo :=
  ⟨e.own k.own, k.lvl, e.epsOK k.eps, by rw [hc]; exact k.len, fun n hn => e.hasLevel (k.todo n hn)⟩

theorem Searching.ext {M : Metric D} {h h' : Hnsw} {j : Job} {ph : Phase} {s : SL D} {buf : List UInt64}
    (k : Searching M h j ph s buf) (hc : h'.cfg = h.cfg) (e : Ext h.nodes h'.nodes) : Searching M h' j ph s buf :=
  ⟨e.own k.own, k.phOK, by rw [hc]; exact e.sinv k.inv, by rw [hc]; exact k.buf⟩

/-- another goroutine's step does not disturb this one, as long as the lists of the vertex it holds stay. -/
theorem PCOK.stable {M : Metric D} {h h' : Hnsw} {an an' : AMap UInt64 Vertex} {j : Job} {pc : PC D}
    (k : PCOK M h an j pc) (hc : h'.cfg = h.cfg) (e : Ext h.nodes h'.nodes)
    (hl : ∀ x, pc.held true j.id = some x → ∀ l, link? h'.nodes x l = link? h.nodes x l ∧ link? an' x l = link? an x l)
    (hn : pc.active = true → h.nodes.get? j.id = none → h'.nodes.get? j.id = none ∧ an'.get? j.id = an.get? j.id) :
    PCOK M h' an' j pc := by
  cases pc with
  | idle => trivial
  | start => obtain ⟨a, b⟩ := k; obtain ⟨a', b'⟩ := hn rfl a; exact ⟨a', by rw [b']; exact b⟩
  | create => obtain ⟨a, b, c⟩ := k; obtain ⟨a', b'⟩ := hn rfl a; exact ⟨a', by rw [b']; exact b, e.ne c⟩
  | publish => obtain ⟨a, b, c⟩ := k; obtain ⟨a', b'⟩ := hn rfl a; exact ⟨a', by rw [b']; exact b, e.ne c⟩
  | enter => exact e.own k
  | layer _ _ _ => obtain ⟨a, b, c, d⟩ := k; exact ⟨e.own a, b, e.epsOK c, by rw [hc]; exact d⟩
  | pop _ _ _ _ => exact Searching.ext k hc e
  | copy _ _ _ _ c _ =>
    obtain ⟨a, cs, b, d⟩ := k
    exact ⟨a.ext hc e, cs, by rw [(hl c rfl _).1]; exact b, by rw [hc]; exact d⟩
  | visit _ _ _ _ _ => exact ⟨k.1.ext hc e, fun n hn => e.hasLevel (k.2 n hn)⟩
  | logOwn _ _ _ _ => exact ⟨k.1.ext hc e, by rw [hc]; exact k.2⟩
  | setOwn _ _ _ _ => exact ⟨k.1.ext hc e, by rw [hc]; exact k.2.1, by rw [(hl j.id rfl _).2]; exact k.2.2⟩
  | link _ _ _ _ => exact Linking.ext k hc e
  | addLog _ _ _ n _ =>
    obtain ⟨a, c, b1, b2, b3⟩ := k
    exact ⟨a.ext hc e, c, by rw [(hl n rfl _).1]; exact b1, by rw [(hl n rfl _).2]; exact b2, by rw [hc]; exact b3⟩
  | addRead _ _ _ n _ =>
    obtain ⟨a, c, b1, b2, b3⟩ := k
    exact ⟨a.ext hc e, c, by rw [(hl n rfl _).1]; exact b1, by rw [(hl n rfl _).2]; exact b2, by rw [hc]; exact b3⟩
  | addWrite _ _ _ n _ c =>
    obtain ⟨a, b1, b2, b3⟩ := k
    exact ⟨a.ext hc e, by rw [(hl n rfl _).1]; exact b1, by rw [(hl n rfl _).2]; exact b2, by rw [hc]; exact b3⟩
  | pruneLog _ _ _ _ _ _ =>
    exact ⟨k.1.ext hc e, e.hasLevel k.2.1, fun x hx => e.hasLevel (k.2.2.1 x hx), by rw [hc]; exact k.2.2.2⟩
  | pruneSet _ _ _ n _ _ =>
    exact ⟨k.1.ext hc e, e.hasLevel k.2.1, fun x hx => e.hasLevel (k.2.2.1 x hx), by rw [hc]; exact k.2.2.2.1,
      by rw [(hl n rfl _).2]; exact k.2.2.2.2⟩
  | finish _ => exact e.own k
  | dead _ _ => exact k

theorem hasLevel_of_link {nodes : AMap UInt64 Vertex} {x : UInt64} {l : Nat} {c : List UInt64}
    (h : link? nodes x l = some c) : HasLevel nodes x l := hasLevel_iff.mpr ⟨c, h⟩

/-- a held vertex is in the map. -/
theorem PCOK.heldIn {M : Metric D} {h : Hnsw} {an : AMap UInt64 Vertex} {j : Job} {pc : PC D} (k : PCOK M h an j pc)
    {x : UInt64} (hx : pc.held true j.id = some x) : ∃ l, HasLevel h.nodes x l := by
  cases pc with
  | copy _ _ _ _ c _ => cases hx; obtain ⟨_, _, b, _⟩ := k; exact ⟨_, hasLevel_of_link b⟩
  | setOwn _ _ _ _ => cases hx; exact ⟨0, k.1.own.at (Nat.zero_le _)⟩
  | addLog _ _ _ _ _ => cases hx; obtain ⟨_, _, b, _⟩ := k; exact ⟨_, hasLevel_of_link b⟩
  | addRead _ _ _ _ _ => cases hx; obtain ⟨_, _, b, _⟩ := k; exact ⟨_, hasLevel_of_link b⟩
  | addWrite _ _ _ _ _ _ => cases hx; exact ⟨_, hasLevel_of_link k.2.1⟩
  | pruneLog _ _ _ _ _ _ => cases hx; exact ⟨_, k.2.1⟩
  | pruneSet _ _ _ _ _ _ => cases hx; exact ⟨_, k.2.1⟩
  | dead _ _ => exact k.elim
  | _ => cases hx

/-- the places where the log is ahead of memory. -/
def Pend (id : UInt64) (x : UInt64) (l : Nat) : PC D → Prop
  | .setOwn _ l' _ _ => x = id ∧ l = l'
  | .addRead _ l' _ n _ => x = n ∧ l = l'
  | .addWrite _ l' _ n _ _ => x = n ∧ l = l'
  | .pruneSet _ l' _ n _ _ => x = n ∧ l = l'
  | _ => False

def PC.isPublish : PC D → Bool
  | .publish => true
  | _ => false

/-- the invariant. -/
structure MachInv (M : Metric D) (dim : Nat) (h : Hnsw) (an : AMap UInt64 Vertex) (ts : List (Thread D)) : Prop where
  cfg : CfgOK h.cfg
  top32 : h.maxLayer < 4294967296
  ghost : MInv False { h with nodes := an }
  mem : Good False h
  vec : VecOK dim h.nodes
  once : h.once = true → h.nodes ≠ []
  keys : ∀ x v, an.get? x = some v → (∃ w, h.nodes.get? x = some w) ∨
    ∃ (k : Nat) (u : Thread D), ts[k]? = some u ∧ u.pc.isPublish = true ∧ u.job.id = x
  agree : Ext h.nodes an
  link : ∀ x l, HasLevel h.nodes x l → link? an x l = link? h.nodes x l ∨
    ∃ (k : Nat) (u : Thread D), ts[k]? = some u ∧ Pend u.job.id x l u.pc
  excl : ∀ (i k : Nat) (t u : Thread D) (x : UInt64), ts[i]? = some t → ts[k]? = some u → t.held true = some x →
    u.held true = some x → i = k
  ids : ∀ (i k : Nat) (t u : Thread D), ts[i]? = some t → ts[k]? = some u → t.pc.active = true → u.pc.active = true →
    t.job.id = u.job.id → i = k
  job : ∀ (i : Nat) (t : Thread D), ts[i]? = some t → t.pc.active = true → JobOK dim t.job
  thr : ∀ (i : Nat) (t : Thread D), ts[i]? = some t → PCOK M h an t.job t.pc

theorem locked_false {fixed : Bool} {ts : List (Thread D)} {x : UInt64} (h : lockedBy fixed ts x = false) {k : Nat}
    {u : Thread D} (hu : ts[k]? = some u) : u.held fixed ≠ some x := by
  intro hx
  have : lockedBy fixed ts x = true := by
    unfold lockedBy
    rw [List.any_eq_true]
    exact ⟨u, List.mem_of_getElem? hu, by rw [hx]; simp⟩
  rw [this] at h; cases h

theorem set_get {A : Type} {ts : List A} {i k : Nat} {t u : A} (h : (ts.set i t)[k]? = some u) :
    (k = i ∧ u = t) ∨ (k ≠ i ∧ ts[k]? = some u) := by
  rw [List.getElem?_set] at h
  split at h
  · rename_i e
    split at h
    · left; cases h; exact ⟨e.symm, rfl⟩
    · cases h
  · rename_i e
    right; exact ⟨fun e' => e e'.symm, h⟩

theorem set_other {A : Type} {ts : List A} {i k : Nat} {t u : A} (hk : k ≠ i) (h : ts[k]? = some u) :
    (ts.set i t)[k]? = some u := by
  rw [List.getElem?_set, if_neg (fun e => hk e.symm)]; exact h

theorem set_this {A : Type} {ts : List A} {i : Nat} {t u : A} (h : ts[i]? = some u) : (ts.set i t)[i]? = some t := by
  rw [List.getElem?_set, if_pos rfl, if_pos]
  exact (List.getElem?_eq_some_iff.mp h).1

/-- what one goroutine's step has to establish. -/
theorem MachInv.build {M : Metric D} {dim : Nat} {h h' : Hnsw} {an an' : AMap UInt64 Vertex} {ts : List (Thread D)}
    (c : MachInv M dim h an ts) {i : Nat} {t : Thread D} (ht : ts[i]? = some t) (pc' : PC D)
    (hact : t.pc.active = true)
    (hcfg : h'.cfg = h.cfg) (top32 : h'.maxLayer < 4294967296)
    (ghost : MInv False { h' with nodes := an' }) (mem : Good False h') (vec : VecOK dim h'.nodes)
    (once : h'.once = true → h'.nodes ≠ []) (ext : Ext h.nodes h'.nodes)
    (keysD : ∀ x v, an'.get? x = some v → (∃ w, h'.nodes.get? x = some w) ∨ (pc'.isPublish = true ∧ t.job.id = x) ∨
      (x ≠ t.job.id ∧ ∃ w, an.get? x = some w))
    (agree : Ext h'.nodes an')
    (linkD : ∀ x l, HasLevel h'.nodes x l → link? an' x l = link? h'.nodes x l ∨ Pend t.job.id x l pc' ∨
      (¬ Pend t.job.id x l t.pc ∧ HasLevel h.nodes x l ∧ link? an' x l = link? an x l ∧
        link? h'.nodes x l = link? h.nodes x l))
    (held : ∀ x, pc'.held true t.job.id = some x → t.held true = some x ∨ lockedBy true ts x = false)
    (may : ∀ x, (∃ l, HasLevel h.nodes x l) → pc'.held true t.job.id ≠ some x → t.held true ≠ some x →
      ∀ l, link? h'.nodes x l = link? h.nodes x l ∧ link? an' x l = link? an x l)
    (new : ∀ x, x ≠ t.job.id → h.nodes.get? x = none → h'.nodes.get? x = none ∧ an'.get? x = an.get? x)
    (tok : PCOK M h' an' t.job pc') : MachInv M dim h' an' (ts.set i { t with pc := pc' }) := by
  have hexcl : ∀ (k : Nat) (u : Thread D) (x : UInt64), k ≠ i → ts[k]? = some u → pc'.held true t.job.id = some x →
      u.held true = some x → False := by
    intro k u x hk hu h1 h2
    rcases held x h1 with h3 | h3
    · exact hk (c.excl i k t u x ht hu h3 h2).symm
    · exact locked_false h3 hu h2
  refine ⟨by rw [hcfg]; exact c.cfg, top32, ghost, mem, vec, once, ?_, agree, ?_, ?_, ?_, ?_, ?_⟩
  · intro x v hv
    rcases keysD x v hv with h1 | ⟨h1, h2⟩ | ⟨h1, w, hw⟩
    · exact Or.inl h1
    · exact Or.inr ⟨i, _, set_this ht, h1, h2⟩
    · rcases c.keys x w hw with ⟨w', hw'⟩ | ⟨k, u, hu, h3, h4⟩
      · obtain ⟨w2, hw2, _⟩ := ext x w' hw'
        exact Or.inl ⟨w2, hw2⟩
      · refine Or.inr ⟨k, u, set_other ?_ hu, h3, h4⟩
        rintro rfl
        rw [ht] at hu; cases hu
        exact h1 h4.symm
  · intro x l hl
    rcases linkD x l hl with h1 | h1 | ⟨h1, h2, h3, h4⟩
    · exact Or.inl h1
    · exact Or.inr ⟨i, _, set_this ht, h1⟩
    · rcases c.link x l h2 with h5 | ⟨k, u, hu, h5⟩
      · left; rw [h3, h4]; exact h5
      · refine Or.inr ⟨k, u, set_other ?_ hu, h5⟩
        rintro rfl
        rw [ht] at hu; cases hu
        exact h1 h5
  · intro a b ta tb x ha hb h1 h2
    rcases set_get ha with ⟨rfl, rfl⟩ | ⟨ha', ha2⟩ <;> rcases set_get hb with ⟨rfl, rfl⟩ | ⟨hb', hb2⟩
    · rfl
    · exact (hexcl b tb x hb' hb2 h1 h2).elim
    · exact (hexcl a ta x ha' ha2 h2 h1).elim
    · exact c.excl a b ta tb x ha2 hb2 h1 h2
  · intro a b ta tb ha hb h1 h2 h3
    rcases set_get ha with ⟨rfl, rfl⟩ | ⟨ha', ha2⟩ <;> rcases set_get hb with ⟨rfl, rfl⟩ | ⟨hb', hb2⟩
    · rfl
    · exact c.ids a b t tb ht hb2 hact h2 h3
    · exact c.ids a b ta t ha2 ht h1 hact h3
    · exact c.ids a b ta tb ha2 hb2 h1 h2 h3
  · intro a ta ha h1
    rcases set_get ha with ⟨rfl, rfl⟩ | ⟨ha', ha⟩
    · exact c.job a t ht hact
    · exact c.job a ta ha h1
  · intro a ta ha
    rcases set_get ha with ⟨rfl, rfl⟩ | ⟨ha', ha⟩
    · exact tok
    · have ok := c.thr a ta ha
      refine ok.stable hcfg ext ?_ ?_
      · intro x hx
        refine may x (ok.heldIn hx) (fun h1 => hexcl a ta x ha' ha h1 hx) ?_
        intro h1
        exact ha' (c.excl i a t ta x ht ha h1 hx).symm
      · intro hact' hnone
        refine new _ ?_ hnone
        intro he
        exact ha' (c.ids a i ta t ha ht hact' hact he)

end Vectory.Conc
