import Verif.Lemmas.Crash
import Verif.Lemmas.SearchMore
import Verif.Spec.Demo
/-! # Crashes inside Insert and Delete: C31, C32 -/
namespace Vectory
variable {V D : Type}

/-! ## C31 -/

/-- C31: let a collection be in any state reached by calls, crashes and reopens, and such that it could be opened
again right now. If the process stops inside `Insert` of an accepted object before the vector is written or after the call
finished, the collection can be opened again; every object readable before is readable and unchanged; the new id is readable
only after the finished call, and then with the inserted vector; and that state is again one to which everything proved about
reachable collections applies.
Excluded: the point after the vector was written (`C31_unopenable_after_vector`) and a cut write of the
counter file (`C05_torn_first_write_unopenable`). -/
theorem C31_crash_in_insert (L : Lib V D) (dim : Nat) (c : Coll) (hr : ReachAny L dim c) (hop : ∃ c0, c.reopen = .ok c0)
    (o : Object V) (level : Nat) (p : InsertCrash) (hl : (Ev.crashInsert [] o level p : Ev V D).Legal L dim c)
    (hp : p ≠ .vector) :
    ∃ d c', c.crashInsert L o level p = .ok d ∧ openColl c.index.cfg c.mappings c.hasEmbedder d = .ok c' ∧
      ReachAny L dim c' ∧
      (∀ id x, c.get L [id] = .ok [x] → c'.get L [id] = .ok [x]) ∧
      (p ≠ .flushed → ∀ id, c'.get L [id] = c.get L [id]) ∧
      (p = .flushed → ∃ x, c'.get L [c.counter.count] = .ok [x] ∧ x.vec = some (o.vec.getD [])) := by
  obtain ⟨i, dv⟩ := hr.weak
  have hlc := hl
  obtain ⟨hcl, hcc, _, hd, hlev, hj, hcnt, hu⟩ := hl
  obtain ⟨d, c2, k1, k2, k3, k4, k5, k6, k7, k8, k9, k10⟩ := crash_insert (o := o) (level := level) i dv hcc hd hlev hj
    (by simpa using hcnt) p (by intro j hj; subst hj; exact hu)
  have hopen : ∃ c', c2.reopen = .ok c' := by
    by_cases hf : p = .flushed
    · obtain ⟨c1, o', f1, _, _, _, g⟩ := k10 (Or.inr hf)
      obtain ⟨f, _, h, _⟩ := coll_reopen_exact k3 (g hf).2 (fun _ => False)
      exact ⟨_, h⟩
    · rw [reopen_iff k3 k4, (k8 hp hf).1]
      exact (reopen_iff i dv).mp hop
  obtain ⟨c', hre⟩ := hopen
  have hoc : openColl c.index.cfg c.mappings c.hasEmbedder d = .ok c' := by
    unfold Coll.reopen at hre
    rw [k5, k6, k7, k2] at hre
    exact hre
  rcases reopen_any k3 k4 with ⟨c3, h1, h2, h3, h4, h5, h6, h7, h8, h9, h10, h11, _⟩ | ⟨h1, _⟩
  · rw [hre] at h1; cases h1
    refine ⟨d, c', k1, hoc, hr.step hlc (.crashInsert (os := []) (c1 := c) rfl k1 hoc), ?_, ?_, ?_⟩
    · intro id x hx
      rw [get_single_some hcl] at hx
      rw [get_single_some h9, h4, (k9 (fun _ => False)).keep id (getObject_used i hx) (fun h => h)]
      exact hx
    · intro hf id
      have := (k8 hp hf).2 id
      unfold Coll.get getObjects
      rw [h9, hcl, h4, this]
      rfl
    · intro hf
      obtain ⟨c1, o', f1, g1, _⟩ := k10 (Or.inr hf)
      obtain ⟨_, ⟨b, pr, _, _, hg⟩, _⟩ := f1.ok rfl
      exact ⟨_, by rw [get_single_some h9, h4, g1]; exact hg, rfl⟩
  · rw [hre] at h1; cases h1

theorem w31_after_vector {S : Prop} (L : Lib V D) (dim : Nat) (c : Coll) (i : WInv S L dim (fun _ => True) c) (dv : DInv S c.index) (o : Object V) (level : Nat)
    (hl : (Ev.crashInsert [] o level .vector : Ev V D).Legal L dim c) :
    ∃ d, c.crashInsert L o level .vector = .ok d ∧
      openColl c.index.cfg c.mappings c.hasEmbedder d = .error (.panic .nilDeref) := by
  obtain ⟨hcl, hcc, _, hd, hlev, hj, hcnt, hu⟩ := hl
  obtain ⟨d, c2, k1, k2, k3, k4, k5, k6, k7, k8, k9, k10⟩ := crash_insert (o := o) (level := level) i dv hcc hd hlev hj
    (by simpa using hcnt) .vector (by intro j hj; cases hj)
  refine ⟨d, k1, ?_⟩
  obtain ⟨c1, o', f1, _, _, g, _⟩ := k10 (Or.inl rfl)
  obtain rfl := g rfl
  have hre : c2.reopen = openColl c.index.cfg c.mappings c.hasEmbedder d := by
    unfold Coll.reopen; rw [k5, k6, k7, k2]
  rw [← hre]
  rcases reopen_any k3 k4 with ⟨c3, h1, _⟩ | ⟨h1, _⟩
  · exfalso
    obtain ⟨s, hs, hk⟩ := (reopen_iff k3 k4).mp ⟨c3, h1⟩
    obtain ⟨s', hs', hpre, _⟩ := dv.ex
    rw [f1.cfg, f1.disk, hs'] at hs
    cases hs
    have := (f1.ok rfl).2.2.2.1.keys
    rw [this] at hk
    exact (fresh_of i).2.1 ((vkey_iff i _).mpr (hpre _ (hk _ (by simp))))
  · exact h1

/-- C31 is false at the remaining point, in every reachable state and for every accepted object: when the process stops after
the vector was written and before the index log is flushed, the collection can never be opened again - the recovery
dereferences a nil vertex. -/
theorem C31_unopenable_after_vector (L : Lib V D) (dim : Nat) (c : Coll) (hr : ReachAny L dim c) (o : Object V) (level : Nat)
    (hl : (Ev.crashInsert [] o level .vector : Ev V D).Legal L dim c) :
    ∃ d, c.crashInsert L o level .vector = .ok d ∧
      openColl c.index.cfg c.mappings c.hasEmbedder d = .error (.panic .nilDeref) :=
  w31_after_vector L dim c hr.weak.1 hr.weak.2 o level hl

theorem w31_inside_batch {S : Prop} (L : Lib V D) (dim : Nat) (c : Coll) (i : WInv S L dim (fun _ => True) c) (dv : DInv S c.index)
    (pre : List (Object V × InsEnv)) (hpre : pre ≠ []) (c1 : Coll) (os : List (Object V))
    (hins : c.insertAll L pre = .ok (c1, os, none)) (o : Object V) (level : Nat) (p : InsertCrash) (hp : p ≠ .flushed)
    (hl : (Ev.crashInsert pre o level p : Ev V D).Legal L dim c) :
    ∃ d, c1.crashInsert L o level p = .ok d ∧
      openColl c.index.cfg c.mappings c.hasEmbedder d = .error (.panic .nilDeref) := by
  obtain ⟨hcl, hcc, hpl, hd, hlev, hj, hcnt, hu⟩ := hl
  obtain ⟨c1', os', e', g1, i1, ev, _, g5, _⟩ := insertAll_spec (fun _ => False) pre c i (fun p hp => (hpl p hp).1)
    (fun p hp => (hpl p hp).2) (by omega)
  rw [hins] at g1; cases g1
  have d1 := insertAll_dinv _ _ _ _ _ i dv (fun p hp => (hpl p hp).1) (fun p hp => (hpl p hp).2) (by omega) hins
  have hc1 := insertAll_count _ _ _ _ _ i (fun p hp => (hpl p hp).1) (fun p hp => (hpl p hp).2) (by omega) hins
  obtain ⟨d, c2, k1, k2, k3, k4, k5, k6, k7, k8, k9, k10⟩ := crash_insert (o := o) (level := level) i1 d1 (by rw [g5, hcc])
    hd hlev hj (by omega) p (by intro j hj; subst hj; exact hu)
  refine ⟨d, k1, ?_⟩
  have hre : c2.reopen = openColl c.index.cfg c.mappings c.hasEmbedder d := by
    unfold Coll.reopen; rw [k5, k6, k7, k2, ev.cfg, ev.mappings, ev.embedder]
  rw [← hre]
  rcases reopen_any k3 k4 with ⟨c3, h1, _⟩ | ⟨h1, _⟩
  · exfalso
    obtain ⟨s, hs, hk⟩ := (reopen_iff k3 k4).mp ⟨c3, h1⟩
    obtain ⟨s', hs', hpre', _⟩ := dv.ex
    have hdisk : c2.index.wal.disk = c.index.wal.disk := by
      by_cases hv : p = .vector
      · obtain ⟨c4, o', f1, _, _, g, _⟩ := k10 (Or.inl hv)
        obtain rfl := g hv
        rw [f1.disk]; exact insertAll_disk _ _ _ _ _ i (fun p hp => (hpl p hp).1) (fun p hp => (hpl p hp).2) (by omega) hins
      · rw [(k8 hv hp).1]; exact insertAll_disk _ _ _ _ _ i (fun p hp => (hpl p hp).1) (fun p hp => (hpl p hp).2) (by omega) hins
    rw [hdisk, k5, ev.cfg, hs'] at hs
    cases hs
    have hlen : c.index.nodes.keys.length + pre.length ≤ c2.index.nodes.keys.length := by
      have h0 := insertAll_keys _ _ _ _ i (fun p hp => (hpl p hp).1) (fun p hp => (hpl p hp).2) (by omega) hins
      by_cases hv : p = .vector
      · obtain ⟨c4, o', f1, _, _, g, _⟩ := k10 (Or.inl hv)
        obtain rfl := g hv
        have := (f1.ok rfl).2.2.2.1.keys
        rw [this, List.length_append]; omega
      · rw [(k8 hv hp).1]; omega
    have hl := nodup_length_le k3.idx.m.good.graph.keysNd (fun x hx => hpre' x (hk x hx))
    have : 0 < pre.length := List.length_pos_iff.mpr hpre
    omega
  · exact h1

/-- C31, batches: once one object of a batch has its vector written, a crash at any later point of the batch before the final
flush makes the collection impossible to open, in every reachable state. -/
theorem C31_unopenable_inside_batch (L : Lib V D) (dim : Nat) (c : Coll) (hr : ReachAny L dim c)
    (pre : List (Object V × InsEnv)) (hpre : pre ≠ []) (c1 : Coll) (os : List (Object V))
    (hins : c.insertAll L pre = .ok (c1, os, none)) (o : Object V) (level : Nat) (p : InsertCrash) (hp : p ≠ .flushed)
    (hl : (Ev.crashInsert pre o level p : Ev V D).Legal L dim c) :
    ∃ d, c1.crashInsert L o level p = .ok d ∧
      openColl c.index.cfg c.mappings c.hasEmbedder d = .error (.panic .nilDeref) :=
  w31_inside_batch L dim c hr.weak.1 hr.weak.2 pre hpre c1 os hins o level p hp hl

/-! ### instances -/

/-- three objects on two levels, one deleted, and a flush that failed while deleting another (so a record is waiting). -/
def c31Ops : List (Op UInt8) := [demoInsert 1, demoInsert 5 1, demoInsert 3, .delete 1 false false, .delete 2 false true]

theorem c31_state : ReachAny demoLib 1 (demoState demoCfg c31Ops) ∧ (∃ c0, (demoState demoCfg c31Ops).reopen = .ok c0) ∧
    (demoState demoCfg c31Ops).index.wal.batch.length = 1 :=
  ⟨(demo_reach _).any, ⟨_, rfl⟩, by decide +kernel⟩

theorem c31_legal (p : InsertCrash) (hp : ∀ j, p = .counter j → j = 0 ∨ 8 ≤ j) :
    (Ev.crashInsert [] (demoObj 8) 1 p : Ev UInt8 Nat).Legal demoLib 1 (demoState demoCfg c31Ops) := by
  refine ⟨by decide, by decide, by simp, rfl, by decide, rfl, by decide, ?_⟩
  cases p with
  | counter j => exact hp j rfl
  | _ => trivial

example : (Ev.crashInsert [] (demoObj 8) 1 .object : Ev UInt8 Nat).Legal demoLib 1 (demoState demoCfg c31Ops) ∧
    (Ev.crashInsert [] (demoObj 8) 1 .vector : Ev UInt8 Nat).Legal demoLib 1 (demoState demoCfg c31Ops) :=
  ⟨c31_legal _ (by intro j h; cases h), c31_legal _ (by intro j h; cases h)⟩

-- a batch of two, interrupted while the second is being stored
example : ∃ c1 os, (demoState demoCfg c31Ops).insertAll demoLib [(demoObj 7, {})] = .ok (c1, os, none) ∧
    (Ev.crashInsert [(demoObj 7, {})] (demoObj 8) 1 (.counter 8) : Ev UInt8 Nat).Legal demoLib 1 (demoState demoCfg c31Ops) :=
  ⟨_, _, rfl, by decide, by decide, by intro x hx; simp at hx; subst hx; exact ⟨rfl, by decide⟩, rfl, by decide, rfl, by decide,
    Or.inr (Nat.le_refl _)⟩

/-! ## C32 -/

/-- C32: if the process stops at any point inside `Delete` of a stored object, a collection that could be opened
before can be opened again, every other object is readable and unchanged, the deleted one is either unchanged (nothing was
written) or gone, and the vectors and links of the index are unchanged.
Excluded: "searches on it keep working", which is false: `C32_search_panics`. -/
theorem C32_crash_in_delete (L : Lib V D) (dim : Nat) (c : Coll) (hr : ReachAny L dim c) (hop : ∃ c0, c.reopen = .ok c0)
    (id : UInt64) (p : DeleteCrash) (hl : (Ev.crashDelete id p : Ev V D).Legal L dim c) :
    ∃ c', openColl c.index.cfg c.mappings c.hasEmbedder (c.crashDelete id p) = .ok c' ∧ ReachAny L dim c' ∧
      (∀ x, x ≠ id → c'.get L [x] = c.get L [x]) ∧
      (p = .start → c'.get L [id] = c.get L [id]) ∧ (p ≠ .start → c'.get L [id] = .ok []) ∧
      c'.index.nodes = c.index.nodes := by
  obtain ⟨i, dv⟩ := hr.weak
  have hlc := hl
  obtain ⟨hc, o, ho⟩ := hl
  have hk : keyOf id ∈ c.stores.objects.keys := by
    obtain ⟨r, h1, h2, _⟩ := getObject_eq i id
    rw [get_single_some hc] at ho
    rw [ho] at h1; cases h1
    exact (h2.mp rfl).1
  obtain ⟨c2, k1, k2, k3, k4, k5, k6, k7, k8, k9, k10, k11, k12⟩ := crash_delete i dv hk p
  have hn : c2.index.nodes = c.index.nodes := by
    cases p with
    | start => rw [k9 rfl]
    | erased => rw [k11 rfl]
    | flushed => rw [(k12 rfl).1, flush_ok (delete_spec i.idx id)]; rfl
  have hopen : ∃ c', c2.reopen = .ok c' := by
    cases p with
    | start => rw [k9 rfl]; exact hop
    | erased => rw [reopen_iff k2 k3, k11 rfl]; exact (reopen_iff i dv).mp hop
    | flushed =>
      have hb : c2.index.wal.batch = [] := by rw [(k12 rfl).1, flush_ok (delete_spec i.idx id)]
      obtain ⟨f, _, h, _⟩ := coll_reopen_exact k2 hb (fun _ => False)
      exact ⟨_, h⟩
  obtain ⟨c', hre⟩ := hopen
  have hoc : openColl c.index.cfg c.mappings c.hasEmbedder (c.crashDelete id p) = .ok c' := by
    unfold Coll.reopen at hre
    rw [k4, k5, k6, k1] at hre
    exact hre
  rcases reopen_any k2 k3 with ⟨c3, h1, h2, h3, h4, h5, h6, h7, h8, h9, h10, h11, _, _, h14⟩ | ⟨h1, _⟩
  · rw [hre] at h1; cases h1
    have hget : ∀ x, getObject L.json c2.stores x = getObject L.json c.stores x → c'.get L [x] = c.get L [x] := by
      intro x hx; unfold Coll.get getObjects; rw [h9, hc, h4, hx]; rfl
    refine ⟨c', hoc, hr.step hlc (.crashDelete hoc), ?_, ?_, ?_, by rw [h14 trivial, hn]⟩
    · intro x hx
      apply hget
      by_cases hp : p = .start
      · rw [k9 hp]
      · rw [k10 hp, getObject_delete_ne _ _ _ _ hx]
    · intro hp; exact hget _ (by rw [k9 hp])
    · intro hp
      rw [get_single_none h9, h4, k10 hp]
      exact getObject_delete_self _ _ _
  · rw [hre] at h1; cases h1

/-- C32 is false for searches, in every reachable state without waiting log records: if the process stops inside `Delete(id)`
after the object was removed and before the log is flushed, then every search that listed that object before the delete
panics on the reopened collection. -/
theorem C32_search_panics (L : Lib V D) (dim : Nat) (c c' : Coll) (hr : Reach L dim c) (hb : c.index.wal.batch = [])
    (id : UInt64) (hl : (Ev.crashDelete id .erased : Ev V D).Legal L dim c)
    (hop : openColl c.index.cfg c.mappings c.hasEmbedder (c.crashDelete id .erased) = .ok c')
    (o : Object V) (embed : Embed V) (k : Int) (he : EmbedOK c embed dim [o]) (r : SearchResult V D)
    (hs : c.semanticSearch L o embed k = .ok r) (hit : Hit V D) (hh : hit ∈ r.objects) (hid : hit.id = id) :
    c'.semanticSearch L o embed k = .error (.panic .indexOutOfRange) := by
  have i := hr.inv
  obtain ⟨hc, ob, ho⟩ := hl
  have hc2 := erased_weak i id
  have hre : ({ c with stores := deleteObject c.stores id } : Coll).reopen = .ok c' := hop
  obtain ⟨f, _, h1, i', _⟩ := coll_reopen_exact hc2 hb (fun _ => False)
  rw [hre] at h1; cases h1
  obtain ⟨o1, es, _, h1, hd, hk, hne, h2, h4, h5, h6, h7⟩ := coll_search_ok i he hs
  obtain ⟨es', g1, g2, _⟩ := coll_search_weak (c := reopened { c with stores := deleteObject c.stores id } f) i' rfl hne
    (o := o) (o1 := o1) (embed := embed) h1 hd hk
  have : es' = es := by
    have h2' : (reopened { c with stores := deleteObject c.stores id } f).index.search L.metric (o1.vec.getD []) k = .ok es := h2
    rw [h2'] at g1; cases g1; rfl
  subst this
  apply g2
  have hm : id ∈ es'.map Elem.id := by rw [← h5, ← hid]; exact List.mem_map_of_mem hh
  obtain ⟨e, hee, hei⟩ := List.mem_map.mp hm
  refine ⟨e, hee, ?_⟩
  cases hx : (reopened { c with stores := deleteObject c.stores id } f).hasObject e.id with
  | false => rfl
  | true =>
    unfold Coll.hasObject at hx
    rw [AMap.has_iff, hei] at hx
    have hx' : keyOf id ∈ (c.stores.objects.erase (keyOf id)).keys := hx
    rw [AMap.keys_erase, List.mem_filter] at hx'
    simp at hx'

/-- four objects, one deleted. -/
def c32Ops : List (Op UInt8) := [demoInsert 1, demoInsert 5 1, demoInsert 3, demoInsert 7, .delete 1 false false]

-- deleting object 2 (vector 3), which a search for 4 lists first; the search on the reopened collection panics
example : Reach demoLib 1 (demoState demoCfg c32Ops) ∧ (demoState demoCfg c32Ops).index.wal.batch = [] ∧
    (Ev.crashDelete 2 .erased : Ev UInt8 Nat).Legal demoLib 1 (demoState demoCfg c32Ops) ∧
    (∃ c0, (demoState demoCfg c32Ops).reopen = .ok c0) ∧
    ∃ c' r hit, openColl (demoState demoCfg c32Ops).index.cfg (demoState demoCfg c32Ops).mappings
        (demoState demoCfg c32Ops).hasEmbedder ((demoState demoCfg c32Ops).crashDelete 2 .erased) = .ok c' ∧
      (demoState demoCfg c32Ops).semanticSearch demoLib (demoObj 4) noEmbed 2 = .ok r ∧ hit ∈ r.objects ∧ hit.id = 2 :=
  ⟨demo_reach _, by decide +kernel, ⟨by decide, _, rfl⟩, ⟨_, rfl⟩, _, _, _, rfl, rfl, List.mem_cons_self .., by decide +kernel⟩

/-! ## C53 -/

theorem w53_failed_insert (L : Lib V D) (dim : Nat) (c c1 : Coll) {S : Prop} (i : WInv S L dim (fun _ => True) c) (dv : DInv S c.index) (hop : ∃ c0, c.reopen = .ok c0)
    (o o1 : Object V) (embed : Embed V) (env : InsEnv) (e : Err) (hl : Legal dim c (.insert o embed env false))
    (h : c.insert L o embed env false = .ok (c1, o1, some e)) :
    ∃ c2, c1.reopen = .ok c2 ∧ ∀ id x, getObject L.json c.stores id = .ok (some x) → c2.get L [id] = .ok [x] := by
  obtain ⟨i1, ev⟩ := insert_inv i hl h (fun _ => False)
  have d1 := apply_dinv i dv (op := .insert o embed env false) (out := .inserted o1 (some e)) (c' := c1) hl
    (by simp [Coll.apply, h, liftPanic])
  have hi : c1.index = c.index := by
    generalize hee : some e = e' at h
    cases insert_res h with
    | closed => rfl
    | invalid => rfl
    | embed => rfl
    | storage o2 _ _ x _ _ hem hin =>
      obtain ⟨⟨r, hr, hd⟩, hlev, hcnt⟩ := hl
      rw [hr] at hem; cases hem
      obtain ⟨c3, o3, e2, h2, i2, f2⟩ := insertOne_spec i (env := env) (hd [o2] rfl o2 (by simp)) hlev hcnt
      rw [hin] at h2; cases h2
      exact (f2.bad _ rfl).2
    | done o2 _ c3 _ _ hem hin =>
      obtain ⟨⟨r, hr, hd⟩, hlev, hcnt⟩ := hl
      rw [hr] at hem; cases hem
      obtain ⟨c4, o3, e2, h2, i2, f2⟩ := insertOne_spec i (env := env) (hd [o2] rfl o2 (by simp)) hlev hcnt
      rw [hin] at h2; cases h2
      rw [flush_err i2 false] at hee
      cases hee
  have hopen : ∃ c', c1.reopen = .ok c' := by
    rw [reopen_iff i1 d1, hi]; exact (reopen_iff i dv).mp hop
  rcases reopen_any i1 d1 with ⟨c3, h1, h2, h3, h4, h5, h6, h7, h8, h9, _⟩ | ⟨h1, _⟩
  · refine ⟨c3, h1, fun id x hx => ?_⟩
    rw [get_single_some h9, h4, ev.keep id (getObject_used i hx) (fun h => h)]
    exact hx
  · obtain ⟨c', hc'⟩ := hopen; rw [hc'] at h1; cases h1

/-- C53: a collection that could be opened before `Insert` can be opened after an `Insert` that returned an error
before the vector was stored, and reads the same.
Excluded: a failing flush; see `C53_unopenable_after_failed_flush`. -/
theorem C53_failed_insert (L : Lib V D) (dim : Nat) (c c1 : Coll) (hr : ReachAny L dim c) (hop : ∃ c0, c.reopen = .ok c0)
    (o o1 : Object V) (embed : Embed V) (env : InsEnv) (e : Err) (hl : Legal dim c (.insert o embed env false))
    (h : c.insert L o embed env false = .ok (c1, o1, some e)) :
    ∃ c2, c1.reopen = .ok c2 ∧ ∀ id x, getObject L.json c.stores id = .ok (some x) → c2.get L [id] = .ok [x] :=
  w53_failed_insert L dim c c1 hr.weak.1 hr.weak.2 hop o o1 embed env e hl h

theorem w53_unopenable_after_failed_flush (L : Lib V D) (dim : Nat) (c c0 : Coll) {S : Prop} (i : WInv S L dim (fun _ => True) c) (dv : DInv S c.index)
    (o o0 : Object V) (embed : Embed V) (env : InsEnv) (hl : Legal dim c (.insert o embed env false))
    (h : c.insert L o embed env false = .ok (c0, o0, none)) :
    ∃ c1, c.insert L o embed env true = .ok (c1, o0, some .io) ∧ c1.reopen = .error (.panic .nilDeref) ∧
      (c1.close false).1.reopen = .error (.panic .nilDeref) := by
  obtain ⟨⟨r, hr, hd⟩, hlev, hcnt⟩ := hl
  generalize hee : (none : Option Err) = e' at h
  cases insert_res h with
  | closed => cases hee
  | invalid => cases hee
  | embed => cases hee
  | storage => cases hee
  | done o2 _ c3 hc hv hem hin =>
    rw [hr] at hem; cases hem
    obtain ⟨c4, o3, e2, h2, i2, f2⟩ := insertOne_spec i (env := env) (hd [o2] rfl o2 (by simp)) hlev hcnt
    rw [hin] at h2; cases h2
    have hre : c3.reopen = .error (.panic .nilDeref) := by
      rcases reopen_any i2 (insertOne_dinv i dv f2) with ⟨c4, h1, _⟩ | ⟨h1, _⟩
      · exfalso
        obtain ⟨s, hs, hk⟩ := (reopen_iff i2 (insertOne_dinv i dv f2)).mp ⟨c4, h1⟩
        obtain ⟨s', hs', hpre, _⟩ := dv.ex
        rw [f2.cfg, f2.disk, hs'] at hs
        cases hs
        have := (f2.ok rfl).2.2.2.1.keys
        rw [this] at hk
        exact (fresh_of i).2.1 ((vkey_iff i _).mpr (hpre _ (hk _ (by simp))))
      · exact h1
    refine ⟨c3, ?_, hre, ?_⟩
    · unfold Coll.insert
      rw [hc, hv, hr]
      dsimp only
      rw [if_neg (by decide), ok_bind]
      dsimp only
      rw [hin]
      rfl
    · have hcl : (c3.close false).1.reopen = c3.reopen := by
        unfold Coll.close IdCounter.close
        by_cases hb : c3.counter.closed = true
        · simp [hb]
        · simp [hb, Coll.reopen, Coll.disk]
      rw [hcl]; exact hre

/-- C53 is false for the last step, in every reachable state: an `Insert` that would succeed but for the flush of the index
log returns the disk error; if the process ends now (a clean `Close` included), the collection can never be opened again. -/
theorem C53_unopenable_after_failed_flush (L : Lib V D) (dim : Nat) (c c0 : Coll) (hr : ReachAny L dim c)
    (o o0 : Object V) (embed : Embed V) (env : InsEnv) (hl : Legal dim c (.insert o embed env false))
    (h : c.insert L o embed env false = .ok (c0, o0, none)) :
    ∃ c1, c.insert L o embed env true = .ok (c1, o0, some .io) ∧ c1.reopen = .error (.panic .nilDeref) ∧
      (c1.close false).1.reopen = .error (.panic .nilDeref) :=
  w53_unopenable_after_failed_flush L dim c c0 hr.weak.1 hr.weak.2 o o0 embed env hl h

/-- C53, the waiting records are not lost while the process lives: once a later call flushes successfully, the collection can
be opened again. -/
theorem C53_next_flush_repairs (L : Lib V D) (dim : Nat) (c : Coll) (hr : ReachAny L dim c) :
    ∃ c2, (c.flush false).1.reopen = .ok c2 ∧ (c.flush false).2 = none ∧ c2.stores = c.stores ∧
      c2.index.nodes = c.index.nodes ∧ c2.index.deleted = c.index.deleted := by
  obtain ⟨i, dv⟩ := hr.weak
  obtain ⟨f, _, h, _⟩ := coll_reopen_exact (i.flush false) (flush_batch i) (fun _ => False)
  refine ⟨_, h, flush_err i false, rfl, ?_, ?_⟩
  · show (c.index.flush false).1.nodes = _
    rw [flush_ok i.idx]
  · show (c.index.flush false).1.deleted = _
    rw [flush_ok i.idx]

example : ReachAny demoLib 1 (demoState demoCfg c31Ops) ∧ Legal 1 (demoState demoCfg c31Ops) (demoInsert 8) ∧
    (∃ c0 o0, (demoState demoCfg c31Ops).insert demoLib (demoObj 8) noEmbed {} false = .ok (c0, o0, none)) ∧
    (∃ c1 o1, (demoState demoCfg c31Ops).insert demoLib (demoObj 8) noEmbed { put := .vectors } false = .ok (c1, o1, some .io)) :=
  ⟨c31_state.1, legalB_sound (by decide), ⟨_, _, rfl⟩, ⟨_, _, rfl⟩⟩

end Vectory
