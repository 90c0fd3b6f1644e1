import Verif.Props.Crash
import Verif.Props.Torn
import Verif.Lemmas.DbMore
/-! # When can a collection be opened again? C31 and C53, exactly -/
namespace Vectory
variable {V D : Type}

/-- the files of the collection, as they are now, can be opened. -/
def Coll.Opens (c : Coll) : Prop := ∃ c0, c.reopen = .ok c0

/-- the call made everything durable: an insert or a batch returned nil, or a delete of an object that was there returned nil (or the
collection was just opened). -/
def Settles (L : Lib V D) (c : Coll) : Op V → Out V D → Prop
  | .insert _ _ _ _, .inserted _ e => e = none
  | .insertBatch _ _ _ _, .insertedBatch _ e => e = none
  | .delete id _ _, .deleted e => e = none ∧ ∃ o, c.get L [id] = .ok [o]
  | .reopen, _ => True
  | _, _ => False

/-- between `c` and `c'` an object became readable. -/
def Exposes (L : Lib V D) (c c' : Coll) : Prop := ∃ id o, c'.get L [id] = .ok [o] ∧ ∀ o', c.get L [id] ≠ .ok [o']

/-- what the internal inserts of a batch leave behind: nothing anybody can see, or an object that is in the index and not in the log. -/
theorem insertAll_shape {S : Prop} {X : UInt64 → Prop} {L : Lib V D} {dim : Nat} : ∀ (os : List (Object V × InsEnv)) (c c' : Coll)
    (os' : List (Object V)) (e : Option Err), WInv S L dim X c → (∀ p ∈ os, (p.1.vec.getD []).length = dim) →
    (∀ p ∈ os, p.2.level < 4294967296) → c.counter.count.toNat + os.length < 18446744073709551616 → c.insertAll L os = .ok (c', os', e) →
    (c'.index = c.index ∧ ∀ id, getObject L.json c'.stores id = getObject L.json c.stores id) ∨
    (∃ id o, getObject L.json c'.stores id = .ok (some o) ∧ getObject L.json c.stores id = .ok none ∧ id ∉ c.index.nodes.keys ∧
      id ∈ c'.index.nodes.keys) := by
  intro os
  cases os with
  | nil => intro c c' os' e _ _ _ _ h; cases h; exact Or.inl ⟨rfl, fun _ => rfl⟩
  | cons p os =>
    intro c c' os' e i hd hl hc h
    obtain ⟨o, env⟩ := p
    simp only [List.length_cons] at hc
    obtain ⟨c1, o1, e1, h1, i1, f1⟩ := insertOne_spec (env := env) i (hd _ (List.mem_cons_self ..)) (hl _ (List.mem_cons_self ..)) (by omega)
    have hcount := f1.count
    unfold Coll.insertAll at h
    rw [h1, ok_bind] at h
    dsimp only at h
    cases e1 with
    | some x =>
      cases h
      refine Or.inl ⟨(f1.bad x rfl).2, fun id => ?_⟩
      by_cases hid : id = c.counter.count
      · rw [hid]; exact (f1.bad x rfl).1
      · exact f1.frame id hid
    | none =>
      obtain ⟨_, ⟨b, pr, _, _, hg⟩, _⟩ := f1.ok rfl
      have hcnt : c1.counter.count.toNat = c.counter.count.toNat + 1 := by rw [hcount]; exact u64_succ (by omega)
      obtain ⟨c2, os2, e2, g1, i2, ev, _⟩ := insertAll_spec (fun _ => False) os c1 i1 (fun p hp => hd p (List.mem_cons_of_mem _ hp))
        (fun p hp => hl p (List.mem_cons_of_mem _ hp)) (by omega)
      rw [g1, ok_bind] at h
      cases h
      have hg2 : getObject L.json c2.stores c.counter.count = .ok (some { id := c.counter.count, props := pr, vec := some (o.vec.getD []) }) := by
        rw [ev.keep _ (getObject_used i1 hg) (fun h => h)]; exact hg
      obtain ⟨k1, k2, _⟩ := fresh_of i
      refine Or.inr ⟨c.counter.count, _, hg2, ?_, ?_, ?_⟩
      · obtain ⟨r, hr, hs, _⟩ := getObject_eq i c.counter.count
        cases r with
        | none => exact hr
        | some y => exact absurd (hs.mp rfl).1 k1
      · intro hc; exact k2 ((vkey_iff i _).mpr hc)
      · obtain ⟨r, hr, hs, _⟩ := getObject_eq i2 c.counter.count
        rw [hg2] at hr; cases hr
        exact (vkey_iff i2 _).mp (hs.mp rfl).2

theorem exposes_of {L : Lib V D} {c c' : Coll} (hc : c.closed = false) (hc' : c'.closed = false) {id : UInt64} {o : Object V}
    (h : getObject L.json c'.stores id = .ok (some o)) (h0 : getObject L.json c.stores id = .ok none) : Exposes L c c' :=
  ⟨id, o, (get_single_some hc').mpr h, fun o' h' => by rw [(get_single_some hc).mp h'] at h0; cases h0⟩

theorem not_exposes {L : Lib V D} {c c' : Coll} (hc : c.closed = false) (h : ∀ id, getObject L.json c'.stores id = getObject L.json c.stores id) :
    ¬ Exposes L c c' := by
  rintro ⟨id, o, h1, h2⟩
  cases hc' : c'.closed with
  | true => unfold Coll.get at h1; rw [hc'] at h1; cases h1
  | false => exact h2 o ((get_single_some hc).mpr (by rw [← h]; exact (get_single_some hc').mp h1))

theorem not_exposes_self {L : Lib V D} {c : Coll} : ¬ Exposes L c c := by rintro ⟨id, o, h1, h2⟩; exact h2 o h1

/-- the answer when something is in the index and not in the log. -/
theorem unopenable {S : Prop} {Y : UInt64 → Prop} {L : Lib V D} {dim : Nat} {c c' : Coll} (dv : DInv S c.index)
    (i' : WInv S L dim Y c') (d' : DInv S c'.index) (hcfg : c'.index.cfg = c.index.cfg) (hdisk : c'.index.wal.disk = c.index.wal.disk)
    {id : UInt64} (h : id ∉ c.index.nodes.keys) (h' : id ∈ c'.index.nodes.keys) : c'.reopen = .error (.panic .nilDeref) := by
  rcases reopen_any i' d' with ⟨c3, h1, _⟩ | ⟨h1, _⟩
  · exfalso
    obtain ⟨s, hs, hk⟩ := (reopen_iff i' d').mp ⟨c3, h1⟩
    obtain ⟨s', hs', hpre, _⟩ := dv.ex
    rw [hcfg, hdisk, hs'] at hs
    cases hs
    exact h (hpre _ (hk _ h'))
  · exact h1

theorem w53_exact {S : Prop} {L : Lib V D} {dim : Nat} {c c' : Coll} (i : WInv S L dim (fun _ => True) c) (dv : DInv S c.index) (op : Op V) (out : Out V D)
    (hl : (Ev.call op out : Ev V D).Legal L dim c) (h : c.apply L op = .ok (c', out)) :
    (Settles L c op out → c'.Opens) ∧
    (¬ Settles L c op out → Exposes L c c' → c'.reopen = .error (.panic .nilDeref)) ∧
    (¬ Settles L c op out → ¬ Exposes L c c' → (c'.Opens ↔ c.Opens)) := by
  have same : c' = c → ¬ Settles L c op out → (Settles L c op out → c'.Opens) ∧
    (¬ Settles L c op out → Exposes L c c' → c'.reopen = .error (.panic .nilDeref)) ∧
    (¬ Settles L c op out → ¬ Exposes L c c' → (c'.Opens ↔ c.Opens)) := by
    rintro rfl hn
    exact ⟨fun h => absurd h hn, fun _ h => absurd h not_exposes_self, fun _ _ => Iff.rfl⟩
  cases op with
  | get ids => cases h; exact same rfl (fun h => h)
  | search o embed k => cases h; exact same rfl (fun h => h)
  | size => cases h; exact same rfl (fun h => h)
  | update o => cases h; exact same rfl (fun h => h)
  | reopen =>
    simp only [Coll.apply] at h
    obtain ⟨c3, h3, h4⟩ := (bind_ok_iff _ _ _).mp h
    cases h4
    refine ⟨fun _ => ?_, fun hn => absurd trivial hn, fun hn => absurd trivial hn⟩
    rcases reopen_any i dv with ⟨c4, h1, h2, _, _, _, _, _, _, _, _, _, h12, _⟩ | ⟨h1, _⟩
    · rw [h3] at h1; cases h1
      obtain ⟨f, _, _, h, _⟩ := coll_reopen h2 h12 (fun _ => False)
      exact ⟨_, h⟩
    · rw [h3] at h1; cases h1
  | close sf =>
    have hcl : c'.reopen = c.reopen ∧ (c'.closed = true ∨ c'.stores = c.stores ∧ c'.closed = c.closed) := by
      simp only [Coll.apply] at h
      cases hx : c.close sf with
      | mk c1 e =>
        rw [hx] at h
        cases h
        unfold Coll.close IdCounter.close at hx
        by_cases hb : c.counter.closed = true
        · simp [hb] at hx
          obtain ⟨rfl, rfl⟩ := hx
          exact ⟨rfl, Or.inr ⟨rfl, rfl⟩⟩
        · simp [hb] at hx
          split at hx <;> (try split at hx) <;> (cases hx; simp [Coll.reopen, Coll.disk])
    refine ⟨fun h => h.elim, fun _ hx => ?_, fun _ _ => by unfold Coll.Opens; rw [hcl.1]⟩
    exfalso
    obtain ⟨id, o, h1, h2⟩ := hx
    rcases hcl.2 with hc | ⟨hs, hc⟩
    · unfold Coll.get at h1; rw [hc] at h1; cases h1
    · apply h2 o; rw [← h1]; unfold Coll.get; rw [hs, hc]
  | delete id df ff =>
    have d1 := apply_dinv i dv (op := .delete id df ff) hl h
    have h0 := h
    simp only [Coll.apply] at h
    obtain ⟨r, h1, h2⟩ := (bind_ok_iff _ _ _).mp h
    obtain ⟨c1, e⟩ := r
    cases h2
    obtain ⟨c2, e2, hd, hres⟩ := delete_res i id df ff
    rw [hd] at h1
    cases h1
    cases hres with
    | closed => exact same rfl (fun h => by cases h.1)
    | absent ha =>
      refine same rfl ?_
      rintro ⟨_, o, ho⟩
      cases hc : c.closed with
      | true => unfold Coll.get at ho; rw [hc] at ho; cases ho
      | false => rw [(get_single_some hc).mp ho] at ha; cases ha
    | failed => exact same rfl (fun h => by cases h.1)
    | done o hc ho hdf =>
      have hx : ¬ Exposes L c (Coll.flush { c with stores := deleteObject c.stores id, index := c.index.delete id } ff).1 := by
        rintro ⟨y, oy, h1, h2⟩
        have hcl : (Coll.flush { c with stores := deleteObject c.stores id, index := c.index.delete id } ff).1.closed = false := hc
        have h1 : getObject L.json (deleteObject c.stores id) y = .ok (some oy) := (get_single_some hcl).mp h1
        by_cases hy : y = id
        · rw [hy, getObject_delete_self] at h1; cases h1
        · rw [getObject_delete_ne _ _ _ _ hy] at h1
          exact h2 oy ((get_single_some hc).mpr h1)
      obtain ⟨_, _, hap, i1, _⟩ := apply_spec i (Op.delete id df ff) trivial
      rw [h0] at hap; cases hap
      cases ff with
      | false =>
        refine ⟨fun _ => ?_, fun _ hx' => absurd hx' hx, fun hn => absurd ⟨?_, o, (get_single_some hc).mpr ho⟩ hn⟩
        · have hb : (Coll.flush { c with stores := deleteObject c.stores id, index := c.index.delete id } false).1.index.wal.batch = [] := by
            show (Hnsw.flush (c.index.delete id) false).1.wal.batch = []
            rw [flush_ok (delete_spec i.idx id)]
          obtain ⟨f, _, _, h, _⟩ := coll_reopen i1 hb (fun _ => False)
          exact ⟨_, h⟩
        · show (Hnsw.flush (c.index.delete id) false).2 = none
          rw [flush_ok (delete_spec i.idx id)]
      | true =>
        refine ⟨(fun hs => by cases hs.1), fun _ hx' => absurd hx' hx, fun _ _ => ?_⟩
        unfold Coll.Opens
        rw [reopen_iff i1 d1, reopen_iff i dv]
        exact Iff.rfl
  | insert o embed env ff =>
    have d1 := apply_dinv i dv (op := .insert o embed env ff) hl h
    simp only [Coll.apply] at h
    obtain ⟨r, h1, h2⟩ := (bind_ok_iff _ _ _).mp h
    obtain ⟨c1, o1, e⟩ := r
    cases h2
    have h1 := liftPanic_ok h1
    obtain ⟨i1, ev⟩ := insert_inv i hl h1 (fun _ => False)
    obtain ⟨⟨r, hem0, hd⟩, hlev, hcnt⟩ := hl
    cases insert_res h1 with
    | closed => exact same rfl (fun h => by cases h)
    | invalid => exact same rfl (fun h => by cases h)
    | embed => exact same rfl (fun h => by cases h)
    | storage o2 _ _ x hc _ hem hin =>
      rw [hem0] at hem; cases hem
      obtain ⟨c3, o3, e2, g2, i2, f2⟩ := insertOne_spec i (env := env) (hd [o2] rfl o2 (by simp)) hlev hcnt
      rw [hin] at g2; cases g2
      refine ⟨(fun h => by cases h), fun _ hx => absurd hx (not_exposes hc fun id => ?_), fun _ _ => ?_⟩
      · by_cases hid : id = c.counter.count
        · rw [hid]; exact (f2.bad x rfl).1
        · exact f2.frame id hid
      · unfold Coll.Opens
        rw [reopen_iff i1 d1, reopen_iff i dv, (f2.bad x rfl).2]
    | done o2 _ c3 hc _ hem hin =>
      rw [hem0] at hem; cases hem
      obtain ⟨c4, o3, e2, g2, i2, f2⟩ := insertOne_spec i (env := env) (hd [o2] rfl o2 (by simp)) hlev hcnt
      rw [hin] at g2; cases g2
      cases ff with
      | false =>
        refine ⟨fun _ => ?_, fun hn => absurd (flush_err i2 false) hn, fun hn => absurd (flush_err i2 false) hn⟩
        obtain ⟨f, _, _, h, _⟩ := coll_reopen i1 (flush_batch i2) (fun _ => False)
        exact ⟨_, h⟩
      | true =>
        obtain ⟨_, ⟨b, pr, _, _, hg⟩, _, hins, _⟩ := f2.ok rfl
        obtain ⟨k1, k2, _⟩ := fresh_of i
        have hex : Exposes L c c3 := by
          refine exposes_of hc (f2.closed.trans hc) hg ?_
          obtain ⟨r, hr, hs, _⟩ := getObject_eq i c.counter.count
          cases r with
          | none => exact hr
          | some y => exact absurd (hs.mp rfl).1 k1
        refine ⟨fun hs => (by cases hs), fun _ _ => ?_, fun _ hx => absurd hex hx⟩
        refine unopenable dv (c' := c3) i2 (insertOne_dinv i dv f2) f2.cfg f2.disk (id := c.counter.count) (fun hc => k2 ((vkey_iff i _).mpr hc)) ?_
        rw [hins.keys]; simp
  | insertBatch os embed envs ff =>
    have d1 := apply_dinv i dv (op := .insertBatch os embed envs ff) hl h
    simp only [Coll.apply] at h
    obtain ⟨r, h1, h2⟩ := (bind_ok_iff _ _ _).mp h
    obtain ⟨c1, os1, e⟩ := r
    cases h2
    have h1 := liftPanic_ok h1
    obtain ⟨i1, ev⟩ := batch_inv i hl h1 (fun _ => False)
    obtain ⟨⟨r, hem0, hd⟩, hlev, hcnt⟩ := hl
    have key : ∀ os2 os3 c3 e3, c.closed = false → embedObjectsIfNeeded c embed os = .ok (.ok os2) →
        c.insertAll L (os2.zipIdx.map (fun p => (p.1, envs p.2))) = .ok (c3, os3, e3) →
        WInv S L dim (fun _ => True) c3 ∧ ((c3.index = c.index ∧ ¬ Exposes L c c3) ∨ (Exposes L c c3 ∧ c3.reopen = .error (.panic .nilDeref))) := by
      intro os2 os3 c3 e3 hc hem hin
      have hlen := embed_length hem
      rw [hem0] at hem; cases hem
      obtain ⟨hz1, hz2⟩ := zipIdx_dim (envs := envs) (hd os2 rfl) hlev
      obtain ⟨c4, os4, e4, he, i3, ev3, _, _, hcl3⟩ := insertAll_spec (fun _ => False) _ c i hz1 hz2 (by simp; omega)
      rw [hin] at he; cases he
      have d3 := insertAll_dinv _ _ _ _ _ i dv hz1 hz2 (by simp; omega) hin
      have hdisk := insertAll_disk _ _ _ _ _ i hz1 hz2 (by simp; omega) hin
      refine ⟨i3, ?_⟩
      rcases insertAll_shape _ _ _ _ _ i hz1 hz2 (by simp; omega) hin with ⟨a, b⟩ | ⟨id, x, a, b, cc, d⟩
      · exact Or.inl ⟨a, not_exposes hc b⟩
      · exact Or.inr ⟨exposes_of hc (hcl3.trans hc) a b, unopenable dv i3 d3 ev3.cfg hdisk cc d⟩
    cases batch_res h1 with
    | closed => exact same rfl (fun h => by cases h)
    | invalid => exact same rfl (fun h => by cases h)
    | embed => exact same rfl (fun h => by cases h)
    | storage os2 _ _ x hc _ hem hin =>
      obtain ⟨i3, hk⟩ := key _ _ _ _ hc hem hin
      refine ⟨(fun h => by cases h), fun _ hx => ?_, fun _ hx => ?_⟩
      · rcases hk with ⟨_, hn⟩ | ⟨_, hu⟩
        · exact absurd hx hn
        · exact hu
      · rcases hk with ⟨hi, _⟩ | ⟨he, _⟩
        · unfold Coll.Opens
          rw [reopen_iff i1 d1, reopen_iff i dv, hi]
        · exact absurd he hx
    | done os2 _ c3 hc _ hem hin =>
      obtain ⟨i3, hk⟩ := key _ _ _ _ hc hem hin
      cases ff with
      | false =>
        refine ⟨fun _ => ?_, fun hn => absurd (flush_err i3 false) hn, fun hn => absurd (flush_err i3 false) hn⟩
        obtain ⟨f, _, _, h, _⟩ := coll_reopen i1 (flush_batch i3) (fun _ => False)
        exact ⟨_, h⟩
      | true =>
        refine ⟨fun hs => (by cases hs), fun _ hx => ?_, fun _ hx => ?_⟩
        · rcases hk with ⟨_, hn⟩ | ⟨_, hu⟩
          · exact absurd hx hn
          · exact hu
        · rcases hk with ⟨hi, _⟩ | ⟨he, _⟩
          · unfold Coll.Opens
            rw [reopen_iff i1 d1, reopen_iff i dv]
            have : (Coll.flush c3 true).1.index = c.index := hi
            rw [this]
          · exact absurd he hx

/-- **C53, exactly.** Let a collection be in any state reached by calls, failing writes, crashes and reopens; consider any call.
If the call made everything durable (an insert, a batch, or the delete of a stored object returned nil), the collection can be opened
again. If it did not and yet an object became readable by it (an insert or a batch that returned an error after storing an object), the
collection cannot be opened again. In all other cases it can be opened iff it could before. -/
theorem C53_exact (L : Lib V D) (dim : Nat) (c c' : Coll) (hr : ReachAny L dim c) (op : Op V) (out : Out V D)
    (hl : (Ev.call op out : Ev V D).Legal L dim c) (h : c.apply L op = .ok (c', out)) :
    (Settles L c op out → c'.Opens) ∧
    (¬ Settles L c op out → Exposes L c c' → c'.reopen = .error (.panic .nilDeref)) ∧
    (¬ Settles L c op out → ¬ Exposes L c c' → (c'.Opens ↔ c.Opens)) :=
  w53_exact hr.weak.1 hr.weak.2 op out hl h

-- an insert whose flush fails: it does not settle and exposes an object; the same insert with a working flush settles
example : ReachAny demoLib 1 (demoState demoCfg c31Ops) ∧ (demoState demoCfg c31Ops).Opens ∧
    (∃ c' o', (demoState demoCfg c31Ops).apply demoLib (.insert (demoObj 8) noEmbed {} true) = .ok (c', .inserted o' (some .io)) ∧
      ¬ Settles demoLib (demoState demoCfg c31Ops) (.insert (demoObj 8) noEmbed {} true) (.inserted o' (some .io)) ∧
      ∃ x, c'.get demoLib [3] = .ok [x]) ∧
    ∃ c' o', (demoState demoCfg c31Ops).apply demoLib (.insert (demoObj 8) noEmbed {} false) = .ok (c', .inserted o' none) ∧
      Settles demoLib (demoState demoCfg c31Ops) (.insert (demoObj 8) noEmbed {} false) (.inserted o' none) :=
  ⟨c31_state.1, c31_state.2.1, ⟨_, _, rfl, (fun h => by cases h), _, rfl⟩, _, _, rfl, rfl⟩

end Vectory
