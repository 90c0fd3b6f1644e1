import Verif.Lemmas.CollMore
/-! A collection with a non-empty index behaves the same whatever its `once` flag says. -/
namespace Vectory
variable {V D : Type} {S : Prop} {X : UInt64 → Prop}

/-- change the `once` flag. -/
def Coll.setOnce (c : Coll) (b : Bool) : Coll := { c with index := { c.index with once := b } }

/-- equal, or equal up to the `once` flag of a non-empty index. -/
def Sim (c c' : Coll) : Prop := c' = c ∨ (c.index.nodes ≠ [] ∧ ∃ b, c' = c.setOnce b)

theorem Sim.refl (c : Coll) : Sim c c := Or.inl rfl

theorem Sim.symm {c c' : Coll} (h : Sim c c') : Sim c' c := by
  rcases h with rfl | ⟨hn, b, rfl⟩
  · exact Or.inl rfl
  · exact Or.inr ⟨hn, c.index.once, rfl⟩

/-- the same result from two related states. -/
inductive SimRes {ε α : Type} : Except ε (Coll × α) → Except ε (Coll × α) → Prop where
  | error (e : ε) : SimRes (.error e) (.error e)
  | ok {c c' : Coll} (a : α) : Sim c c' → SimRes (.ok (c, a)) (.ok (c', a))

theorem SimRes.refl {ε α : Type} (r : Except ε (Coll × α)) : SimRes r r := by
  cases r with
  | error e => exact .error e
  | ok p => exact .ok p.2 (Sim.refl p.1)

theorem insert_once (M : Metric D) (h : Hnsw) (hn : h.nodes ≠ []) (b : Bool) (vec : Vec) (id : UInt64) (level : Nat) :
    ({ h with once := b } : Hnsw).insert M vec id level = h.insert M vec id level := by
  unfold Hnsw.insert
  rw [if_neg (by simp [hn]), if_neg (by simp [hn])]

theorem insertOne_sim (L : Lib V D) {c c' : Coll} (s : Sim c c') (o : Object V) (env : InsEnv) :
    SimRes (c.insertOne L o env) (c'.insertOne L o env) := by
  rcases s with rfl | ⟨hn, b, rfl⟩
  · exact .refl _
  · unfold Coll.insertOne
    have h1 : (c.setOnce b).counter = c.counter := rfl
    have h2 : (c.setOnce b).stores = c.stores := rfl
    have h3 : ∀ v id l, (c.setOnce b).index.insert L.metric v id l = c.index.insert L.metric v id l :=
      fun v id l => insert_once L.metric c.index hn b v id l
    rw [h1, h2]
    cases hf : fetchAndInc c.counter env.counterFails with
    | mk ctr r =>
      cases r with
      | error e => exact .ok _ (Or.inr ⟨hn, b, rfl⟩)
      | ok id =>
        dsimp only
        cases hp : putObject L.json c.stores { o with id := id } env.put with
        | mk st e =>
          cases e with
          | some e => exact .ok _ (Or.inr ⟨hn, b, rfl⟩)
          | none =>
            dsimp only
            rw [h3]
            cases c.index.insert L.metric (o.vec.getD []) id env.level with
            | error p => exact .error p
            | ok idx => exact .ok _ (Or.inl rfl)

theorem insertAll_sim (L : Lib V D) : ∀ (os : List (Object V × InsEnv)) {c c' : Coll}, Sim c c' →
    SimRes (c.insertAll L os) (c'.insertAll L os) := by
  intro os
  induction os with
  | nil => intro c c' s; exact .ok _ s
  | cons p os ih =>
    obtain ⟨o, env⟩ := p
    intro c c' s
    unfold Coll.insertAll
    have h := insertOne_sim L s o env
    generalize c.insertOne L o env = r, c'.insertOne L o env = r' at h
    cases h with
    | error p => exact .error p
    | ok a hs =>
      obtain ⟨o1, e⟩ := a
      simp only [ok_bind]
      cases e with
      | some e => exact .ok _ hs
      | none =>
        dsimp only
        have h2 := ih hs
        revert h2
        generalize Coll.insertAll L _ os = r1, Coll.insertAll L _ os = r2
        intro h2
        cases h2 with
        | error p => exact .error p
        | ok a hs2 => exact .ok _ hs2

theorem flush_sim {c c' : Coll} (s : Sim c c') (b : Bool) : Sim (c.flush b).1 (c'.flush b).1 ∧ (c'.flush b).2 = (c.flush b).2 := by
  rcases s with rfl | ⟨hn, b', rfl⟩
  · exact ⟨Sim.refl _, rfl⟩
  · exact ⟨Or.inr ⟨hn, b', rfl⟩, rfl⟩

theorem Sim.same {c c' : Coll} (s : Sim c c') : c'.closed = c.closed ∧ c'.mappings = c.mappings ∧ c'.hasEmbedder = c.hasEmbedder ∧
    c'.stores = c.stores ∧ c'.counter = c.counter ∧ c'.index.wal = c.index.wal ∧ c'.index.nodes = c.index.nodes := by
  rcases s with rfl | ⟨hn, b', rfl⟩ <;> exact ⟨rfl, rfl, rfl, rfl, rfl, rfl, rfl⟩

theorem Sim.embed {c c' : Coll} (s : Sim c c') (embed : Embed V) (os : List (Object V)) :
    embedObjectsIfNeeded c' embed os = embedObjectsIfNeeded c embed os := by
  unfold embedObjectsIfNeeded
  rw [s.same.2.2.1]

theorem insert_sim (L : Lib V D) {c c' : Coll} (s : Sim c c') (o : Object V) (embed : Embed V) (env : InsEnv) (ff : Bool) :
    SimRes (c.insert L o embed env ff) (c'.insert L o embed env ff) := by
  unfold Coll.insert
  rw [s.same.1, s.same.2.1, s.embed]
  by_cases hc : c.closed = true
  · rw [if_pos hc, if_pos hc]; exact .ok _ s
  · rw [if_neg hc, if_neg hc]
    cases validateObjects c.mappings 0 [o] with
    | some e => exact .ok _ s
    | none =>
      dsimp only
      cases embedObjectsIfNeeded c embed [o] with
      | error p => exact .error p
      | ok r =>
        simp only [ok_bind]
        cases r with
        | error e => exact .ok _ s
        | ok objs =>
          cases objs with
          | nil => exact .ok _ s
          | cons o1 _ =>
            dsimp only
            have h := insertOne_sim L s o1 env
            generalize c.insertOne L o1 env = r, c'.insertOne L o1 env = r' at h
            cases h with
            | error p => exact .error p
            | ok a hs =>
              obtain ⟨o2, e⟩ := a
              simp only [ok_bind]
              cases e with
              | some e => exact .ok _ hs
              | none =>
                have hf := flush_sim hs ff
                dsimp only
                rw [hf.2]
                exact .ok _ hf.1

theorem batch_sim (L : Lib V D) {c c' : Coll} (s : Sim c c') (os : List (Object V)) (embed : Embed V) (envs : Nat → InsEnv)
    (ff : Bool) : SimRes (c.insertBatch L os embed envs ff) (c'.insertBatch L os embed envs ff) := by
  unfold Coll.insertBatch
  rw [s.same.1, s.same.2.1, s.embed]
  by_cases hc : c.closed = true
  · rw [if_pos hc, if_pos hc]; exact .ok _ s
  · rw [if_neg hc, if_neg hc]
    cases validateObjects c.mappings 0 os with
    | some e => exact .ok _ s
    | none =>
      dsimp only
      cases embedObjectsIfNeeded c embed os with
      | error p => exact .error p
      | ok r =>
        simp only [ok_bind]
        cases r with
        | error e => exact .ok _ s
        | ok objs =>
          dsimp only
          have h := insertAll_sim L (objs.zipIdx.map (fun p => (p.1, envs p.2))) s
          revert h
          generalize c.insertAll L _ = r, c'.insertAll L _ = r'
          intro h
          cases h with
          | error p => exact .error p
          | ok a hs =>
            obtain ⟨o2, e⟩ := a
            simp only [ok_bind]
            cases e with
            | some e => exact .ok _ hs
            | none =>
              have hf := flush_sim hs ff
              dsimp only
              rw [hf.2]
              exact .ok _ hf.1

theorem SimRes.lift {α : Type} {r r' : Except Panic (Coll × α)} (h : SimRes r r') : SimRes (liftPanic r) (liftPanic r') := by
  cases h with
  | error p => exact .error _
  | ok a hs => exact .ok a hs

theorem delete_sim (L : Lib V D) {c c' : Coll} (s : Sim c c') (id : UInt64) (df ff : Bool) :
    SimRes (c.delete L id df ff) (c'.delete L id df ff) := by
  rcases s with rfl | ⟨hn, b, rfl⟩
  · exact .refl _
  · unfold Coll.delete
    show SimRes _ (if (c.closed && c.stores.objects.has (keyOf id)) = true then _ else
      match getObject L.json c.stores id with
      | .error (.panic p) => _ | .error (.error e) => _ | .ok none => _ | .ok (some _) => _)
    split
    · exact .ok _ (Or.inr ⟨hn, b, rfl⟩)
    · cases getObject L.json c.stores id with
      | error a => cases a with
        | panic p => exact .error p
        | error e => exact .ok _ (Or.inr ⟨hn, b, rfl⟩)
      | ok r => cases r with
        | none => exact .ok _ (Or.inr ⟨hn, b, rfl⟩)
        | some o =>
          dsimp only
          split
          · exact .ok _ (Or.inr ⟨hn, b, rfl⟩)
          · exact .ok _ (Or.inr ⟨hn, b, rfl⟩)

theorem apply_sim (L : Lib V D) {c c' : Coll} (s : Sim c c') (op : Op V) : SimRes (c.apply L op) (c'.apply L op) := by
  cases op with
  | insert o embed env ff =>
    simp only [Coll.apply]
    have h := (insert_sim L s o embed env ff).lift
    revert h
    generalize liftPanic (c.insert L o embed env ff) = r, liftPanic (c'.insert L o embed env ff) = r'
    intro h
    cases h with
    | error p => exact .error p
    | ok a hs => exact .ok _ hs
  | insertBatch os embed envs ff =>
    simp only [Coll.apply]
    have h := (batch_sim L s os embed envs ff).lift
    revert h
    generalize liftPanic (c.insertBatch L os embed envs ff) = r, liftPanic (c'.insertBatch L os embed envs ff) = r'
    intro h
    cases h with
    | error p => exact .error p
    | ok a hs => exact .ok _ hs
  | delete id df ff =>
    simp only [Coll.apply]
    have h := (delete_sim L s id df ff).lift
    revert h
    generalize liftPanic (c.delete L id df ff) = r, liftPanic (c'.delete L id df ff) = r'
    intro h
    cases h with
    | error p => exact .error p
    | ok a hs => exact .ok _ hs
  | get ids =>
    rcases s with rfl | ⟨hn, b, rfl⟩
    · exact .refl _
    · exact .ok _ (Or.inr ⟨hn, b, rfl⟩)
  | search o embed k =>
    rcases s with rfl | ⟨hn, b, rfl⟩
    · exact .refl _
    · exact .ok _ (Or.inr ⟨hn, b, rfl⟩)
  | size =>
    rcases s with rfl | ⟨hn, b, rfl⟩
    · exact .refl _
    · exact .ok _ (Or.inr ⟨hn, b, rfl⟩)
  | update o =>
    rcases s with rfl | ⟨hn, b, rfl⟩
    · exact .refl _
    · exact .ok _ (Or.inr ⟨hn, b, rfl⟩)
  | close sf =>
    rcases s with rfl | ⟨hn, b, rfl⟩
    · exact .refl _
    · simp only [Coll.apply, Coll.close, Coll.setOnce]
      cases h : c.counter.close with
      | mk ctr e =>
        cases e with
        | some e => exact .ok _ (Or.inr ⟨hn, b, rfl⟩)
        | none => cases sf <;> exact .ok _ (Or.inr ⟨hn, b, rfl⟩)
  | reopen =>
    rcases s with rfl | ⟨hn, b, rfl⟩
    · exact .refl _
    · exact .refl _

theorem trace_sim (L : Lib V D) : ∀ (h : List (Op V × Out V D)) {c c' c2 : Coll}, Sim c c' → Trace L c h c2 →
    ∃ c2', Trace L c' h c2' ∧ Sim c2 c2' := by
  intro h
  induction h with
  | nil => intro c c' c2 s t; cases t; exact ⟨c', .nil _, s⟩
  | cons p h ih =>
    intro c c' c2 s t
    cases t with
    | @cons _ c1 _ op out _ ha ht =>
      have hs := apply_sim L s op
      rw [ha] at hs
      generalize hr : c'.apply L op = r at hs
      cases hs with
      | ok _ hs =>
        obtain ⟨c3, t3, s3⟩ := ih hs ht
        exact ⟨c3, .cons hr t3, s3⟩

/-! ### clean histories -/

/-- no record is waiting, and the counter file says what the counter says. -/
structure Synced (c : Coll) : Prop where
  batch : c.index.wal.batch = []
  file : CounterOK c.counter c.counter.count
  closed : c.counter.closed = c.closed

theorem insertAll_counter {L : Lib V D} {dim : Nat} : ∀ (os : List (Object V × InsEnv)) (c c' : Coll) (os' : List (Object V)),
    WInv S L dim X c → (∀ p ∈ os, (p.1.vec.getD []).length = dim) → (∀ p ∈ os, p.2.level < 4294967296) →
    c.counter.count.toNat + os.length < 18446744073709551616 → c.insertAll L os = .ok (c', os', none) →
    CounterOK c.counter c.counter.count → CounterOK c'.counter c'.counter.count := by
  intro os
  induction os with
  | nil => intro c c' os' _ _ _ _ h hc; cases h; exact hc
  | cons p os ih =>
    obtain ⟨o, env⟩ := p
    intro c c' os' i hd hl hn h hc
    unfold Coll.insertAll at h
    simp only [List.length_cons] at hn
    obtain ⟨c1, o1, e1, h1, i1, f1⟩ := insertOne_spec i (o := o) (env := env) (hd (o, env) (List.mem_cons_self ..)) (hl (o, env) (List.mem_cons_self ..)) (by omega)
    rw [h1, ok_bind] at h
    cases e1 with
    | some e => cases h
    | none =>
      dsimp only at h
      obtain ⟨r, hr, h2⟩ := (bind_ok_iff _ _ _).mp h
      obtain ⟨c2, os2, e2⟩ := r
      cases h2
      have hcnt : (c.counter.count + 1).toNat = c.counter.count.toNat + 1 := (counter_step hc (by omega)).2.1
      refine ih c1 _ _ i1 (fun p hp => hd p (List.mem_cons_of_mem _ hp)) (fun p hp => hl p (List.mem_cons_of_mem _ hp))
        (by rw [f1.count, hcnt]; omega) hr ?_
      rcases f1.asg with ⟨_, he, _⟩ | ⟨_, hf⟩
      · exact absurd rfl he
      · exact ⟨Or.inr (by rw [hf, f1.count]), Nat.le_refl _⟩

/-- every call of a clean history keeps the collection synced. -/
theorem apply_synced {L : Lib V D} {dim : Nat} {c c' : Coll} (i : WInv S L dim X c) {op : Op V} {out : Out V D} (hl : Legal dim c op)
    (ha : c.apply L op = .ok (c', out)) (hc : out.clean) (s : Synced c) : Synced c' := by
  cases op with
  | insert o embed env ff =>
    simp only [Coll.apply] at ha
    obtain ⟨⟨c1, o1, e⟩, h1, h2⟩ := (bind_ok_iff _ _ _).mp ha
    cases h2
    have h1' : c.insert L o embed env ff = .ok (c1, o1, e) := by
      cases hx : c.insert L o embed env ff with
      | error p => rw [hx] at h1; cases h1
      | ok r => rw [hx] at h1; cases h1; rfl
    have hclo := insert_closed i hl h1'
    have hfl := fun he : e = none => insert_flushed i hl (by rw [h1', he])
    obtain ⟨⟨r, hr, hd⟩, hlev, hcnt⟩ := hl
    have hr0 := insert_res h1'
    cases hr0 with
    | closed => exact s
    | invalid => exact s
    | embed => exact s
    | storage o2 _ _ e _ _ hem hin =>
      exfalso
      have := insertOne_err hin
      have hcl := hc e rfl
      rcases this with rfl | rfl <;> simp [Err.rejection] at hcl
    | done o2 _ c2 hcc hv hem hin =>
      rw [hr] at hem; cases hem
      obtain ⟨c3, o3, e2, h3, i3, f3⟩ := insertOne_spec i (env := env) (hd [o2] rfl o2 (by simp)) hlev hcnt
      rw [hin] at h3; cases h3
      have hee : (c2.flush ff).2 = none := by
        have := flush_err i3 ff
        cases ff with
        | false => exact this
        | true => exfalso; have hcl := hc .io (by rw [this]; rfl); simp [Err.rejection] at hcl
      refine ⟨hfl hee, ?_, ?_⟩
      · rcases f3.asg with ⟨_, he, _⟩ | ⟨_, hf⟩
        · exact absurd rfl he
        · exact ⟨Or.inr (by show c2.counter.file = putUint64 c2.counter.count; rw [hf, f3.count]), Nat.le_refl _⟩
      · show c2.counter.closed = c2.closed
        rw [f3.ctrClosed, f3.closed, s.closed]
  | insertBatch os embed envs ff =>
    simp only [Coll.apply] at ha
    obtain ⟨⟨c1, o1, e⟩, h1, h2⟩ := (bind_ok_iff _ _ _).mp ha
    cases h2
    have h1' : c.insertBatch L os embed envs ff = .ok (c1, o1, e) := by
      cases hx : c.insertBatch L os embed envs ff with
      | error p => rw [hx] at h1; cases h1
      | ok r => rw [hx] at h1; cases h1; rfl
    have hclo := batch_closed i hl h1'
    have hfl := fun he : e = none => batch_flushed i hl (by rw [h1', he])
    obtain ⟨⟨r, hr, hd⟩, hlev, hcnt⟩ := hl
    have hr0 := batch_res h1'
    cases hr0 with
    | closed => exact s
    | invalid => exact s
    | embed => exact s
    | storage o2 _ _ e _ _ hem hin =>
      exfalso
      have := insertAll_err hin
      have hcl := hc e rfl
      rcases this with rfl | rfl <;> simp [Err.rejection] at hcl
    | done os2 _ c2 hcc hv hem hin =>
      have hlen := embed_length hem
      rw [hr] at hem; cases hem
      obtain ⟨hz1, hz2⟩ := zipIdx_dim (envs := envs) (hd os2 rfl) hlev
      obtain ⟨c3, os3, e2, h3, i3, _, _, hk1, hk2⟩ := insertAll_spec (fun _ => False) _ c i hz1 hz2 (by simp; omega)
      rw [hin] at h3; cases h3
      have hee : (c2.flush ff).2 = none := by
        have := flush_err i3 ff
        cases ff with
        | false => exact this
        | true => exfalso; have hcl := hc .io (by rw [this]; rfl); simp [Err.rejection] at hcl
      refine ⟨hfl hee, ?_, ?_⟩
      · exact insertAll_counter _ c c2 _ i hz1 hz2 (by simp; omega) hin s.file
      · show c2.counter.closed = c2.closed
        rw [hk1, hk2, s.closed]
  | delete id df ff =>
    simp only [Coll.apply] at ha
    obtain ⟨⟨c1, e⟩, h1, h2⟩ := (bind_ok_iff _ _ _).mp ha
    cases h2
    have h1' : c.delete L id df ff = .ok (c1, e) := by
      cases hx : c.delete L id df ff with
      | error p => rw [hx] at h1; cases h1
      | ok r => rw [hx] at h1; cases h1; rfl
    have he : e = none := hc
    subst he
    have hb := delete_flushed i h1' s.batch
    obtain ⟨c2, e, h3, hres⟩ := delete_res i id df ff
    rw [h1'] at h3; cases h3
    generalize he : (none : Option Err) = e at hres
    cases hres with
    | closed => cases he
    | failed => cases he
    | absent => exact s
    | done o hc hg _ => exact ⟨hb, s.file, s.closed⟩
  | get ids => cases ha; exact s
  | search o embed k => cases ha; exact s
  | size => cases ha; exact s
  | update o => cases ha; exact s
  | close sf =>
    simp only [Coll.apply, Coll.close, IdCounter.close] at ha
    by_cases hcl : c.counter.closed = true
    · rw [if_pos hcl] at ha
      cases ha
      have := hc .io rfl
      simp [Err.rejection] at this
    · rw [if_neg hcl] at ha
      cases sf with
      | true => cases ha; have := hc .io rfl; simp [Err.rejection] at this
      | false => cases ha; exact ⟨s.batch, s.file, rfl⟩
  | reopen =>
    obtain ⟨f, c2, hf, hro, e2, hr, _⟩ := coll_reopen i s.batch (fun _ => False)
    simp only [Coll.apply, hro, ok_bind] at ha
    cases ha
    refine ⟨by rw [hr.rest]; rfl, by rw [e2]; exact ⟨hf.1, Nat.le_refl _⟩, by rw [e2]; rfl⟩

theorem runs_synced {L : Lib V D} {dim : Nat} {c c' : Coll} {h : List (Op V × Out V D)} (i : WInv S L dim X c)
    (r : Runs L dim c h c') (hc : ∀ p ∈ h, p.2.clean) (s : Synced c) : Synced c' := by
  induction r with
  | nil => exact s
  | @cons c c1 c2 op out t hl ha _ ih =>
    obtain ⟨c3, out3, h3, i3, _⟩ := apply_spec i op hl
    rw [ha] at h3; cases h3
    exact ih i3 (fun p hp => hc p (List.mem_cons_of_mem _ hp)) (apply_synced i hl ha (hc (op, out) (List.mem_cons_self ..)) s)

theorem new_synced (cfg : Cfg) (ms : List String) (he : Bool) : Synced (Coll.new cfg ms he) :=
  ⟨rfl, ⟨Or.inl ⟨rfl, rfl⟩, Nat.le_refl _⟩, rfl⟩

/-- reopening a synced collection gives it back, up to the `once` flag. -/
theorem reopen_sim {L : Lib V D} {dim : Nat} {c : Coll} (i : WInv True L dim X c) (s : Synced c) (ho : c.closed = false) :
    ∃ c1, c.reopen = .ok c1 ∧ Sim c c1 := by
  obtain ⟨f, hf, hro, _⟩ := coll_reopen_exact i s.batch (fun _ => False)
  refine ⟨_, hro, ?_⟩
  have hfc : f = c.counter.count := by
    have h1 := fileCount_of hf
    have h2 := fileCount_of s.file
    exact UInt64.toNat_inj.mp (by omega)
  have hw : newWal c.index.wal.disk = c.index.wal := by
    have hseq := i.idx.m.wal.seq
    have hb := s.batch
    generalize c.index.wal = w at hseq hb
    cases w with
    | mk d b n =>
      dsimp only at hb hseq
      subst hb
      simp only [newWal, hseq, List.length_nil, Nat.add_zero]
  have hctr : ({ count := f, file := c.counter.file } : IdCounter) = c.counter := by
    have hcc := s.closed
    rw [ho] at hcc
    generalize c.counter = k at hfc hcc
    cases k
    dsimp only at hfc hcc
    subst hfc; subst hcc; rfl
  have hre : reopened c f = c.setOnce false := by
    unfold reopened Coll.setOnce
    rw [hw, hctr, ← ho]
  rw [hre]
  by_cases hn : c.index.nodes = []
  · left
    have : c.index.once = false := by
      cases h : c.index.once with
      | false => rfl
      | true => exact absurd hn (i.idx.once h)
    unfold Coll.setOnce
    rw [← this]
  · exact Or.inr ⟨hn, false, rfl⟩

end Vectory
