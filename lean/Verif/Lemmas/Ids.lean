import Verif.Lemmas.CollOps
/-! Ids: what the counter file says never falls behind what callers have received. -/
namespace Vectory
variable {V D : Type}

theorem u64_succ {n : UInt64} (h : n.toNat + 1 < 18446744073709551616) : (n + 1).toNat = n.toNat + 1 := by
  rw [UInt64.toNat_add]
  show (n.toNat + 1) % 2 ^ 64 = _
  omega

theorem overwrite_count (file : Bytes) (n : UInt64) :
    newIdCounter (overwrite file (putUint64 n)) = .ok { count := n, file := overwrite file (putUint64 n) } := by
  unfold overwrite
  exact newIdCounter_put n _

/-- effect of the internal insert on ids, for any collection state. -/
theorem insertOne_ids {L : Lib V D} {c c' : Coll} {o o' : Object V} {env : InsEnv} {e : Option Err}
    (h : c.insertOne L o env = .ok (c', o', e)) :
    c'.counter.count = c.counter.count + 1 ∧
    ((e ≠ none ∧ o'.id = o.id ∧ c'.counter.file = c.counter.file) ∨
     (o'.id = c.counter.count ∧ c'.counter.file = overwrite c.counter.file (putUint64 (c.counter.count + 1)))) := by
  unfold Coll.insertOne at h
  rcases fetchAndInc_eq c.counter env.counterFails with ⟨e1, h1, _⟩ | ⟨h1, _⟩
  · rw [h1] at h
    cases h
    exact ⟨rfl, Or.inl ⟨by simp, rfl, rfl⟩⟩
  · rw [h1] at h
    dsimp only at h
    cases hp : putObject L.json c.stores { o with id := c.counter.count } env.put with
    | mk st e1 =>
      rw [hp] at h
      cases e1 with
      | some x => cases h; exact ⟨rfl, Or.inr ⟨rfl, rfl⟩⟩
      | none =>
        dsimp only at h
        obtain ⟨idx, _, h2⟩ := (bind_ok_iff _ _ _).mp h
        cases h2
        exact ⟨rfl, Or.inr ⟨rfl, rfl⟩⟩

theorem fileCount_congr {c c' : Coll} (h : c'.counter.file = c.counter.file) : fileCount c' = fileCount c := by
  unfold fileCount; rw [h]

theorem fileCount_over {c : Coll} {f : Bytes} {n : UInt64} (h : c.counter.file = overwrite f (putUint64 n)) :
    fileCount c = n.toNat := by
  unfold fileCount; rw [h, overwrite_count]

/-- the ids received by the objects `os0` when they come back as `os`. -/
def got (e : Option Err) (os0 os : List (Object V)) : List UInt64 :=
  (os0.zip os).filterMap (fun p => if e = none ∨ p.2.id ≠ p.1.id then some p.2.id else none)

theorem got_cons (e : Option Err) (a b : Object V) (as bs : List (Object V)) :
    got e (a :: as) (b :: bs) = (if e = none ∨ b.id ≠ a.id then [b.id] else []) ++ got e as bs := by
  unfold got
  rw [List.zip_cons_cons, List.filterMap_cons]
  by_cases h : e = none ∨ b.id ≠ a.id
  · rw [if_pos h, if_pos h]; rfl
  · rw [if_neg h, if_neg h]; rfl

theorem got_same (x : Err) : ∀ (a b : List (Object V)), a.map Object.id = b.map Object.id → got (some x) a b = [] := by
  intro a
  induction a with
  | nil => intro b _; rfl
  | cons o a ih =>
    intro b h
    cases b with
    | nil => rfl
    | cons o' b =>
      simp only [List.map_cons, List.cons.injEq] at h
      rw [got_cons, ih b h.2]
      simp [h.1]

theorem insertAll_ids {L : Lib V D} : ∀ (os : List (Object V × InsEnv)) (os0 : List (Object V)) (c c' : Coll)
    (os' : List (Object V)) (e : Option Err), os0.map Object.id = os.map (fun p => p.1.id) →
    c.insertAll L os = .ok (c', os', e) → fileCount c ≤ c.counter.count.toNat →
    c.counter.count.toNat + os.length < 18446744073709551616 →
    fileCount c ≤ fileCount c' ∧ fileCount c' ≤ c'.counter.count.toNat ∧
    c'.counter.count.toNat ≤ c.counter.count.toNat + os.length ∧
    (got e os0 os').Pairwise (fun a b => a.toNat < b.toNat) ∧
    (∀ x ∈ got e os0 os', c.counter.count.toNat ≤ x.toNat ∧ x.toNat < fileCount c') ∧
    (e = none → c'.counter.count.toNat = c.counter.count.toNat + os.length) := by
  intro os
  induction os with
  | nil =>
    intro os0 c c' os' e h0 h hle _
    cases h
    have : os0 = [] := by simpa using h0
    subst this
    exact ⟨Nat.le_refl _, hle, by simp, by simp [got], by simp [got], by simp⟩
  | cons p os ih =>
    intro os0 c c' os' e h0 h hle hb
    obtain ⟨o, env⟩ := p
    cases os0 with
    | nil => simp at h0
    | cons o0 os0 =>
      simp only [List.map_cons, List.cons.injEq] at h0
      simp only [List.length_cons] at hb ⊢
      unfold Coll.insertAll at h
      obtain ⟨⟨c1, o1, e1⟩, h1, h2⟩ := (bind_ok_iff _ _ _).mp h
      obtain ⟨hc1, has⟩ := insertOne_ids h1
      have hs := u64_succ (n := c.counter.count) (by omega)
      have hf1 : fileCount c ≤ fileCount c1 ∧ fileCount c1 ≤ c.counter.count.toNat + 1 := by
        rcases has with ⟨_, _, hf⟩ | ⟨_, hf⟩
        · rw [fileCount_congr hf]; omega
        · rw [fileCount_over hf, hs]; omega
      have hc1n : c1.counter.count.toNat = c.counter.count.toNat + 1 := by rw [hc1, hs]
      cases e1 with
      | some x =>
        dsimp only at h2
        injection h2 with h2
        injection h2 with ha hb2
        injection hb2 with hb2 hb3
        subst ha; subst hb2; subst hb3
        have hrest : got (some x) os0 (os.map Prod.fst) = [] := got_same x _ _ (by rw [h0.2, List.map_map]; rfl)
        rw [got_cons, hrest, List.append_nil]
        refine ⟨hf1.1, by omega, by omega, ?_, ?_, by simp⟩
        · split <;> simp
        · intro y hy
          split at hy
          · rename_i hcond
            have hy' : y = o1.id := by simpa using hy
            rcases has with ⟨_, hid, _⟩ | ⟨hid, hf⟩
            · exfalso
              rcases hcond with hh | hh
              · cases hh
              · exact hh (by rw [hid]; exact h0.1.symm)
            · rw [fileCount_over hf, hs, hy', hid]; omega
          · simp at hy
      | none =>
        dsimp only at h2
        obtain ⟨⟨c2, os2, e2⟩, h3, h4⟩ := (bind_ok_iff _ _ _).mp h2
        dsimp only at h4
        injection h4 with h4
        injection h4 with ha hb2
        injection hb2 with hb2 hb3
        subst ha; subst hb2; subst hb3
        rcases has with ⟨hne, _⟩ | ⟨hid, hf⟩
        · exact absurd rfl hne
        · have hfc := fileCount_over hf
          rw [hs] at hfc
          obtain ⟨r1, r2, r3, r4, r5, r6⟩ := ih os0 c1 c2 os2 e2 h0.2 h3 (by omega) (by omega)
          rw [got_cons]
          refine ⟨by omega, r2, by omega, ?_, ?_, fun he => by have := r6 he; omega⟩
          · split
            · rw [List.singleton_append, List.pairwise_cons]
              refine ⟨fun y hy => ?_, r4⟩
              have := (r5 y hy).1
              rw [hid]; omega
            · exact r4
          · intro y hy
            rcases List.mem_append.mp hy with hy | hy
            · split at hy
              · have hy' : y = o1.id := by simpa using hy
                rw [hy', hid]; omega
              · simp at hy
            · have := r5 y hy; omega

theorem assignVectors_ids : ∀ (os : List (Object V)) (resp : List (Option Vec)) (os' : List (Object V)),
    assignVectors os resp = .ok os' → os'.map Object.id = os.map Object.id := by
  intro os
  induction os with
  | nil => intro resp os' h; cases h; rfl
  | cons o os ih =>
    intro resp os' h
    unfold assignVectors at h
    cases hv : o.vec with
    | some v =>
      rw [hv] at h
      dsimp only at h
      obtain ⟨t, ht, h2⟩ := (bind_ok_iff _ _ _).mp h
      cases h2
      simp [ih _ _ ht]
    | none =>
      rw [hv] at h
      cases resp with
      | nil => cases h
      | cons r resp =>
        dsimp only at h
        obtain ⟨t, ht, h2⟩ := (bind_ok_iff _ _ _).mp h
        cases h2
        simp [ih _ _ ht]

theorem embed_ids {c : Coll} {embed : Embed V} {os os' : List (Object V)}
    (h : embedObjectsIfNeeded c embed os = .ok (.ok os')) : os'.map Object.id = os.map Object.id := by
  unfold embedObjectsIfNeeded at h
  split at h
  · split at h
    · cases h
    · cases h; rfl
  · split at h
    · cases h
    · obtain ⟨t, ht, h2⟩ := (bind_ok_iff _ _ _).mp h
      cases h2
      exact assignVectors_ids _ _ _ ht

/-- what one event does to the ids. -/
structure IdStep (c c' : Coll) (ids : List UInt64) (n : Nat) : Prop where
  mono : fileCount c ≤ fileCount c'
  le : fileCount c' ≤ c'.counter.count.toNat
  bound : c'.counter.count.toNat ≤ c.counter.count.toNat + n
  inc : ids.Pairwise (fun a b => a.toNat < b.toNat)
  fresh : ∀ x ∈ ids, fileCount c ≤ x.toNat ∧ x.toNat < fileCount c'

theorem IdStep.same {c c' : Coll} (hc : c'.counter.count = c.counter.count) (hf : c'.counter.file = c.counter.file)
    (h : fileCount c ≤ c.counter.count.toNat) (n : Nat) : IdStep c c' [] n :=
  ⟨by rw [fileCount_congr hf]; exact Nat.le_refl _, by rw [fileCount_congr hf, hc]; exact h, by rw [hc]; omega, by simp, by simp⟩

theorem insert_ids {L : Lib V D} {c c' : Coll} {o o' : Object V} {embed : Embed V} {env : InsEnv} {ff : Bool}
    {e : Option Err} (h : c.insert L o embed env ff = .ok (c', o', e)) (hle : fileCount c ≤ c.counter.count.toNat)
    (hb : c.counter.count.toNat + 1 < 18446744073709551616) :
    IdStep c c' (if e = none ∨ o'.id ≠ o.id then [o'.id] else []) 1 := by
  have hs := u64_succ hb
  cases insert_res h with
  | closed => rw [if_neg (by simp)]; exact IdStep.same rfl rfl hle _
  | invalid => rw [if_neg (by simp)]; exact IdStep.same rfl rfl hle _
  | embed => rw [if_neg (by simp)]; exact IdStep.same rfl rfl hle _
  | storage o1 _ _ x _ _ hem hin =>
    obtain ⟨hc1, has⟩ := insertOne_ids hin
    have hid1 : o1.id = o.id := by simpa using embed_ids hem
    rcases has with ⟨_, hid, hf⟩ | ⟨hid, hf⟩
    · rw [if_neg (by simp [hid, hid1])]
      exact ⟨by rw [fileCount_congr hf]; exact Nat.le_refl _, by rw [fileCount_congr hf, hc1, hs]; omega,
        by rw [hc1, hs]; exact Nat.le_refl _, by simp, by simp⟩
    · have hfc := fileCount_over hf
      rw [hs] at hfc
      refine ⟨by omega, by rw [hc1, hs]; omega, by rw [hc1, hs]; exact Nat.le_refl _, by split <;> simp, ?_⟩
      intro y hy
      split at hy
      · have hy' : y = o'.id := by simpa using hy
        rw [hy', hid]; omega
      · simp at hy
  | done o1 _ c1 _ _ hem hin =>
    obtain ⟨hc1, has⟩ := insertOne_ids hin
    rcases has with ⟨hne, _⟩ | ⟨hid, hf⟩
    · exact absurd rfl hne
    · have hcf : (c1.flush ff).1.counter = c1.counter := rfl
      have hfc : fileCount (c1.flush ff).1 = c.counter.count.toNat + 1 := by
        rw [fileCount_over (c := (c1.flush ff).1) (f := c.counter.file) (n := c.counter.count + 1) (by rw [hcf]; exact hf), hs]
      refine ⟨by omega, by rw [hcf, hc1, hs]; omega, by rw [hcf, hc1, hs]; exact Nat.le_refl _, by split <;> simp, ?_⟩
      intro y hy
      split at hy
      · have hy' : y = o'.id := by simpa using hy
        rw [hy', hid]; omega
      · simp at hy

theorem got_eq_same (e : Err) (os : List (Object V)) : got (some e) os os = [] := got_same e os os rfl

theorem batch_ids {L : Lib V D} {c c' : Coll} {os os' : List (Object V)} {embed : Embed V} {envs : Nat → InsEnv} {ff : Bool}
    {e : Option Err} (h : c.insertBatch L os embed envs ff = .ok (c', os', e)) (hle : fileCount c ≤ c.counter.count.toNat)
    (hb : c.counter.count.toNat + os.length < 18446744073709551616) : IdStep c c' (got e os os') os.length := by
  cases batch_res h with
  | closed => rw [got_eq_same]; exact IdStep.same rfl rfl hle _
  | invalid => rw [got_eq_same]; exact IdStep.same rfl rfl hle _
  | embed => rw [got_eq_same]; exact IdStep.same rfl rfl hle _
  | storage os1 _ _ x _ _ hem hin =>
    have hlen := embed_length hem
    have hids : os.map Object.id = (os1.zipIdx.map (fun p => (p.1, envs p.2))).map (fun p => p.1.id) := by
      rw [← embed_ids hem, List.map_map]
      show _ = os1.zipIdx.map (Object.id ∘ Prod.fst)
      rw [← List.map_map, List.zipIdx_map_fst]
    obtain ⟨r1, r2, r3, r4, r5, _⟩ := insertAll_ids _ os c _ _ _ hids hin hle (by simp; omega)
    refine ⟨r1, r2, by simpa [hlen] using r3, r4, fun y hy => ?_⟩
    have := r5 y hy; omega
  | done os1 _ c1 _ _ hem hin =>
    have hlen := embed_length hem
    have hids : os.map Object.id = (os1.zipIdx.map (fun p => (p.1, envs p.2))).map (fun p => p.1.id) := by
      rw [← embed_ids hem, List.map_map]
      show _ = os1.zipIdx.map (Object.id ∘ Prod.fst)
      rw [← List.map_map, List.zipIdx_map_fst]
    obtain ⟨r1, r2, r3, r4, r5, _⟩ := insertAll_ids _ os c _ _ _ hids hin hle (by simp; omega)
    have hcf : (c1.flush ff).1.counter = c1.counter := rfl
    have hfc : fileCount (c1.flush ff).1 = fileCount c1 := fileCount_congr (by rw [hcf])
    -- whether or not the flush fails, the received ids are among those of the inserts
    have hsub : ∀ e', (got e' os os').Sublist (got none os os') := by
      intro e'
      unfold got
      generalize os.zip os' = l
      induction l with
      | nil => exact List.Sublist.refl _
      | cons p l ih =>
        rw [List.filterMap_cons, List.filterMap_cons]
        simp only [true_or, if_true]
        split
        · rename_i h1
          exact ih.cons _
        · rename_i z h1
          split at h1
          · cases h1; exact ih.cons_cons _
          · cases h1
    refine ⟨by rw [hfc]; exact r1, by rw [hfc, hcf]; exact r2, by rw [hcf]; simpa [hlen] using r3, r4.sublist (hsub _), fun y hy => ?_⟩
    have := r5 y ((hsub _).subset hy)
    rw [hfc]; omega

theorem delete_ids {L : Lib V D} {c c' : Coll} {id : UInt64} {df ff : Bool} {e : Option Err}
    (h : c.delete L id df ff = .ok (c', e)) : c'.counter = c.counter := by
  unfold Coll.delete at h
  split at h
  · cases h; rfl
  · split at h
    · cases h
    · cases h; rfl
    · cases h; rfl
    · split at h
      · cases h; rfl
      · cases h; rfl

theorem open_ids {cfg : Cfg} {ms : List String} {he : Bool} {d : Disk} {c : Coll} (h : openColl cfg ms he d = .ok c) :
    newIdCounter d.counterFile = .ok c.counter ∧ c.counter.file = d.counterFile := by
  unfold openColl at h
  obtain ⟨ctr, h1, h2⟩ := (bind_ok_iff _ _ _).mp h
  obtain ⟨h3, _, h4⟩ := (bind_ok_iff _ _ _).mp h2
  obtain ⟨h5, _, h6⟩ := (bind_ok_iff _ _ _).mp h4
  cases h6
  have : newIdCounter d.counterFile = .ok ctr := by
    cases hn : newIdCounter d.counterFile with
    | error e => rw [hn] at h1; cases h1
    | ok x => rw [hn] at h1; cases h1; rfl
  refine ⟨this, ?_⟩
  unfold newIdCounter at this
  split at this
  · cases this; rfl
  · split at this
    · cases this
    · cases this; rfl

theorem fileCount_open {cfg : Cfg} {ms : List String} {he : Bool} {d : Disk} {c : Coll} (h : openColl cfg ms he d = .ok c) :
    fileCount c = c.counter.count.toNat := by
  obtain ⟨h1, h2⟩ := open_ids h
  unfold fileCount; rw [h2, h1]

theorem torn_ends {file : Bytes} {n : UInt64} {j : Nat} (h : j = 0 ∨ 8 ≤ j) :
    tornCounter file n j = file ∨ tornCounter file n j = overwrite file (putUint64 n) := by
  rcases h with rfl | h
  · left; simp [tornCounter, overwrite]
  · right
    unfold tornCounter
    rw [List.take_of_length_le (by rw [putUint64_length]; exact h)]

theorem crashInsert_file {L : Lib V D} {c : Coll} {o : Object V} {level : Nat} {p : InsertCrash} {d : Disk}
    (h : c.crashInsert L o level p = .ok d) (hp : ∀ j, p = .counter j → j = 0 ∨ 8 ≤ j) :
    d.counterFile = c.counter.file ∨ d.counterFile = overwrite c.counter.file (putUint64 (c.counter.count + 1)) := by
  unfold Coll.crashInsert at h
  cases p with
  | start => cases h; exact Or.inl rfl
  | counter j => cases h; exact torn_ends (hp j rfl)
  | object => cases h; exact Or.inr rfl
  | vector => cases h; exact Or.inr rfl
  | flushed =>
    obtain ⟨idx, _, h2⟩ := (bind_ok_iff _ _ _).mp h
    cases h2; exact Or.inr rfl

theorem event_ids {L : Lib V D} {c c' : Coll} {ev : Ev V D} (h : ev.Step L c c') (hu : ev.untorn)
    (hle : fileCount c ≤ c.counter.count.toNat) (hb : c.counter.count.toNat + ev.objects < 18446744073709551616) :
    IdStep c c' ev.received ev.objects := by
  cases h with
  | @call op out _ ha =>
    cases op with
    | insert o embed env ff =>
      cases hi : c.insert L o embed env ff with
      | error p => simp [Coll.apply, hi, liftPanic] at ha
      | ok r =>
        obtain ⟨c1, o1, e⟩ := r
        simp [Coll.apply, hi, liftPanic] at ha
        obtain ⟨rfl, rfl⟩ := ha
        have := insert_ids hi hle hb
        exact this
    | insertBatch os embed envs ff =>
      cases hi : c.insertBatch L os embed envs ff with
      | error p => simp [Coll.apply, hi, liftPanic] at ha
      | ok r =>
        obtain ⟨c1, o1, e⟩ := r
        simp [Coll.apply, hi, liftPanic] at ha
        obtain ⟨rfl, rfl⟩ := ha
        exact batch_ids hi hle hb
    | delete id df ff =>
      cases hi : c.delete L id df ff with
      | error p => simp [Coll.apply, hi, liftPanic] at ha
      | ok r =>
        obtain ⟨c1, e⟩ := r
        simp [Coll.apply, hi, liftPanic] at ha
        obtain ⟨rfl, rfl⟩ := ha
        have := delete_ids hi
        exact IdStep.same (by rw [this]) (by rw [this]) hle _
    | get ids => cases ha; exact IdStep.same rfl rfl hle _
    | search o embed k => cases ha; exact IdStep.same rfl rfl hle _
    | size => cases ha; exact IdStep.same rfl rfl hle _
    | update o => cases ha; exact IdStep.same rfl rfl hle _
    | close sf =>
      have hc : (c.counter.close).1.count = c.counter.count ∧ (c.counter.close).1.file = c.counter.file := by
        unfold IdCounter.close; split <;> exact ⟨rfl, rfl⟩
      have hk : (c.close sf).1.counter = (c.counter.close).1 := by
        unfold Coll.close
        cases hcc : c.counter.close with
        | mk ctr e => cases e with
          | some x => rfl
          | none => cases sf <;> rfl
      have hc' : c' = (c.close sf).1 := by simp only [Coll.apply] at ha; injection ha with ha; injection ha with ha _; exact ha.symm
      have hr : Ev.received (Ev.call (Op.close sf) out : Ev V D) = [] := rfl
      rw [hr]
      exact IdStep.same (by rw [hc', hk]; exact hc.1) (by rw [hc', hk]; exact hc.2) hle _
    | reopen =>
      simp only [Coll.apply] at ha
      obtain ⟨c1, h1, h2⟩ := (bind_ok_iff _ _ _).mp ha
      cases h2
      have hf := fileCount_open h1
      have hfile := (open_ids h1).2
      have hfc : fileCount c' = fileCount c := fileCount_congr hfile
      exact ⟨by omega, by omega, by omega, by simp [Ev.received, received], by simp [Ev.received, received]⟩
  | @crashInsert pre o level p c1 _ os d hi hcr hop =>
    have hb' : c.counter.count.toNat + (pre.length + 1) < 18446744073709551616 := hb
    obtain ⟨r1, r2, r3, _, _, _⟩ := insertAll_ids pre (pre.map Prod.fst) c c1 os none (by simp) hi hle (by omega)
    have hf := fileCount_open hop
    have hfile := (open_ids hop).2
    have hs := u64_succ (n := c1.counter.count) (by omega)
    have hcase : fileCount c' = fileCount c1 ∨ fileCount c' = c1.counter.count.toNat + 1 := by
      rcases crashInsert_file hcr (by intro j hj; subst hj; exact hu) with h1 | h1
      · left; exact fileCount_congr (by rw [hfile, h1])
      · right; rw [fileCount_over (c := c') (hfile.trans h1), hs]
    refine ⟨by omega, by omega, ?_, by simp [Ev.received], by simp [Ev.received]⟩
    show c'.counter.count.toNat ≤ c.counter.count.toNat + (pre.length + 1)
    omega
  | @crashDelete id p _ hop =>
    have hf := fileCount_open hop
    have hfile := (open_ids hop).2
    have hcf : (c.crashDelete id p).counterFile = c.counter.file := by cases p <;> rfl
    have hfc : fileCount c' = fileCount c := fileCount_congr (by rw [hfile, hcf])
    exact ⟨by omega, by omega, by omega, by simp [Ev.received], by simp [Ev.received]⟩

theorem events_ids {L : Lib V D} {c c' : Coll} {h : List (Ev V D)} (r : Events L c h c') (hu : ∀ e ∈ h, e.untorn)
    (hle : fileCount c ≤ c.counter.count.toNat)
    (hb : c.counter.count.toNat + (h.map Ev.objects).sum < 18446744073709551616) :
    IdStep c c' (h.flatMap Ev.received) (h.map Ev.objects).sum := by
  induction r with
  | nil => exact IdStep.same rfl rfl hle _
  | @cons c c1 c2 e t hs _ ih =>
    simp only [List.map_cons, List.sum_cons] at hb ⊢
    have s1 := event_ids hs (hu e (by simp)) hle (by omega)
    have hb1 := s1.bound
    have s2 := ih (fun x hx => hu x (List.mem_cons_of_mem _ hx)) s1.le (by omega)
    have hm1 := s1.mono
    have hm2 := s2.mono
    have hb2 := s2.bound
    refine ⟨by omega, s2.le, by omega, ?_, ?_⟩
    · rw [List.flatMap_cons, List.pairwise_append]
      refine ⟨s1.inc, s2.inc, ?_⟩
      intro a ha b hb
      have := s1.fresh a ha
      have := s2.fresh b hb
      omega
    · intro x hx
      rw [List.flatMap_cons, List.mem_append] at hx
      rcases hx with hx | hx
      · have := s1.fresh x hx; omega
      · have := s2.fresh x hx; omega

theorem Trace.events {L : Lib V D} {c c' : Coll} {h : List (Op V × Out V D)} (r : Trace L c h c') :
    Events L c (h.map (fun p => Ev.call p.1 p.2)) c' := by
  induction r with
  | nil => exact .nil _
  | cons ha _ ih => exact .cons (.call ha) ih

end Vectory
