import Verif.Spec.Growth
import Verif.Lemmas.ConcLive
import Verif.Lemmas.CollOps
import Verif.Lemmas.DbMore
/-! # How the index log grows -/
namespace Vectory
variable {V D : Type}

/-- between `lo` and `hi` records, none larger than `largestRecord`, join the waiting batch; nothing reaches the disk. -/
def Adds (lo hi : Nat) (h h' : Hnsw) : Prop :=
  h'.cfg = h.cfg ∧ h'.wal.disk = h.wal.disk ∧ ∃ rs : List Bytes, h'.wal.records = h.wal.records ++ rs ∧ lo ≤ rs.length ∧ rs.length ≤ hi ∧
    ∀ r ∈ rs, r.length ≤ largestRecord h.cfg

theorem Adds.refl (h : Hnsw) : Adds 0 0 h h := ⟨rfl, rfl, [], by simp, Nat.le_refl _, Nat.le_refl _, by simp⟩

theorem Adds.trans {a b c d : Nat} {h1 h2 h3 : Hnsw} (x : Adds a b h1 h2) (y : Adds c d h2 h3) : Adds (a + c) (b + d) h1 h3 := by
  obtain ⟨c1, d1, r1, e1, l1, u1, s1⟩ := x
  obtain ⟨c2, d2, r2, e2, l2, u2, s2⟩ := y
  refine ⟨c2.trans c1, d2.trans d1, r1 ++ r2, by rw [e2, e1, List.append_assoc], ?_, ?_, ?_⟩
  · rw [List.length_append]; omega
  · rw [List.length_append]; omega
  · intro r hr
    rcases List.mem_append.mp hr with h | h
    · exact s1 r h
    · rw [← c1]; exact s2 r h

theorem Adds.mono {a b a' b' : Nat} {h1 h2 : Hnsw} (x : Adds a b h1 h2) (ha : a' ≤ a) (hb : b ≤ b') : Adds a' b' h1 h2 := by
  obtain ⟨c1, d1, r1, e1, l1, u1, s1⟩ := x
  exact ⟨c1, d1, r1, e1, by omega, by omega, s1⟩

/-- only the log and the parameters matter. -/
theorem Adds.same {a b : Nat} {h1 h2 h1' h2' : Hnsw} (x : Adds a b h1 h2) (w1 : h1'.wal = h1.wal) (c1 : h1'.cfg = h1.cfg)
    (w2 : h2'.wal = h2.wal) (c2 : h2'.cfg = h2.cfg) : Adds a b h1' h2' := by
  unfold Adds
  rw [w1, c1, w2, c2]
  exact x

theorem adds_log (h : Hnsw) {r : Bytes} (hr : r.length ≤ largestRecord h.cfg) : Adds 1 1 h (h.log r) :=
  ⟨rfl, rfl, [r], Wal.records_write _ _, Nat.le_refl _, Nat.le_refl _, by simpa using hr⟩

theorem flatMap_put_length (ids : List UInt64) : (ids.flatMap putUint64).length = 8 * ids.length := by
  induction ids with
  | nil => rfl
  | cons x xs ih => rw [List.flatMap_cons, List.length_append, putUint64_length, ih, List.length_cons]; omega

theorem recSetConnections_length (id : UInt64) (l : UInt32) (ids : List UInt64) :
    (recSetConnections id l ids).length = 17 + 8 * ids.length := by
  simp only [recSetConnections, List.length_cons, List.length_append, putUint64_length, putUint32_length, flatMap_put_length]
  omega

theorem adds_setConnections {h h' : Hnsw} {id : UInt64} {l : Nat} {ids : List UInt64} (hs : h.setConnections id l ids = .ok h')
    (hl : ids.length ≤ max h.cfg.m h.cfg.mMax0) : Adds 1 1 h h' := by
  unfold Hnsw.setConnections at hs
  obtain ⟨nodes, _, hs⟩ := (bind_ok_iff _ _ _).mp hs
  cases hs
  refine (adds_log h (r := recSetConnections id (UInt32.ofNat l) ids) ?_).same rfl rfl rfl rfl
  rw [recSetConnections_length]
  unfold largestRecord
  omega

theorem adds_addConnection {h h' : Hnsw} {id : UInt64} {l : Nat} {n : UInt64} (hs : h.addConnection id l n = .ok h') : Adds 1 1 h h' := by
  unfold Hnsw.addConnection at hs
  obtain ⟨nodes, _, hs⟩ := (bind_ok_iff _ _ _).mp hs
  cases hs
  refine (adds_log h (r := recAddConnection id (UInt32.ofNat l) n) ?_).same rfl rfl rfl rfl
  have : (recAddConnection id (UInt32.ofNat l) n).length = 21 := rfl
  rw [this]
  unfold largestRecord
  omega

theorem adds_linkBack {M : Metric D} {v : UInt64} {vvec : Vec} {l mc : Nat} {h h' : Hnsw} {n : UInt64}
    (hs : h.linkBack M v vvec l mc n = .ok h') (hm : mc ≤ h.cfg.mMax0) : Adds 1 1 h h' := by
  unfold Hnsw.linkBack at hs
  obtain ⟨nv, _, hs⟩ := (bind_ok_iff _ _ _).mp hs
  obtain ⟨conns, _, hs⟩ := (bind_ok_iff _ _ _).mp hs
  split at hs
  · exact adds_addConnection hs
  · obtain ⟨d, _, hs⟩ := (bind_ok_iff _ _ _).mp hs
    obtain ⟨es, _, hs⟩ := (bind_ok_iff _ _ _).mp hs
    obtain ⟨ns, hn, hs⟩ := (bind_ok_iff _ _ _).mp hs
    have := Conc.selectNeighbors_length hn
    exact adds_setConnections hs (by omega)

theorem adds_links {M : Metric D} {v : UInt64} {vvec : Vec} {l mc : Nat} :
    ∀ (ns : List UInt64) (h h' : Hnsw), ns.foldlM (Hnsw.linkBack M v vvec l mc) h = .ok h' → mc ≤ h.cfg.mMax0 → Adds ns.length ns.length h h' := by
  intro ns
  induction ns with
  | nil => intro h h' hs _; cases hs; exact Adds.refl _
  | cons n ns ih =>
    intro h h' hs hm
    rw [List.foldlM_cons] at hs
    obtain ⟨h1, h2, hs⟩ := (bind_ok_iff _ _ _).mp hs
    have a := adds_linkBack h2 hm
    have b := ih h1 h' hs (by rw [a.1]; exact hm)
    rw [List.length_cons]
    exact (a.trans b).mono (by omega) (by omega)

theorem adds_connectLayer {M : Metric D} {v : UInt64} {vvec : Vec} {h h' : Hnsw} {eps eps' : List (Elem D)} {l : Nat}
    (hs : h.connectLayer M v vvec eps l = .ok (h', eps')) : Adds 1 (h.cfg.m + 1) h h' := by
  unfold Hnsw.connectLayer at hs
  obtain ⟨nns, _, hs⟩ := (bind_ok_iff _ _ _).mp hs
  obtain ⟨ns, hn, hs⟩ := (bind_ok_iff _ _ _).mp hs
  obtain ⟨h1, h2, hs⟩ := (bind_ok_iff _ _ _).mp hs
  obtain ⟨h3, h4, hs⟩ := (bind_ok_iff _ _ _).mp hs
  cases hs
  have hl := Conc.selectNeighbors_length hn
  have a := adds_setConnections h2 (by omega)
  have b := adds_links ns h1 _ h4 (by unfold Cfg.mMax0; split <;> omega)
  exact (a.trans b).mono (by omega) (by omega)

theorem adds_construct {M : Metric D} {v : UInt64} {vvec : Vec} :
    ∀ (n : Nat) (h h' : Hnsw) (eps : List (Elem D)), Hnsw.construct M v vvec n h eps = .ok h' → Adds n (n * (h.cfg.m + 1)) h h' := by
  intro n
  induction n with
  | zero => intro h h' eps hs; cases hs; rw [Nat.zero_mul]; exact Adds.refl _
  | succ n ih =>
    intro h h' eps hs
    unfold Hnsw.construct at hs
    obtain ⟨⟨h1, eps1⟩, h2, hs⟩ := (bind_ok_iff _ _ _).mp hs
    have a := adds_connectLayer h2
    have b := ih h1 h' eps1 hs
    rw [a.1] at b
    rw [Nat.succ_mul]
    exact (a.trans b).mono (by omega) (by omega)

theorem adds_insert {M : Metric D} {h h' : Hnsw} {vec : Vec} {id : UInt64} {level : Nat} (hs : h.insert M vec id level = .ok h') :
    Adds 2 (perObject h.cfg.m level) h h' := by
  have h13 : ∀ (cfg : Cfg), 13 ≤ largestRecord cfg := by intro cfg; unfold largestRecord; omega
  unfold Hnsw.insert at hs
  split at hs
  · cases hs
    have a := adds_log h (r := recSetEntryPoint id 0) (h13 _)
    have b := adds_log (h.log (recSetEntryPoint id 0)) (r := recAddVertex id 0) (h13 _)
    refine ((a.trans b).mono (Nat.le_refl 2) ?_).same rfl rfl rfl rfl
    unfold perObject
    omega
  · have key : ∀ (g : Hnsw), Hnsw.insertNext M g vec id level = .ok h' → Adds 2 (perObject g.cfg.m level) g h' := by
      intro g hs
      unfold Hnsw.insertNext at hs
      split at hs
      · cases hs
      · dsimp only at hs
        obtain ⟨epv, _, hs⟩ := (bind_ok_iff _ _ _).mp hs
        obtain ⟨d, _, hs⟩ := (bind_ok_iff _ _ _).mp hs
        obtain ⟨eps, _, hs⟩ := (bind_ok_iff _ _ _).mp hs
        obtain ⟨h2, hc, hs⟩ := (bind_ok_iff _ _ _).mp hs
        have a := adds_log g (r := recAddVertex id (UInt32.ofNat level)) (h13 _)
        have b := adds_construct _ _ _ _ hc
        have b' : Adds (min g.maxLayer level + 1) ((min g.maxLayer level + 1) * (g.cfg.m + 1))
          (g.log (recAddVertex id (UInt32.ofNat level))) h2 := b.same rfl rfl rfl rfl
        have ab := a.trans b'
        have hmul : (min g.maxLayer level + 1) * (g.cfg.m + 1) ≤ (level + 1) * (g.cfg.m + 1) :=
          Nat.mul_le_mul_right _ (by omega)
        split at hs
        · cases hs
          have e := adds_log h2 (r := recSetEntryPoint id (UInt32.ofNat level)) (h13 _)
          refine ((ab.trans e).mono (by omega) ?_).same rfl rfl rfl rfl
          unfold perObject
          omega
        · cases hs
          refine ab.mono (by omega) ?_
          unfold perObject
          omega
    exact (key _ hs).same rfl rfl rfl rfl

/-! ## Collections -/

theorem adds_insertOne {L : Lib V D} {c c' : Coll} {o o' : Object V} {env : InsEnv} {e : Option Err}
    (hs : c.insertOne L o env = .ok (c', o', e)) :
    Adds (if e = none then 2 else 0) (perObject c.index.cfg.m env.level) c.index c'.index := by
  have z : Adds 0 (perObject c.index.cfg.m env.level) c.index c.index := (Adds.refl _).mono (Nat.zero_le _) (Nat.zero_le _)
  unfold Coll.insertOne at hs
  dsimp only at hs
  split at hs
  · cases hs; exact z
  · split at hs
    · cases hs; exact z
    · obtain ⟨idx, h1, hs⟩ := (bind_ok_iff _ _ _).mp hs
      cases hs
      exact adds_insert h1

theorem adds_insertAll {L : Lib V D} : ∀ (xs : List (Object V × InsEnv)) (c c' : Coll) (os : List (Object V)) (e : Option Err),
    c.insertAll L xs = .ok (c', os, e) →
    Adds (if e = none then 2 * xs.length else 0) (xs.map (fun x => perObject c.index.cfg.m x.2.level)).sum c.index c'.index := by
  intro xs
  induction xs with
  | nil => intro c c' os e hs; cases hs; exact Adds.refl _
  | cons x xs ih =>
    intro c c' os e hs
    obtain ⟨o, env⟩ := x
    unfold Coll.insertAll at hs
    obtain ⟨⟨c1, o1, e1⟩, h1, hs⟩ := (bind_ok_iff _ _ _).mp hs
    have a := adds_insertOne h1
    rw [List.map_cons, List.sum_cons, List.length_cons]
    dsimp only at hs ⊢
    cases e1 with
    | some x => cases hs; exact a.mono (Nat.le_refl _) (by omega)
    | none =>
      obtain ⟨⟨c2, os2, e2⟩, h2, hs⟩ := (bind_ok_iff _ _ _).mp hs
      cases hs
      have b := ih c1 _ _ _ h2
      rw [a.1] at b
      refine (a.trans b).mono ?_ (Nat.le_refl _)
      rw [if_pos rfl]
      split <;> omega

/-- a flush moves the waiting records to the disk, or fails and changes nothing. -/
theorem coll_flush_cases (c : Coll) (b : Bool) :
    ((c.flush b).2 = none ∧ (c.flush b).1.index.wal.disk = c.index.wal.records ∧ (c.flush b).1.index.wal.batch = [] ∧
      (c.flush b).1.index.cfg = c.index.cfg) ∨
    ((c.flush b).2 ≠ none ∧ (c.flush b).1.index.wal = c.index.wal ∧ (c.flush b).1.index.cfg = c.index.cfg) := by
  have e1 : (c.flush b).2 = (c.index.wal.flush b).2 := rfl
  have e2 : (c.flush b).1.index.wal = (c.index.wal.flush b).1 := rfl
  have e3 : (c.flush b).1.index.cfg = c.index.cfg := rfl
  rw [e1, e2, e3]
  unfold Wal.flush
  split
  · right; exact ⟨(fun h => nomatch h), rfl, rfl⟩
  · split
    · left; exact ⟨rfl, rfl, rfl, rfl⟩
    · right; exact ⟨(fun h => nomatch h), rfl, rfl⟩

theorem restore_keepsLog {h h' : Hnsw} {b : Bytes} (hr : restore h b = .ok h') : h'.wal = h.wal := by
  unfold restore at hr
  split at hr
  · cases hr
  split at hr
  · have := liftPanic_ok hr
    unfold restoreAddVertex at this
    obtain ⟨_, _, this⟩ := (bind_ok_iff _ _ _).mp this
    obtain ⟨_, _, this⟩ := (bind_ok_iff _ _ _).mp this
    cases this; rfl
  split at hr
  · have := liftPanic_ok hr
    unfold restoreSetEntryPoint at this
    obtain ⟨_, _, this⟩ := (bind_ok_iff _ _ _).mp this
    obtain ⟨_, _, this⟩ := (bind_ok_iff _ _ _).mp this
    cases this; rfl
  split at hr
  · have := liftPanic_ok hr
    unfold restoreSetConnections at this
    obtain ⟨_, _, this⟩ := (bind_ok_iff _ _ _).mp this
    obtain ⟨_, _, this⟩ := (bind_ok_iff _ _ _).mp this
    obtain ⟨_, _, this⟩ := (bind_ok_iff _ _ _).mp this
    obtain ⟨_, _, this⟩ := (bind_ok_iff _ _ _).mp this
    obtain ⟨_, _, this⟩ := (bind_ok_iff _ _ _).mp this
    cases this; rfl
  split at hr
  · have := liftPanic_ok hr
    unfold restoreAddConnection at this
    obtain ⟨_, _, this⟩ := (bind_ok_iff _ _ _).mp this
    obtain ⟨_, _, this⟩ := (bind_ok_iff _ _ _).mp this
    obtain ⟨_, _, this⟩ := (bind_ok_iff _ _ _).mp this
    obtain ⟨_, _, this⟩ := (bind_ok_iff _ _ _).mp this
    cases this; rfl
  split at hr
  · have := liftPanic_ok hr
    unfold restoreDeleteVertex at this
    obtain ⟨_, _, this⟩ := (bind_ok_iff _ _ _).mp this
    cases this; rfl
  · cases hr

theorem loadFromWAL_keepsLog : ∀ (bs : List Bytes) (h h' : Hnsw), loadFromWAL h bs = .ok h' → h'.wal = h.wal := by
  intro bs
  induction bs with
  | nil => intro h h' hl; cases hl; rfl
  | cons b bs ih =>
    intro h h' hl
    unfold loadFromWAL at hl
    rw [List.foldlM_cons] at hl
    obtain ⟨h1, hr, hl⟩ := (bind_ok_iff _ _ _).mp hl
    rw [ih h1 h' hl, restore_keepsLog hr]

theorem populateVectors_keepsLog (s : Stores) : ∀ (ks : List Bytes) (h h' : Hnsw), populateVectors s h ks = .ok h' → h'.wal = h.wal := by
  intro ks
  induction ks with
  | nil => intro h h' hp; cases hp; rfl
  | cons k ks ih =>
    intro h h' hp
    unfold populateVectors at hp
    obtain ⟨_, _, hp⟩ := (bind_ok_iff _ _ _).mp hp
    obtain ⟨_, _, hp⟩ := (bind_ok_iff _ _ _).mp hp
    obtain ⟨h1, h2, hp⟩ := (bind_ok_iff _ _ _).mp hp
    rw [ih _ _ hp]
    unfold populateOne at h2
    obtain ⟨_, _, h2⟩ := (bind_ok_iff _ _ _).mp h2
    cases h2; rfl

/-- an open changes nothing of the log. -/
theorem openColl_wal {cfg : Cfg} {ms : List String} {he : Bool} {d : Disk} {c : Coll}
    (h : openColl cfg ms he d = .ok c) : c.index.wal = newWal d.log := by
  unfold openColl at h
  obtain ⟨ctr, _, h⟩ := (bind_ok_iff _ _ _).mp h
  obtain ⟨h1, hl, h⟩ := (bind_ok_iff _ _ _).mp h
  obtain ⟨h2, hp, h⟩ := (bind_ok_iff _ _ _).mp h
  cases h
  show h2.wal = _
  rw [populateVectors_keepsLog _ _ _ _ (liftPanic_ok hp), loadFromWAL_keepsLog _ _ _ hl]
  rfl

/-- what an event does to the log: it keeps what is on disk and adds at least `lo` records there; the records on disk and waiting
grow by at most `hi`, and new ones are not larger than `largestRecord`. -/
structure LogMove (lo hi : Nat) (c c' : Coll) : Prop where
  cfg : c'.index.cfg = c.index.cfg
  most : c'.index.wal.records.length ≤ c.index.wal.records.length + hi
  small : ∀ r ∈ c'.index.wal.records, r ∈ c.index.wal.records ∨ r.length ≤ largestRecord c.index.cfg
  keep : c.index.wal.disk <+: c'.index.wal.disk
  least : c.index.wal.disk.length + lo ≤ c'.index.wal.disk.length

theorem LogMove.trans {a b a' b' : Nat} {c c1 c2 : Coll} (x : LogMove a b c c1) (y : LogMove a' b' c1 c2) : LogMove (a + a') (b + b') c c2 where
  cfg := y.cfg.trans x.cfg
  most := by have := x.most; have := y.most; omega
  small := by
    intro r hr
    rcases y.small r hr with h | h
    · exact x.small r h
    · rw [x.cfg] at h; exact Or.inr h
  keep := x.keep.trans y.keep
  least := by have := x.least; have := y.least; omega

theorem LogMove.same {c c' : Coll} (hi : Nat) (hc : c'.index.cfg = c.index.cfg) (hw : c'.index.wal = c.index.wal) : LogMove 0 hi c c' where
  cfg := hc
  most := by rw [hw]; omega
  small := by rw [hw]; exact fun r hr => Or.inl hr
  keep := by rw [hw]; exact List.prefix_refl _
  least := by rw [hw]; exact Nat.le_refl _

theorem disk_prefix (w : Wal) : w.disk <+: w.records := List.prefix_append _ _

theorem LogMove.of_adds {lo hi : Nat} {c c' : Coll} (a : Adds lo hi c.index c'.index) : LogMove 0 hi c c' := by
  obtain ⟨h1, h2, rs, h3, _, h5, h6⟩ := a
  refine ⟨h1, by rw [h3, List.length_append]; omega, ?_, by rw [h2]; exact List.prefix_refl _, by rw [h2]; exact Nat.le_refl _⟩
  intro r hr
  rw [h3] at hr
  rcases List.mem_append.mp hr with h | h
  · exact Or.inl h
  · exact Or.inr (h6 r h)

theorem LogMove.of_disk {lo hi : Nat} {c c' : Coll} {h : Hnsw} (a : Adds lo hi c.index h) (hc : c'.index.cfg = h.cfg)
    (hd : c'.index.wal.disk = h.wal.records) (hb : c'.index.wal.batch = []) : LogMove lo hi c c' := by
  obtain ⟨h1, h2, rs, h3, h4, h5, h6⟩ := a
  have e : c'.index.wal.records = c'.index.wal.disk := by unfold Wal.records; rw [hb]; simp
  refine ⟨hc.trans h1, by rw [e, hd, h3, List.length_append]; omega, ?_, ?_, ?_⟩
  · intro r hr
    rw [e, hd, h3] at hr
    rcases List.mem_append.mp hr with h | h
    · exact Or.inl h
    · exact Or.inr (h6 r h)
  · rw [hd, h3]; exact (disk_prefix _).trans (List.prefix_append _ _)
  · rw [hd, h3, List.length_append]
    have := (disk_prefix c.index.wal).length_le
    omega

theorem LogMove.of_flush {lo hi : Nat} {c c1 : Coll} (a : Adds lo hi c.index c1.index) (ff : Bool) :
    LogMove (if (c1.flush ff).2 = none then lo else 0) hi c (c1.flush ff).1 := by
  rcases coll_flush_cases c1 ff with ⟨f1, f2, f3, f4⟩ | ⟨f1, f2, f3⟩
  · rw [if_pos f1]
    exact LogMove.of_disk a f4 f2 f3
  · rw [if_neg f1]
    exact LogMove.of_adds (a.same rfl rfl f2 f3)

theorem LogMove.mono {a b a' b' : Nat} {c c' : Coll} (x : LogMove a b c c') (ha : a' ≤ a) (hb : b ≤ b') : LogMove a' b' c c' :=
  ⟨x.cfg, Nat.le_trans x.most (by omega), x.small, x.keep, Nat.le_trans (by omega) x.least⟩

/-- opening from a disk that has the log of `c`. -/
theorem LogMove.of_open {c c' : Coll} {d : Disk} {cfg : Cfg} {ms : List String} {he : Bool} (h : openColl cfg ms he d = .ok c') (hi : Nat)
    (hc : cfg = c.index.cfg) (hd : d.log = c.index.wal.disk) : LogMove 0 hi c c' := by
  have hw := openColl_wal h
  have e : c'.index.wal.records = c.index.wal.disk := by rw [hw, hd]; simp [Wal.records, newWal]
  have e2 : c'.index.wal.disk = c.index.wal.disk := by rw [hw, hd]; rfl
  refine ⟨(openColl_cfg h).trans hc, ?_, ?_, by rw [e2]; exact List.prefix_refl _, by rw [e2]; exact Nat.le_refl _⟩
  · rw [e]; have := (disk_prefix c.index.wal).length_le; omega
  · rw [e]; exact fun r hr => Or.inl ((disk_prefix _).subset hr)

/-- zipping with the environments and counting. -/
theorem sum_zipIdx (f : Nat → Nat) (os : List (Object V)) (envs : Nat → InsEnv) (g : InsEnv → Nat) (hg : ∀ i, g (envs i) = f i) :
    ((os.zipIdx.map (fun p => (p.1, envs p.2))).map (fun x => g x.2)).sum = ((List.range os.length).map f).sum := by
  congr 1
  rw [List.map_map]
  apply List.ext_getElem
  · simp
  · intro i h1 h2
    simp [hg]

theorem adds_delete (h : Hnsw) (id : UInt64) : Adds 1 1 h (h.delete id) :=
  (adds_log h (r := recDeleteVertex id) (by show 9 ≤ _; unfold largestRecord; omega)).same rfl rfl rfl rfl

/-- every completed call. -/
theorem apply_logMove {L : Lib V D} {c c' : Coll} {op : Op V} {out : Out V D} (h : c.apply L op = .ok (c', out)) :
    LogMove (2 * accepted (op, out)) (op.mayLog c.index.cfg.m) c c' := by
  have zero : ∀ {n hi : Nat} {d : Coll}, n = 0 → d = c → LogMove (2 * n) hi c d := by
    intro n hi d hn hd; subst hn; subst hd; exact LogMove.same hi rfl rfl
  cases op with
  | insert o embed env ff =>
    simp only [Coll.apply] at h
    obtain ⟨⟨c1, o1, e⟩, h1, h⟩ := (bind_ok_iff _ _ _).mp h
    cases h
    cases insert_res (liftPanic_ok h1) with
    | closed _ => exact zero rfl rfl
    | invalid _ _ _ => exact zero rfl rfl
    | embed _ _ _ _ => exact zero rfl rfl
    | storage o1 _ _ x _ _ _ hi => exact (LogMove.of_adds (adds_insertOne hi)).mono (Nat.le_refl _) (Nat.le_refl _)
    | done o1 _ c1 _ _ _ hi =>
      have m := LogMove.of_flush (adds_insertOne hi) ff
      refine m.mono ?_ (Nat.le_refl _)
      cases (c1.flush ff).2 with
      | none => exact Nat.le_refl _
      | some x => exact Nat.zero_le _
  | insertBatch os embed envs ff =>
    simp only [Coll.apply] at h
    obtain ⟨⟨c1, o1, e⟩, h1, h⟩ := (bind_ok_iff _ _ _).mp h
    cases h
    have hsum : ∀ (os1 : List (Object V)), embedObjectsIfNeeded c embed os = .ok (.ok os1) →
        ((os1.zipIdx.map (fun p => (p.1, envs p.2))).map (fun x => perObject c.index.cfg.m x.2.level)).sum =
          Op.mayLog c.index.cfg.m (Op.insertBatch os embed envs ff) := by
      intro os1 he
      rw [sum_zipIdx (fun i => perObject c.index.cfg.m (envs i).level) os1 envs (fun e => perObject c.index.cfg.m e.level) (fun _ => rfl),
        embed_length he]
      rfl
    cases batch_res (liftPanic_ok h1) with
    | closed _ => exact zero rfl rfl
    | invalid _ _ _ => exact zero rfl rfl
    | embed _ _ _ _ => exact zero rfl rfl
    | storage os1 _ _ x _ _ he hi =>
      exact (LogMove.of_adds (adds_insertAll _ _ _ _ _ hi)).mono (Nat.le_refl _) (Nat.le_of_eq (hsum os1 he))
    | done os1 _ c1 _ _ he hi =>
      have m := LogMove.of_flush (adds_insertAll _ _ _ _ _ hi) ff
      refine m.mono ?_ (Nat.le_of_eq (hsum os1 he))
      cases (c1.flush ff).2 with
      | none =>
        simp only [accepted, if_pos, List.length_map, List.length_zipIdx, embed_length he]
        exact Nat.le_refl _
      | some x => exact Nat.zero_le _
  | delete id df ff =>
    simp only [Coll.apply] at h
    obtain ⟨⟨c1, e⟩, h1, h⟩ := (bind_ok_iff _ _ _).mp h
    cases h
    replace h1 := liftPanic_ok h1
    unfold Coll.delete at h1
    split at h1
    · cases h1; exact zero rfl rfl
    · split at h1
      · cases h1
      · cases h1; exact zero rfl rfl
      · cases h1; exact zero rfl rfl
      · split at h1
        · cases h1; exact zero rfl rfl
        · cases h1
          have a : Adds 1 1 c.index ({ ({ c with stores := deleteObject c.stores id } : Coll) with index := c.index.delete id } : Coll).index :=
            adds_delete _ _
          exact (LogMove.of_flush a ff).mono (Nat.zero_le _) (Nat.le_refl _)
  | get ids => simp only [Coll.apply] at h; cases h; exact zero rfl rfl
  | search o embed k => simp only [Coll.apply] at h; cases h; exact zero rfl rfl
  | size => simp only [Coll.apply] at h; cases h; exact zero rfl rfl
  | update o => simp only [Coll.apply] at h; cases h; exact zero rfl rfl
  | close sf =>
    simp only [Coll.apply] at h
    cases h
    refine LogMove.same _ ?_ ?_
    · unfold Coll.close; dsimp only; split
      · rfl
      · split <;> rfl
    · unfold Coll.close; dsimp only; split
      · rfl
      · split <;> rfl
  | reopen =>
    simp only [Coll.apply] at h
    obtain ⟨c1, h1, h⟩ := (bind_ok_iff _ _ _).mp h
    cases h
    exact LogMove.of_open h1 _ rfl rfl

/-- every event. -/
theorem step_logMove {L : Lib V D} {c c' : Coll} {e : Ev V D} (h : e.Step L c c') :
    LogMove (2 * e.accepted) (e.mayLog c.index.cfg.m) c c' := by
  cases h with
  | call h => exact apply_logMove h
  | @crashInsert pre o level p c1 _ os d ha hd ho =>
    have a := adds_insertAll _ _ _ _ _ ha
    have m1 : LogMove 0 (pre.map (fun x => perObject c.index.cfg.m x.2.level)).sum c c1 := LogMove.of_adds a
    have plain : d.log = c1.index.wal.disk → LogMove 0 (Ev.mayLog c.index.cfg.m (Ev.crashInsert (D := D) pre o level p)) c c' := by
      intro hl
      exact (m1.trans (LogMove.of_open ho (perObject c.index.cfg.m level) a.1.symm hl)).mono (Nat.le_refl _) (Nat.le_refl _)
    show LogMove 0 _ c c'
    unfold Coll.crashInsert at hd
    dsimp only at hd
    cases p with
    | start => cases hd; exact plain rfl
    | counter j => cases hd; exact plain rfl
    | object => cases hd; exact plain rfl
    | vector => cases hd; exact plain rfl
    | flushed =>
      obtain ⟨idx, hi, hd⟩ := (bind_ok_iff _ _ _).mp hd
      cases hd
      have b := adds_insert hi
      rw [a.1] at b
      have ab := a.trans b
      have hw := openColl_wal ho
      have hcfg := openColl_cfg ho
      have hf : (idx.flush false).1.wal.disk = idx.wal.records ∨ (idx.flush false).1.wal = idx.wal := by
        show (idx.wal.flush false).1.disk = _ ∨ (idx.wal.flush false).1 = _
        unfold Wal.flush
        rw [if_neg (by simp)]
        split
        · exact Or.inl rfl
        · exact Or.inr rfl
      rcases hf with hf | hf
      · exact (LogMove.of_disk ab (hcfg.trans ab.1.symm) (by rw [hw]; exact hf) (by rw [hw]; rfl)).mono (Nat.zero_le _) (Nat.le_refl _)
      · refine (m1.trans (LogMove.of_open ho (perObject c.index.cfg.m level) a.1.symm ?_)).mono (Nat.le_refl _) (Nat.le_refl _)
        show (idx.flush false).1.wal.disk = _
        rw [hf]; exact b.2.1
  | @crashDelete id p _ ho =>
    show LogMove 0 1 c c'
    cases p with
    | start => exact LogMove.of_open ho _ rfl rfl
    | erased => exact LogMove.of_open ho _ rfl rfl
    | flushed =>
      have b := adds_delete c.index id
      have hw := openColl_wal ho
      have hcfg := openColl_cfg ho
      have hf : ((c.index.delete id).flush false).1.wal.disk = (c.index.delete id).wal.records ∨
          ((c.index.delete id).flush false).1.wal = (c.index.delete id).wal := by
        show ((c.index.delete id).wal.flush false).1.disk = _ ∨ ((c.index.delete id).wal.flush false).1 = _
        unfold Wal.flush
        rw [if_neg (by simp)]
        split
        · exact Or.inl rfl
        · exact Or.inr rfl
      rcases hf with hf | hf
      · exact (LogMove.of_disk b (hcfg.trans b.1.symm) (by rw [hw]; exact hf) (by rw [hw]; rfl)).mono (Nat.zero_le _) (Nat.le_refl _)
      · refine LogMove.of_open ho _ rfl ?_
        show ((c.index.delete id).flush false).1.wal.disk = _
        rw [hf]; exact b.2.1

theorem events_logMove {L : Lib V D} {c c' : Coll} {h : List (Ev V D)} (r : Events L c h c') :
    LogMove (2 * (h.map Ev.accepted).sum) ((h.map (Ev.mayLog c.index.cfg.m)).sum) c c' := by
  induction r with
  | nil c => exact LogMove.same _ rfl rfl
  | @cons c c1 c2 e h hs _ ih =>
    have a := step_logMove hs
    rw [a.cfg] at ih
    simp only [List.map_cons, List.sum_cons]
    rw [Nat.mul_add]
    exact a.trans ih

end Vectory
