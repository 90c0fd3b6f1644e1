import Verif.Spec.History
import Verif.Lemmas.Coll
/-! Every legal call succeeds, keeps the invariant, and its effect on what callers can see. -/
namespace Vectory
variable {V D : Type} {S : Prop} {X : UInt64 → Prop}

/-- the count in the counter file. -/
def fileCount (c : Coll) : Nat :=
  match newIdCounter c.counter.file with
  | .ok x => x.count.toNat
  | .error _ => 0

theorem fileCount_of {c : Coll} {f : UInt64} (h : CounterOK c.counter f) : fileCount c = f.toNat := by
  unfold fileCount
  rcases h.1 with ⟨h0, h1⟩ | h0
  · rw [h0, h1]; rfl
  · rw [h0]
    have := newIdCounter_put f []
    rw [List.append_nil] at this
    rw [this]

theorem fileCount_put {c : Coll} {n : UInt64} (h : c.counter.file = putUint64 n) : fileCount c = n.toNat := by
  unfold fileCount
  have := newIdCounter_put n []
  rw [List.append_nil] at this
  rw [h, this]

theorem WInv.file_le {L : Lib V D} {dim : Nat} {c : Coll} (i : WInv S L dim X c) :
    fileCount c ≤ c.counter.count.toNat := by
  obtain ⟨f, hf, _⟩ := i.ids
  rw [fileCount_of hf]; exact hf.2

theorem WInv.used_lt {L : Lib V D} {dim : Nat} {c : Coll} (i : WInv S L dim X c) (id : UInt64)
    (h : keyOf id ∈ c.stores.objects.keys ∨ keyOf id ∈ c.stores.vectors.keys ∨ id ∈ c.index.deleted) :
    id.toNat < fileCount c := by
  obtain ⟨f, hf, hu⟩ := i.ids
  rw [fileCount_of hf]; exact hu id h

/-- how a collection evolves under one call: old ids keep their objects, except the `touched` ones, which can only
disappear. -/
structure Evo (L : Lib V D) (c c' : Coll) (touched : UInt64 → Prop) : Prop where
  mappings : c'.mappings = c.mappings
  embedder : c'.hasEmbedder = c.hasEmbedder
  cfg : c'.index.cfg = c.index.cfg
  file : fileCount c ≤ fileCount c'
  keep : ∀ id, id.toNat < fileCount c → ¬ touched id → getObject L.json c'.stores id = getObject L.json c.stores id
  gone : ∀ id, id.toNat < fileCount c → getObject L.json c.stores id = .ok none → getObject L.json c'.stores id = .ok none
  deleted : ∀ id, id ∈ c.index.deleted → id ∈ c'.index.deleted
  vecs : ∀ id v, vecOf c.index.nodes id = some v → vecOf c'.index.nodes id = some v

theorem Evo.refl (L : Lib V D) (c : Coll) (T : UInt64 → Prop) : Evo L c c T :=
  ⟨rfl, rfl, rfl, Nat.le_refl _, fun _ _ _ => rfl, fun _ _ h => h, fun _ h => h, fun _ _ h => h⟩

theorem Evo.trans {L : Lib V D} {a b c : Coll} {T : UInt64 → Prop} (h1 : Evo L a b T) (h2 : Evo L b c T) : Evo L a c T :=
  ⟨h2.mappings.trans h1.mappings, h2.embedder.trans h1.embedder, h2.cfg.trans h1.cfg, Nat.le_trans h1.file h2.file,
    fun id hid ht => (h2.keep id (Nat.lt_of_lt_of_le hid h1.file) ht).trans (h1.keep id hid ht),
    fun id hid hn => h2.gone id (Nat.lt_of_lt_of_le hid h1.file) (h1.gone id hid hn),
    fun id h => h2.deleted id (h1.deleted id h), fun id v h => h2.vecs id v (h1.vecs id v h)⟩

theorem InsEff.evo {L : Lib V D} {dim : Nat} {c c' : Coll} {o o' : Object V} {e : Option Err} (i : WInv S L dim X c)
    (h : InsEff L c c' o o' e) (hc : c.counter.count.toNat + 1 < 18446744073709551616) (T : UInt64 → Prop) :
    Evo L c c' T := by
  have hle := i.file_le
  have hfr : ∀ id : UInt64, id.toNat < fileCount c → id ≠ c.counter.count := by
    intro id hid he; subst he; omega
  have hcnt : (c.counter.count + 1).toNat = c.counter.count.toNat + 1 := by
    rw [UInt64.toNat_add]
    show (c.counter.count.toNat + 1) % 2 ^ 64 = _
    omega
  refine ⟨h.mappings, h.embedder, h.cfg, ?_, ?_, ?_, ?_, h.vecKeep⟩
  · rcases h.asg with ⟨_, _, hf, _⟩ | ⟨_, hf⟩
    · unfold fileCount; rw [hf]; exact Nat.le_refl _
    · rw [fileCount_put hf]; omega
  · intro id hid _; exact h.frame id (hfr id hid)
  · intro id hid hn; rw [h.frame id (hfr id hid)]; exact hn
  · intro id hid; rw [h.deleted]; exact hid

/-! ### Flush -/

theorem WInv.flush {L : Lib V D} {dim : Nat} {c : Coll} (i : WInv S L dim X c) (b : Bool) : WInv S L dim X (c.flush b).1 := by
  have h1 : (c.flush b).1 = { c with index := (c.index.flush b).1 } := rfl
  have h2 : (c.index.flush b).1 = { c.index with wal := (c.index.wal.flush b).1 } := rfl
  have hi := flush_spec i.idx b
  rw [h1]
  refine ⟨i.json, i.dimM, i.dim32, hi, ?_, ?_, i.ond, i.vnd, i.vkeys, i.okeys, ?_, i.dec, ?_, ?_, ?_⟩
  all_goals rw [h2]
  · exact i.cfg
  · exact i.vecs
  · exact i.vstore
  · exact i.ids
  · exact i.del
  · exact i.live

theorem flush_evo (L : Lib V D) (c : Coll) (b : Bool) (T : UInt64 → Prop) : Evo L c (c.flush b).1 T := by
  have h1 : (c.flush b).1 = { c with index := { c.index with wal := (c.index.wal.flush b).1 } } := rfl
  rw [h1]
  exact ⟨rfl, rfl, rfl, Nat.le_refl _, fun _ _ _ => rfl, fun _ _ h => h, fun _ h => h, fun _ _ h => h⟩

theorem flush_err {L : Lib V D} {dim : Nat} {c : Coll} (i : WInv S L dim X c) (b : Bool) :
    (c.flush b).2 = if b then some .io else none := by
  cases b with
  | true => rfl
  | false =>
    show (c.index.flush false).2 = none
    rw [flush_ok i.idx]

theorem flush_batch {L : Lib V D} {dim : Nat} {c : Coll} (i : WInv S L dim X c) :
    (c.flush false).1.index.wal.batch = [] := by
  show (c.index.flush false).1.wal.batch = []
  rw [flush_ok i.idx]

/-! ### Insert -/

/-- every result an `Insert` call can have. -/
inductive InsRes (L : Lib V D) (c : Coll) (o : Object V) (embed : Embed V) (env : InsEnv) (ff : Bool) :
    Coll → Object V → Option Err → Prop where
  | closed : c.closed = true → InsRes L c o embed env ff c o (some .collectionClosed)
  | invalid (e : Err) : c.closed = false → validateObjects c.mappings 0 [o] = some e → InsRes L c o embed env ff c o (some e)
  | embed (e : Err) : c.closed = false → validateObjects c.mappings 0 [o] = none →
      embedObjectsIfNeeded c embed [o] = .ok (.error e) → InsRes L c o embed env ff c o (some e)
  | storage (o1 o2 : Object V) (c1 : Coll) (e : Err) : c.closed = false → validateObjects c.mappings 0 [o] = none →
      embedObjectsIfNeeded c embed [o] = .ok (.ok [o1]) → c.insertOne L o1 env = .ok (c1, o2, some e) →
      InsRes L c o embed env ff c1 o2 (some e)
  | done (o1 o2 : Object V) (c1 : Coll) : c.closed = false → validateObjects c.mappings 0 [o] = none →
      embedObjectsIfNeeded c embed [o] = .ok (.ok [o1]) → c.insertOne L o1 env = .ok (c1, o2, none) →
      InsRes L c o embed env ff (c1.flush ff).1 o2 (c1.flush ff).2

theorem assignVectors_length : ∀ (os : List (Object V)) (resp : List (Option Vec)) (os' : List (Object V)),
    assignVectors os resp = .ok os' → os'.length = os.length := by
  intro os
  induction os with
  | nil => intro resp os' h; cases h; rfl
  | cons o os ih =>
    intro resp os' h
    unfold assignVectors at h
    cases hv : o.vec with
    | some v =>
      rw [hv] at h
      dsimp only at h
      obtain ⟨t, ht, h2⟩ := (bind_ok_iff _ _ _).mp h
      cases h2
      simp [ih _ _ ht]
    | none =>
      rw [hv] at h
      cases resp with
      | nil => cases h
      | cons r resp =>
        dsimp only at h
        obtain ⟨t, ht, h2⟩ := (bind_ok_iff _ _ _).mp h
        cases h2
        simp [ih _ _ ht]

theorem embed_length {c : Coll} {embed : Embed V} {os os' : List (Object V)}
    (h : embedObjectsIfNeeded c embed os = .ok (.ok os')) : os'.length = os.length := by
  unfold embedObjectsIfNeeded at h
  split at h
  · split at h
    · cases h
    · cases h; rfl
  · split at h
    · cases h
    · obtain ⟨t, ht, h2⟩ := (bind_ok_iff _ _ _).mp h
      cases h2
      exact assignVectors_length _ _ _ ht

theorem insert_res {L : Lib V D} {c : Coll} {o : Object V} {embed : Embed V} {env : InsEnv} {ff : Bool}
    {c' : Coll} {o' : Object V} {e : Option Err} (h : c.insert L o embed env ff = .ok (c', o', e)) :
    InsRes L c o embed env ff c' o' e := by
  unfold Coll.insert at h
  by_cases hc : c.closed = true
  · rw [if_pos hc] at h; cases h; exact .closed hc
  · rw [if_neg hc] at h
    have hc' : c.closed = false := by simpa using hc
    cases hv : validateObjects c.mappings 0 [o] with
    | some x => rw [hv] at h; cases h; exact .invalid x hc' hv
    | none =>
      rw [hv] at h
      dsimp only at h
      obtain ⟨r, hr, h2⟩ := (bind_ok_iff _ _ _).mp h
      cases r with
      | error x => cases h2; exact .embed x hc' hv hr
      | ok os =>
        have hl := embed_length hr
        match os, hl with
        | [o1], _ =>
          dsimp only at h2
          obtain ⟨⟨c1, o2, e1⟩, hr1, h3⟩ := (bind_ok_iff _ _ _).mp h2
          dsimp only at h3
          cases e1 with
          | some x => cases h3; exact .storage o1 _ _ x hc' hv hr hr1
          | none => cases h3; exact .done o1 _ c1 hc' hv hr hr1

theorem insert_total {L : Lib V D} {dim : Nat} {c : Coll} (i : WInv S L dim X c) {o : Object V} {embed : Embed V} {env : InsEnv}
    {ff : Bool} (hl : Legal dim c (Op.insert o embed env ff)) :
    ∃ c' o' e, c.insert L o embed env ff = .ok (c', o', e) := by
  obtain ⟨⟨r, hr, hd⟩, hlev, hcnt⟩ := hl
  unfold Coll.insert
  by_cases hc : c.closed = true
  · rw [if_pos hc]; exact ⟨_, _, _, rfl⟩
  · rw [if_neg hc]
    cases hv : validateObjects c.mappings 0 [o] with
    | some x => exact ⟨_, _, _, rfl⟩
    | none =>
      dsimp only
      rw [hr, ok_bind]
      cases r with
      | error x => exact ⟨_, _, _, rfl⟩
      | ok os =>
        have hl := embed_length hr
        match os, hl with
        | [o1], _ =>
          obtain ⟨c1, o2, e1, he, _⟩ := insertOne_spec i (env := env) (hd [o1] rfl o1 (by simp)) hlev hcnt
          dsimp only
          rw [he, ok_bind]
          cases e1 with
          | some x => exact ⟨_, _, _, rfl⟩
          | none => exact ⟨_, _, _, rfl⟩

theorem insert_inv {L : Lib V D} {dim : Nat} {c : Coll} (i : WInv S L dim X c) {o : Object V} {embed : Embed V} {env : InsEnv}
    {ff : Bool} (hl : Legal dim c (Op.insert o embed env ff)) {c' : Coll} {o' : Object V} {e : Option Err}
    (h : c.insert L o embed env ff = .ok (c', o', e)) (T : UInt64 → Prop) : WInv S L dim X c' ∧ Evo L c c' T := by
  obtain ⟨⟨r, hr, hd⟩, hlev, hcnt⟩ := hl
  have key : ∀ o1 o2 c1 e1, embedObjectsIfNeeded c embed [o] = .ok (.ok [o1]) → c.insertOne L o1 env = .ok (c1, o2, e1) →
      WInv S L dim X c1 ∧ InsEff L c c1 o1 o2 e1 := by
    intro o1 o2 c1 e1 hem hin
    rw [hr] at hem; cases hem
    obtain ⟨c2, o3, e2, h2, i2, f2⟩ := insertOne_spec i (env := env) (hd [o1] rfl o1 (by simp)) hlev hcnt
    rw [hin] at h2; cases h2
    exact ⟨i2, f2⟩
  cases insert_res h with
  | closed => exact ⟨i, Evo.refl _ _ _⟩
  | invalid => exact ⟨i, Evo.refl _ _ _⟩
  | embed => exact ⟨i, Evo.refl _ _ _⟩
  | storage o1 _ _ x _ _ hem hin =>
    obtain ⟨i1, f1⟩ := key _ _ _ _ hem hin
    exact ⟨i1, f1.evo i hcnt T⟩
  | done o1 _ c1 _ _ hem hin =>
    obtain ⟨i1, f1⟩ := key _ _ _ _ hem hin
    exact ⟨i1.flush ff, (f1.evo i hcnt T).trans (flush_evo L c1 ff T)⟩

/-! ### InsertBatch -/

theorem insertAll_spec {L : Lib V D} {dim : Nat} (T : UInt64 → Prop) :
    ∀ (os : List (Object V × InsEnv)) (c : Coll), WInv S L dim X c → (∀ p ∈ os, (p.1.vec.getD []).length = dim) →
      (∀ p ∈ os, p.2.level < 4294967296) → c.counter.count.toNat + os.length < 18446744073709551616 →
      ∃ c' os' e, c.insertAll L os = .ok (c', os', e) ∧ WInv S L dim X c' ∧ Evo L c c' T ∧ os'.length = os.length ∧
        c'.counter.closed = c.counter.closed ∧ c'.closed = c.closed := by
  intro os
  induction os with
  | nil => intro c i _ _ _; exact ⟨c, [], none, rfl, i, Evo.refl _ _ _, rfl, rfl, rfl⟩
  | cons p os ih =>
    intro c i hd hl hc
    obtain ⟨o, env⟩ := p
    simp only [List.length_cons] at hc
    have hc1 : c.counter.count.toNat + 1 < 18446744073709551616 := by omega
    obtain ⟨c1, o1, e1, h1, i1, f1⟩ := insertOne_spec i (o := o) (env := env) (hd (o, env) (by simp)) (hl (o, env) (by simp)) hc1
    unfold Coll.insertAll
    rw [h1, ok_bind]
    dsimp only
    cases e1 with
    | some x => exact ⟨_, _, _, rfl, i1, f1.evo i hc1 T, by simp, f1.ctrClosed, f1.closed⟩
    | none =>
      have hcnt : (c.counter.count + 1).toNat = c.counter.count.toNat + 1 := by
        rw [UInt64.toNat_add]
        show (c.counter.count.toNat + 1) % 2 ^ 64 = _
        omega
      obtain ⟨c2, os2, e2, h2, i2, ev2, l2, cc2, cl2⟩ := ih c1 i1 (fun p hp => hd p (List.mem_cons_of_mem _ hp))
        (fun p hp => hl p (List.mem_cons_of_mem _ hp)) (by rw [f1.count, hcnt]; omega)
      dsimp only
      rw [h2, ok_bind]
      exact ⟨_, _, _, rfl, i2, (f1.evo i hc1 T).trans ev2, by simp [l2], cc2.trans f1.ctrClosed, cl2.trans f1.closed⟩

inductive BatchRes (L : Lib V D) (c : Coll) (os : List (Object V)) (embed : Embed V) (envs : Nat → InsEnv) (ff : Bool) :
    Coll → List (Object V) → Option Err → Prop where
  | closed : c.closed = true → BatchRes L c os embed envs ff c os (some .collectionClosed)
  | invalid (e : Err) : c.closed = false → validateObjects c.mappings 0 os = some e → BatchRes L c os embed envs ff c os (some e)
  | embed (e : Err) : c.closed = false → validateObjects c.mappings 0 os = none →
      embedObjectsIfNeeded c embed os = .ok (.error e) → BatchRes L c os embed envs ff c os (some e)
  | storage (os1 os2 : List (Object V)) (c1 : Coll) (e : Err) : c.closed = false → validateObjects c.mappings 0 os = none →
      embedObjectsIfNeeded c embed os = .ok (.ok os1) →
      c.insertAll L (os1.zipIdx.map (fun p => (p.1, envs p.2))) = .ok (c1, os2, some e) →
      BatchRes L c os embed envs ff c1 os2 (some e)
  | done (os1 os2 : List (Object V)) (c1 : Coll) : c.closed = false → validateObjects c.mappings 0 os = none →
      embedObjectsIfNeeded c embed os = .ok (.ok os1) →
      c.insertAll L (os1.zipIdx.map (fun p => (p.1, envs p.2))) = .ok (c1, os2, none) →
      BatchRes L c os embed envs ff (c1.flush ff).1 os2 (c1.flush ff).2

theorem batch_res {L : Lib V D} {c : Coll} {os : List (Object V)} {embed : Embed V} {envs : Nat → InsEnv} {ff : Bool}
    {c' : Coll} {os' : List (Object V)} {e : Option Err} (h : c.insertBatch L os embed envs ff = .ok (c', os', e)) :
    BatchRes L c os embed envs ff c' os' e := by
  unfold Coll.insertBatch at h
  by_cases hc : c.closed = true
  · rw [if_pos hc] at h; cases h; exact .closed hc
  · rw [if_neg hc] at h
    have hc' : c.closed = false := by simpa using hc
    cases hv : validateObjects c.mappings 0 os with
    | some x => rw [hv] at h; cases h; exact .invalid x hc' hv
    | none =>
      rw [hv] at h
      dsimp only at h
      obtain ⟨r, hr, h2⟩ := (bind_ok_iff _ _ _).mp h
      cases r with
      | error x => cases h2; exact .embed x hc' hv hr
      | ok os1 =>
        dsimp only at h2
        obtain ⟨⟨c1, o2, e1⟩, hr1, h3⟩ := (bind_ok_iff _ _ _).mp h2
        dsimp only at h3
        cases e1 with
        | some x => cases h3; exact .storage os1 _ _ x hc' hv hr hr1
        | none => cases h3; exact .done os1 _ c1 hc' hv hr hr1

theorem zipIdx_dim {os : List (Object V)} {envs : Nat → InsEnv} {dim : Nat} (hd : ∀ o ∈ os, (o.vec.getD []).length = dim)
    (hl : ∀ i, (envs i).level < 4294967296) :
    (∀ p ∈ os.zipIdx.map (fun p => (p.1, envs p.2)), (p.1.vec.getD []).length = dim) ∧
    (∀ p ∈ os.zipIdx.map (fun p => (p.1, envs p.2)), p.2.level < 4294967296) := by
  constructor
  · intro p hp
    obtain ⟨⟨a, n⟩, ha, rfl⟩ := List.mem_map.mp hp
    exact hd a (List.fst_mem_of_mem_zipIdx ha)
  · intro p hp
    obtain ⟨a, _, rfl⟩ := List.mem_map.mp hp
    exact hl _

theorem batch_total {L : Lib V D} {dim : Nat} {c : Coll} (i : WInv S L dim X c) {os : List (Object V)} {embed : Embed V}
    {envs : Nat → InsEnv} {ff : Bool} (hl : Legal dim c (Op.insertBatch os embed envs ff)) :
    ∃ c' os' e, c.insertBatch L os embed envs ff = .ok (c', os', e) := by
  obtain ⟨⟨r, hr, hd⟩, hlev, hcnt⟩ := hl
  unfold Coll.insertBatch
  by_cases hc : c.closed = true
  · rw [if_pos hc]; exact ⟨_, _, _, rfl⟩
  · rw [if_neg hc]
    cases hv : validateObjects c.mappings 0 os with
    | some x => exact ⟨_, _, _, rfl⟩
    | none =>
      dsimp only
      rw [hr, ok_bind]
      cases r with
      | error x => exact ⟨_, _, _, rfl⟩
      | ok os1 =>
        have hlen := embed_length hr
        obtain ⟨hz1, hz2⟩ := zipIdx_dim (envs := envs) (hd os1 rfl) hlev
        obtain ⟨c1, os2, e1, he, _⟩ := insertAll_spec (fun _ => False) _ c i hz1 hz2 (by simp; omega)
        dsimp only
        rw [he, ok_bind]
        cases e1 with
        | some x => exact ⟨_, _, _, rfl⟩
        | none => exact ⟨_, _, _, rfl⟩

theorem batch_inv {L : Lib V D} {dim : Nat} {c : Coll} (i : WInv S L dim X c) {os : List (Object V)} {embed : Embed V}
    {envs : Nat → InsEnv} {ff : Bool} (hl : Legal dim c (Op.insertBatch os embed envs ff)) {c' : Coll}
    {os' : List (Object V)} {e : Option Err} (h : c.insertBatch L os embed envs ff = .ok (c', os', e))
    (T : UInt64 → Prop) : WInv S L dim X c' ∧ Evo L c c' T := by
  obtain ⟨⟨r, hr, hd⟩, hlev, hcnt⟩ := hl
  have key : ∀ os1 os2 c1 e1, embedObjectsIfNeeded c embed os = .ok (.ok os1) →
      c.insertAll L (os1.zipIdx.map (fun p => (p.1, envs p.2))) = .ok (c1, os2, e1) → WInv S L dim X c1 ∧ Evo L c c1 T := by
    intro os1 os2 c1 e1 hem hin
    have hlen := embed_length hem
    rw [hr] at hem; cases hem
    obtain ⟨hz1, hz2⟩ := zipIdx_dim (envs := envs) (hd os1 rfl) hlev
    obtain ⟨c2, os3, e2, he, i2, ev2, _⟩ := insertAll_spec T _ c i hz1 hz2 (by simp; omega)
    rw [hin] at he; cases he
    exact ⟨i2, ev2⟩
  cases batch_res h with
  | closed => exact ⟨i, Evo.refl _ _ _⟩
  | invalid => exact ⟨i, Evo.refl _ _ _⟩
  | embed => exact ⟨i, Evo.refl _ _ _⟩
  | storage os1 _ _ x _ _ hem hin => exact key _ _ _ _ hem hin
  | done os1 _ c1 _ _ hem hin =>
    obtain ⟨i1, f1⟩ := key _ _ _ _ hem hin
    exact ⟨i1.flush ff, f1.trans (flush_evo L c1 ff T)⟩

/-! ### Delete -/

inductive DelRes (L : Lib V D) (c : Coll) (id : UInt64) (df ff : Bool) : Coll → Option Err → Prop where
  | closed : c.closed = true → keyOf id ∈ c.stores.objects.keys → DelRes L c id df ff c (some .io)
  | absent : getObject L.json c.stores id = .ok none → DelRes L c id df ff c none
  | failed (o : Object V) : c.closed = false → getObject L.json c.stores id = .ok (some o) → df = true → DelRes L c id df ff c (some .io)
  | done (o : Object V) : c.closed = false → getObject L.json c.stores id = .ok (some o) → df = false →
      DelRes L c id df ff
        (Coll.flush { c with stores := deleteObject c.stores id, index := c.index.delete id } ff).1
        (Coll.flush { c with stores := deleteObject c.stores id, index := c.index.delete id } ff).2

theorem delete_res {L : Lib V D} {dim : Nat} {c : Coll} (i : WInv S L dim X c) (id : UInt64) (df ff : Bool) :
    ∃ c' e, c.delete L id df ff = .ok (c', e) ∧ DelRes L c id df ff c' e := by
  obtain ⟨r, hr, hs, _⟩ := getObject_eq i id
  unfold Coll.delete
  by_cases hc : (c.closed && c.stores.objects.has (keyOf id)) = true
  · rw [if_pos hc]
    simp only [Bool.and_eq_true] at hc
    exact ⟨_, _, rfl, .closed hc.1 ((AMap.has_iff _ _).mp hc.2)⟩
  · rw [if_neg hc, hr]
    cases r with
    | none => exact ⟨_, _, rfl, .absent hr⟩
    | some o =>
      dsimp only
      have hk := (hs.mp rfl).1
      have hcl : c.closed = false := by
        cases h : c.closed with
        | false => rfl
        | true => exact absurd (by rw [h, (AMap.has_iff _ _).mpr hk]; rfl) hc
      cases df with
      | true => exact ⟨_, _, rfl, .failed o hcl hr rfl⟩
      | false => exact ⟨_, _, rfl, .done o hcl hr rfl⟩

theorem getObject_delete_ne (js : Json V) (s : Stores) (id x : UInt64) (h : x ≠ id) :
    getObject js (deleteObject s id) x = getObject js s x := by
  have hk : keyOf id ≠ keyOf x := fun e => h (keyOf_inj e).symm
  unfold getObject deleteObject
  dsimp only
  rw [AMap.get?_erase_ne _ _ _ hk]

theorem getObject_delete_self (js : Json V) (s : Stores) (id : UInt64) : getObject js (deleteObject s id) id = .ok none := by
  unfold getObject deleteObject
  dsimp only
  rw [AMap.get?_erase_self]

theorem delete_deleted (h : Hnsw) (id x : UInt64) : x ∈ (h.delete id).deleted ↔ x = id ∨ x ∈ h.deleted := by
  unfold Hnsw.delete Hnsw.log
  dsimp only
  split
  · constructor
    · exact Or.inr
    · rintro (rfl | h)
      · assumption
      · exact h
  · simp

theorem erased_inv' {L : Lib V D} {dim : Nat} {c : Coll} (i : WInv S L dim X c) {id : UInt64}
    (ho : keyOf id ∈ c.stores.objects.keys ∨ id ∈ c.index.deleted) :
    WInv S L dim X { c with stores := deleteObject c.stores id, index := c.index.delete id } := by
  have hmem : ∀ k, k ∈ (c.stores.objects.erase (keyOf id)).keys ↔ k ∈ c.stores.objects.keys ∧ k ≠ keyOf id := by
    intro k; rw [AMap.keys_erase, List.mem_filter]; simp
  refine ⟨i.json, i.dimM, i.dim32, delete_spec i.idx id, i.cfg, i.vecs, AMap.keys_erase_nodup i.ond _, i.vnd, i.vkeys,
    ?_, i.vstore, ?_, ?_, ?_, ?_⟩
  · intro k hk; exact i.okeys k ((hmem k).mp hk).1
  · intro x b hb
    have hb' : (c.stores.objects.erase (keyOf id)).get? (keyOf x) = some b := hb
    rw [AMap.get?_erase] at hb'
    split at hb'
    · cases hb'
    · exact i.dec x b hb'
  · obtain ⟨f, hf, hu⟩ := i.ids
    refine ⟨f, hf, ?_⟩
    intro x hx
    rcases hx with hx | hx | hx
    · exact hu x (Or.inl ((hmem _).mp hx).1)
    · exact hu x (Or.inr (Or.inl hx))
    · rcases (delete_deleted _ _ _).mp hx with rfl | hx
      · exact hu x (ho.elim Or.inl (fun h => Or.inr (Or.inr h)))
      · exact hu x (Or.inr (Or.inr hx))
  · intro x hx hk
    obtain ⟨h1, h2⟩ := (hmem _).mp hk
    rcases (delete_deleted _ _ _).mp hx with rfl | hx
    · exact h2 rfl
    · exact i.del x hx h1
  · intro x hv hk hX
    rw [delete_deleted]
    by_cases hx : x = id
    · exact Or.inl hx
    · right
      refine i.live x hv (fun h1 => ?_) hX
      exact hk ((hmem _).mpr ⟨h1, fun e => hx (keyOf_inj e)⟩)

theorem erased_inv {L : Lib V D} {dim : Nat} {c : Coll} (i : WInv S L dim X c) {id : UInt64}
    (ho : keyOf id ∈ c.stores.objects.keys) :
    WInv S L dim X { c with stores := deleteObject c.stores id, index := c.index.delete id } := erased_inv' i (Or.inl ho)

theorem delete_inv {L : Lib V D} {dim : Nat} {c : Coll} (i : WInv S L dim X c) {id : UInt64} {df ff : Bool} {c' : Coll}
    {e : Option Err} (h : DelRes L c id df ff c' e) : WInv S L dim X c' ∧ Evo L c c' (fun x => x = id) := by
  cases h with
  | closed => exact ⟨i, Evo.refl _ _ _⟩
  | absent => exact ⟨i, Evo.refl _ _ _⟩
  | failed => exact ⟨i, Evo.refl _ _ _⟩
  | done o hc hg _ =>
    obtain ⟨r, hr, hs, _⟩ := getObject_eq i id
    rw [hg] at hr; cases hr
    have i1 := erased_inv i (hs.mp rfl).1
    refine ⟨i1.flush ff, Evo.trans ?_ (flush_evo L _ ff _)⟩
    refine ⟨rfl, rfl, rfl, Nat.le_refl _, ?_, ?_, ?_, fun _ _ h => h⟩
    · intro x _ hx; exact getObject_delete_ne _ _ _ _ hx
    · intro x _ hn
      by_cases hx : x = id
      · subst hx; exact getObject_delete_self _ _ _
      · show getObject L.json (deleteObject c.stores id) x = _
        rw [getObject_delete_ne _ _ _ _ hx]; exact hn
    · intro x hx; exact (delete_deleted _ _ _).mpr (Or.inr hx)

/-! ### Close and reopen -/

theorem close_inv {L : Lib V D} {dim : Nat} {c : Coll} (i : WInv S L dim X c) (sf : Bool) (T : UInt64 → Prop) :
    WInv S L dim X (c.close sf).1 ∧ Evo L c (c.close sf).1 T := by
  have hctr : ∃ b, (c.counter.close).1 = { c.counter with closed := b } := by
    unfold IdCounter.close
    cases h : c.counter.closed with
    | true => exact ⟨true, by simp; cases hh : c.counter; simp_all⟩
    | false => exact ⟨true, rfl⟩
  obtain ⟨b, hb⟩ := hctr
  have hform : ∃ b2, (c.close sf).1 = { c with counter := { c.counter with closed := b }, closed := b2 } := by
    unfold Coll.close
    cases hcc : c.counter.close with
    | mk ctr e =>
      rw [hcc] at hb
      dsimp only at hb
      subst hb
      cases e with
      | some x => exact ⟨c.closed, rfl⟩
      | none =>
        cases sf with
        | true => exact ⟨c.closed, rfl⟩
        | false => exact ⟨true, rfl⟩
  obtain ⟨b2, h2⟩ := hform
  rw [h2]
  exact ⟨⟨i.json, i.dimM, i.dim32, i.idx, i.cfg, i.vecs, i.ond, i.vnd, i.vkeys, i.okeys, i.vstore, i.dec, i.ids, i.del, i.live⟩,
    ⟨rfl, rfl, rfl, Nat.le_refl _, fun _ _ _ => rfl, fun _ _ h => h, fun _ h => h, fun _ _ h => h⟩⟩

theorem populateVectors_eq (s : Stores) (vec : UInt64 → Option Vec) :
    ∀ (ids : List UInt64) (h : Hnsw), (∀ id ∈ ids, getVector s id = .ok (vec id)) →
      populateVectors s h (ids.map keyOf) = populate h (ids.map (fun id => (id, (vec id).getD []))) := by
  intro ids
  induction ids with
  | nil => intro h _; rfl
  | cons id ids ih =>
    intro h hv
    rw [List.map_cons]
    unfold populateVectors
    rw [uint64_keyOf, ok_bind, hv id (by simp), ok_bind, List.map_cons]
    unfold populate
    rw [List.foldlM_cons]
    cases hp : populateOne h id ((vec id).getD []) with
    | error p => rfl
    | ok h1 =>
      rw [ok_bind, ok_bind]
      exact ih h1 (fun x hx => hv x (List.mem_cons_of_mem _ hx))

theorem keys_as_ids {ks : List Bytes} (h : ∀ k ∈ ks, ∃ id, k = keyOf id) : ∃ ids : List UInt64, ks = ids.map keyOf := by
  induction ks with
  | nil => exact ⟨[], rfl⟩
  | cons k ks ih =>
    obtain ⟨id, rfl⟩ := h _ (List.mem_cons_self)
    obtain ⟨ids, rfl⟩ := ih (fun x hx => h x (List.mem_cons_of_mem _ hx))
    exact ⟨id :: ids, rfl⟩

theorem get?_map_ids {W : Type} (g : UInt64 → W) : ∀ (ids : List UInt64) (x : UInt64),
    AMap.get? (ids.map (fun id => (id, g id))) x = if x ∈ ids then some (g x) else none := by
  intro ids
  induction ids with
  | nil => intro x; rfl
  | cons a ids ih =>
    intro x
    simp only [List.map_cons, AMap.get?]
    by_cases h : a = x
    · subst h; simp
    · rw [if_neg h, ih]
      have : ¬ x = a := fun e => h e.symm
      simp [this]

/-- a collection opened again after a successful flush. -/
def reopened (c : Coll) (f : UInt64) : Coll :=
  { c with counter := { count := f, file := c.counter.file },
           index := { c.index with once := false, wal := newWal c.index.wal.disk }, closed := false }

theorem coll_reopen {L : Lib V D} {dim : Nat} {c : Coll} (i : WInv S L dim X c) (hb : c.index.wal.batch = []) (T : UInt64 → Prop) :
    ∃ f c', CounterOK c.counter f ∧ c.reopen = .ok c' ∧ c' = { reopened c f with index := c'.index } ∧
      Reopened S c.index c'.index ∧ WInv S L dim X c' ∧ Evo L c c' T := by
  obtain ⟨f, hf, hu⟩ := i.ids
  obtain ⟨ids, hids⟩ := keys_as_ids i.vkeys
  have hctr : newIdCounter c.counter.file = .ok { count := f, file := c.counter.file } := by
    rcases hf.1 with ⟨h0, h1⟩ | h0
    · rw [h0, h1]; rfl
    · rw [h0]; simpa using newIdCounter_put f []
  have hnd : ids.Nodup := by
    have := i.vnd
    rw [hids] at this
    exact (List.pairwise_map.mp this).imp (fun h e => h (by rw [e]))
  have hmem : ∀ x, x ∈ ids ↔ x ∈ c.index.nodes.keys := by
    intro x
    rw [← vkey_iff i, hids]
    constructor
    · intro h; exact List.mem_map.mpr ⟨x, h, rfl⟩
    · intro h; obtain ⟨y, hy, he⟩ := List.mem_map.mp h; rw [← keyOf_inj he]; exact hy
  obtain ⟨h', hre, hro⟩ := reopen_spec i.idx hb (ids.map (fun id => (id, (vecOf c.index.nodes id).getD []))) (by rw [List.map_map]; show (ids.map (fun x => x)).Nodup; simpa using hnd) (by
    intro x
    rw [get?_map_ids]
    split
    · rename_i hx
      have : (vecOf c.index.nodes x).isSome := by
        unfold vecOf; rw [Option.isSome_map, AMap.get?_isSome_iff]; exact (hmem x).mp hx
      obtain ⟨v, hv⟩ := Option.isSome_iff_exists.mp this
      rw [hv]; rfl
    · rename_i hx
      unfold vecOf
      rw [(AMap.get?_none_iff _ _).mpr (fun h => hx ((hmem x).mpr h))]; rfl)
  obtain ⟨s, hs, _⟩ := load_flushed i.idx hb
  refine ⟨f, { reopened c f with index := h' }, hf, ?_, rfl, hro, ?_, ?_⟩
  · unfold Coll.reopen openColl
    simp only [Coll.disk]
    rw [hctr]
    simp only [liftErr, ok_bind]
    rw [hs, ok_bind] at hre ⊢
    rw [hids, populateVectors_eq c.stores (vecOf c.index.nodes) ids _ (fun x _ => i.vstore x), hre, ok_bind]
    rfl
  · refine ⟨i.json, i.dimM, i.dim32, reopened_inv i.idx hb hro, by rw [hro.cfg]; exact i.cfg, hro.nodes.vecOK i.vecs, i.ond, i.vnd,
      i.vkeys, i.okeys, ?_, i.dec, ⟨f, ⟨hf.1, Nat.le_refl _⟩, ?_⟩, ?_, ?_⟩
    · intro id; rw [hro.nodes.vecOf]; exact i.vstore id
    · rw [hro.deleted]; exact hu
    · rw [hro.deleted]; exact i.del
    · rw [hro.deleted]; exact i.live
  · refine ⟨rfl, rfl, hro.cfg, Nat.le_refl _, fun _ _ _ => rfl, fun _ _ h => h, ?_, ?_⟩
    · rw [hro.deleted]; exact fun _ h => h
    · intro id v h; rw [hro.nodes.vecOf]; exact h

theorem coll_reopen_exact {L : Lib V D} {dim : Nat} {c : Coll} (i : WInv True L dim X c) (hb : c.index.wal.batch = []) (T : UInt64 → Prop) :
    ∃ f, CounterOK c.counter f ∧ c.reopen = .ok (reopened c f) ∧ WInv True L dim X (reopened c f) ∧ Evo L c (reopened c f) T := by
  obtain ⟨f, c', h1, h2, h3, h4, h5, h6⟩ := coll_reopen i hb T
  have h7 : c' = reopened c f := by rw [h3, h4.exact trivial]; rfl
  subst h7
  exact ⟨f, h1, h2, h5, h6⟩

/-! ### Every legal call -/

theorem apply_spec {L : Lib V D} {dim : Nat} {c : Coll} (i : WInv S L dim X c) (op : Op V) (hl : Legal dim c op) :
    ∃ c' out, c.apply L op = .ok (c', out) ∧ WInv S L dim X c' ∧ Evo L c c' op.touches := by
  cases op with
  | insert o embed env ff =>
    obtain ⟨c', o', e, h⟩ := insert_total i hl
    obtain ⟨i', ev⟩ := insert_inv i hl h (Op.touches (.insert o embed env ff))
    exact ⟨c', .inserted o' e, by simp [Coll.apply, h, liftPanic], i', ev⟩
  | insertBatch os embed envs ff =>
    obtain ⟨c', o', e, h⟩ := batch_total i hl
    obtain ⟨i', ev⟩ := batch_inv i hl h (Op.touches (.insertBatch os embed envs ff))
    exact ⟨c', .insertedBatch o' e, by simp [Coll.apply, h, liftPanic], i', ev⟩
  | delete id df ff =>
    obtain ⟨c', e, h, hr⟩ := delete_res i id df ff
    obtain ⟨i', ev⟩ := delete_inv i hr
    exact ⟨c', .deleted e, by simp [Coll.apply, h, liftPanic], i', ev⟩
  | get ids => exact ⟨c, _, rfl, i, Evo.refl _ _ _⟩
  | search o embed k => exact ⟨c, _, rfl, i, Evo.refl _ _ _⟩
  | size => exact ⟨c, _, rfl, i, Evo.refl _ _ _⟩
  | update o => exact ⟨c, _, rfl, i, Evo.refl _ _ _⟩
  | close sf =>
    obtain ⟨i', ev⟩ := close_inv i sf (Op.touches (.close sf))
    exact ⟨_, _, rfl, i', ev⟩
  | reopen =>
    obtain ⟨f, c', _, h, _, _, i', ev⟩ := coll_reopen i hl (Op.touches .reopen)
    exact ⟨_, .done none, by simp [Coll.apply, h], i', ev⟩

theorem new_inv (L : Lib V D) (dim : Nat) (cfg : Cfg) (ms : List String) (he : Bool) (hj : JsonOK L.json)
    (hM : DimOK L.metric dim) (hdim : dim < 4294967296) (hc : CfgOK cfg) : WInv S L dim X (Coll.new cfg ms he) := by
  refine ⟨hj, hM, hdim, inv_empty cfg, hc, ?_, ?_, ?_, ?_, ?_, ?_, ?_, ⟨0, ⟨Or.inl ⟨rfl, rfl⟩, by simp [Coll.new]⟩, ?_⟩, ?_, ?_⟩
  all_goals simp [Coll.new, Hnsw.empty, AMap.keys, VecOK, getVector, vecOf, newWal]

theorem runs_inv {L : Lib V D} {dim : Nat} {c c' : Coll} {h : List (Op V × Out V D)} (i : WInv S L dim X c)
    (r : Runs L dim c h c') : WInv S L dim X c' := by
  induction r with
  | nil => exact i
  | cons hl ha _ ih =>
    obtain ⟨c2, out, h2, i2, _⟩ := apply_spec i _ hl
    rw [ha] at h2; cases h2
    exact ih i2

theorem runs_evo {L : Lib V D} {dim : Nat} {c c' : Coll} {h : List (Op V × Out V D)} (i : WInv S L dim X c)
    (r : Runs L dim c h c') {T : UInt64 → Prop} (hT : ∀ p ∈ h, ∀ x, p.1.touches x → T x) : Evo L c c' T := by
  induction r with
  | nil => exact Evo.refl _ _ _
  | @cons c c1 c2 op out t hl ha _ ih =>
    obtain ⟨c3, out', h2, i2, ev⟩ := apply_spec i _ hl
    rw [ha] at h2; cases h2
    have ev' : Evo L c c1 T := ⟨ev.mappings, ev.embedder, ev.cfg, ev.file,
      fun id h1 h2 => ev.keep id h1 (fun h3 => h2 (hT (op, out) (by simp) id h3)), ev.gone, ev.deleted, ev.vecs⟩
    exact ev'.trans (ih i2 (fun p hp => hT p (List.mem_cons_of_mem _ hp)))

theorem Reach.inv {L : Lib V D} {dim : Nat} {c : Coll} (r : Reach L dim c) : CInv L dim c := by
  obtain ⟨cfg, ms, he, h, s, hr⟩ := r
  exact runs_inv (new_inv L dim cfg ms he s.json s.metric s.dim32 s.cfg) hr

end Vectory
