import Verif.Lemmas.SimWal
import Verif.Props.Accept
import Verif.Props.Search
import Verif.Spec.Demo
/-!
# C64: `InsertBatch` is the loop that calls `Insert` for each object
-/
namespace Vectory
variable {V D : Type}

/-- a caller that inserts the objects one at a time, in order, and stops at the first error. The result: the collection, the
caller's objects, the error. -/
def insertLoop (L : Lib V D) (embed : Embed V) (c : Coll) : List (Object V × InsEnv) →
    Except Panic (Coll × List (Object V) × Option Err)
  | [] => .ok (c, [], none)
  | (o, env) :: rest => do
    let (c, o, e) ← c.insert L o embed env false
    match e with
    | some e => .ok (c, o :: rest.map Prod.fst, some e)
    | none => do
      let (c, os, e) ← insertLoop L embed c rest
      .ok (c, o :: os, e)

/-- an embedding service that answers for every object on its own. -/
def PerObject (embed : Embed V) (f : Object V → Option Vec) : Prop := ∀ l, embed l = .ok (l.map f)

/-- what embedding makes of one object. -/
def embedOne (f : Object V → Option Vec) (o : Object V) : Object V := match o.vec with | some _ => o | none => { o with vec := f o }

theorem assign_point (f : Object V → Option Vec) : ∀ os : List (Object V),
    assignVectors os ((os.filter (fun o => o.vec.isNone)).map f) = .ok (os.map (embedOne f)) := by
  intro os
  induction os with
  | nil => rfl
  | cons o os ih =>
    unfold assignVectors
    cases hv : o.vec with
    | some v =>
      dsimp only
      rw [List.filter_cons_of_neg (by simp [hv]), ih]
      simp [embedOne, hv, bind, Except.bind]
    | none =>
      rw [List.filter_cons_of_pos (by simp [hv])]
      simp only [List.map_cons]
      rw [ih]
      simp [embedOne, hv, bind, Except.bind]

/-- the objects are accepted: they pass the check of the properties and have a vector or can get one. -/
def Accepted (c : Coll) (o : Object V) : Prop :=
  (o.props.length ≤ c.mappings.length ∧ ∀ m ∈ c.mappings, m ∈ o.props.keys) ∧ (c.hasEmbedder = false → o.vec.isNone = false)

theorem embed_accepted {c : Coll} {embed : Embed V} {f : Object V → Option Vec} (hp : c.hasEmbedder = true → PerObject embed f)
    {os : List (Object V)} (ha : ∀ o ∈ os, Accepted c o) : embedObjectsIfNeeded c embed os = .ok (.ok (os.map (embedOne f))) := by
  unfold embedObjectsIfNeeded
  by_cases he : c.hasEmbedder = false
  · rw [if_pos he, if_neg]
    · congr 2
      have : ∀ o ∈ os, embedOne f o = id o := by
        intro o ho
        have := (ha o ho).2 he
        unfold embedOne
        cases hv : o.vec with
        | some v => rfl
        | none => rw [hv] at this; cases this
      rw [List.map_congr_left this, List.map_id]
    · intro h
      rw [List.any_eq_true] at h
      obtain ⟨o, ho, h⟩ := h
      rw [(ha o ho).2 he] at h; cases h
  · rw [if_neg he, hp (by simpa using he)]
    dsimp only
    rw [assign_point]
    rfl

theorem embed_refused {c : Coll} {embed : Embed V} {os os' : List (Object V)} (h : embedObjectsIfNeeded c embed os = .ok (.ok os')) :
    ∀ o ∈ os, c.hasEmbedder = false → o.vec.isNone = false := by
  intro o ho he
  unfold embedObjectsIfNeeded at h
  rw [if_pos he] at h
  split at h
  · cases h
  · rename_i hn
    cases hv : o.vec with
    | some v => rfl
    | none => exact absurd (List.any_eq_true.mpr ⟨o, ho, by simp [hv]⟩) hn

theorem insertOne_fixed {L : Lib V D} {c c' : Coll} {o o' : Object V} {env : InsEnv} {e : Option Err}
    (h : c.insertOne L o env = .ok (c', o', e)) : c'.closed = c.closed ∧ c'.mappings = c.mappings ∧ c'.hasEmbedder = c.hasEmbedder := by
  unfold Coll.insertOne at h
  cases hf : fetchAndInc c.counter env.counterFails with
  | mk ctr r =>
    rw [hf] at h
    cases r with
    | error e => cases h; exact ⟨rfl, rfl, rfl⟩
    | ok id =>
      dsimp only at h
      split at h
      · cases h; exact ⟨rfl, rfl, rfl⟩
      · obtain ⟨idx, _, h⟩ := (bind_ok_iff _ _ _).mp h
        cases h; exact ⟨rfl, rfl, rfl⟩

/-- `Insert` of an accepted object. -/
theorem insert_accepted {L : Lib V D} {c : Coll} {embed : Embed V} {f : Object V → Option Vec} (hc : c.closed = false)
    (hp : c.hasEmbedder = true → PerObject embed f) {o : Object V} (ha : Accepted c o) (env : InsEnv) :
    c.insert L o embed env false = (do
      let (c, o, e) ← c.insertOne L (embedOne f o) env
      match e with
      | some e => .ok (c, o, some e)
      | none =>
        let (c, e) := c.flush false
        .ok (c, o, e)) := by
  unfold Coll.insert
  rw [if_neg (by simp [hc]), validateObjects_none.mpr (by intro x hx; rw [List.mem_singleton.mp hx]; exact ha.1)]
  dsimp only
  rw [embed_accepted hp (by intro x hx; rw [List.mem_singleton.mp hx]; exact ha)]
  rfl

theorem HRes.error_inv {ε α : Type} {R : α → α → Prop} {e : ε} {r : Except ε α} (h : HRes R (.error e) r) : r = .error e := by
  cases h; rfl

theorem HRes.ok_inv {ε α : Type} {R : α → α → Prop} {x : α} {r : Except ε α} (h : HRes R (.ok x) r) : ∃ y, r = .ok y ∧ R x y := by
  cases h with
  | ok hr => exact ⟨_, rfl, hr⟩

/-- the two loops in step: the batch inserts everything before it flushes, the caller's loop flushes after every object. -/
theorem loop_rel {L : Lib V D} {embed : Embed V} {f : Object V → Option Vec} : ∀ (l : List (Object V × InsEnv)) {c c2 : Coll},
    LSame c c2 → c.closed = false → (c.hasEmbedder = true → PerObject embed f) → (∀ p ∈ l, Accepted c p.1) →
    HRes (fun x y => LSame x.1 y.1 ∧ y.2.2 = x.2.2 ∧ (x.2.2 = none → y.2.1 = x.2.1) ∧
        (x.2.2 = none → l ≠ [] ∨ c2.index.wal.batch = [] → y.1.index.wal.batch = []))
      (c.insertAll L (l.map (fun p => (embedOne f p.1, p.2)))) (insertLoop L embed c2 l) := by
  intro l
  induction l with
  | nil =>
    intro c c2 s _ _ _
    exact .ok ⟨s, rfl, fun _ => rfl, fun _ h => h.resolve_left (fun h => h rfl)⟩
  | cons p l ih =>
    obtain ⟨o, env⟩ := p
    intro c c2 s hc hp ha
    rw [List.map_cons]
    unfold Coll.insertAll insertLoop
    have hc2 : c2.closed = false := s.fields.1.trans hc
    have ha2 : Accepted c2 o := by
      have := ha (o, env) (List.mem_cons_self ..)
      unfold Accepted at this ⊢
      rw [s.fields.2.1, s.fields.2.2.1]; exact this
    rw [insert_accepted hc2 (by rw [s.fields.2.2.1]; exact hp) ha2 env]
    dsimp only
    have h1 := insertOne_wal L s (embedOne f o) env
    cases hx : c.insertOne L (embedOne f o) env with
    | error p => rw [hx] at h1; rw [h1.error_inv]; exact .error _
    | ok x =>
      rw [hx] at h1
      obtain ⟨y, hy, hr⟩ := h1.ok_inv
      rw [hy]
      obtain ⟨x1, xo, xe⟩ := x
      obtain ⟨y1, yo, ye⟩ := y
      obtain ⟨s1, he⟩ := hr
      dsimp only at s1 he
      cases he
      have hfix := insertOne_fixed hx
      cases xe with
      | some e => exact .ok ⟨s1, rfl, fun h => (by cases h), fun h => (by cases h)⟩
      | none =>
        obtain ⟨f1, f2, f3⟩ := flush_ends s1.index.ok'
        have s2 := s1.flush_right false
        show HRes _ ((x1.insertAll L (l.map (fun p => (embedOne f p.1, p.2)))) >>= _)
          ((match y1.flush false with | (c, e) => Except.ok (c, xo, e)) >>= _)
        cases hfl : y1.flush false with
        | mk z e =>
          rw [hfl] at f1 f2 f3 s2
          dsimp only at f1 f2 f3 s2
          subst f1
          show HRes _ ((x1.insertAll L (l.map (fun p => (embedOne f p.1, p.2)))) >>= _) ((insertLoop L embed z l) >>= _)
          have := ih s2 (hfix.1.trans hc) (by rw [hfix.2.2]; exact hp) (by
            intro p hpm
            have := ha p (List.mem_cons_of_mem _ hpm)
            unfold Accepted at this ⊢
            rw [hfix.2.1, hfix.2.2]; exact this)
          refine this.bind (fun a b hab => .ok ⟨hab.1, hab.2.1, fun h => by rw [hab.2.2.1 h], fun h _ => hab.2.2.2 h (Or.inr f2)⟩)

/-- if the caller's loop succeeds, all objects were accepted. -/
theorem loop_accepted {L : Lib V D} {embed : Embed V} {f : Object V → Option Vec} : ∀ (l : List (Object V × InsEnv)) {c c' : Coll}
    {os' : List (Object V)}, (c.hasEmbedder = true → PerObject embed f) →
    insertLoop L embed c l = .ok (c', os', none) → (∀ p ∈ l, Accepted c p.1) ∧ (l ≠ [] → c.closed = false) := by
  intro l
  induction l with
  | nil => intro c c' os' _ _; exact ⟨fun p hp => by simp at hp, fun h => absurd rfl h⟩
  | cons p l ih =>
    obtain ⟨o, env⟩ := p
    intro c c' os' hp h
    unfold insertLoop at h
    obtain ⟨⟨c1, o1, e1⟩, h1, h⟩ := (bind_ok_iff _ _ _).mp h
    cases e1 with
    | some e => cases h
    | none =>
      dsimp only at h
      obtain ⟨⟨c2, os2, e2⟩, h2, h⟩ := (bind_ok_iff _ _ _).mp h
      cases h
      have hacc : Accepted c o ∧ c.closed = false := by
        unfold Coll.insert at h1
        split at h1
        · cases h1
        · rename_i hcl
          split at h1
          · cases h1
          · rename_i hv
            obtain ⟨r, hr, h1⟩ := (bind_ok_iff _ _ _).mp h1
            cases r with
            | error e => cases h1
            | ok os1 =>
              exact ⟨⟨validateObjects_none.mp hv o (List.mem_singleton.mpr rfl), embed_refused hr o (List.mem_singleton.mpr rfl)⟩,
                by simpa using hcl⟩
      have hfix : c1.mappings = c.mappings ∧ c1.hasEmbedder = c.hasEmbedder := by
        rw [insert_accepted hacc.2 hp hacc.1] at h1
        obtain ⟨⟨c3, o3, e3⟩, h3, h1⟩ := (bind_ok_iff _ _ _).mp h1
        have := insertOne_fixed h3
        cases e3 with
        | some e => cases h1
        | none =>
          dsimp only at h1
          have h1 : (c3.flush false).1 = c1 := congrArg (fun r => match r with | Except.ok x => x.1 | .error _ => c1) h1
          rw [← h1]
          exact ⟨this.2.1, this.2.2⟩
      refine ⟨?_, fun _ => hacc.2⟩
      intro p hpm
      rcases List.mem_cons.mp hpm with rfl | hpm
      · exact hacc.1
      · have := (ih (by rw [hfix.2]; exact hp) h2).1 p hpm
        unfold Accepted at this ⊢
        rw [hfix.1, hfix.2] at this; exact this

/-- a successful batch, taken apart. -/
theorem batch_accepted {L : Lib V D} {embed : Embed V} {c c' : Coll} {os os' : List (Object V)}
    {envs : Nat → InsEnv} {ff : Bool} (h : c.insertBatch L os embed envs ff = .ok (c', os', none)) : (∀ o ∈ os, Accepted c o) ∧ c.closed = false := by
  unfold Coll.insertBatch at h
  split at h
  · cases h
  · rename_i hcl
    split at h
    · cases h
    · rename_i hv
      obtain ⟨r, hr, h⟩ := (bind_ok_iff _ _ _).mp h
      cases r with
      | error e => cases h
      | ok os1 =>
        exact ⟨fun o ho => ⟨validateObjects_none.mp hv o ho, embed_refused hr o ho⟩, by simpa using hcl⟩

theorem batch_of_accepted {L : Lib V D} {embed : Embed V} {f : Object V → Option Vec} {c : Coll} {os : List (Object V)}
    {envs : Nat → InsEnv} {ff : Bool} (hp : c.hasEmbedder = true → PerObject embed f) (hc : c.closed = false)
    (ha : ∀ o ∈ os, Accepted c o) : c.insertBatch L os embed envs ff = (do
        let (c, os, e) ← c.insertAll L ((os.zipIdx.map (fun p => (p.1, envs p.2))).map (fun p => (embedOne f p.1, p.2)))
        match e with
        | some e => .ok (c, os, some e)
        | none =>
          let (c, e) := c.flush ff
          .ok (c, os, e)) := by
  unfold Coll.insertBatch
  rw [if_neg (by simp [hc]), validateObjects_none.mpr (fun o ho => (ha o ho).1)]
  dsimp only
  rw [embed_accepted hp ha]
  show (c.insertAll L (((os.map (embedOne f)).zipIdx).map (fun p => (p.1, envs p.2))) >>= _) = _
  rw [List.zipIdx_map, List.map_map, List.map_map]
  rfl

/-- C64: for every collection reached by any history, `InsertBatch` (run by one worker) of a non-empty list reports success with the
collection `c'` and the objects `os'` exactly when inserting the objects one at a time reports success throughout and ends with the
same collection (memory and disk) and the same objects (ids included). The embedding service answers for every object on its own; the
random levels and the failures of the disk (`envs`) are the same, and the flushes succeed. -/
theorem C64_batch_is_loop (L : Lib V D) (dim : Nat) (c : Coll) (hr : ReachAny L dim c) (os : List (Object V)) (hne : os ≠ [])
    (embed : Embed V) (f : Object V → Option Vec) (hp : c.hasEmbedder = true → PerObject embed f) (envs : Nat → InsEnv)
    (c' : Coll) (os' : List (Object V)) :
    c.insertBatch L os embed envs false = .ok (c', os', none) ↔
      insertLoop L embed c (os.zipIdx.map (fun p => (p.1, envs p.2))) = .ok (c', os', none) := by
  have hw : WalOK c.index.wal := hr.weak.1.idx.m.wal
  have hne' : os.zipIdx.map (fun p => (p.1, envs p.2)) ≠ [] := by
    intro h
    have := congrArg List.length h
    simp at this
    exact hne this
  have hmem : ∀ {P : Object V → Prop}, (∀ o ∈ os, P o) ↔ ∀ p ∈ os.zipIdx.map (fun p => (p.1, envs p.2)), P p.1 := by
    intro P
    constructor
    · intro h p hpm
      obtain ⟨q, hq, rfl⟩ := List.mem_map.mp hpm
      exact h q.1 (List.fst_mem_of_mem_zipIdx hq)
    · intro h o ho
      obtain ⟨i, hi, rfl⟩ := List.mem_iff_getElem.mp ho
      have : (os[i], i) ∈ os.zipIdx := by
        rw [List.mem_zipIdx_iff_getElem?]
        simp [hi]
      exact h (os[i], envs i) (List.mem_map.mpr ⟨_, this, rfl⟩)
  constructor
  · intro h
    obtain ⟨ha, hc⟩ := batch_accepted h
    rw [batch_of_accepted hp hc ha] at h
    obtain ⟨⟨x, xo, xe⟩, h1, h⟩ := (bind_ok_iff _ _ _).mp h
    have hl := loop_rel (L := L) (embed := embed) (f := f) _ (LSame.refl hw) hc hp (hmem.mp ha)
    rw [h1] at hl
    cases hl2 : insertLoop L embed c (os.zipIdx.map (fun p => (p.1, envs p.2))) with
    | error p => rw [hl2] at hl; cases hl
    | ok y =>
      rw [hl2] at hl
      cases hl with
      | ok hl =>
        obtain ⟨y1, yo, ye⟩ := y
        obtain ⟨s, e1, e2, e3⟩ := hl
        dsimp only at s e1 e2 e3 h
        cases xe with
        | some e => cases h
        | none =>
          subst e1
          have e2 := e2 rfl
          have e3 := e3 rfl (Or.inl hne')
          have := s.flush
          rw [flush_nil s.index.ok' e3] at this
          dsimp only at h
          rw [← this] at h
          cases h
          rw [e2]
  · intro h
    obtain ⟨ha, hc⟩ := loop_accepted _ hp h
    have hc := hc hne'
    have ha' := hmem.mpr ha
    rw [batch_of_accepted hp hc ha']
    have hl := loop_rel (L := L) (embed := embed) (f := f) _ (LSame.refl hw) hc hp ha
    rw [h] at hl
    cases h1 : c.insertAll L ((os.zipIdx.map (fun p => (p.1, envs p.2))).map (fun p => (embedOne f p.1, p.2))) with
    | error p => rw [h1] at hl; cases hl
    | ok x =>
      rw [h1] at hl
      cases hl with
      | ok hl =>
        obtain ⟨x1, xo, xe⟩ := x
        obtain ⟨s, e1, e2, e3⟩ := hl
        dsimp only at s e1 e2 e3
        subst e1
        have e2 := e2 rfl
        have e3 := e3 rfl (Or.inl hne')
        have := s.flush
        rw [flush_nil s.index.ok' e3] at this
        show (match x1.flush false with | (c, e) => Except.ok (c, xo, e)) = _
        rw [← this, e2]

/-- the levels of the example: the second object rises to layer 1. -/
def c64Envs (i : Nat) : InsEnv := { level := if i = 1 then 1 else 0 }

-- a collection with six vectors, a batch of three: it succeeds, so the loop does, with the same collection, ids 7, 8, 9
example : ∃ c' os', (demoState demoCfg c16Ops).insertBatch demoLib [demoObj 11, demoObj 29, demoObj 3] noEmbed c64Envs false = .ok (c', os', none) ∧
    insertLoop demoLib noEmbed (demoState demoCfg c16Ops) [(demoObj 11, c64Envs 0), (demoObj 29, c64Envs 1), (demoObj 3, c64Envs 2)] =
      .ok (c', os', none) ∧ os'.map Object.id = [7, 8, 9] ∧ c'.index.nodes.length = 9 ∧ c'.index.maxLayer = 2 := by
  have h : (match (demoState demoCfg c16Ops).insertBatch demoLib [demoObj 11, demoObj 29, demoObj 3] noEmbed c64Envs false with
      | .ok (c', os', none) => decide (os'.map Object.id = [7, 8, 9] ∧ c'.index.nodes.length = 9 ∧ c'.index.maxLayer = 2)
      | _ => false) = true := by decide +kernel
  split at h
  · rename_i c' os' hb
    exact ⟨c', os', hb, (C64_batch_is_loop demoLib 1 _ (demo_reach c16Ops).any [demoObj 11, demoObj 29, demoObj 3] (by simp) noEmbed
      (fun _ => none) (fun h => absurd h (by decide +kernel)) c64Envs c' os').mp hb, by simpa using h⟩
  · cases h

end Vectory
