import Verif.Lemmas.Ids
import Verif.Lemmas.Order
/-! What batches store, when the log is flushed, and searches on a collection. -/
namespace Vectory
variable {V D : Type} {S : Prop} {X : UInt64 → Prop}

/-! ### `Get` -/

theorem get_single (L : Lib V D) (c : Coll) (hc : c.closed = false) (id : UInt64) :
    c.get L [id] = (match getObject L.json c.stores id with
      | .error a => .error a
      | .ok none => .ok []
      | .ok (some o) => .ok [o]) := by
  unfold Coll.get
  rw [hc]
  simp only [Bool.false_eq_true, if_false, getObjects]
  split <;> rename_i h <;> rw [h]
  rename_i r
  cases r <;> rfl

theorem get_single_some {L : Lib V D} {c : Coll} (hc : c.closed = false) {id : UInt64} {o : Object V} :
    c.get L [id] = .ok [o] ↔ getObject L.json c.stores id = .ok (some o) := by
  rw [get_single L c hc]
  cases h : getObject L.json c.stores id with
  | error a => simp
  | ok r => cases r <;> simp

theorem get_single_none {L : Lib V D} {c : Coll} (hc : c.closed = false) {id : UInt64} :
    c.get L [id] = .ok [] ↔ getObject L.json c.stores id = .ok none := by
  rw [get_single L c hc]
  cases h : getObject L.json c.stores id with
  | error a => simp
  | ok r => cases r <;> simp

theorem getObject_used {L : Lib V D} {dim : Nat} {c : Coll} (i : WInv S L dim X c) {id : UInt64} {o : Object V}
    (h : getObject L.json c.stores id = .ok (some o)) : id.toNat < fileCount c := by
  obtain ⟨r, hr, hs, _⟩ := getObject_eq i id
  rw [h] at hr; cases hr
  exact i.used_lt id (Or.inl (hs.mp rfl).1)

/-! ### what a batch stores -/

/-- `o` is stored the way an insert stores it. -/
def Stored (L : Lib V D) (c : Coll) (o : Object V) : Prop :=
  ∃ b p, L.json.marshal o.props = some b ∧ L.json.unmarshal b = some p ∧
    getObject L.json c.stores o.id = .ok (some { id := o.id, props := p, vec := some (o.vec.getD []) })

theorem Stored.evo {L : Lib V D} {dim : Nat} {c c' : Coll} {T : UInt64 → Prop} {o : Object V} (i : WInv S L dim X c)
    (h : Stored L c o) (e : Evo L c c' T) (ht : ¬ T o.id) : Stored L c' o := by
  obtain ⟨b, p, h1, h2, h3⟩ := h
  exact ⟨b, p, h1, h2, by rw [e.keep _ (getObject_used i h3) ht]; exact h3⟩

theorem InsEff.stored {L : Lib V D} {c c' : Coll} {o o' : Object V} (h : InsEff L c c' o o' none) : Stored L c' o' := by
  obtain ⟨hid, ⟨b, p, h1, h2, h3⟩, _⟩ := h.ok rfl
  refine ⟨b, p, by rw [h.props]; exact h1, h2, ?_⟩
  rw [hid, h3, h.vec]

theorem insertAll_done {L : Lib V D} {dim : Nat} : ∀ (os : List (Object V × InsEnv)) (c c' : Coll) (os' : List (Object V)),
    WInv S L dim X c → (∀ p ∈ os, (p.1.vec.getD []).length = dim) → (∀ p ∈ os, p.2.level < 4294967296) →
    c.counter.count.toNat + os.length < 18446744073709551616 → c.insertAll L os = .ok (c', os', none) →
    (∀ o ∈ os', Stored L c' o) ∧ c'.stores.size = c.stores.size + os.length ∧
    os'.map (fun o => (o.props, o.vec)) = os.map (fun p => (p.1.props, p.1.vec)) ∧
    os'.map (fun o => o.id.toNat) = List.range' c.counter.count.toNat os.length := by
  intro os
  induction os with
  | nil => intro c c' os' i _ _ _ h; cases h; simp
  | cons p os ih =>
    intro c c' os' i hd hl hb h
    obtain ⟨o, env⟩ := p
    simp only [List.length_cons] at hb ⊢
    unfold Coll.insertAll at h
    obtain ⟨⟨c1, o1, e1⟩, h1, h2⟩ := (bind_ok_iff _ _ _).mp h
    obtain ⟨c1', o1', e1', h1', i1, f1⟩ := insertOne_spec i (o := o) (env := env) (hd (o, env) (by simp)) (hl (o, env) (by simp)) (by omega)
    rw [h1] at h1'; cases h1'
    have hcnt := u64_succ (n := c.counter.count) (by omega)
    cases e1 with
    | some x => cases h2
    | none =>
      dsimp only at h2
      obtain ⟨⟨c2, os2, e2⟩, h3, h4⟩ := (bind_ok_iff _ _ _).mp h2
      dsimp only at h4
      injection h4 with h4
      injection h4 with ha hb2
      injection hb2 with hb2 hb3
      subst ha; subst hb2; subst hb3
      have hc1 : c1.counter.count.toNat = c.counter.count.toNat + 1 := by rw [f1.count, hcnt]
      obtain ⟨r1, r2, r3, r4⟩ := ih c1 c2 os2 i1 (fun p hp => hd p (List.mem_cons_of_mem _ hp))
        (fun p hp => hl p (List.mem_cons_of_mem _ hp)) (by omega) h3
      obtain ⟨c3, os3, e3, h5, i3, ev3, _⟩ := insertAll_spec (fun _ => False) os c1 i1 (fun p hp => hd p (List.mem_cons_of_mem _ hp))
        (fun p hp => hl p (List.mem_cons_of_mem _ hp)) (by omega)
      rw [h3] at h5; cases h5
      obtain ⟨hid, _, hsz, _⟩ := f1.ok rfl
      refine ⟨?_, by omega, ?_, ?_⟩
      · intro x hx
        rcases List.mem_cons.mp hx with rfl | hx
        · exact (f1.stored).evo i1 ev3 (by simp)
        · exact r1 x hx
      · simp only [List.map_cons, r3, f1.props, f1.vec]
      · simp only [List.map_cons, r4, hc1, hid, List.range'_succ]

/-! ### what was accepted -/

theorem assignVectors_keep : ∀ (os : List (Object V)) (resp : List (Option Vec)) (os' : List (Object V)),
    assignVectors os resp = .ok os' → ∀ (n : Nat) (o o' : Object V), os[n]? = some o → os'[n]? = some o' →
      o'.props = o.props ∧ o'.id = o.id ∧ (∀ v, o.vec = some v → o'.vec = some v) := by
  intro os
  induction os with
  | nil => intro resp os' _ n o o' h; simp at h
  | cons a os ih =>
    intro resp os' h n o o' hn hn'
    unfold assignVectors at h
    cases hv : a.vec with
    | some v =>
      rw [hv] at h
      dsimp only at h
      obtain ⟨t, ht, h2⟩ := (bind_ok_iff _ _ _).mp h
      cases h2
      cases n with
      | zero => simp at hn hn'; subst hn; subst hn'; exact ⟨rfl, rfl, fun v h => h⟩
      | succ n => exact ih _ _ ht n o o' (by simpa using hn) (by simpa using hn')
    | none =>
      rw [hv] at h
      cases resp with
      | nil => cases h
      | cons r resp =>
        dsimp only at h
        obtain ⟨t, ht, h2⟩ := (bind_ok_iff _ _ _).mp h
        cases h2
        cases n with
        | zero =>
          simp at hn hn'; subst hn; subst hn'
          exact ⟨rfl, rfl, fun v h => by rw [hv] at h; cases h⟩
        | succ n => exact ih _ _ ht n o o' (by simpa using hn) (by simpa using hn')

theorem embed_keep {c : Coll} {embed : Embed V} {os os' : List (Object V)}
    (h : embedObjectsIfNeeded c embed os = .ok (.ok os')) (n : Nat) (o o' : Object V) (hn : os[n]? = some o)
    (hn' : os'[n]? = some o') : o'.props = o.props ∧ o'.id = o.id ∧ (∀ v, o.vec = some v → o'.vec = some v) := by
  unfold embedObjectsIfNeeded at h
  split at h
  · split at h
    · cases h
    · cases h
      rw [hn] at hn'; cases hn'
      exact ⟨rfl, rfl, fun v h => h⟩
  · split at h
    · cases h
    · obtain ⟨t, ht, h2⟩ := (bind_ok_iff _ _ _).mp h
      cases h2
      exact assignVectors_keep _ _ _ ht n o o' hn hn'

theorem insert_closed {L : Lib V D} {dim : Nat} {c : Coll} (i : WInv S L dim X c) {o : Object V} {embed : Embed V} {env : InsEnv}
    {ff : Bool} (hl : Legal dim c (Op.insert o embed env ff)) {c' : Coll} {o' : Object V} {e : Option Err}
    (h : c.insert L o embed env ff = .ok (c', o', e)) : c'.closed = c.closed := by
  obtain ⟨⟨r, hr, hd⟩, hlev, hcnt⟩ := hl
  have key : ∀ (o1 o2 : Object V) (c1 : Coll) (e : Option Err), embedObjectsIfNeeded c embed [o] = .ok (.ok [o1]) →
      c.insertOne L o1 env = .ok (c1, o2, e) → c1.closed = c.closed := by
    intro o1 o2 c1 e hem hin
    rw [hr] at hem; cases hem
    obtain ⟨c2, o3, e2, h2, i2, f2⟩ := insertOne_spec i (env := env) (hd [o1] rfl o1 (by simp)) hlev hcnt
    rw [hin] at h2; cases h2
    exact f2.closed
  cases insert_res h with
  | closed => rfl
  | invalid => rfl
  | embed => rfl
  | storage o1 _ _ _ _ _ hem hin => exact key _ _ _ _ hem hin
  | done o1 _ c1 _ _ hem hin => have := key o1 _ c1 _ hem hin; exact this

theorem batch_closed {L : Lib V D} {dim : Nat} {c : Coll} (i : WInv S L dim X c) {os : List (Object V)} {embed : Embed V}
    {envs : Nat → InsEnv} {ff : Bool} (hl : Legal dim c (Op.insertBatch os embed envs ff)) {c' : Coll}
    {os' : List (Object V)} {e : Option Err} (h : c.insertBatch L os embed envs ff = .ok (c', os', e)) :
    c'.closed = c.closed := by
  obtain ⟨⟨r, hr, hd⟩, hlev, hcnt⟩ := hl
  have key : ∀ (os1 os2 : List (Object V)) (c1 : Coll) (e : Option Err), embedObjectsIfNeeded c embed os = .ok (.ok os1) →
      c.insertAll L (os1.zipIdx.map (fun p => (p.1, envs p.2))) = .ok (c1, os2, e) → c1.closed = c.closed := by
    intro os1 os2 c1 e hem hin
    have hlen := embed_length hem
    rw [hr] at hem; cases hem
    obtain ⟨hz1, hz2⟩ := zipIdx_dim (envs := envs) (hd os1 rfl) hlev
    obtain ⟨c2, os3, e2, he2, i2, ev2, _, _, hcl⟩ := insertAll_spec (fun _ => False) _ c i hz1 hz2 (by simp; omega)
    rw [hin] at he2; cases he2
    exact hcl
  cases batch_res h with
  | closed => rfl
  | invalid => rfl
  | embed => rfl
  | storage _ _ _ _ _ _ hem hin => exact key _ _ _ _ hem hin
  | done os1 _ c1 _ _ hem hin => have := key os1 _ c1 _ hem hin; exact this

/-- what an internal insert can fail with. -/
theorem insertOne_err {L : Lib V D} {c c' : Coll} {o o' : Object V} {env : InsEnv} {e : Err}
    (h : c.insertOne L o env = .ok (c', o', some e)) : e = .io ∨ e = .json := by
  unfold Coll.insertOne at h
  rcases fetchAndInc_eq c.counter env.counterFails with ⟨x, hx, _⟩ | hx
  · rw [hx] at h
    cases h
    unfold fetchAndInc at hx
    dsimp only at hx
    split at hx
    · cases hx; exact Or.inl rfl
    · have := congrArg Prod.snd hx; cases this
  · obtain ⟨hx, _⟩ := hx
    rw [hx] at h
    dsimp only at h
    unfold putObject serializeProperties at h
    dsimp only at h
    cases hm : L.json.marshal o.props with
    | none => rw [hm] at h; cases h; exact Or.inr rfl
    | some b =>
      rw [hm] at h
      dsimp only at h
      split at h
      · rename_i heq
        cases h
        split at heq
        · cases heq; exact Or.inl rfl
        · split at heq
          · cases heq; exact Or.inl rfl
          · cases heq
      · obtain ⟨r, _, h2⟩ := (bind_ok_iff _ _ _).mp h
        cases h2

theorem insertAll_err {L : Lib V D} : ∀ {os : List (Object V × InsEnv)} {c c' : Coll} {os' : List (Object V)} {e : Err},
    c.insertAll L os = .ok (c', os', some e) → e = .io ∨ e = .json := by
  intro os
  induction os with
  | nil => intro c c' os' e h; cases h
  | cons p os ih =>
    obtain ⟨o, env⟩ := p
    intro c c' os' e h
    unfold Coll.insertAll at h
    obtain ⟨⟨c1, o1, e1⟩, h1, h2⟩ := (bind_ok_iff _ _ _).mp h
    cases e1 with
    | some x => cases h2; exact insertOne_err h1
    | none =>
      obtain ⟨⟨c2, o2, e2⟩, h3, h4⟩ := (bind_ok_iff _ _ _).mp h2
      cases h4
      exact ih h3

/-! ### flushed logs -/

theorem insert_flushed {L : Lib V D} {dim : Nat} {c : Coll} (i : WInv S L dim X c) {o : Object V} {embed : Embed V} {env : InsEnv}
    {ff : Bool} (hl : Legal dim c (Op.insert o embed env ff)) {c' : Coll} {o' : Object V}
    (h : c.insert L o embed env ff = .ok (c', o', none)) : c'.index.wal.batch = [] := by
  obtain ⟨⟨r, hr, hd⟩, hlev, hcnt⟩ := hl
  generalize he : (none : Option Err) = e at h
  cases insert_res h with
  | closed => cases he
  | invalid => cases he
  | embed => cases he
  | storage => cases he
  | done o1 _ c1 _ _ hem hin =>
    rw [hr] at hem; cases hem
    obtain ⟨c2, o3, e2, h2, i2, f2⟩ := insertOne_spec i (env := env) (hd [o1] rfl o1 (by simp)) hlev hcnt
    rw [hin] at h2; cases h2
    have := flush_err i2 ff
    cases ff with
    | true => rw [this] at he; cases he
    | false => exact flush_batch i2

theorem batch_flushed {L : Lib V D} {dim : Nat} {c : Coll} (i : WInv S L dim X c) {os : List (Object V)} {embed : Embed V}
    {envs : Nat → InsEnv} {ff : Bool} (hl : Legal dim c (Op.insertBatch os embed envs ff)) {c' : Coll}
    {os' : List (Object V)} (h : c.insertBatch L os embed envs ff = .ok (c', os', none)) : c'.index.wal.batch = [] := by
  obtain ⟨⟨r, hr, hd⟩, hlev, hcnt⟩ := hl
  generalize he : (none : Option Err) = e at h
  cases batch_res h with
  | closed => cases he
  | invalid => cases he
  | embed => cases he
  | storage => cases he
  | done os1 _ c1 _ _ hem hin =>
    have hlen := embed_length hem
    rw [hr] at hem; cases hem
    obtain ⟨hz1, hz2⟩ := zipIdx_dim (envs := envs) (hd os1 rfl) hlev
    obtain ⟨c2, os3, e2, he2, i2, ev2, _⟩ := insertAll_spec (fun _ => False) _ c i hz1 hz2 (by simp; omega)
    rw [hin] at he2; cases he2
    have := flush_err i2 ff
    cases ff with
    | true => rw [this] at he; cases he
    | false => exact flush_batch i2

theorem delete_flushed {L : Lib V D} {dim : Nat} {c : Coll} (i : WInv S L dim X c) {id : UInt64} {df ff : Bool} {c' : Coll}
    (h : c.delete L id df ff = .ok (c', none)) (hb : c.index.wal.batch = []) : c'.index.wal.batch = [] := by
  obtain ⟨c2, e, h2, hr⟩ := delete_res i id df ff
  rw [h] at h2
  injection h2 with h2
  injection h2 with h3 h4
  subst h3
  subst h4
  generalize he : (none : Option Err) = e at hr
  cases hr with
  | closed => cases he
  | absent => exact hb
  | failed => cases he
  | done o hc hg _ =>
    obtain ⟨r, hr, hs, _⟩ := getObject_eq i id
    rw [hg] at hr; cases hr
    have i1 := erased_inv i (hs.mp rfl).1
    have := flush_err i1 ff
    cases ff with
    | true => rw [this] at he; cases he
    | false => exact flush_batch i1

/-! ### search on a collection -/

theorem getObjects_all {L : Lib V D} {dim : Nat} {c : Coll} (i : WInv S L dim (fun _ => False) c) : ∀ (ids : List UInt64),
    (∀ id ∈ ids, id ∈ c.index.nodes.keys ∧ id ∉ c.index.deleted) →
    ∃ os, getObjects L.json c.stores ids = .ok os ∧ os.map Object.id = ids ∧
      ∀ o ∈ os, getObject L.json c.stores o.id = .ok (some o) ∧ vecOf c.index.nodes o.id = o.vec ∧ o.vec.isSome := by
  intro ids
  induction ids with
  | nil => intro _; exact ⟨[], rfl, rfl, by simp⟩
  | cons id ids ih =>
    intro h
    obtain ⟨os, h1, h2, h3⟩ := ih (fun x hx => h x (List.mem_cons_of_mem _ hx))
    obtain ⟨r, hr, hs, ho⟩ := getObject_eq i id
    obtain ⟨hk, hd⟩ := h id (by simp)
    have hv := (vkey_iff i id).mpr hk
    have hob : keyOf id ∈ c.stores.objects.keys := by
      apply Classical.byContradiction
      intro hn
      exact hd (i.live id hv hn (fun h => h))
    obtain ⟨o, rfl⟩ := Option.isSome_iff_exists.mp (hs.mpr ⟨hob, hv⟩)
    obtain ⟨ho1, ho2, ho3⟩ := ho o rfl
    refine ⟨o :: os, ?_, ?_, ?_⟩
    · unfold getObjects; rw [hr, h1]
    · simp [ho1, h2]
    · intro x hx
      rcases List.mem_cons.mp hx with rfl | hx
      · rw [ho1]; exact ⟨hr, ho2, ho3⟩
      · exact h3 x hx

theorem pairHits_all : ∀ (es : List (Elem D)) (os : List (Object V)), os.map Object.id = es.map Elem.id →
    ∃ hs, pairHits es os = .ok hs ∧ hs.map Hit.id = es.map Elem.id ∧ hs.map Hit.dist = es.map Elem.dist ∧
      ∀ h ∈ hs, ∃ e ∈ es, ∃ o ∈ os, h.id = e.id ∧ h.id = o.id ∧ h.props = o.props ∧ h.dist = e.dist := by
  intro es
  induction es with
  | nil => intro os _; exact ⟨[], rfl, rfl, rfl, by simp⟩
  | cons e es ih =>
    intro os h
    cases os with
    | nil => simp at h
    | cons o os =>
      simp only [List.map_cons, List.cons.injEq] at h
      obtain ⟨hs, h1, h2, h3, h4⟩ := ih os h.2
      refine ⟨⟨o.id, o.props, e.dist⟩ :: hs, ?_, ?_, ?_, ?_⟩
      · unfold pairHits; rw [h1]; rfl
      · simp [h.1, h2]
      · simp [h3]
      · intro x hx
        rcases List.mem_cons.mp hx with rfl | hx
        · exact ⟨e, by simp, o, by simp, h.1, rfl, rfl, rfl⟩
        · obtain ⟨e', he', o', ho', r⟩ := h4 x hx
          exact ⟨e', List.mem_cons_of_mem _ he', o', List.mem_cons_of_mem _ ho', r⟩

theorem coll_search {L : Lib V D} {dim : Nat} {c : Coll} (i : WInv S L dim (fun _ => False) c) (hc : c.closed = false)
    (hne : c.index.nodes ≠ []) {o o1 : Object V} {embed : Embed V} (he : embedObjectsIfNeeded c embed [o] = .ok (.ok [o1]))
    (hd : (o1.vec.getD []).length = dim) {k : Int} (hk : 0 ≤ k) :
    ∃ es r, c.index.search L.metric (o1.vec.getD []) k = .ok es ∧ c.semanticSearch L o embed k = .ok r ∧
      r.hits = es.length ∧ r.objects.map Hit.id = es.map Elem.id ∧ r.objects.map Hit.dist = es.map Elem.dist ∧
      ∀ h ∈ r.objects, ∃ x v, getObject L.json c.stores h.id = .ok (some x) ∧ x.id = h.id ∧ h.props = x.props ∧ x.vec = some v ∧
        L.metric.dist v (o1.vec.getD []) = .ok h.dist ∧ h.id ∉ c.index.deleted := by
  obtain ⟨es, h1, _, _, _, h5⟩ := search_spec i.dimM i.idx i.cfg i.vecs hne hd hk
  obtain ⟨os, h6, h7, h8⟩ := getObjects_all i (es.map Elem.id) (by
    intro id hid
    obtain ⟨e, hee, rfl⟩ := List.mem_map.mp hid
    obtain ⟨hdl, v, hv, _⟩ := h5 e hee
    exact ⟨by rw [← AMap.get?_isSome_iff, hv]; rfl, hdl⟩)
  obtain ⟨hs, p1, p2, p3, p4⟩ := pairHits_all es os h7
  refine ⟨es, ⟨es.length, hs⟩, h1, ?_, rfl, p2, p3, ?_⟩
  · unfold Coll.semanticSearch
    rw [hc, he]
    simp only [Bool.false_eq_true, if_false, liftPanic, ok_bind]
    rw [h1]
    dsimp only
    rw [ok_bind, h6, ok_bind, p1]
    rfl
  · intro h hh
    obtain ⟨e, hee, x, hx, q1, q2, q3, q4⟩ := p4 h hh
    obtain ⟨g1, g2, g3⟩ := h8 x hx
    obtain ⟨hdl, v, hv, hdist⟩ := h5 e hee
    refine ⟨x, v.vec, by rw [q2]; exact g1, q2.symm, q3, ?_, by rw [q4]; exact hdist, by rw [q1]; exact hdl⟩
    rw [← g2, ← q2, q1]
    unfold vecOf; rw [hv]; rfl

end Vectory

namespace Vectory
variable {V D : Type} {S : Prop}

/-! ### hits as a function of the index answer -/

/-- the properties stored under an id. -/
def storedProps (L : Lib V D) (c : Coll) (id : UInt64) : AMap String V :=
  match getObject L.json c.stores id with
  | .ok (some o) => o.props
  | _ => []

theorem hits_eq {L : Lib V D} {c : Coll} : ∀ (es : List (Elem D)) (hs : List (Hit V D)),
    hs.map Hit.id = es.map Elem.id → hs.map Hit.dist = es.map Elem.dist →
    (∀ h ∈ hs, ∃ x, getObject L.json c.stores h.id = .ok (some x) ∧ h.props = x.props) →
    hs = es.map (fun e => { id := e.id, props := storedProps L c e.id, dist := e.dist }) := by
  intro es
  induction es with
  | nil => intro hs h _ _; simpa using h
  | cons e es ih =>
    intro hs h1 h2 h3
    cases hs with
    | nil => simp at h1
    | cons h hs =>
      simp only [List.map_cons, List.cons.injEq] at h1 h2
      obtain ⟨x, hx, hp⟩ := h3 h (by simp)
      rw [List.map_cons, ← ih hs h1.2 h2.2 (fun h hh => h3 h (List.mem_cons_of_mem _ hh))]
      congr 1
      have : storedProps L c e.id = h.props := by
        unfold storedProps; rw [← h1.1, hx, hp]
      rw [this, ← h1.1, ← h2.1]

theorem semanticSearch_stored {L : Lib V D} {c : Coll} {o : Object V} {embed : Embed V} {k : Int} {r : SearchResult V D}
    (h : c.semanticSearch L o embed k = .ok r) : ∀ hit ∈ r.objects, ∃ x, getObject L.json c.stores hit.id = .ok (some x) := by
  have hg : ∀ (ids : List UInt64) (os : List (Object V)), getObjects L.json c.stores ids = .ok os →
      ∀ x ∈ os, getObject L.json c.stores x.id = .ok (some x) := by
    intro ids
    induction ids with
    | nil => intro os h x hx; cases h; simp at hx
    | cons id ids ih =>
      intro os h x hx
      unfold getObjects at h
      cases hr : getObject L.json c.stores id with
      | error a => rw [hr] at h; cases h
      | ok r =>
        rw [hr] at h
        dsimp only at h
        cases hq : getObjects L.json c.stores ids with
        | error a => rw [hq] at h; cases h
        | ok os2 =>
          rw [hq] at h
          cases r with
          | none => cases h; exact ih _ hq x hx
          | some o =>
            cases h
            rcases List.mem_cons.mp hx with rfl | hx
            · have : x.id = id := by
                unfold getObject at hr
                split at hr
                · cases hr
                · split at hr
                  · cases hr
                  · split at hr
                    · cases hr
                    · split at hr
                      · cases hr
                      · cases hr; rfl
              rw [this]; exact hr
            · exact ih _ hq x hx
  have hp : ∀ (es : List (Elem D)) (os : List (Object V)) (hs : List (Hit V D)), pairHits es os = .ok hs →
      ∀ x ∈ hs, ∃ o ∈ os, x.id = o.id := by
    intro es
    induction es with
    | nil => intro os hs h x hx; cases h; simp at hx
    | cons e es ih =>
      intro os hs h x hx
      cases os with
      | nil => cases h
      | cons o os =>
        unfold pairHits at h
        obtain ⟨hs2, h1, h2⟩ := (bind_ok_iff _ _ _).mp h
        cases h2
        rcases List.mem_cons.mp hx with rfl | hx
        · exact ⟨o, by simp, rfl⟩
        · obtain ⟨o', ho', e'⟩ := ih os hs2 h1 x hx
          exact ⟨o', List.mem_cons_of_mem _ ho', e'⟩
  unfold Coll.semanticSearch at h
  split at h
  · cases h
  · obtain ⟨r1, _, h2⟩ := (bind_ok_iff _ _ _).mp h
    split at h2
    · cases h2
    · cases h2
    · obtain ⟨es, _, h3⟩ := (bind_ok_iff _ _ _).mp h2
      obtain ⟨os, h4, h5⟩ := (bind_ok_iff _ _ _).mp h3
      obtain ⟨hs, h6, h7⟩ := (bind_ok_iff _ _ _).mp h5
      cases h7
      intro hit hh
      have h6' : pairHits es os = .ok hs := by
        cases hpp : pairHits es os with
        | error p => rw [hpp] at h6; cases h6
        | ok x => rw [hpp] at h6; cases h6; rfl
      obtain ⟨x, hx, hid⟩ := hp _ _ _ h6' hit hh
      exact ⟨x, by rw [hid]; exact hg _ _ h4 x hx⟩

/-! ### filtering deleted elements -/

theorem takeLive_k (M : Metric D) (del : List UInt64) : ∀ (fuel k k' : Nat) (heap : List (Elem D)),
    heap.length ≤ k → heap.length ≤ k' → takeLive M del fuel k heap = takeLive M del fuel k' heap := by
  intro fuel
  induction fuel with
  | zero => intros; simp [takeLive]
  | succ fuel ih =>
    intro k k' heap hk hk'
    cases hp : Heap.pop (minLess M.lt) heap with
    | none =>
      cases k <;> cases k' <;> simp [takeLive, hp]
    | some r =>
      obtain ⟨e, rest⟩ := r
      have hl := Heap.pop_length _ _ _ _ hp
      cases k with
      | zero => omega
      | succ k =>
        cases k' with
        | zero => omega
        | succ k' =>
          simp only [takeLive, hp]
          split
          · exact ih _ _ _ (by omega) (by omega)
          · rw [ih k k' rest (by omega) (by omega)]

theorem takeLive_filter (M : Metric D) (del : List UInt64) : ∀ (fuel k : Nat) (heap : List (Elem D)),
    heap.length ≤ k → takeLive M del fuel k heap = (takeLive M [] fuel k heap).filter (fun e => decide (e.id ∉ del)) := by
  intro fuel
  induction fuel with
  | zero => intros; simp [takeLive]
  | succ fuel ih =>
    intro k heap hk
    cases k with
    | zero => simp [takeLive]
    | succ k =>
      cases hp : Heap.pop (minLess M.lt) heap with
      | none => simp [takeLive, hp]
      | some r =>
        obtain ⟨e, rest⟩ := r
        have hl := Heap.pop_length _ _ _ _ hp
        simp only [takeLive, hp, List.not_mem_nil, if_false]
        by_cases h : e.id ∈ del
        · rw [if_pos h, takeLive_k M del fuel (k + 1) k rest (by omega) (by omega), ih k rest (by omega)]
          simp [h]
        · rw [if_neg h, ih k rest (by omega)]
          simp [h]

/-- the part of `Search` that does not depend on the deleted marks or the log. -/
def layerHits (M : Metric D) (nodes : AMap UInt64 Vertex) (cfg : Cfg) (entry : UInt64) (maxLayer : Nat) (q : Vec) :
    Except Panic (List (Elem D)) := do
  let epv ← nodeAt nodes entry
  let d ← M.dist epv.vec q
  let eps ← descend M nodes cfg.mMax0 q 0 maxLayer [{ id := entry, dist := d }]
  searchLayer M nodes cfg.mMax0 q eps cfg.ef 0

theorem search_layerHits {M : Metric D} {h : Hnsw} {q : Vec} {k : Int} (hk : 0 ≤ k) :
    h.search M q k = (do
      let nns ← layerHits M h.nodes h.cfg h.entry h.maxLayer q
      .ok (takeLive M h.deleted (newMinHeap M.lt nns).length k.toNat (newMinHeap M.lt nns))) := by
  unfold Hnsw.search layerHits
  rw [if_neg (by omega)]
  cases nodeAt h.nodes h.entry with
  | error p => rfl
  | ok epv =>
    simp only [ok_bind]
    cases M.dist epv.vec q with
    | error p => rfl
    | ok d =>
      simp only [ok_bind]
      cases descend M h.nodes h.cfg.mMax0 q 0 h.maxLayer [{ id := h.entry, dist := d }] with
      | error p => rfl
      | ok eps => rfl

/-- with `k ≥ ef` the answer of an index with fewer live elements is the filtered answer. -/
theorem search_filter {M : Metric D} {dim : Nat} (hM : DimOK M dim) {h h1 : Hnsw} (i : Inv S h) (hcfg : CfgOK h.cfg)
    (hv : VecOK dim h.nodes) (hne : h.nodes ≠ []) {q : Vec} (hq : q.length = dim) {k : Int} (hk : (h.cfg.ef : Int) ≤ k)
    (id : UInt64) (hn : h1.nodes = h.nodes) (hc : h1.cfg = h.cfg) (hent : h1.entry = h.entry) (hml : h1.maxLayer = h.maxLayer)
    (hdel : ∀ x, x ∈ h1.deleted ↔ x = id ∨ x ∈ h.deleted) :
    ∃ es, h.search M q k = .ok es ∧ h1.search M q k = .ok (es.filter (fun e => decide (e.id ≠ id))) := by
  have hk0 : 0 ≤ k := by omega
  obtain ⟨eps, nns, _, _, _, _, hl, hs⟩ := search_reduce hM i hcfg hv hne hq hk0
  have hlh : ∃ r, layerHits M h.nodes h.cfg h.entry h.maxLayer q = .ok r ∧ r.length ≤ h.cfg.ef := by
    obtain ⟨epv, he⟩ : ∃ epv, nodeAt h.nodes h.entry = .ok epv := by
      cases hx : nodeAt h.nodes h.entry with
      | ok e => exact ⟨e, rfl⟩
      | error p => rw [search_layerHits hk0] at hs; unfold layerHits at hs; rw [hx] at hs; cases hs
    have hent2 : HasLevel h.nodes h.entry h.maxLayer := by
      rcases i.m.good.entry with h1 | h1
      · exact absurd h1 hne
      · exact h1
    obtain ⟨d, hdd⟩ := hM epv.vec q (hv _ _ (nodeAt_eq_ok.mp he)) hq
    have heps0 : EpsOK M h.nodes q (fun x => HasLevel h.nodes x h.maxLayer) [{ id := h.entry, dist := d }] := by
      refine ⟨by simp, by simp, ?_, ?_⟩
      · intro e he; simp at he; subst he; exact hent2
      · intro e hee; simp at hee; subst hee; exact ⟨epv, nodeAt_eq_ok.mp he, hdd⟩
    obtain ⟨eps, hr, ho, hl1⟩ := descend_spec M h.nodes h.cfg.mMax0 q (fun l x => HasLevel h.nodes x l) 0
      (fun l x hx => hx.mono (by omega)) h.maxLayer [{ id := h.entry, dist := d }]
      (fun l _ _ => closed_all hcfg i.m.good.graph l)
      (fun l _ _ => distOK_of hM hv hq _)
      (by simpa using heps0) rfl
    have hef := hcfg.ef
    obtain ⟨nns, hn1, _, hn3⟩ := searchLayer_spec M h.nodes h.cfg.mMax0 q eps h.cfg.ef 0 (fun x => HasLevel h.nodes x 0)
      hcfg.ef (closed_all hcfg i.m.good.graph 0) (distOK_of hM hv hq _) ho (by omega)
    refine ⟨nns, ?_, hn3⟩
    unfold layerHits
    rw [he, ok_bind, hdd, ok_bind, hr, ok_bind, hn1]
  obtain ⟨r, hr, hrl⟩ := hlh
  have hhl : (newMinHeap M.lt r).length ≤ k.toNat := by
    have : (newMinHeap M.lt r).length = r.length := (Heap.init_perm _ _).length_eq
    omega
  refine ⟨takeLive M h.deleted (newMinHeap M.lt r).length k.toNat (newMinHeap M.lt r), ?_, ?_⟩
  · rw [search_layerHits hk0, hr, ok_bind]
  · rw [search_layerHits hk0, hn, hc, hent, hml, hr, ok_bind, takeLive_filter M h1.deleted _ _ _ hhl,
      takeLive_filter M h.deleted _ _ _ hhl, List.filter_filter]
    congr 1
    apply List.filter_congr
    intro e _
    simp only [hdel, not_or, ne_eq, Bool.decide_and, decide_not]

/-! ### ids of a run of legal calls -/

theorem legal_bound {dim : Nat} {c : Coll} {op : Op V} (h : Legal dim c op) :
    c.counter.count.toNat + op.objects < 18446744073709551616 := by
  have := c.counter.count.toNat_lt
  cases op with
  | insert o embed env ff => exact h.2.2
  | insertBatch os embed envs ff => exact h.2.2
  | _ => simp only [Op.objects]; omega

theorem runs_ids {L : Lib V D} {dim : Nat} {c c' : Coll} {h : List (Op V × Out V D)} (r : Runs L dim c h c')
    (hle : fileCount c ≤ c.counter.count.toNat) :
    fileCount c ≤ fileCount c' ∧ fileCount c' ≤ c'.counter.count.toNat ∧
    ∀ x ∈ h.flatMap received, x.toNat < fileCount c' := by
  induction r with
  | nil => exact ⟨Nat.le_refl _, hle, by simp⟩
  | @cons c c1 c2 op out t hl ha _ ih =>
    have s := event_ids (ev := .call op out) (.call ha) trivial hle (legal_bound hl)
    obtain ⟨i1, i2, i3⟩ := ih s.le
    refine ⟨Nat.le_trans s.mono i1, i2, ?_⟩
    intro x hx
    rw [List.flatMap_cons, List.mem_append] at hx
    rcases hx with hx | hx
    · exact Nat.lt_of_lt_of_le (s.fresh x hx).2 i1
    · exact i3 x hx

end Vectory
