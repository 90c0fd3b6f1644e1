import Verif.Spec.Alias
import Verif.Lemmas.CollOps
import Verif.Lemmas.SearchMore
import Verif.Lemmas.Crash
import Verif.Lemmas.DbMore
/-! The caller's slices: the state of the program is that of a collection whose vectors store holds what is in memory. -/
namespace Vectory
variable {V D : Type} {S : Prop} {X : UInt64 → Prop}

/-! ### The index without its vectors -/

theorem strip_get {a b : AMap UInt64 Vertex} (h : a.mapVals Vertex.strip = b.mapVals Vertex.strip) (id : UInt64) :
    (a.get? id).map Vertex.strip = (b.get? id).map Vertex.strip := by
  rw [← AMap.get?_mapVals, ← AMap.get?_mapVals, h]

theorem strip_link {a b : AMap UInt64 Vertex} (h : a.mapVals Vertex.strip = b.mapVals Vertex.strip) (id : UInt64) (l : Nat) :
    link? a id l = link? b id l := by rw [← link?_strip, ← link?_strip b, h]

theorem strip_keys {a b : AMap UInt64 Vertex} (h : a.mapVals Vertex.strip = b.mapVals Vertex.strip) : a.keys = b.keys := by
  rw [← keys_strip, ← keys_strip b, h]

theorem strip_level {a b : AMap UInt64 Vertex} (h : a.mapVals Vertex.strip = b.mapVals Vertex.strip) (id : UInt64) (l : Nat) :
    HasLevel a id l ↔ HasLevel b id l := by rw [← hasLevel_strip, ← hasLevel_strip (nodes := b), h]

/-- the invariant of the index does not speak about the vectors. -/
theorem Inv.revec {h : Hnsw} {nodes : AMap UInt64 Vertex} (i : Inv S h) (e : nodes.mapVals Vertex.strip = h.nodes.mapVals Vertex.strip) :
    Inv S { h with nodes := nodes } := by
  have hnil : nodes = [] ↔ h.nodes = [] := by rw [← mapVals_nil_iff, e, mapVals_nil_iff]
  refine ⟨⟨⟨⟨?_, ?_, ?_⟩, ?_⟩, ⟨?_, i.m.log.pre⟩, i.m.wal⟩, ?_, fun ho hn => i.once ho (hnil.mp hn), i.top32⟩
  · show nodes.keys.Nodup
    rw [strip_keys e]; exact i.m.good.graph.keysNd
  · intro id v hv
    have h1 := strip_get e id
    rw [show AMap.get? nodes id = some v from hv] at h1
    cases hw : h.nodes.get? id with
    | none => rw [hw] at h1; cases h1
    | some w =>
      rw [hw] at h1
      simp only [Option.map_some, Option.some.injEq, Vertex.strip, Vertex.mk.injEq, and_true] at h1
      have := i.m.good.graph.idOK id w hw
      exact ⟨h1.1.trans this.1, by rw [h1.2]; exact this.2⟩
  · intro id l c hc
    rw [show link? nodes id l = link? h.nodes id l from strip_link e id l] at hc
    obtain ⟨a1, a2, a3⟩ := i.m.good.graph.linkOK id l c hc
    exact ⟨a1, a2, fun n hn => (strip_level e n l).mpr (a3 n hn)⟩
  · rcases i.m.good.entry with h1 | h1
    · exact Or.inl (hnil.mpr h1)
    · exact Or.inr ((strip_level e _ _).mpr h1)
  · obtain ⟨s, hs, hr⟩ := i.m.log.load
    refine ⟨s, hs, ?_⟩
    have : ({ h with nodes := nodes } : Hnsw).strip = h.strip := by simp only [Hnsw.strip, e]
    rw [this]; exact hr
  · intro hS id l hl
    exact i.top hS id l ((strip_level e id l).mp hl)

theorem strip_set {nodes : AMap UInt64 Vertex} {id : UInt64} {v : Vertex} (hv : nodes.get? id = some v) (vec : Vec) :
    (nodes.set id { v with vec := vec }).mapVals Vertex.strip = nodes.mapVals Vertex.strip := by
  rw [AMap.mapVals_set]
  apply AMap.set_self
  rw [AMap.get?_mapVals, hv]; rfl

/-! ### The twin -/

/-- the collection with another vectors store. -/
def Coll.withVecs (c : Coll) (vs : AMap Bytes Bytes) : Coll := { c with stores := { c.stores with vectors := vs } }

/-- `vs` are the vectors in memory, written as the store would; with it as store the collection satisfies the invariant. -/
structure HInv (L : Lib V D) (dim : Nat) (X : UInt64 → Prop) (c : Coll) (vs : AMap Bytes Bytes) : Prop where
  inv : WInv True L dim X (c.withVecs vs)
  keys : vs.keys = c.stores.vectors.keys
  dec : ∀ id b, c.stores.vectors.get? (keyOf id) = some b → ∃ v, deserializeVector b = .ok v ∧ v.length = dim

/-- what a call does to the store and to its twin. -/
structure Ext (a vs a' vs' : AMap Bytes Bytes) : Prop where
  keys : vs.keys = a.keys → vs'.keys = a'.keys
  get : ∀ k, (a'.get? k = a.get? k ∧ vs'.get? k = vs.get? k) ∨ a'.get? k = vs'.get? k

theorem Ext.refl (a vs : AMap Bytes Bytes) : Ext a vs a vs := ⟨fun h => h, fun _ => Or.inl ⟨rfl, rfl⟩⟩

theorem Ext.trans {a vs a1 vs1 a2 vs2 : AMap Bytes Bytes} (h1 : Ext a vs a1 vs1) (h2 : Ext a1 vs1 a2 vs2) : Ext a vs a2 vs2 := by
  refine ⟨fun h => h2.keys (h1.keys h), fun k => ?_⟩
  rcases h2.get k with ⟨e1, e2⟩ | e
  · rcases h1.get k with ⟨f1, f2⟩ | f
    · exact Or.inl ⟨e1.trans f1, e2.trans f2⟩
    · exact Or.inr (by rw [e1, e2, f])
  · exact Or.inr e

theorem Ext.set (a vs : AMap Bytes Bytes) (k b : Bytes) : Ext a vs (a.set k b) (vs.set k b) := by
  refine ⟨fun h => ?_, fun k' => ?_⟩
  · rw [AMap.keys_set, AMap.keys_set, h]
  · by_cases e : k = k'
    · right; rw [e, AMap.get?_set_self, AMap.get?_set_self]
    · left; rw [AMap.get?_set_ne _ _ _ _ e, AMap.get?_set_ne _ _ _ _ e]; exact ⟨rfl, rfl⟩

theorem insertOne_vs {L : Lib V D} {c t : Coll} {vs : AMap Bytes Bytes} {o o' : Object V} {env : InsEnv} {e : Option Err}
    (h : (c.withVecs vs).insertOne L o env = .ok (t, o', e)) :
    ∃ c' vs', c.insertOne L o env = .ok (c', o', e) ∧ t = c'.withVecs vs' ∧ Ext c.stores.vectors vs c'.stores.vectors vs' := by
  unfold Coll.insertOne at h ⊢
  have e1 : (c.withVecs vs).counter = c.counter := rfl
  have e2 : (c.withVecs vs).index = c.index := rfl
  rw [e1, e2] at h
  cases hf : fetchAndInc c.counter env.counterFails with
  | mk ctr r =>
    rw [hf] at h
    dsimp only at h ⊢
    cases r with
    | error x =>
      cases h
      exact ⟨_, vs, rfl, rfl, Ext.refl _ _⟩
    | ok id =>
      dsimp only at h ⊢
      unfold putObject at h ⊢
      cases hs : serializeProperties L.json { o with id := id } with
      | error x =>
        rw [hs] at h
        dsimp only at h ⊢
        cases h
        exact ⟨_, vs, rfl, rfl, Ext.refl _ _⟩
      | ok bytes =>
        rw [hs] at h
        dsimp only at h ⊢
        by_cases g1 : env.put = .objects
        · rw [if_pos g1] at h ⊢
          dsimp only at h ⊢
          cases h
          exact ⟨_, vs, rfl, rfl, Ext.refl _ _⟩
        · rw [if_neg g1] at h ⊢
          by_cases g2 : env.put = .vectors
          · rw [if_pos g2] at h ⊢
            dsimp only at h ⊢
            cases h
            exact ⟨_, vs, rfl, rfl, Ext.refl _ _⟩
          · rw [if_neg g2] at h ⊢
            dsimp only at h ⊢
            obtain ⟨idx, hi, h⟩ := (bind_ok_iff _ _ _).mp h
            rw [hi, ok_bind]
            cases h
            exact ⟨_, vs.set (keyOf id) (serializeVector (o.vec.getD [])), rfl, rfl, Ext.set _ _ _ _⟩

theorem insertAll_vs {L : Lib V D} : ∀ (os : List (Object V × InsEnv)) {c t : Coll} {vs : AMap Bytes Bytes} {os' : List (Object V)}
    {e : Option Err}, (c.withVecs vs).insertAll L os = .ok (t, os', e) →
    ∃ c' vs', c.insertAll L os = .ok (c', os', e) ∧ t = c'.withVecs vs' ∧ Ext c.stores.vectors vs c'.stores.vectors vs' := by
  intro os
  induction os with
  | nil => intro c t vs os' e h; cases h; exact ⟨c, vs, rfl, rfl, Ext.refl _ _⟩
  | cons p os ih =>
    intro c t vs os' e h
    obtain ⟨o, env⟩ := p
    unfold Coll.insertAll at h ⊢
    obtain ⟨⟨t1, o1, e1⟩, h1, h2⟩ := (bind_ok_iff _ _ _).mp h
    obtain ⟨c1, vs1, k1, rfl, k3⟩ := insertOne_vs h1
    rw [k1, ok_bind]
    dsimp only at h2 ⊢
    cases e1 with
    | some x => cases h2; exact ⟨c1, vs1, rfl, rfl, k3⟩
    | none =>
      dsimp only at h2 ⊢
      obtain ⟨⟨t2, os2, e2⟩, h3, h4⟩ := (bind_ok_iff _ _ _).mp h2
      obtain ⟨c2, vs2, m1, rfl, m3⟩ := ih h3
      rw [m1, ok_bind]
      cases h4
      exact ⟨c2, vs2, rfl, rfl, k3.trans m3⟩

theorem insert_vs {L : Lib V D} {c t : Coll} {vs : AMap Bytes Bytes} {o o' : Object V} {embed : Embed V} {env : InsEnv} {ff : Bool}
    {e : Option Err} (h : (c.withVecs vs).insert L o embed env ff = .ok (t, o', e)) :
    ∃ c' vs', c.insert L o embed env ff = .ok (c', o', e) ∧ t = c'.withVecs vs' ∧ Ext c.stores.vectors vs c'.stores.vectors vs' := by
  unfold Coll.insert at h ⊢
  have e1 : (c.withVecs vs).closed = c.closed := rfl
  have e2 : (c.withVecs vs).mappings = c.mappings := rfl
  have e3 : embedObjectsIfNeeded (c.withVecs vs) embed [o] = embedObjectsIfNeeded c embed [o] := rfl
  rw [e1, e2, e3] at h
  by_cases hc : c.closed = true
  · rw [if_pos hc] at h ⊢
    cases h; exact ⟨c, vs, rfl, rfl, Ext.refl _ _⟩
  · rw [if_neg hc] at h ⊢
    cases hv : validateObjects c.mappings 0 [o] with
    | some x =>
      rw [hv] at h
      cases h; exact ⟨c, vs, rfl, rfl, Ext.refl _ _⟩
    | none =>
      rw [hv] at h
      dsimp only at h ⊢
      obtain ⟨r, hr, h⟩ := (bind_ok_iff _ _ _).mp h
      rw [hr, ok_bind]
      cases r with
      | error x => cases h; exact ⟨c, vs, rfl, rfl, Ext.refl _ _⟩
      | ok objs =>
        cases objs with
        | nil => cases h; exact ⟨c, vs, rfl, rfl, Ext.refl _ _⟩
        | cons o1 rest =>
          dsimp only at h ⊢
          obtain ⟨⟨t1, o1', e1⟩, h1, h2⟩ := (bind_ok_iff _ _ _).mp h
          obtain ⟨c1, vs1, k1, rfl, k3⟩ := insertOne_vs h1
          rw [k1, ok_bind]
          dsimp only at h2 ⊢
          cases e1 with
          | some x => cases h2; exact ⟨c1, vs1, rfl, rfl, k3⟩
          | none => cases h2; exact ⟨_, vs1, rfl, rfl, k3⟩

theorem insertBatch_vs {L : Lib V D} {c t : Coll} {vs : AMap Bytes Bytes} {os os' : List (Object V)} {embed : Embed V}
    {envs : Nat → InsEnv} {ff : Bool} {e : Option Err} (h : (c.withVecs vs).insertBatch L os embed envs ff = .ok (t, os', e)) :
    ∃ c' vs', c.insertBatch L os embed envs ff = .ok (c', os', e) ∧ t = c'.withVecs vs' ∧
      Ext c.stores.vectors vs c'.stores.vectors vs' := by
  unfold Coll.insertBatch at h ⊢
  have e1 : (c.withVecs vs).closed = c.closed := rfl
  have e2 : (c.withVecs vs).mappings = c.mappings := rfl
  have e3 : embedObjectsIfNeeded (c.withVecs vs) embed os = embedObjectsIfNeeded c embed os := rfl
  rw [e1, e2, e3] at h
  by_cases hc : c.closed = true
  · rw [if_pos hc] at h ⊢
    cases h; exact ⟨c, vs, rfl, rfl, Ext.refl _ _⟩
  · rw [if_neg hc] at h ⊢
    cases hv : validateObjects c.mappings 0 os with
    | some x =>
      rw [hv] at h
      cases h; exact ⟨c, vs, rfl, rfl, Ext.refl _ _⟩
    | none =>
      rw [hv] at h
      dsimp only at h ⊢
      obtain ⟨r, hr, h⟩ := (bind_ok_iff _ _ _).mp h
      rw [hr, ok_bind]
      cases r with
      | error x => cases h; exact ⟨c, vs, rfl, rfl, Ext.refl _ _⟩
      | ok objs =>
        dsimp only at h ⊢
        obtain ⟨⟨t1, o1', e1⟩, h1, h2⟩ := (bind_ok_iff _ _ _).mp h
        obtain ⟨c1, vs1, k1, rfl, k3⟩ := insertAll_vs _ h1
        rw [k1, ok_bind]
        dsimp only at h2 ⊢
        cases e1 with
        | some x => cases h2; exact ⟨c1, vs1, rfl, rfl, k3⟩
        | none => cases h2; exact ⟨_, vs1, rfl, rfl, k3⟩

/-- what the twin reads, the collection reads, with the vector of its store. -/
theorem HInv.getObject {L : Lib V D} {dim : Nat} {c : Coll} {vs : AMap Bytes Bytes} (h : HInv L dim X c vs) (id : UInt64) :
    (Vectory.getObject L.json (c.withVecs vs).stores id = .ok none ∧ Vectory.getObject L.json c.stores id = .ok none) ∨
    ∃ props v w, Vectory.getObject L.json (c.withVecs vs).stores id = .ok (some ⟨id, props, some v⟩) ∧
      Vectory.getObject L.json c.stores id = .ok (some ⟨id, props, some w⟩) ∧ vecOf c.index.nodes id = some v ∧ v.length = dim ∧
      getVector c.stores id = .ok (some w) ∧ w.length = dim ∧ (vs.get? (keyOf id) = c.stores.vectors.get? (keyOf id) → v = w) := by
  have hst := h.inv.vstore id
  have hst : getVector { c.stores with vectors := vs } id = .ok (vecOf c.index.nodes id) := hst
  have hdec := h.inv.dec id
  have hdec : ∀ b, c.stores.objects.get? (keyOf id) = some b → ∃ p, deserializeProperties L.json b = .ok p := hdec
  unfold Vectory.getObject
  unfold getVector at hst
  have e1 : (c.withVecs vs).stores.objects = c.stores.objects := rfl
  have e2 : (c.withVecs vs).stores.vectors = vs := rfl
  rw [e1, e2]
  dsimp only at hst
  cases ho : c.stores.objects.get? (keyOf id) with
  | none => exact Or.inl ⟨rfl, rfl⟩
  | some b =>
    obtain ⟨p, hp⟩ := hdec b ho
    dsimp only
    cases hv : vs.get? (keyOf id) with
    | none =>
      have : c.stores.vectors.get? (keyOf id) = none := by
        rw [AMap.get?_none_iff, ← h.keys, ← AMap.get?_none_iff]; exact hv
      rw [this]; exact Or.inl ⟨rfl, rfl⟩
    | some bv =>
      have : (c.stores.vectors.get? (keyOf id)).isSome := by
        rw [AMap.get?_isSome_iff, ← h.keys, ← AMap.get?_isSome_iff, hv]; rfl
      obtain ⟨bw, hw⟩ := Option.isSome_iff_exists.mp this
      obtain ⟨w, hw2, hw3⟩ := h.dec id bw hw
      rw [hv] at hst
      dsimp only at hst
      cases hd : deserializeVector bv with
      | error x => rw [hd] at hst; cases hst
      | ok v =>
        rw [hd] at hst
        have hst : some v = vecOf c.index.nodes id := by simpa using hst
        have hlen : v.length = dim := by
          unfold vecOf at hst
          cases hn : c.index.nodes.get? id with
          | none => rw [hn] at hst; cases hst
          | some u =>
            rw [hn] at hst
            have := h.inv.vecs id u hn
            cases hst; exact this
        refine Or.inr ⟨p, v, w, ?_, ?_, hst.symm, hlen, ?_, hw3, ?_⟩
        · dsimp only; rw [hp, hd]
        · rw [hw]; dsimp only; rw [hp, hw2]
        · unfold getVector; rw [hw]; dsimp only; rw [hw2]
        · intro e; rw [hw] at e; cases e; rw [hw2] at hd; cases hd; rfl

theorem delete_vs {L : Lib V D} {dim : Nat} {c t : Coll} {vs : AMap Bytes Bytes} (i : HInv L dim X c vs) {id : UInt64} {df ff : Bool}
    {e : Option Err} (h : (c.withVecs vs).delete L id df ff = .ok (t, e)) :
    ∃ c', c.delete L id df ff = .ok (c', e) ∧ t = c'.withVecs vs ∧ c'.stores.vectors = c.stores.vectors := by
  unfold Coll.delete at h ⊢
  have e1 : (c.withVecs vs).closed = c.closed := rfl
  have e2 : (c.withVecs vs).stores.objects = c.stores.objects := rfl
  rw [e1, e2] at h
  by_cases hc : (c.closed && c.stores.objects.has (keyOf id)) = true
  · rw [if_pos hc] at h ⊢
    cases h; exact ⟨c, rfl, rfl, rfl⟩
  · rw [if_neg hc] at h ⊢
    rcases i.getObject id with ⟨g1, g2⟩ | ⟨p, v, w, g1, g2, _⟩
    · rw [g1] at h; rw [g2]
      cases h; exact ⟨c, rfl, rfl, rfl⟩
    · rw [g1] at h; rw [g2]
      dsimp only at h ⊢
      cases df with
      | true => cases h; exact ⟨c, rfl, rfl, rfl⟩
      | false => cases h; exact ⟨_, rfl, rfl, rfl⟩

/-- the properties and ids of objects read for a search. -/
def sansVec (o : Object V) : UInt64 × AMap String V := (o.id, o.props)

theorem getObjects_vs {L : Lib V D} {dim : Nat} {c : Coll} {vs : AMap Bytes Bytes} (i : HInv L dim X c vs) : ∀ (ids : List UInt64),
    ∃ os os', getObjects L.json (c.withVecs vs).stores ids = .ok os ∧ getObjects L.json c.stores ids = .ok os' ∧
      os.map sansVec = os'.map sansVec := by
  intro ids
  induction ids with
  | nil => exact ⟨[], [], rfl, rfl, rfl⟩
  | cons id ids ih =>
    obtain ⟨os, os', h1, h2, h3⟩ := ih
    unfold getObjects
    rw [h1, h2]
    rcases i.getObject id with ⟨g1, g2⟩ | ⟨p, v, w, g1, g2, _⟩
    · rw [g1, g2]; exact ⟨os, os', rfl, rfl, h3⟩
    · rw [g1, g2]; exact ⟨_, _, rfl, rfl, by simp [sansVec, h3]⟩

theorem pairHits_vs : ∀ (es : List (Elem D)) (os os' : List (Object V)), os.map sansVec = os'.map sansVec →
    pairHits es os = pairHits es os' := by
  intro es
  induction es with
  | nil => intro os os' _; rfl
  | cons e es ih =>
    intro os os' h
    cases os with
    | nil =>
      cases os' with
      | nil => rfl
      | cons o' os' => cases h
    | cons o os =>
      cases os' with
      | nil => cases h
      | cons o' os' =>
        simp only [List.map_cons, List.cons.injEq, sansVec, Prod.mk.injEq] at h
        unfold pairHits
        rw [ih os os' h.2, h.1.1, h.1.2]

/-- a search does not look at the vectors store. -/
theorem search_vs {L : Lib V D} {dim : Nat} {c : Coll} {vs : AMap Bytes Bytes} (i : HInv L dim X c vs) (o : Object V) (embed : Embed V)
    (k : Int) : c.semanticSearch L o embed k = (c.withVecs vs).semanticSearch L o embed k := by
  unfold Coll.semanticSearch
  have e1 : (c.withVecs vs).closed = c.closed := rfl
  have e2 : (c.withVecs vs).index = c.index := rfl
  have e3 : embedObjectsIfNeeded (c.withVecs vs) embed [o] = embedObjectsIfNeeded c embed [o] := rfl
  rw [e1, e2, e3]
  split
  · rfl
  · cases liftPanic (embedObjectsIfNeeded c embed [o]) with
    | error a => rfl
    | ok r =>
      rw [ok_bind, ok_bind]
      cases r with
      | error x => rfl
      | ok os =>
        cases os with
        | nil => rfl
        | cons o1 os =>
          dsimp only
          cases liftPanic (c.index.search L.metric (o1.vec.getD []) k) with
          | error a => rfl
          | ok es =>
            rw [ok_bind, ok_bind]
            obtain ⟨os, os', h1, h2, h3⟩ := getObjects_vs i (es.map Elem.id)
            rw [h1, h2, ok_bind, ok_bind, pairHits_vs es os os' h3]

theorem get_vs {L : Lib V D} {dim : Nat} {c : Coll} {vs : AMap Bytes Bytes} (i : HInv L dim X c vs) (ids : List UInt64) (p : Panic) :
    c.get L ids ≠ .error (.panic p) := by
  unfold Coll.get
  split
  · intro h; cases h
  · obtain ⟨_, os', _, h2, _⟩ := getObjects_vs i ids
    rw [h2]; intro h; cases h

/-! ### Steps -/

theorem HInv.of_new (L : Lib V D) (dim : Nat) (cfg : Cfg) (ms : List String) (he : Bool) (hs : Setup L dim cfg) :
    HInv L dim (fun _ => False) (Coll.new cfg ms he) [] :=
  ⟨new_inv L dim cfg ms he hs.json hs.metric hs.dim32 hs.cfg, rfl, fun id b h => by cases h⟩

theorem vecOf_write {h : Hnsw} {id : UInt64} {v : Vertex} (hv : h.nodes.get? id = some v) (vec : Vec) (x : UInt64) :
    vecOf (h.write id vec).nodes x = if x = id then some vec else vecOf h.nodes x := by
  unfold Hnsw.write vecOf
  rw [hv]
  dsimp only
  rw [AMap.get?_set]
  by_cases e : id = x
  · subst e; simp
  · have : ¬ x = id := fun h => e h.symm
    simp [e, this]

/-- entries of a store that satisfies the invariant decode to vectors of the dimension. -/
theorem WInv.decode {S : Prop} {L : Lib V D} {dim : Nat} {c : Coll} (i : WInv S L dim X c) {id : UInt64} {b : Bytes}
    (h : c.stores.vectors.get? (keyOf id) = some b) : ∃ v, deserializeVector b = .ok v ∧ v.length = dim := by
  have hst := i.vstore id
  unfold getVector at hst
  rw [h] at hst
  dsimp only at hst
  cases hd : deserializeVector b with
  | error x => rw [hd] at hst; cases hst
  | ok v =>
    rw [hd] at hst
    have hst : some v = vecOf c.index.nodes id := by simpa using hst
    refine ⟨v, rfl, ?_⟩
    unfold vecOf at hst
    cases hn : c.index.nodes.get? id with
    | none => rw [hn] at hst; cases hst
    | some u =>
      rw [hn] at hst
      have := i.vecs id u hn
      cases hst; exact this

theorem HInv.write {L : Lib V D} {dim : Nat} {c : Coll} {vs : AMap Bytes Bytes} (i : HInv L dim X c vs) {id : UInt64} {v : Vertex}
    {vec : Vec} (hv : c.index.nodes.get? id = some v) (hl : vec.length = v.vec.length) :
    HInv L dim X (c.write id vec) (vs.set (keyOf id) (serializeVector vec)) := by
  have hk : keyOf id ∈ vs.keys := (vkey_iff i.inv id).mpr ((AMap.get?_isSome_iff _ _).mp (by
    show (c.index.nodes.get? id).isSome = true; rw [hv]; rfl))
  have hkeys : (vs.set (keyOf id) (serializeVector vec)).keys = vs.keys := by rw [AMap.keys_set, if_pos hk]
  have hdim : vec.length = dim := by rw [hl]; exact i.inv.vecs id v hv
  have hw : c.index.write id vec = { c.index with nodes := c.index.nodes.set id { v with vec := vec } } := by
    unfold Hnsw.write; rw [hv]
  have j := i.inv
  refine ⟨⟨j.json, j.dimM, j.dim32, ?_, ?_, ?_, j.ond, ?_, ?_, j.okeys, ?_, j.dec, ?_, ?_, ?_⟩, ?_, i.dec⟩
  · show Inv True (c.index.write id vec)
    rw [hw]; exact Inv.revec j.idx (strip_set hv vec)
  · show CfgOK (c.index.write id vec).cfg
    rw [hw]; exact j.cfg
  · show VecOK dim (c.index.write id vec).nodes
    intro x u hu
    have h1 := vecOf_write hv vec x
    unfold vecOf at h1
    rw [hu] at h1
    by_cases e : x = id
    · rw [if_pos e] at h1; cases h1; exact hdim
    · rw [if_neg e] at h1
      cases hx : c.index.nodes.get? x with
      | none => rw [hx] at h1; cases h1
      | some u' =>
        rw [hx] at h1
        have := j.vecs x u' hx
        simp only [Option.map_some, Option.some.injEq] at h1
        rw [h1]; exact this
  · show (vs.set (keyOf id) (serializeVector vec)).keys.Nodup
    rw [hkeys]; exact j.vnd
  · show ∀ k ∈ (vs.set (keyOf id) (serializeVector vec)).keys, _
    rw [hkeys]; exact j.vkeys
  · intro x
    show getVector { c.stores with vectors := vs.set (keyOf id) (serializeVector vec) } x = .ok (vecOf (c.index.write id vec).nodes x)
    rw [vecOf_write hv]
    unfold getVector
    dsimp only
    by_cases e : x = id
    · subst e
      rw [AMap.get?_set_self, if_pos rfl]
      dsimp only
      rw [deserialize_serializeVector _ (by rw [hdim]; exact j.dim32)]
    · rw [AMap.get?_set_ne _ _ _ _ (fun h => e (keyOf_inj h).symm), if_neg e]
      exact j.vstore x
  · obtain ⟨f, h1, h2⟩ := j.ids
    refine ⟨f, h1, fun x hx => h2 x ?_⟩
    have hx : keyOf x ∈ c.stores.objects.keys ∨ keyOf x ∈ (vs.set (keyOf id) (serializeVector vec)).keys ∨
      x ∈ (c.index.write id vec).deleted := hx
    rw [hkeys, hw] at hx; exact hx
  · intro x hx
    have hx : x ∈ (c.index.write id vec).deleted := hx
    rw [hw] at hx; exact j.del x hx
  · intro x hx
    have hx : keyOf x ∈ (vs.set (keyOf id) (serializeVector vec)).keys := hx
    rw [hkeys] at hx
    intro h2 h3
    show x ∈ (c.index.write id vec).deleted
    rw [hw]; exact j.live x hx h2 h3
  · rw [hkeys]; exact i.keys

/-- the vertex with the vector of the store. -/
def stored (s : Stores) (id : UInt64) : Vec :=
  match getVector s id with
  | .ok (some v) => v
  | _ => []

/-- the collection with the vectors of its store in memory. -/
def Coll.heal (c : Coll) : Coll :=
  { c with index := { c.index with nodes := c.index.nodes.map (fun p => (p.1, { p.2 with vec := stored c.stores p.1 })) } }

theorem get?_heal (s : Stores) : ∀ (nodes : AMap UInt64 Vertex) (id : UInt64),
    AMap.get? (nodes.map (fun p => (p.1, ({ p.2 with vec := stored s p.1 } : Vertex)))) id =
      (nodes.get? id).map (fun v => { v with vec := stored s id }) := by
  intro nodes id
  induction nodes with
  | nil => rfl
  | cons p nodes ih =>
    simp only [List.map_cons, AMap.get?]
    split
    · rename_i h; subst h; rfl
    · exact ih

theorem HInv.heal {L : Lib V D} {dim : Nat} {c : Coll} {vs : AMap Bytes Bytes} (i : HInv L dim X c vs) : WInv True L dim X c.heal := by
  have j := i.inv
  have hstrip : c.heal.index.nodes.mapVals Vertex.strip = c.index.nodes.mapVals Vertex.strip := by
    unfold Coll.heal AMap.mapVals
    simp only [List.map_map]
    rfl
  have hv : ∀ x, getVector c.stores x = .ok ((c.index.nodes.get? x).map (fun _ => stored c.stores x)) ∧
      ((c.index.nodes.get? x).isSome → (stored c.stores x).length = dim) := by
    intro x
    have hk : keyOf x ∈ vs.keys ↔ x ∈ c.index.nodes.keys := vkey_iff j x
    rw [i.keys] at hk
    cases hn : c.index.nodes.get? x with
    | none =>
      have : c.stores.vectors.get? (keyOf x) = none := by
        rw [AMap.get?_none_iff, hk, ← AMap.get?_none_iff]; exact hn
      unfold getVector
      rw [this]; exact ⟨rfl, fun h => by cases h⟩
    | some u =>
      have : (c.stores.vectors.get? (keyOf x)).isSome := by
        rw [AMap.get?_isSome_iff, hk, ← AMap.get?_isSome_iff, hn]; rfl
      obtain ⟨b, hb⟩ := Option.isSome_iff_exists.mp this
      obtain ⟨w, hw1, hw2⟩ := i.dec x b hb
      have hg : getVector c.stores x = .ok (some w) := by unfold getVector; rw [hb]; dsimp only; rw [hw1]
      have hst : stored c.stores x = w := by unfold stored; rw [hg]
      rw [hst]; exact ⟨hg, fun _ => hw2⟩
  refine ⟨j.json, j.dimM, j.dim32, Inv.revec j.idx hstrip, j.cfg, ?_, j.ond, ?_, ?_, j.okeys, ?_, j.dec, ?_, j.del, ?_⟩
  · intro x u hu
    have h1 : (c.index.nodes.get? x).map (fun v => ({ v with vec := stored c.stores x } : Vertex)) = some u := by
      rw [← get?_heal]; exact hu
    cases hn : c.index.nodes.get? x with
    | none => rw [hn] at h1; cases h1
    | some w =>
      rw [hn] at h1
      have := (hv x).2 (by rw [hn]; rfl)
      cases h1; exact this
  · show c.stores.vectors.keys.Nodup
    rw [← i.keys]; exact j.vnd
  · show ∀ k ∈ c.stores.vectors.keys, _
    rw [← i.keys]; exact j.vkeys
  · intro x
    show getVector c.stores x = _
    rw [(hv x).1]
    unfold vecOf
    have : c.heal.index.nodes.get? x = (c.index.nodes.get? x).map (fun v => { v with vec := stored c.stores x }) := get?_heal _ _ _
    rw [this, Option.map_map]; rfl
  · obtain ⟨f, h1, h2⟩ := j.ids
    refine ⟨f, h1, fun x hx => h2 x ?_⟩
    have hx : keyOf x ∈ c.stores.objects.keys ∨ keyOf x ∈ c.stores.vectors.keys ∨ x ∈ c.index.deleted := hx
    rw [← i.keys] at hx; exact hx
  · intro x hx
    have hx : keyOf x ∈ c.stores.vectors.keys := hx
    rw [← i.keys] at hx
    exact j.live x hx

theorem WInv.self {L : Lib V D} {dim : Nat} {c : Coll} (i : WInv True L dim X c) : HInv L dim X c c.stores.vectors :=
  ⟨i, rfl, fun _ _ h => i.decode h⟩

/-- opening again reads the vectors of the store. -/
theorem HInv.reopen {L : Lib V D} {dim : Nat} {c : Coll} {vs : AMap Bytes Bytes} (i : HInv L dim X c vs) (hb : c.index.wal.batch = []) :
    ∃ f c', CounterOK c.counter f ∧ c.reopen = .ok c' ∧ c' = reopened c.heal f ∧ WInv True L dim X c' := by
  obtain ⟨f, h1, h2, h3, _⟩ := coll_reopen_exact i.heal hb (fun _ => False)
  exact ⟨f, _, h1, h2, rfl, h3⟩

/-- every legal call but a reopen. -/
theorem HInv.apply {L : Lib V D} {dim : Nat} {c : Coll} {vs : AMap Bytes Bytes} (i : HInv L dim X c vs) (op : Op V) (hl : Legal dim c op)
    (hr : op ≠ .reopen) :
    ∃ c' out vs', c.apply L op = .ok (c', out) ∧ HInv L dim X c' vs' ∧ Ext c.stores.vectors vs c'.stores.vectors vs' ∧
      (∀ id v, vecOf c.index.nodes id = some v → vecOf c'.index.nodes id = some v) ∧ (DInv True c.index → DInv True c'.index) := by
  have mk : ∀ {t c' : Coll} {out : Out V D} {vs' : AMap Bytes Bytes}, WInv True L dim X t → t = c'.withVecs vs' →
      c.apply L op = .ok (c', out) → Ext c.stores.vectors vs c'.stores.vectors vs' → Evo L (c.withVecs vs) t op.touches →
      (DInv True c.index → DInv True t.index) →
      ∃ c' out vs', c.apply L op = .ok (c', out) ∧ HInv L dim X c' vs' ∧ Ext c.stores.vectors vs c'.stores.vectors vs' ∧
        (∀ id v, vecOf c.index.nodes id = some v → vecOf c'.index.nodes id = some v) ∧ (DInv True c.index → DInv True c'.index) := by
    intro t c' out vs' h1 h2 h3 h4 h5 h6
    subst h2
    refine ⟨c', out, vs', h3, ⟨h1, h4.keys i.keys, fun id b hb => ?_⟩, h4, h5.vecs, h6⟩
    rcases h4.get (keyOf id) with ⟨e1, _⟩ | e
    · rw [e1] at hb; exact i.dec id b hb
    · rw [e] at hb; exact WInv.decode h1 hb
  have hl' : Legal dim (c.withVecs vs) op := by cases op <;> exact hl
  obtain ⟨t, out, ht, it, ev⟩ := apply_spec i.inv op hl'
  have dv : DInv True c.index → DInv True t.index := fun d => apply_dinv i.inv d hl' ht
  cases op with
  | insert o embed env ff =>
    simp only [Coll.apply] at ht
    obtain ⟨⟨t1, o1, e⟩, h1, h2⟩ := (bind_ok_iff _ _ _).mp ht
    cases h2
    obtain ⟨c', vs', k1, k2, k3⟩ := insert_vs (liftPanic_ok h1)
    exact mk it k2 (by simp only [Coll.apply]; rw [k1]; rfl) k3 ev dv
  | insertBatch os embed envs ff =>
    simp only [Coll.apply] at ht
    obtain ⟨⟨t1, o1, e⟩, h1, h2⟩ := (bind_ok_iff _ _ _).mp ht
    cases h2
    obtain ⟨c', vs', k1, k2, k3⟩ := insertBatch_vs (liftPanic_ok h1)
    exact mk it k2 (by simp only [Coll.apply]; rw [k1]; rfl) k3 ev dv
  | delete id df ff =>
    simp only [Coll.apply] at ht
    obtain ⟨⟨t1, e⟩, h1, h2⟩ := (bind_ok_iff _ _ _).mp ht
    cases h2
    obtain ⟨c', k1, k2, k3⟩ := delete_vs i (liftPanic_ok h1)
    exact mk it k2 (by simp only [Coll.apply]; rw [k1]; rfl) (by rw [k3]; exact Ext.refl _ _) ev dv
  | close sf =>
    simp only [Coll.apply] at ht
    cases hx : c.close sf with
    | mk c1 e =>
      have hx' : (c.withVecs vs).close sf = (c1.withVecs vs, e) ∧ c1.stores = c.stores := by
        unfold Coll.close at hx ⊢
        have e1 : (c.withVecs vs).counter = c.counter := rfl
        rw [e1]
        cases hcc : c.counter.close with
        | mk ctr x =>
          rw [hcc] at hx
          dsimp only at hx ⊢
          cases x with
          | some y => cases hx; exact ⟨rfl, rfl⟩
          | none => cases sf <;> cases hx <;> exact ⟨rfl, rfl⟩
      rw [hx'.1] at ht
      cases ht
      exact mk it rfl (by simp only [Coll.apply]; rw [hx]) (by rw [hx'.2]; exact Ext.refl _ _) ev dv
  | get ids => exact ⟨c, _, vs, rfl, i, Ext.refl _ _, fun _ _ h => h, fun h => h⟩
  | search o embed k => exact ⟨c, _, vs, rfl, i, Ext.refl _ _, fun _ _ h => h, fun h => h⟩
  | size => exact ⟨c, _, vs, rfl, i, Ext.refl _ _, fun _ _ h => h, fun h => h⟩
  | update o => exact ⟨c, _, vs, rfl, i, Ext.refl _ _, fun _ _ h => h, fun h => h⟩
  | reopen => exact absurd rfl hr

/-! ### The same calls without the writes -/

/-- all but the index. -/
structure Core (c d : Coll) : Prop where
  stores : d.stores = c.stores
  counter : d.counter = c.counter
  mappings : d.mappings = c.mappings
  embedder : d.hasEmbedder = c.hasEmbedder
  closed : d.closed = c.closed

/-- what the first has written, the second has. -/
def Pend (c d : Coll) : Prop := c.index.wal.batch = [] → d.index.wal.batch = []

theorem DInv.write {h : Hnsw} {id : UInt64} {v : Vertex} (d : DInv True h) (hv : h.nodes.get? id = some v) (vec : Vec) :
    DInv True (h.write id vec) := by
  have hw : h.write id vec = { h with nodes := h.nodes.set id { v with vec := vec } } := by unfold Hnsw.write; rw [hv]
  have hs := strip_set hv vec
  have hk := strip_keys hs
  obtain ⟨s, h1, h2, h3, h4, h5⟩ := d.ex
  rw [hw]
  refine ⟨s, h1, ?_, h3, ?_, h5⟩
  · show ∀ x ∈ s.nodes.keys, x ∈ (h.nodes.set id { v with vec := vec }).keys
    rw [hk]; exact h2
  · show (∀ x ∈ (h.nodes.set id { v with vec := vec }).keys, x ∈ s.nodes.keys) → _
    rw [hk]
    intro hx
    show SameMap s.nodes ((h.nodes.set id { v with vec := vec }).mapVals Vertex.strip) ∧
      (True → s.nodes = (h.nodes.set id { v with vec := vec }).mapVals Vertex.strip) ∧ _
    rw [hs]; exact h4 hx

/-- an object that was inserted is not yet in the log on disk. -/
theorem insertOne_pending {L : Lib V D} {dim : Nat} {c c' : Coll} {o o' : Object V} (i : WInv True L dim X c) (d : DInv True c.index)
    (h : InsEff L c c' o o' none) (i' : WInv True L dim X c') : c'.index.wal.batch ≠ [] := by
  intro hb
  have hins := (h.ok rfl).2.2.2.1
  obtain ⟨s, h1, h2, _⟩ := d.ex
  have hr : c'.index.wal.records = c'.index.wal.disk := by simp [Wal.records, hb]
  obtain ⟨s', h1', hs'⟩ := i'.idx.m.log.load
  rw [hr, hins.cfg, hins.disk, h1] at h1'
  cases h1'
  have : c.counter.count ∈ s.nodes.keys := by
    rw [hs'.nodes.mem]
    show _ ∈ c'.index.strip.nodes.keys
    have : c'.index.strip.nodes.keys = c'.index.nodes.keys := keys_strip _
    rw [this, hins.keys]; simp
  exact (fresh_of i).2.1 ((vkey_iff i _).mpr (h2 _ this))

theorem insertOne_core {L : Lib V D} {c d c' d' : Coll} {o o1 o2 : Object V} {env : InsEnv} {e1 e2 : Option Err} (k : Core c d)
    (h1 : c.insertOne L o env = .ok (c', o1, e1)) (h2 : d.insertOne L o env = .ok (d', o2, e2)) :
    o2 = o1 ∧ e2 = e1 ∧ Core c' d' ∧ (e1 ≠ none → c'.index = c.index ∧ d'.index = d.index) := by
  unfold Coll.insertOne at h1 h2
  rw [k.counter, k.stores] at h2
  cases hf : fetchAndInc c.counter env.counterFails with
  | mk ctr r =>
    rw [hf] at h1 h2
    dsimp only at h1 h2
    cases r with
    | error x => cases h1; cases h2; exact ⟨rfl, rfl, ⟨rfl, rfl, k.mappings, k.embedder, k.closed⟩, fun _ => ⟨rfl, rfl⟩⟩
    | ok id =>
      dsimp only at h1 h2
      cases hp : putObject L.json c.stores { o with id := id } env.put with
      | mk st e =>
        rw [hp] at h1 h2
        dsimp only at h1 h2
        cases e with
        | some x => cases h1; cases h2; exact ⟨rfl, rfl, ⟨rfl, rfl, k.mappings, k.embedder, k.closed⟩, fun _ => ⟨rfl, rfl⟩⟩
        | none =>
          dsimp only at h1 h2
          obtain ⟨i1, _, h1⟩ := (bind_ok_iff _ _ _).mp h1
          obtain ⟨i2, _, h2⟩ := (bind_ok_iff _ _ _).mp h2
          cases h1; cases h2
          exact ⟨rfl, rfl, ⟨rfl, rfl, k.mappings, k.embedder, k.closed⟩, fun h => absurd rfl h⟩

theorem insertOne_tw {L : Lib V D} {dim : Nat} {c d c' d' : Coll} {vs : AMap Bytes Bytes} {o o1 o2 : Object V} {env : InsEnv}
    {e1 e2 : Option Err} (i : WInv True L dim X (c.withVecs vs)) (di : DInv True c.index) (hd : (o.vec.getD []).length = dim)
    (hl : env.level < 4294967296) (hc : c.counter.count.toNat + 1 < 18446744073709551616) (k : Core c d) (p : Pend c d)
    (h1 : c.insertOne L o env = .ok (c', o1, e1)) (h2 : d.insertOne L o env = .ok (d', o2, e2)) :
    o2 = o1 ∧ e2 = e1 ∧ Core c' d' ∧ Pend c' d' ∧ (∃ vs', WInv True L dim X (c'.withVecs vs')) ∧ DInv True c'.index ∧
      c'.counter.count = c.counter.count + 1 := by
  obtain ⟨t, o3, e3, g1, g2, g3⟩ := insertOne_spec (env := env) i hd hl hc
  obtain ⟨c3, vs3, k1, k2, _⟩ := insertOne_vs g1
  rw [h1] at k1; cases k1
  subst k2
  obtain ⟨a1, a2, a3, a4⟩ := insertOne_core k h1 h2
  have d3 : DInv True (c'.withVecs vs3).index := insertOne_dinv i di g3
  refine ⟨a1, a2, a3, ?_, ⟨vs3, g2⟩, d3, g3.count⟩
  cases e1 with
  | some x =>
    obtain ⟨b1, b2⟩ := a4 (by simp)
    unfold Pend
    rw [b1, b2]; exact p
  | none =>
    have hp : (c'.withVecs vs3).index.wal.batch ≠ [] := insertOne_pending i di g3 g2
    exact fun hb => absurd hb hp

theorem insertAll_tw {L : Lib V D} {dim : Nat} : ∀ (os : List (Object V × InsEnv)) (c d c' d' : Coll) (vs : AMap Bytes Bytes)
    (os1 os2 : List (Object V)) (e1 e2 : Option Err), WInv True L dim X (c.withVecs vs) → DInv True c.index →
    (∀ p ∈ os, (p.1.vec.getD []).length = dim) → (∀ p ∈ os, p.2.level < 4294967296) →
    c.counter.count.toNat + os.length < 18446744073709551616 → Core c d → Pend c d → c.insertAll L os = .ok (c', os1, e1) →
    d.insertAll L os = .ok (d', os2, e2) → os2 = os1 ∧ e2 = e1 ∧ Core c' d' ∧ Pend c' d' := by
  intro os
  induction os with
  | nil => intro c d c' d' vs os1 os2 e1 e2 _ _ _ _ _ k p h1 h2; cases h1; cases h2; exact ⟨rfl, rfl, k, p⟩
  | cons q os ih =>
    intro c d c' d' vs os1 os2 e1 e2 i di hd hl hc k p h1 h2
    obtain ⟨o, env⟩ := q
    simp only [List.length_cons] at hc
    unfold Coll.insertAll at h1 h2
    obtain ⟨⟨c1, o1, x1⟩, f1, g1⟩ := (bind_ok_iff _ _ _).mp h1
    obtain ⟨⟨d1, o2, x2⟩, f2, g2⟩ := (bind_ok_iff _ _ _).mp h2
    obtain ⟨a1, a2, a3, a4, ⟨vs1, a5⟩, a6, a7⟩ := insertOne_tw i di (hd _ (List.mem_cons_self ..)) (hl _ (List.mem_cons_self ..))
      (by omega) k p f1 f2
    subst a1 a2
    dsimp only at g1 g2
    cases x2 with
    | some y => cases g1; cases g2; exact ⟨rfl, rfl, a3, a4⟩
    | none =>
      dsimp only at g1 g2
      obtain ⟨⟨c2, os3, y1⟩, m1, n1⟩ := (bind_ok_iff _ _ _).mp g1
      obtain ⟨⟨d2, os4, y2⟩, m2, n2⟩ := (bind_ok_iff _ _ _).mp g2
      cases n1; cases n2
      have : c1.counter.count.toNat = c.counter.count.toNat + 1 := by
        rw [a7, UInt64.toNat_add]
        have : (1 : UInt64).toNat = 1 := rfl
        omega
      obtain ⟨b1, b2, b3, b4⟩ := ih c1 d1 c2 d2 vs1 os3 os4 y1 y2 a5 a6 (fun p hp => hd p (List.mem_cons_of_mem _ hp))
        (fun p hp => hl p (List.mem_cons_of_mem _ hp)) (by omega) a3 a4 m1 m2
      exact ⟨by rw [b1], b2, b3, b4⟩

theorem flush_core {c d : Coll} (k : Core c d) (ff : Bool) : Core (c.flush ff).1 (d.flush ff).1 :=
  ⟨k.stores, k.counter, k.mappings, k.embedder, k.closed⟩

theorem flush_tw {c d : Coll} (i : Inv True c.index) (j : Inv True d.index) (k : Core c d) (p : Pend c d) (ff : Bool) :
    Core (c.flush ff).1 (d.flush ff).1 ∧ Pend (c.flush ff).1 (d.flush ff).1 ∧ (d.flush ff).2 = (c.flush ff).2 := by
  refine ⟨flush_core k ff, ?_, ?_⟩
  · intro h
    cases ff with
    | true => exact p h
    | false =>
      show (d.index.flush false).1.wal.batch = []
      rw [flush_ok j]
  · cases ff with
    | true => rfl
    | false =>
      show (d.index.flush false).2 = (c.index.flush false).2
      rw [flush_ok i, flush_ok j]

theorem embed_core {c d : Coll} (k : Core c d) (embed : Embed V) (os : List (Object V)) :
    embedObjectsIfNeeded d embed os = embedObjectsIfNeeded c embed os := by
  unfold embedObjectsIfNeeded; rw [k.embedder]

theorem legal_core {dim : Nat} {c d : Coll} (k : Core c d) (p : Pend c d) {op : Op V} (h : Legal dim c op) : Legal dim d op := by
  cases op with
  | insert o embed env ff =>
    obtain ⟨h1, h2, h3⟩ := h
    refine ⟨?_, h2, by rw [k.counter]; exact h3⟩
    unfold EmbedOK; rw [embed_core k]; exact h1
  | insertBatch os embed envs ff =>
    obtain ⟨h1, h2, h3⟩ := h
    refine ⟨?_, h2, by rw [k.counter]; exact h3⟩
    unfold EmbedOK; rw [embed_core k]; exact h1
  | reopen => exact p h
  | delete id df ff => trivial
  | get ids => trivial
  | search o embed k => trivial
  | size => trivial
  | update o => trivial
  | close sf => trivial

theorem reopen_core {c d c' d' : Coll} (k : Core c d) (h1 : c.reopen = .ok c') (h2 : d.reopen = .ok d') : Core c' d' := by
  unfold Coll.reopen openColl at h1 h2
  have e1 : d.disk.counterFile = c.disk.counterFile := by show d.counter.file = c.counter.file; rw [k.counter]
  have e2 : d.disk.stores = c.disk.stores := k.stores
  rw [e1] at h2
  obtain ⟨ctr, f1, h1⟩ := (bind_ok_iff _ _ _).mp h1
  obtain ⟨ctr2, f2, h2⟩ := (bind_ok_iff _ _ _).mp h2
  rw [f1] at f2; cases f2
  obtain ⟨_, _, h1⟩ := (bind_ok_iff _ _ _).mp h1
  obtain ⟨_, _, h1⟩ := (bind_ok_iff _ _ _).mp h1
  obtain ⟨_, _, h2⟩ := (bind_ok_iff _ _ _).mp h2
  obtain ⟨_, _, h2⟩ := (bind_ok_iff _ _ _).mp h2
  cases h1; cases h2
  exact ⟨e2, rfl, k.mappings, k.embedder, rfl⟩

/-- the same call on the two collections. -/
theorem apply_tw {L : Lib V D} {dim : Nat} {c d c' : Coll} {vs : AMap Bytes Bytes} (i : HInv L dim X c vs) (di : DInv True c.index)
    (j : WInv True L dim X d) (k : Core c d) (p : Pend c d) {op : Op V} {out : Out V D} (hl : Legal dim c op)
    (h : c.apply L op = .ok (c', out)) :
    ∃ d' out', Legal dim d op ∧ d.apply L op = .ok (d', out') ∧ WInv True L dim X d' ∧ Core c' d' ∧ Pend c' d' ∧
      (out' = out ∨ ∃ o embed n r r', op = .search o embed n ∧ out = .found r ∧ out' = .found r') := by
  have hl2 := legal_core k p hl
  obtain ⟨d', out', h2, j', _⟩ := apply_spec j op hl2
  refine ⟨d', out', hl2, h2, j', ?_⟩
  have hl' : Legal dim (c.withVecs vs) op := by cases op <;> exact hl
  cases op with
  | insert o embed env ff =>
    simp only [Coll.apply] at h h2
    obtain ⟨⟨c1, o1, e1⟩, m1, n1⟩ := (bind_ok_iff _ _ _).mp h
    obtain ⟨⟨d1, o2, e2⟩, m2, n2⟩ := (bind_ok_iff _ _ _).mp h2
    cases n1; cases n2
    have m1 := liftPanic_ok m1
    have m2 := liftPanic_ok m2
    obtain ⟨⟨r0, he, hdim⟩, hlev, hcnt⟩ := hl
    unfold Coll.insert at m1 m2
    rw [k.closed, k.mappings, embed_core k] at m2
    by_cases hc : c.closed = true
    · rw [if_pos hc] at m1 m2; cases m1; cases m2; exact ⟨k, p, Or.inl rfl⟩
    rw [if_neg hc] at m1 m2
    cases hv : validateObjects c.mappings 0 [o] with
    | some x => rw [hv] at m1 m2; cases m1; cases m2; exact ⟨k, p, Or.inl rfl⟩
    | none =>
      rw [hv] at m1 m2
      dsimp only at m1 m2
      rw [he, ok_bind] at m1 m2
      cases r0 with
      | error x => cases m1; cases m2; exact ⟨k, p, Or.inl rfl⟩
      | ok objs =>
        cases objs with
        | nil => cases m1; cases m2; exact ⟨k, p, Or.inl rfl⟩
        | cons o3 rest =>
          dsimp only at m1 m2
          obtain ⟨⟨c2, o4, x1⟩, f1, g1⟩ := (bind_ok_iff _ _ _).mp m1
          obtain ⟨⟨d2, o5, x2⟩, f2, g2⟩ := (bind_ok_iff _ _ _).mp m2
          have hd3 := hdim _ rfl o3 (by simp)
          obtain ⟨a1, a2, a3, a4, ⟨vs1, a5⟩, a6, a7⟩ := insertOne_tw i.inv di hd3 hlev hcnt k p f1 f2
          obtain ⟨d3, o6, e6, y1, y2, _⟩ := insertOne_spec (env := env) j hd3 hlev (by rw [k.counter]; exact hcnt)
          rw [f2] at y1; cases y1
          subst a1 a2
          dsimp only at g1 g2
          cases x2 with
          | some y => cases g1; cases g2; exact ⟨a3, a4, Or.inl rfl⟩
          | none =>
            obtain ⟨b1, b2, b3⟩ := flush_tw (c := c2) a5.idx y2.idx a3 a4 ff
            cases g1; cases g2
            exact ⟨b1, b2, Or.inl (by rw [b3])⟩
  | insertBatch os embed envs ff =>
    simp only [Coll.apply] at h h2
    obtain ⟨⟨c1, o1, e1⟩, m1, n1⟩ := (bind_ok_iff _ _ _).mp h
    obtain ⟨⟨d1, o2, e2⟩, m2, n2⟩ := (bind_ok_iff _ _ _).mp h2
    cases n1; cases n2
    have m1 := liftPanic_ok m1
    have m2 := liftPanic_ok m2
    obtain ⟨⟨r0, he, hdim⟩, hlev, hcnt⟩ := hl
    unfold Coll.insertBatch at m1 m2
    rw [k.closed, k.mappings, embed_core k] at m2
    by_cases hc : c.closed = true
    · rw [if_pos hc] at m1 m2; cases m1; cases m2; exact ⟨k, p, Or.inl rfl⟩
    rw [if_neg hc] at m1 m2
    cases hv : validateObjects c.mappings 0 os with
    | some x => rw [hv] at m1 m2; cases m1; cases m2; exact ⟨k, p, Or.inl rfl⟩
    | none =>
      rw [hv] at m1 m2
      dsimp only at m1 m2
      have hlen := fun (os1 : List (Object V)) (h : r0 = .ok os1) => embed_length (show embedObjectsIfNeeded c embed os = .ok (.ok os1) by rw [he, h])
      rw [he, ok_bind] at m1 m2
      cases r0 with
      | error x => cases m1; cases m2; exact ⟨k, p, Or.inl rfl⟩
      | ok objs =>
        have hlen := hlen objs rfl
        dsimp only at m1 m2
        obtain ⟨⟨c2, o4, x1⟩, f1, g1⟩ := (bind_ok_iff _ _ _).mp m1
        obtain ⟨⟨d2, o5, x2⟩, f2, g2⟩ := (bind_ok_iff _ _ _).mp m2
        obtain ⟨z1, z2⟩ := zipIdx_dim (envs := envs) (hdim _ rfl) hlev
        have hn : c.counter.count.toNat + (objs.zipIdx.map (fun p => (p.1, envs p.2))).length < 18446744073709551616 := by
          simpa [hlen] using hcnt
        obtain ⟨a1, a2, a3, a4⟩ := insertAll_tw _ _ _ _ _ _ _ _ _ _ i.inv di z1 z2 hn k p f1 f2
        obtain ⟨t2, os3, e3, q1, q2, _⟩ := insertAll_spec (fun _ => False) _ (c.withVecs vs) i.inv z1 z2 hn
        obtain ⟨c3, vs3, w1, w2, _⟩ := insertAll_vs _ q1
        rw [f1] at w1; cases w1
        subst w2
        obtain ⟨d3, os4, e4, q3, q4, _⟩ := insertAll_spec (fun _ => False) _ d j z1 z2 (by rw [k.counter]; exact hn)
        rw [f2] at q3; cases q3
        subst a1 a2
        dsimp only at g1 g2
        cases x2 with
        | some y => cases g1; cases g2; exact ⟨a3, a4, Or.inl rfl⟩
        | none =>
          obtain ⟨b1, b2, b3⟩ := flush_tw (c := c2) q2.idx q4.idx a3 a4 ff
          cases g1; cases g2
          exact ⟨b1, b2, Or.inl (by rw [b3])⟩
  | delete id df ff =>
    simp only [Coll.apply] at h h2
    obtain ⟨⟨c1, e1⟩, m1, n1⟩ := (bind_ok_iff _ _ _).mp h
    obtain ⟨⟨d1, e2⟩, m2, n2⟩ := (bind_ok_iff _ _ _).mp h2
    cases n1; cases n2
    have m1 := liftPanic_ok m1
    have m2 := liftPanic_ok m2
    unfold Coll.delete at m1 m2
    rw [k.closed, k.stores] at m2
    split at m1
    · rw [if_pos ‹_›] at m2; cases m1; cases m2; exact ⟨k, p, Or.inl rfl⟩
    · rw [if_neg ‹_›] at m2
      rcases i.getObject id with ⟨g1, g2⟩ | ⟨pp, v, w, g1, g2, _⟩
      · rw [g2] at m1 m2; cases m1; cases m2; exact ⟨k, p, Or.inl rfl⟩
      · rw [g2] at m1 m2
        dsimp only at m1 m2
        cases df with
        | true => cases m1; cases m2; exact ⟨k, p, Or.inl rfl⟩
        | false =>
          have k2 : Core { c with stores := deleteObject c.stores id, index := c.index.delete id }
              { d with stores := deleteObject c.stores id, index := d.index.delete id, closed := c.closed } :=
            ⟨rfl, k.counter, k.mappings, k.embedder, rfl⟩
          have p2 : Pend { c with stores := deleteObject c.stores id, index := c.index.delete id }
              { d with stores := deleteObject c.stores id, index := d.index.delete id, closed := c.closed } := by
            intro hb
            have hb : c.index.wal.batch ++ [(c.index.wal.seqNum, recDeleteVertex id)] = [] := hb
            simp at hb
          obtain ⟨b1, b2, b3⟩ := flush_tw (delete_spec i.inv.idx id) (delete_spec j.idx id) k2 p2 ff
          cases m1; cases m2
          exact ⟨b1, b2, Or.inl (by
            have : (d.index.delete id |>.flush ff).2 = (c.index.delete id |>.flush ff).2 := b3
            show Out.deleted (d.index.delete id |>.flush ff).2 = Out.deleted (c.index.delete id |>.flush ff).2
            rw [this])⟩
  | close sf =>
    simp only [Coll.apply, Coll.close] at h h2
    rw [k.counter] at h2
    cases hcc : c.counter.close with
    | mk ctr x =>
      rw [hcc] at h h2
      dsimp only at h h2
      cases x with
      | some y => cases h; cases h2; exact ⟨⟨k.stores, rfl, k.mappings, k.embedder, k.closed⟩, p, Or.inl rfl⟩
      | none =>
        cases sf with
        | true => cases h; cases h2; exact ⟨⟨k.stores, rfl, k.mappings, k.embedder, k.closed⟩, p, Or.inl rfl⟩
        | false => cases h; cases h2; exact ⟨⟨k.stores, rfl, k.mappings, k.embedder, rfl⟩, p, Or.inl rfl⟩
  | get ids =>
    cases h; cases h2
    refine ⟨k, p, Or.inl ?_⟩
    unfold Coll.get; rw [k.closed, k.stores]
  | search o embed n => cases h; cases h2; exact ⟨k, p, Or.inr ⟨_, _, _, _, _, rfl, rfl, rfl⟩⟩
  | size =>
    cases h; cases h2
    refine ⟨k, p, Or.inl ?_⟩
    unfold Coll.getSize; rw [k.closed, k.stores]
  | update o =>
    cases h; cases h2
    refine ⟨k, p, Or.inl ?_⟩
    unfold Coll.update; rw [k.closed]
  | reopen =>
    simp only [Coll.apply] at h h2
    obtain ⟨c1, m1, n1⟩ := (bind_ok_iff _ _ _).mp h
    obtain ⟨d1, m2, n2⟩ := (bind_ok_iff _ _ _).mp h2
    cases n1; cases n2
    refine ⟨reopen_core k m1 m2, fun _ => ?_, Or.inl rfl⟩
    obtain ⟨f, h1, h2', _⟩ := coll_reopen_exact j hl2 (fun _ => False)
    rw [m2] at h2'
    cases h2'
    rfl

end Vectory
