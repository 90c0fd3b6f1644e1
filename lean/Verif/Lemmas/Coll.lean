import Verif.Model.Collection
import Verif.Lemmas.Codec
import Verif.Lemmas.Ops
/-! The collection invariant and the effect of every operation. -/
namespace Vectory
variable {V D : Type} {S : Prop} {X : UInt64 → Prop}

/-- what the counter file says. -/
def CounterOK (c : IdCounter) (f : UInt64) : Prop :=
  (c.file = [] ∧ f = 0 ∨ c.file = putUint64 f) ∧ f.toNat ≤ c.count.toNat

structure WInv (S : Prop) (L : Lib V D) (dim : Nat) (X : UInt64 → Prop) (c : Coll) : Prop where
  json : JsonOK L.json
  dimM : DimOK L.metric dim
  dim32 : dim < 4294967296
  idx : Inv S c.index
  cfg : CfgOK c.index.cfg
  vecs : VecOK dim c.index.nodes
  ond : c.stores.objects.keys.Nodup
  vnd : c.stores.vectors.keys.Nodup
  vkeys : ∀ k ∈ c.stores.vectors.keys, ∃ id, k = keyOf id
  okeys : ∀ k ∈ c.stores.objects.keys, ∃ id, k = keyOf id
  vstore : ∀ id, getVector c.stores id = .ok (vecOf c.index.nodes id)
  dec : ∀ id b, c.stores.objects.get? (keyOf id) = some b → ∃ p, deserializeProperties L.json b = .ok p
  ids : ∃ f, CounterOK c.counter f ∧
    ∀ id, (keyOf id ∈ c.stores.objects.keys ∨ keyOf id ∈ c.stores.vectors.keys ∨ id ∈ c.index.deleted) → id.toNat < f.toNat
  del : ∀ id, id ∈ c.index.deleted → keyOf id ∉ c.stores.objects.keys
  /-- every indexed vector without an object is marked as deleted, except those in `X` (lost deletions) -/
  live : ∀ id, keyOf id ∈ c.stores.vectors.keys → keyOf id ∉ c.stores.objects.keys → ¬ X id → id ∈ c.index.deleted

/-- the invariant of collections that never lost a deletion. -/
abbrev CInv (L : Lib V D) (dim : Nat) (c : Coll) : Prop := WInv True L dim (fun _ => False) c

theorem vkey_iff {L : Lib V D} {dim : Nat} {c : Coll} (i : WInv S L dim X c) (id : UInt64) :
    keyOf id ∈ c.stores.vectors.keys ↔ id ∈ c.index.nodes.keys := by
  have h := i.vstore id
  unfold getVector at h
  rw [← AMap.get?_isSome_iff, ← AMap.get?_isSome_iff]
  unfold vecOf at h
  cases hv : c.stores.vectors.get? (keyOf id) with
  | none =>
    rw [hv] at h
    cases hn : c.index.nodes.get? id with
    | none => simp
    | some v => rw [hn] at h; simp at h
  | some b =>
    rw [hv] at h
    dsimp only at h
    cases hd : deserializeVector b with
    | error p => rw [hd] at h; cases h
    | ok v =>
      rw [hd] at h
      cases hn : c.index.nodes.get? id with
      | none => rw [hn] at h; simp at h
      | some v => simp

/-- the object stored under `id`, as `Get` decodes it. -/
theorem getObject_eq {L : Lib V D} {dim : Nat} {c : Coll} (i : WInv S L dim X c) (id : UInt64) :
    ∃ r, getObject L.json c.stores id = .ok r ∧
      (r.isSome ↔ keyOf id ∈ c.stores.objects.keys ∧ keyOf id ∈ c.stores.vectors.keys) ∧
      (∀ o, r = some o → o.id = id ∧ vecOf c.index.nodes id = o.vec ∧ o.vec.isSome) := by
  have hv := i.vstore id
  unfold getObject
  rw [← AMap.get?_isSome_iff, ← AMap.get?_isSome_iff]
  cases ho : c.stores.objects.get? (keyOf id) with
  | none => exact ⟨none, rfl, by simp, by simp⟩
  | some b =>
    dsimp only
    unfold getVector at hv
    cases hvb : c.stores.vectors.get? (keyOf id) with
    | none => exact ⟨none, rfl, by simp, by simp⟩
    | some vb =>
      rw [hvb] at hv
      dsimp only at hv ⊢
      obtain ⟨p, hp⟩ := i.dec id b ho
      rw [hp]
      dsimp only
      cases hd : deserializeVector vb with
      | error e => rw [hd] at hv; cases hv
      | ok v =>
        rw [hd] at hv
        dsimp only at hv ⊢
        refine ⟨_, rfl, by simp, ?_⟩
        intro o ho2
        cases ho2
        injection hv with hv
        exact ⟨rfl, hv.symm, rfl⟩

/-! ### fetchAndInc -/

theorem fetchAndInc_eq (c : IdCounter) (b : Bool) :
    (∃ e, fetchAndInc c b = ({ c with count := c.count + 1 }, .error e) ∧ (c.closed = true ∨ b = true)) ∨
    (fetchAndInc c b = ({ c with count := c.count + 1, file := overwrite c.file (putUint64 (c.count + 1)) }, .ok c.count) ∧
      c.closed = false ∧ b = false) := by
  unfold fetchAndInc
  by_cases h : (c.closed || b) = true
  · left; refine ⟨.io, by simp [h], by simpa using h⟩
  · right; refine ⟨by simp [h], ?_⟩; simpa using h

theorem counter_step {c : IdCounter} {f : UInt64} (h : CounterOK c f) (hc : c.count.toNat + 1 < 18446744073709551616) :
    CounterOK { c with count := c.count + 1 } f ∧ (c.count + 1).toNat = c.count.toNat + 1 ∧
    CounterOK { c with count := c.count + 1, file := overwrite c.file (putUint64 (c.count + 1)) } (c.count + 1) := by
  have h1 : (c.count + 1).toNat = c.count.toNat + 1 := by
    rw [UInt64.toNat_add]
    show (c.count.toNat + 1) % 2 ^ 64 = _
    omega
  refine ⟨⟨h.1, ?_⟩, h1, ⟨Or.inr ?_, Nat.le_refl _⟩⟩
  · have := h.2
    show f.toNat ≤ (c.count + 1).toNat
    omega
  · show overwrite c.file (putUint64 (c.count + 1)) = _
    unfold overwrite
    rcases h.1 with ⟨hf, _⟩ | hf
    · rw [hf]; simp
    · rw [hf, putUint64_length, List.drop_of_length_le (by rw [putUint64_length]; omega)]; simp

/-- the fields of the invariant that do not mention the counter. -/
theorem WInv.withCounter {L : Lib V D} {dim : Nat} {c : Coll} (i : WInv S L dim X c) (ctr : IdCounter)
    (h : ∃ f, CounterOK ctr f ∧
      ∀ id, (keyOf id ∈ c.stores.objects.keys ∨ keyOf id ∈ c.stores.vectors.keys ∨ id ∈ c.index.deleted) → id.toNat < f.toNat) :
    WInv S L dim X { c with counter := ctr } :=
  ⟨i.json, i.dimM, i.dim32, i.idx, i.cfg, i.vecs, i.ond, i.vnd, i.vkeys, i.okeys, i.vstore, i.dec, h, i.del, i.live⟩

/-! ### insertOne -/

/-- effect of the internal insert on everything a caller can see. -/
structure InsEff (L : Lib V D) (c c' : Coll) (o o' : Object V) (e : Option Err) : Prop where
  mappings : c'.mappings = c.mappings
  embedder : c'.hasEmbedder = c.hasEmbedder
  closed : c'.closed = c.closed
  cfg : c'.index.cfg = c.index.cfg
  count : c'.counter.count = c.counter.count + 1
  props : o'.props = o.props
  vec : o'.vec = o.vec
  frame : ∀ id, id ≠ c.counter.count → getObject L.json c'.stores id = getObject L.json c.stores id
  deleted : c'.index.deleted = c.index.deleted
  disk : c'.index.wal.disk = c.index.wal.disk
  asg : (o' = o ∧ e ≠ none ∧ c'.counter.file = c.counter.file ∧ c'.stores = c.stores) ∨
    (o'.id = c.counter.count ∧ c'.counter.file = putUint64 (c.counter.count + 1))
  ctrClosed : c'.counter.closed = c.counter.closed
  vecKeep : ∀ id v, vecOf c.index.nodes id = some v → vecOf c'.index.nodes id = some v
  ok : e = none → o'.id = c.counter.count ∧ (∃ b p, L.json.marshal o.props = some b ∧ L.json.unmarshal b = some p ∧
      getObject L.json c'.stores c.counter.count = .ok (some { id := c.counter.count, props := p, vec := some (o.vec.getD []) })) ∧
      c'.stores.size = c.stores.size + 1 ∧ Inserted c.index c'.index (o.vec.getD []) c.counter.count ∧
      c'.counter.file = putUint64 (c.counter.count + 1)
  bad : ∀ x, e = some x → getObject L.json c'.stores c.counter.count = getObject L.json c.stores c.counter.count ∧
      c'.index = c.index

theorem fresh_of {L : Lib V D} {dim : Nat} {c : Coll} (i : WInv S L dim X c) :
    keyOf c.counter.count ∉ c.stores.objects.keys ∧ keyOf c.counter.count ∉ c.stores.vectors.keys ∧
      c.counter.count ∉ c.index.deleted := by
  obtain ⟨f, hf, hu⟩ := i.ids
  have := hf.2
  refine ⟨?_, ?_, ?_⟩ <;> intro h
  · have := hu _ (Or.inl h); omega
  · have := hu _ (Or.inr (Or.inl h)); omega
  · have := hu _ (Or.inr (Or.inr h)); omega

theorem getObject_set_ne (js : Json V) (s : Stores) (id x : UInt64) (ob vb : Bytes) (h : x ≠ id) :
    getObject js { objects := s.objects.set (keyOf id) ob, vectors := s.vectors.set (keyOf id) vb } x = getObject js s x := by
  have hk : keyOf id ≠ keyOf x := fun e => h (keyOf_inj e).symm
  unfold getObject
  dsimp only
  rw [AMap.get?_set_ne _ _ _ _ hk, AMap.get?_set_ne _ _ _ _ hk]

theorem getObject_setO_ne (js : Json V) (s : Stores) (id x : UInt64) (ob : Bytes) (h : x ≠ id) :
    getObject js { s with objects := s.objects.set (keyOf id) ob } x = getObject js s x := by
  have hk : keyOf id ≠ keyOf x := fun e => h (keyOf_inj e).symm
  unfold getObject
  dsimp only
  rw [AMap.get?_set_ne _ _ _ _ hk]

theorem insertOne_spec {L : Lib V D} {dim : Nat} {c : Coll} (i : WInv S L dim X c) {o : Object V} {env : InsEnv}
    (hd : (o.vec.getD []).length = dim) (hl : env.level < 4294967296)
    (hc : c.counter.count.toNat + 1 < 18446744073709551616) :
    ∃ c' o' e, c.insertOne L o env = .ok (c', o', e) ∧ WInv S L dim X c' ∧ InsEff L c c' o o' e := by
  obtain ⟨f, hf, hu⟩ := i.ids
  obtain ⟨cs1, cs2, cs3⟩ := counter_step hf hc
  obtain ⟨fr1, fr2, fr3⟩ := fresh_of i
  unfold Coll.insertOne
  rcases fetchAndInc_eq c.counter env.counterFails with ⟨e, h1, _⟩ | ⟨h1, _⟩
  · rw [h1]
    dsimp only
    refine ⟨_, _, _, rfl, i.withCounter _ ⟨f, cs1, hu⟩, ?_⟩
    exact ⟨rfl, rfl, rfl, rfl, rfl, rfl, rfl, fun _ _ => rfl, rfl, rfl, Or.inl ⟨rfl, by simp, rfl, rfl⟩, rfl, fun _ _ h => h,
      (fun h => by cases h), fun _ _ => ⟨rfl, rfl⟩⟩
  · rw [h1]
    dsimp only
    -- the counter is written from here on
    have hfile : overwrite c.counter.file (putUint64 (c.counter.count + 1)) = putUint64 (c.counter.count + 1) := by
      rcases cs3.1 with ⟨_, h0⟩ | h0
      · exfalso
        have : (c.counter.count + 1).toNat = 0 := by rw [h0]; rfl
        omega
      · exact h0
    have hids : ∀ (P : Coll), P.counter = ({ c.counter with count := c.counter.count + 1, file := overwrite c.counter.file (putUint64 (c.counter.count + 1)) } : IdCounter) →
        (∀ id, (keyOf id ∈ P.stores.objects.keys ∨ keyOf id ∈ P.stores.vectors.keys ∨ id ∈ P.index.deleted) →
          id = c.counter.count ∨ (keyOf id ∈ c.stores.objects.keys ∨ keyOf id ∈ c.stores.vectors.keys ∨ id ∈ c.index.deleted)) →
        ∃ f, CounterOK P.counter f ∧ ∀ id, (keyOf id ∈ P.stores.objects.keys ∨ keyOf id ∈ P.stores.vectors.keys ∨
          id ∈ P.index.deleted) → id.toNat < f.toNat := by
      intro P hP hsub
      refine ⟨c.counter.count + 1, by rw [hP]; exact cs3, ?_⟩
      intro id hid
      rw [cs2]
      rcases hsub id hid with rfl | h
      · omega
      · have := hu id h; have := hf.2; omega
    have hkf : keyOf c.counter.count ∉ c.stores.objects.keys := fr1
    have hmemset : ∀ (m : AMap Bytes Bytes) (b : Bytes) (id : UInt64), keyOf id ∈ (m.set (keyOf c.counter.count) b).keys →
        id = c.counter.count ∨ keyOf id ∈ m.keys := by
      intro m b id h
      rw [AMap.keys_set] at h
      split at h
      · exact Or.inr h
      · rcases List.mem_append.mp h with h | h
        · exact Or.inr h
        · exact Or.inl (keyOf_inj (by simpa using h))
    unfold putObject
    cases hs : serializeProperties L.json { o with id := c.counter.count } with
    | error e =>
      dsimp only
      refine ⟨_, _, _, rfl, i.withCounter _ (hids { c with counter := _ } rfl (fun id h => Or.inr h)), ?_⟩
      exact ⟨rfl, rfl, rfl, rfl, rfl, rfl, rfl, fun _ _ => rfl, rfl, rfl, Or.inr ⟨rfl, hfile⟩, rfl, fun _ _ h => h,
        (fun h => by cases h), fun _ _ => ⟨rfl, rfl⟩⟩
    | ok ob =>
      dsimp only
      obtain ⟨jb, hjb⟩ : ∃ jb, L.json.marshal o.props = some jb := by
        unfold serializeProperties at hs
        cases hm : L.json.marshal o.props with
        | none => dsimp only at hs; rw [hm] at hs; cases hs
        | some jb => exact ⟨jb, rfl⟩
      obtain ⟨hjl, p, hp⟩ := i.json.back _ _ hjb
      have hdec : deserializeProperties L.json ob = .ok p := deserialize_serializeProperties L.json _ jb ob p hjb hjl hp hs
      by_cases hpo : env.put = .objects
      · rw [if_pos hpo]
        dsimp only
        refine ⟨_, _, _, rfl, i.withCounter _ (hids { c with counter := _ } rfl (fun id h => Or.inr h)), ?_⟩
        exact ⟨rfl, rfl, rfl, rfl, rfl, rfl, rfl, fun _ _ => rfl, rfl, rfl, Or.inr ⟨rfl, hfile⟩, rfl, fun _ _ h => h,
        (fun h => by cases h), fun _ _ => ⟨rfl, rfl⟩⟩
      rw [if_neg hpo]
      have hdec' : ∀ id b, (c.stores.objects.set (keyOf c.counter.count) ob).get? (keyOf id) = some b →
          ∃ p, deserializeProperties L.json b = .ok p := by
        intro id b hb
        rw [AMap.get?_set] at hb
        split at hb
        · cases hb; exact ⟨p, hdec⟩
        · exact i.dec id b hb
      have hok' : ∀ (m : AMap Bytes Bytes) (b : Bytes), (∀ k ∈ m.keys, ∃ id, k = keyOf id) →
          ∀ k ∈ (m.set (keyOf c.counter.count) b).keys, ∃ id, k = keyOf id := by
        intro m b hm k hk
        rw [AMap.keys_set] at hk
        split at hk
        · exact hm k hk
        · rcases List.mem_append.mp hk with hk | hk
          · exact hm k hk
          · exact ⟨c.counter.count, by simpa using hk⟩
      have hself : ∀ (m : AMap Bytes Bytes) (b : Bytes), keyOf c.counter.count ∈ (m.set (keyOf c.counter.count) b).keys := by
        intro m b; rw [← AMap.get?_isSome_iff, AMap.get?_set_self]; rfl
      have hmono : ∀ (m : AMap Bytes Bytes) (b : Bytes) k, k ∈ m.keys → k ∈ (m.set (keyOf c.counter.count) b).keys := by
        intro m b k hk
        rw [AMap.keys_set]; split
        · exact hk
        · exact List.mem_append_left _ hk
      have hvnone : c.stores.vectors.get? (keyOf c.counter.count) = none := (AMap.get?_none_iff _ _).mpr fr2
      have honone : c.stores.objects.get? (keyOf c.counter.count) = none := (AMap.get?_none_iff _ _).mpr fr1
      by_cases hpv : env.put = .vectors
      · rw [if_pos hpv]
        dsimp only
        refine ⟨_, _, _, rfl, ⟨i.json, i.dimM, i.dim32, i.idx, i.cfg, i.vecs, AMap.keys_set_nodup i.ond _ _, i.vnd, i.vkeys,
          hok' _ _ i.okeys, ?_, hdec', ?_, ?_, ?_⟩, ?_⟩
        · intro id; exact i.vstore id
        · refine hids _ rfl ?_
          intro id h
          rcases h with h | h | h
          · rcases hmemset _ _ _ h with h | h
            · exact Or.inl h
            · exact Or.inr (Or.inl h)
          · exact Or.inr (Or.inr (Or.inl h))
          · exact Or.inr (Or.inr (Or.inr h))
        · intro id hid h
          rcases hmemset _ _ _ h with rfl | h
          · exact fr3 hid
          · exact i.del id hid h
        · intro id h1 h2
          exact i.live id h1 (fun h => h2 (hmono _ _ _ h))
        · refine ⟨rfl, rfl, rfl, rfl, rfl, rfl, rfl, ?_, rfl, rfl, Or.inr ⟨rfl, hfile⟩, rfl, fun _ _ h => h, (fun h => by cases h), fun _ _ => ⟨?_, rfl⟩⟩
          · intro id hne; exact getObject_setO_ne _ _ _ _ _ hne
          · unfold getObject
            dsimp only
            rw [AMap.get?_set_self, honone, hvnone]
      · rw [if_neg hpv]
        dsimp only
        have hidn : c.counter.count ∉ c.index.nodes.keys := fun h => fr2 ((vkey_iff i _).mpr h)
        obtain ⟨idx', he, hinv, hins⟩ := insert_spec i.dimM i.idx i.cfg i.vecs hidn hd hl
        rw [he, ok_bind]
        have hvec : deserializeVector (serializeVector (o.vec.getD [])) = .ok (o.vec.getD []) :=
          deserialize_serializeVector _ (by rw [hd]; exact i.dim32)
        refine ⟨_, _, _, rfl, ⟨i.json, i.dimM, i.dim32, hinv, by rw [hins.cfg]; exact i.cfg, hins.vecOK i.vecs hd,
          AMap.keys_set_nodup i.ond _ _, AMap.keys_set_nodup i.vnd _ _, hok' _ _ i.vkeys, hok' _ _ i.okeys, ?_, hdec', ?_, ?_, ?_⟩, ?_⟩
        · intro id
          rw [hins.vecs]
          unfold getVector
          dsimp only
          rw [AMap.get?_set]
          by_cases hid : id = c.counter.count
          · subst hid
            rw [if_pos rfl, if_pos rfl]
            dsimp only
            rw [hvec]
          · rw [if_neg (fun h => hid (keyOf_inj h).symm), if_neg hid]
            exact i.vstore id
        · refine hids _ rfl ?_
          intro id h
          dsimp only at h
          rw [hins.deleted] at h
          rcases h with h | h | h
          · rcases hmemset _ _ _ h with h | h
            · exact Or.inl h
            · exact Or.inr (Or.inl h)
          · rcases hmemset _ _ _ h with h | h
            · exact Or.inl h
            · exact Or.inr (Or.inr (Or.inl h))
          · exact Or.inr (Or.inr (Or.inr h))
        · intro id hid h
          dsimp only at hid
          rw [hins.deleted] at hid
          rcases hmemset _ _ _ h with rfl | h
          · exact fr3 hid
          · exact i.del id hid h
        · intro id h1 h2
          dsimp only
          rw [hins.deleted]
          rcases hmemset _ _ _ h1 with rfl | h1
          · exact absurd (hself _ _) h2
          · exact i.live id h1 (fun h => h2 (hmono _ _ _ h))
        · refine ⟨rfl, rfl, rfl, hins.cfg, rfl, rfl, rfl, ?_, hins.deleted, hins.disk, Or.inr ⟨rfl, hfile⟩, rfl, ?_, ?_, (fun _ h => by cases h)⟩
          · intro id hne; exact getObject_set_ne _ _ _ _ _ _ hne
          · intro id v hv
            dsimp only
            rw [hins.vecs]
            split
            · rename_i hid
              subst hid
              have : c.index.nodes.get? c.counter.count = none := (AMap.get?_none_iff _ _).mpr hidn
              unfold vecOf at hv; rw [this] at hv; simp at hv
            · exact hv
          · intro _
            refine ⟨rfl, ⟨jb, p, hjb, hp, ?_⟩, ?_, hins, ?_⟩
            · unfold getObject
              dsimp only
              rw [AMap.get?_set_self, AMap.get?_set_self]
              dsimp only
              rw [hdec]
              dsimp only
              rw [hvec]
            · show (c.stores.objects.set _ _).length = c.stores.objects.length + 1
              rw [AMap.set_length, if_neg fr1]
            · exact hfile

end Vectory
