import Verif.Lemmas.LinBook
import Verif.Lemmas.CollReach
/-! What a call that holds no lock sees while another one is writing. -/
namespace Vectory.Conc
open Vectory
variable {V D : Type}

/-- `c`, seen in the middle of a write, against the collection `a` of the chosen order. -/
structure View (L : Lib V D) (a c : Coll) : Prop where
  closed : c.closed = a.closed
  objs : ∀ k, k ∈ a.stores.objects.keys → k ∈ c.stores.objects.keys
  vecs : ∀ k, k ∈ a.stores.vectors.keys → k ∈ c.stores.vectors.keys
  dec : ∀ id b, c.stores.objects.get? (keyOf id) = some b → ∃ p, deserializeProperties L.json b = .ok p
  vdec : ∀ id b, c.stores.vectors.get? (keyOf id) = some b → ∃ v, deserializeVector b = .ok v

theorem WInv.vdec {L : Lib V D} {dim : Nat} {c : Coll} {S : Prop} {X : UInt64 → Prop} (i : WInv S L dim X c) (id : UInt64) (b : Bytes)
    (h : c.stores.vectors.get? (keyOf id) = some b) : ∃ v, deserializeVector b = .ok v := by
  have := i.vstore id
  unfold getVector at this
  rw [h] at this
  dsimp only at this
  cases hd : deserializeVector b with
  | error p => rw [hd] at this; cases this
  | ok v => exact ⟨v, rfl⟩

theorem View.refl {L : Lib V D} {dim : Nat} {c : Coll} {S : Prop} {X : UInt64 → Prop} (i : WInv S L dim X c) : View L c c :=
  ⟨rfl, fun _ h => h, fun _ h => h, i.dec, WInv.vdec i⟩

/-- the writer `n`, making the call `op`, is at `body`, and the collection is `c`. -/
def Held (fixed : Bool) (L : Lib V D) (dim : Nat) (a : Coll) (S : List (Nat × LOp V × LOut V D)) (d : Option Nat) (n : Nat) (op : LOp V)
    (c : Coll) : Body V D → Prop
  | .fetch o1 env ff => d = none ∧ c = a ∧ ∃ o embed, op = .insert o embed env ff ∧ prepare a [o] embed = .ok (.ok [o1]) ∧
      Legal dim a (.insert o embed env ff)
  | .putObj o2 env ff => d = none ∧ ∃ o embed o1 ctr id, op = .insert o embed env ff ∧ prepare a [o] embed = .ok (.ok [o1]) ∧
      Legal dim a (.insert o embed env ff) ∧ fetchAndInc a.counter env.counterFails = (ctr, .ok id) ∧ o2 = { o1 with id := id } ∧
      c = { a with counter := ctr }
  | .putVec o2 env ff => d = none ∧ ∃ o embed o1 ctr id bytes, op = .insert o embed env ff ∧ prepare a [o] embed = .ok (.ok [o1]) ∧
      Legal dim a (.insert o embed env ff) ∧ fetchAndInc a.counter env.counterFails = (ctr, .ok id) ∧ o2 = { o1 with id := id } ∧
      serializeProperties L.json o2 = .ok bytes ∧ env.put ≠ .objects ∧
      c = { a with counter := ctr, stores := { a.stores with objects := a.stores.objects.set (keyOf id) bytes } }
  | .index o2 env ff => d = none ∧ ∃ o embed o1 ctr id bytes, op = .insert o embed env ff ∧ prepare a [o] embed = .ok (.ok [o1]) ∧
      Legal dim a (.insert o embed env ff) ∧ fetchAndInc a.counter env.counterFails = (ctr, .ok id) ∧ o2 = { o1 with id := id } ∧
      serializeProperties L.json o2 = .ok bytes ∧ env.put ≠ .objects ∧ env.put ≠ .vectors ∧
      c = { a with counter := ctr, stores := { objects := a.stores.objects.set (keyOf id) bytes,
                                               vectors := a.stores.vectors.set (keyOf id) (serializeVector (o1.vec.getD [])) } }
  | .batch workers b => d = none ∧ c = b.c ∧ ∃ two os embed acts, op = .batch two workers os embed ∧
      BatchAt fixed two L dim workers a os embed acts b ∧ NoRace fixed two L dim workers a os embed acts
  | .erase id ff => d = some n ∧ op = .delete id false ff ∧ c.closed = false ∧ WInv False L dim (fun _ => True) c ∧
      a = (Coll.blindDelete c id false ff).1 ∧ (n, op, .deleted (Coll.blindDelete c id false ff).2) ∈ S
  | .mark id ff => d = some n ∧ op = .delete id false ff ∧ c.closed = false ∧ ∃ p, WInv False L dim (fun _ => True) p ∧
      c = { p with stores := deleteObject p.stores id } ∧
      a = (Coll.blindDelete p id false ff).1 ∧ (n, op, .deleted (Coll.blindDelete p id false ff).2) ∈ S

theorem prepare_open {c : Coll} {os objs : List (Object V)} {embed : Embed V} (h : prepare c os embed = .ok (.ok objs)) :
    c.closed = false ∧ validateObjects c.mappings 0 os = none ∧ embedObjectsIfNeeded c embed os = .ok (.ok objs) := by
  unfold prepare at h
  cases hc : c.closed with
  | true => rw [hc] at h; cases h
  | false =>
    rw [hc] at h
    simp only [Bool.false_eq_true, if_false] at h
    cases hv : validateObjects c.mappings 0 os with
    | some e => rw [hv] at h; cases h
    | none => rw [hv] at h; exact ⟨rfl, rfl, h⟩

/-- a serialized object reads back. -/
theorem ser_back {L : Lib V D} (hj : JsonOK L.json) {o : Object V} {bytes : Bytes} (h : serializeProperties L.json o = .ok bytes) :
    ∃ p, deserializeProperties L.json bytes = .ok p := by
  cases hm : L.json.marshal o.props with
  | none => unfold serializeProperties at h; rw [hm] at h; cases h
  | some text =>
    obtain ⟨hl, p, hp⟩ := hj.back _ _ hm
    exact ⟨p, deserialize_serializeProperties L.json o text bytes p hm hl hp h⟩

section
variable {fixed : Bool} {L : Lib V D} {dim : Nat}

theorem mem_set_keys {K A : Type} [DecidableEq K] (m : AMap K A) (k x : K) (b : A) (h : x ∈ m.keys) : x ∈ (m.set k b).keys := by
  rw [AMap.keys_set]
  split
  · exact h
  · exact List.mem_append_left _ h

/-- a batch, at any moment. -/
theorem BatchAt.view {two : Bool} {workers : Nat} {a : Coll} {os : List (Object V)} {embed : Embed V} {acts : List BAct} {b : Batch V D}
    (i : WInv False L dim (fun _ => True) a) (h : BatchAt fixed two L dim workers a os embed acts b) :
    View L a b.c ∧ b.c.index.deleted = a.index.deleted ∧ a.closed = false := by
  obtain ⟨objs, _, hopen, _, _, ok, ⟨F, A, B, X0, X1, X2, js, hj, s⟩, _⟩ := h.state i
  have key : ∀ b : Batch V D, BInv fixed L dim a objs workers b F A B X0 X1 X2 js →
      View L a b.c ∧ b.c.index.deleted = a.index.deleted := by
    intro b v
    obtain ⟨k1, k2, _, _⟩ := v.keys ok
    obtain ⟨l1, l2, l3, l4⟩ := v.lookup ok
    refine ⟨⟨v.conf.2.2, ?_, ?_, ?_, ?_⟩, (sched_grow (init_quiet' _ _) v.sched).deleted⟩
    · intro k hk
      obtain ⟨id, rfl⟩ := i.okeys k hk
      exact (k1 id).mpr (Or.inl hk)
    · intro k hk
      obtain ⟨id, rfl⟩ := i.vkeys k hk
      exact (k2 id).mpr (Or.inl hk)
    · intro id bs hb
      by_cases hA : id ∈ A.map Prod.snd
      · obtain ⟨p, hp, rfl⟩ := List.mem_map.mp hA
        rw [l1 p hp] at hb; cases hb
        obtain ⟨o, text, h1, h2⟩ := v.dat.ser p hp
        obtain ⟨q, _, hq⟩ := objBytes_back ok h1 h2
        exact ⟨q, hq⟩
      · rw [l3 id hA] at hb; exact i.dec id bs hb
    · intro id bs hb
      by_cases hB : id ∈ B.map Prod.snd
      · obtain ⟨p, hp, rfl⟩ := List.mem_map.mp hB
        rw [l2 p hp] at hb; cases hb
        obtain ⟨o, text, h1, h2⟩ := v.dat.ser p (v.dat.subB p hp)
        exact ⟨_, deserialize_serializeVector _ (by rw [vecAt_dim ok h1]; exact ok.inv.dim32)⟩
      · rw [l4 id hB] at hb; exact WInv.vdec i id bs hb
  rcases s with ⟨v, _⟩ | ⟨c1, ff, v, _, _, hc, _⟩
  · exact ⟨(key b v).1, (key b v).2, hopen⟩
  · obtain ⟨w, dl⟩ := key _ v
    rw [hc]
    exact ⟨⟨w.closed, w.objs, w.vecs, w.dec, w.vdec⟩, dl, hopen⟩

theorem blind_eq (c : Coll) (id : UInt64) (ff : Bool) : Coll.blindDelete c id false ff =
    ({ c with stores := deleteObject c.stores id, index := c.index.delete id } : Coll).flush ff := rfl

theorem mem_erase_keys {K A : Type} [DecidableEq K] {m : AMap K A} {k x : K} (h : x ∈ (m.erase k).keys) : x ∈ m.keys := by
  rw [AMap.keys_erase] at h
  exact (List.mem_filter.mp h).1

/-- what can be seen while a writer is at work. -/
theorem Held.view {a : Coll} {S : List (Nat × LOp V × LOut V D)} {d : Option Nat} {n : Nat} {op : LOp V} {c : Coll} {body : Body V D}
    (i : WInv False L dim (fun _ => True) a) (h : Held fixed L dim a S d n op c body) : View L a c ∧ a.closed = false := by
  cases body with
  | fetch o1 env ff =>
    obtain ⟨_, rfl, o, embed, _, hp, _⟩ := h
    exact ⟨View.refl i, (prepare_open hp).1⟩
  | putObj o2 env ff =>
    obtain ⟨_, o, embed, o1, ctr, id, _, hp, _, _, _, rfl⟩ := h
    exact ⟨⟨rfl, fun _ h => h, fun _ h => h, i.dec, fun x b hb => WInv.vdec i x b hb⟩, (prepare_open hp).1⟩
  | putVec o2 env ff =>
    obtain ⟨_, o, embed, o1, ctr, id, bytes, _, hp, _, _, _, hs, _, rfl⟩ := h
    refine ⟨⟨rfl, fun _ h => mem_set_keys _ _ _ _ h, fun _ h => h, ?_, fun x b hb => WInv.vdec i x b hb⟩, (prepare_open hp).1⟩
    intro x b hb
    dsimp only at hb
    rw [AMap.get?_set] at hb
    split at hb
    · cases hb; exact ser_back i.json hs
    · exact i.dec x b hb
  | index o2 env ff =>
    obtain ⟨_, o, embed, o1, ctr, id, bytes, _, hp, hl, _, _, hs, _, _, rfl⟩ := h
    refine ⟨⟨rfl, fun _ h => mem_set_keys _ _ _ _ h, fun _ h => mem_set_keys _ _ _ _ h, ?_, ?_⟩, (prepare_open hp).1⟩
    · intro x b hb
      dsimp only at hb
      rw [AMap.get?_set] at hb
      split at hb
      · cases hb; exact ser_back i.json hs
      · exact i.dec x b hb
    · intro x b hb
      dsimp only at hb
      rw [AMap.get?_set] at hb
      split at hb
      · cases hb
        obtain ⟨⟨r, hr, hd⟩, _⟩ := hl
        rw [(prepare_open hp).2.2] at hr
        cases hr
        exact ⟨_, deserialize_serializeVector _ (by rw [hd [o1] rfl o1 (by simp)]; exact i.dim32)⟩
      · exact WInv.vdec i x b hb
  | batch workers b =>
    obtain ⟨_, rfl, two, os, embed, acts, _, hb, _⟩ := h
    have := hb.view i
    exact ⟨this.1, this.2.2⟩
  | erase id ff =>
    obtain ⟨_, _, ho, j, rfl, _⟩ := h
    refine ⟨⟨rfl, fun _ h => mem_erase_keys h, fun _ h => h, j.dec, WInv.vdec j⟩, ho⟩
  | mark id ff =>
    obtain ⟨_, _, ho, p, j, rfl, rfl, _⟩ := h
    refine ⟨⟨rfl, fun _ h => h, fun _ h => h, ?_, fun x b hb => WInv.vdec j x b hb⟩, ho⟩
    intro x b hb
    have hb : (p.stores.objects.erase (keyOf id)).get? (keyOf x) = some b := hb
    rw [AMap.get?_erase] at hb
    split at hb
    · cases hb
    · exact j.dec x b hb

/-- nothing disappears from the stores during a step of a batch. -/
theorem Batch.step_keys {b b' : Batch V D} {act : BAct} (h : b.step fixed L act = some b') :
    (∀ k, k ∈ b.c.stores.objects.keys → k ∈ b'.c.stores.objects.keys) ∧ (∀ k, k ∈ b.c.stores.vectors.keys → k ∈ b'.c.stores.vectors.keys) := by
  cases act with
  | cancel => cases h; exact ⟨fun _ h => h, fun _ h => h⟩
  | giveUp =>
    simp only [Batch.step] at h
    split at h
    · cases h; exact ⟨fun _ h => h, fun _ h => h⟩
    · cases h
  | finish ff =>
    simp only [Batch.step] at h
    split at h
    · split at h <;> cases h <;> exact ⟨fun _ h => h, fun _ h => h⟩
    · cases h
  | work i env =>
    have h : b.work fixed L i env = some b' := h
    unfold Batch.work at h
    split at h
    · cases h
    · split at h
      · split at h <;> cases h <;> exact ⟨fun _ h => h, fun _ h => h⟩
      · split at h
        · cases h; exact ⟨fun _ h => h, fun _ h => h⟩
        · split at h <;> cases h <;> exact ⟨fun _ h => h, fun _ h => h⟩
      · split at h <;> cases h <;> exact ⟨fun _ h => h, fun _ h => h⟩
      · split at h
        · cases h
        · split at h
          · cases h; exact ⟨fun _ h => h, fun _ h => h⟩
          · split at h <;> cases h
            · exact ⟨fun _ h => h, fun _ h => h⟩
            · exact ⟨fun _ h => mem_set_keys _ _ _ _ h, fun _ h => h⟩
      · split at h
        · cases h
        · split at h <;> cases h
          · exact ⟨fun _ h => h, fun _ h => h⟩
          · exact ⟨fun _ h => h, fun _ h => mem_set_keys _ _ _ _ h⟩
      · split at h
        · cases h
        · split at h <;> cases h
          exact ⟨fun _ h => h, fun _ h => h⟩
      · cases h
      · cases h
      · cases h
      · cases h

theorem Batch.run_snoc {act : BAct} : ∀ (acts : List BAct) (b b1 b2 : Batch V D), b.run fixed L acts = some b1 → b1.step fixed L act = some b2 →
    b.run fixed L (acts ++ [act]) = some b2 := by
  intro acts
  induction acts with
  | nil =>
    intro b b1 b2 h1 h2
    cases h1
    simp only [List.nil_append, Batch.run, h2]
  | cons a as ih =>
    intro b b1 b2 h1 h2
    simp only [List.cons_append, Batch.run] at h1 ⊢
    cases hs : b.step fixed L a with
    | none => simp only [hs] at h1; cases h1
    | some b3 =>
      simp only [hs] at h1
      exact ih b3 b1 b2 h1 h2

theorem BatchAt.snoc {two : Bool} {workers : Nat} {a : Coll} {os : List (Object V)} {embed : Embed V} {acts : List BAct} {b b' : Batch V D}
    {act : BAct} (h : BatchAt fixed two L dim workers a os embed acts b) (hs : b.step fixed L act = some b')
    (hl : ∀ i env, act = .work i env → env.level < 4294967296) : BatchAt fixed two L dim workers a os embed (acts ++ [act]) b' := by
  obtain ⟨h1, h2, h3, h4, objs, b0, h5, h6, h7⟩ := h
  refine ⟨h1, h2, h3, ?_, objs, b0, h5, h6, Batch.run_snoc _ _ _ _ h7 hs⟩
  intro i env hm
  rcases List.mem_append.mp hm with hm | hm
  · exact h4 i env hm
  · exact hl i env (List.mem_singleton.mp hm).symm

theorem race_ts {h h' : Hnsw} {ts : List (Thread D)} (hr : ¬ Race ⟨h, ts⟩) : ¬ Race ⟨h', ts⟩ := hr

/-- only steps of workers change what the workers are doing. -/
theorem Batch.step_ts {b b' : Batch V D} {act : BAct} (hs : b.step fixed L act = some b') (hw : ∀ i env, act ≠ .work i env) :
    b'.ts = b.ts := by
  cases act with
  | cancel => cases hs; rfl
  | giveUp =>
    simp only [Batch.step] at hs
    split at hs
    · cases hs; rfl
    · cases hs
  | finish ff =>
    simp only [Batch.step] at hs
    split at hs
    · split at hs <;> cases hs <;> rfl
    · cases hs
  | work i env => exact absurd rfl (hw i env)

/-- a batch that is just beginning. -/
theorem NoRace.nil {two : Bool} {workers : Nat} {a : Coll} {os : List (Object V)} {embed : Embed V} :
    NoRace fixed two L dim workers a os embed [] := by
  intro pre b hp h
  have : pre = [] := List.prefix_nil.mp hp
  subst this
  obtain ⟨_, _, _, _, objs, b0, _, h6, h7⟩ := h
  cases h7
  have key : ∀ t ∈ b.ts, t.pc.writesOwn = false := by
    cases two with
    | true => cases h6; intro t ht; rw [(List.mem_replicate.mp ht).2]; rfl
    | false =>
      simp only [Bool.false_eq_true, if_false] at h6
      unfold startBatch at h6
      split at h6
      · cases h6
      · cases h6; intro t ht; rw [(List.mem_replicate.mp ht).2]; rfl
  rintro ⟨i, k, t, u, _, ht, _, hw, _⟩
  rw [key t (List.mem_of_getElem? ht)] at hw
  cases hw

theorem NoRace.snoc {two : Bool} {workers : Nat} {a : Coll} {os : List (Object V)} {embed : Embed V} {acts : List BAct} {b b' : Batch V D}
    {act : BAct} (h : NoRace fixed two L dim workers a os embed acts) (hb : BatchAt fixed two L dim workers a os embed acts b)
    (hs : b.step fixed L act = some b') (hw : ∀ i env, act = .work i env → ¬ Race ⟨b'.c.index, b'.ts⟩) :
    NoRace fixed two L dim workers a os embed (acts ++ [act]) := by
  intro pre x hp hx
  rcases List.prefix_concat_iff.mp hp with rfl | hp
  · have e : x = b' := by
      obtain ⟨_, _, _, _, objs, b0, h5, h6, h7⟩ := hb
      obtain ⟨_, _, _, _, objs', b0', k5, k6, k7⟩ := hx
      rw [h5] at k5; cases k5
      rw [h6] at k6; cases k6
      have := Batch.run_snoc _ _ _ _ h7 hs
      rw [k7] at this
      exact Option.some.inj this
    subst e
    cases act with
    | work i env => exact hw i env rfl
    | _ =>
      have e := Batch.step_ts hs (fun _ _ h => nomatch h)
      rw [e]
      exact race_ts (h acts b (List.prefix_refl _) hb)
  · exact h pre x hp hx

theorem blind_inv {c : Coll} (i : WInv False L dim (fun _ => True) c) {id : UInt64} (df ff : Bool)
    (ho : keyOf id ∈ c.stores.objects.keys ∨ id ∈ c.index.deleted) : WInv False L dim (fun _ => True) (Coll.blindDelete c id df ff).1 := by
  cases df with
  | true => exact i
  | false => exact (erased_inv' i ho).flush ff

/-- a `Delete` that got through to the lock, running alone. -/
theorem blind_alone {Z : Coll → Except Err Nat → Prop} {c : Coll} (i : WInv False L dim (fun _ => True) c) {id : UInt64} (df ff : Bool) (hc : c.closed = false)
    (hv : keyOf id ∈ c.stores.vectors.keys) (ho : keyOf id ∈ c.stores.objects.keys ∨ id ∈ c.index.deleted) :
    Alone fixed Z L dim c (.delete id df ff) (.deleted (Coll.blindDelete c id df ff).2 : LOut V D) (Coll.blindDelete c id df ff).1 := by
  by_cases hk : keyOf id ∈ c.stores.objects.keys
  · obtain ⟨r, hr, hs, _⟩ := getObject_eq i id
    cases r with
    | none => exact absurd (hs.mpr ⟨hk, hv⟩) (by simp)
    | some o =>
      apply Alone.delete
      unfold Coll.delete
      have hn : (c.closed && c.stores.objects.has (keyOf id)) = false := by rw [hc]; rfl
      rw [hn, hr]
      cases df <;> rfl
  · exact Alone.again hk (ho.resolve_left hk)

end

end Vectory.Conc
