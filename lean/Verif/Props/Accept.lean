import Verif.Lemmas.Crash
import Verif.Lemmas.Sim
import Verif.Spec.Demo
/-! # Which objects are accepted, and what a refusal leaves behind: C08, C10, C11, C12 -/
namespace Vectory
variable {V D : Type}

/-! ## C08 -/

theorem AMap.mem_keys_set {K W : Type} [DecidableEq K] (m : AMap K W) (k x : K) (v : W) :
    x ∈ (m.set k v).keys ↔ x = k ∨ x ∈ m.keys := by
  rw [AMap.keys_set]
  split
  · constructor
    · exact Or.inr
    · rintro (rfl | h)
      · assumption
      · exact h
  · simp only [List.mem_append, List.mem_singleton]
    exact Or.comm

theorem nodup_of_map {α β : Type} {f : α → β} : ∀ {l : List α}, (l.map f).Nodup → l.Nodup := by
  intro l
  induction l with
  | nil => intro _; exact List.nodup_nil
  | cons a l ih =>
    intro h
    rw [List.map_cons, List.nodup_cons] at h
    exact List.nodup_cons.mpr ⟨fun ha => h.1 (List.mem_map_of_mem ha), ih h.2⟩

theorem nodup_map_keyOf : ∀ {l : List UInt64}, l.Nodup → (l.map keyOf).Nodup := by
  intro l
  induction l with
  | nil => intro _; exact List.nodup_nil
  | cons a l ih =>
    intro h
    rw [List.nodup_cons] at h
    rw [List.map_cons, List.nodup_cons]
    refine ⟨fun ha => ?_, ih h.2⟩
    obtain ⟨x, hx, he⟩ := List.mem_map.mp ha
    rw [keyOf_inj he] at hx
    exact h.1 hx

theorem getObject_noVectors (js : Json V) (s : Stores) (id : UInt64) (h : s.vectors = []) : getObject js s id = .ok none := by
  unfold getObject
  split
  · rfl
  · rw [h]; rfl

/-- the environment of this call does not let the second of the two store writes of an insert fail. -/
def Op.wholePuts : Op V → Prop
  | .insert _ _ env _ => env.put ≠ .vectors
  | .insertBatch _ _ envs _ => ∀ i, (envs i).put ≠ .vectors
  | _ => True

/-- every object has its vector. -/
def Paired (s : Stores) : Prop := ∀ k ∈ s.objects.keys, k ∈ s.vectors.keys

theorem putObject_paired {js : Json V} {s s' : Stores} {o : Object V} {f : PutFault} {e : Option Err} (hf : f ≠ .vectors)
    (h : putObject js s o f = (s', e)) (p : Paired s) : Paired s' := by
  unfold putObject at h
  split at h
  · cases h; exact p
  · dsimp only at h
    split at h
    · cases h; exact p
    · first
        | rw [if_neg hf] at h
        | skip
      cases h
      intro k hk
      rw [AMap.mem_keys_set] at hk ⊢
      rcases hk with hk | hk
      · exact Or.inl hk
      · exact Or.inr (p k hk)

theorem insertOne_paired {L : Lib V D} {c c' : Coll} {o o' : Object V} {env : InsEnv} {e : Option Err}
    (hf : env.put ≠ .vectors) (h : c.insertOne L o env = .ok (c', o', e)) (p : Paired c.stores) : Paired c'.stores := by
  unfold Coll.insertOne at h
  dsimp only at h
  split at h
  · cases h; exact p
  · cases hp : putObject L.json c.stores { o with id := _ } env.put with
    | mk s e1 =>
      rw [hp] at h
      have hq := putObject_paired hf hp p
      cases e1 with
      | some x => cases h; exact hq
      | none =>
        obtain ⟨idx, _, h2⟩ := (bind_ok_iff _ _ _).mp h
        cases h2; exact hq

theorem insertAll_paired {L : Lib V D} : ∀ {os : List (Object V × InsEnv)} {c c' : Coll} {os' : List (Object V)} {e : Option Err},
    (∀ p ∈ os, p.2.put ≠ .vectors) → c.insertAll L os = .ok (c', os', e) → Paired c.stores → Paired c'.stores := by
  intro os
  induction os with
  | nil => intro c c' os' e _ h p; cases h; exact p
  | cons q os ih =>
    obtain ⟨o, env⟩ := q
    intro c c' os' e hf h p
    unfold Coll.insertAll at h
    obtain ⟨⟨c1, o1, e1⟩, h1, h2⟩ := (bind_ok_iff _ _ _).mp h
    have p1 := insertOne_paired (hf (o, env) (List.mem_cons_self ..)) h1 p
    cases e1 with
    | some x => cases h2; exact p1
    | none =>
      obtain ⟨⟨c2, o2, e2⟩, h3, h4⟩ := (bind_ok_iff _ _ _).mp h2
      cases h4
      exact ih (fun p hp => hf p (List.mem_cons_of_mem _ hp)) h3 p1

theorem liftPanic_ok {α : Type} {r : Except Panic α} {a : α} (h : liftPanic r = .ok a) : r = .ok a := by
  cases r with
  | error p => cases h
  | ok x => cases h; rfl

theorem apply_paired {L : Lib V D} {dim : Nat} {c c' : Coll} (i : CInv L dim c) {op : Op V} {out : Out V D} (hl : Legal dim c op)
    (hw : op.wholePuts) (h : c.apply L op = .ok (c', out)) (p : Paired c.stores) : Paired c'.stores := by
  cases op with
  | insert o embed env ff =>
    simp only [Coll.apply] at h
    obtain ⟨⟨c1, o1, e⟩, h1, h2⟩ := (bind_ok_iff _ _ _).mp h
    cases h2
    cases insert_res (liftPanic_ok h1) with
    | closed => exact p
    | invalid => exact p
    | embed => exact p
    | storage _ _ _ _ _ _ _ hin => exact insertOne_paired hw hin p
    | done _ _ c2 _ _ _ hin => exact (insertOne_paired hw hin p : Paired c2.stores)
  | insertBatch os embed envs ff =>
    simp only [Coll.apply] at h
    obtain ⟨⟨c1, o1, e⟩, h1, h2⟩ := (bind_ok_iff _ _ _).mp h
    cases h2
    have hz : ∀ os1 : List (Object V), ∀ p ∈ os1.zipIdx.map (fun p => (p.1, envs p.2)), p.2.put ≠ .vectors := by
      intro os1 p hp
      obtain ⟨x, _, rfl⟩ := List.mem_map.mp hp
      exact hw _
    cases batch_res (liftPanic_ok h1) with
    | closed => exact p
    | invalid => exact p
    | embed => exact p
    | storage _ _ _ _ _ _ _ hin => exact insertAll_paired (hz _) hin p
    | done _ _ c2 _ _ _ hin => exact (insertAll_paired (hz _) hin p : Paired c2.stores)
  | delete id df ff =>
    simp only [Coll.apply] at h
    obtain ⟨⟨c1, e⟩, h1, h2⟩ := (bind_ok_iff _ _ _).mp h
    cases h2
    obtain ⟨c2, e2, h3, hres⟩ := delete_res i id df ff
    rw [liftPanic_ok h1] at h3; cases h3
    cases hres with
    | closed => exact p
    | absent => exact p
    | failed => exact p
    | done o hc hg _ =>
      intro k hk
      have hk' : k ∈ (c.stores.objects.erase (keyOf id)).keys := hk
      rw [AMap.keys_erase, List.mem_filter] at hk'
      exact p k hk'.1
  | get ids => cases h; exact p
  | search o embed k => cases h; exact p
  | size => cases h; exact p
  | update o => cases h; exact p
  | close sf =>
    simp only [Coll.apply, Coll.close] at h
    split at h
    · cases h; exact p
    · split at h <;> (cases h; exact p)
  | reopen =>
    obtain ⟨f, _, hro, _⟩ := coll_reopen_exact i hl (fun _ => False)
    simp only [Coll.apply, hro, ok_bind] at h
    cases h
    exact p

theorem runs_paired {L : Lib V D} {dim : Nat} {c c' : Coll} {h : List (Op V × Out V D)} (i : CInv L dim c)
    (r : Runs L dim c h c') (hw : ∀ p ∈ h, p.1.wholePuts) (p : Paired c.stores) : Paired c'.stores := by
  induction r with
  | nil => exact p
  | @cons c c1 c2 op out t hl ha _ ih =>
    obtain ⟨c3, out3, h3, i3, _⟩ := apply_spec i op hl
    rw [ha] at h3; cases h3
    exact ih i3 (fun p hp => hw p (List.mem_cons_of_mem _ hp))
      (apply_paired i hl (hw (op, out) (List.mem_cons_self ..)) ha p)

/-- C08, for histories in which the second store write of an insert does not fail (counter writes, first writes, deletes and
flushes may): `GetSize` is the number of ids that `Get` finds. Excluded: histories with such a failure, where it is false
(`C08_failed_insert_counts`). -/
theorem C08_size (L : Lib V D) (dim : Nat) (cfg : Cfg) (ms : List String) (he : Bool) (hs : Setup L dim cfg)
    (h : List (Op V × Out V D)) (c : Coll) (hr : Runs L dim (Coll.new cfg ms he) h c) (hw : ∀ p ∈ h, p.1.wholePuts)
    (ho : c.closed = false) :
    ∃ ids : List UInt64, ids.Nodup ∧ (∀ id, id ∈ ids ↔ ∃ o, c.get L [id] = .ok [o]) ∧ c.getSize = .ok ids.length := by
  have i0 := new_inv (S := True) (X := fun _ => False) L dim cfg ms he hs.json hs.metric hs.dim32 hs.cfg
  have i := runs_inv i0 hr
  have p : Paired c.stores := runs_paired i0 hr hw (by intro k hk; exact absurd hk (by simp [Coll.new, AMap.keys]))
  obtain ⟨ids, hids⟩ := keys_as_ids i.okeys
  refine ⟨ids, ?_, ?_, ?_⟩
  · have := i.ond; rw [hids] at this; exact nodup_of_map this
  · intro id
    obtain ⟨r, hr1, hr2, _⟩ := getObject_eq i id
    have hk : id ∈ ids ↔ keyOf id ∈ c.stores.objects.keys := by
      rw [hids, List.mem_map]
      constructor
      · intro h; exact ⟨id, h, rfl⟩
      · rintro ⟨x, hx, he⟩; rw [← keyOf_inj he]; exact hx
    rw [hk]
    constructor
    · intro h
      obtain ⟨o, rfl⟩ := Option.isSome_iff_exists.mp (hr2.mpr ⟨h, p _ h⟩)
      obtain ⟨_, hr3, hr4, hr5⟩ := getObject_eq i id
      rw [hr1] at hr3; cases hr3
      have hoid := (hr5 o rfl).1
      exact ⟨o, (get_single_some ho).mpr hr1⟩
    · rintro ⟨o, hg⟩
      have := (get_single_some ho).mp hg
      rw [this] at hr1; cases hr1
      exact (hr2.mp rfl).1
  · unfold Coll.getSize
    rw [ho]
    have : c.stores.objects.keys.length = ids.length := by rw [hids, List.length_map]
    simp only [Bool.false_eq_true, if_false, Stores.size]
    rw [← this, AMap.keys, List.length_map]

theorem w08_size_lower (L : Lib V D) (dim : Nat) (c : Coll) {S : Prop} {X : UInt64 → Prop} (i : WInv S L dim X c) (ho : c.closed = false) (ids : List UInt64)
    (hn : ids.Nodup) (hg : ∀ id ∈ ids, ∃ o, c.get L [id] = .ok [o]) : ∃ n, c.getSize = .ok n ∧ ids.length ≤ n := by
  refine ⟨c.stores.size, by unfold Coll.getSize; rw [ho]; rfl, ?_⟩
  have h1 : (ids.map keyOf).length ≤ c.stores.objects.keys.length := by
    apply nodup_length_le
    · exact nodup_map_keyOf hn
    · intro k hk
      obtain ⟨id, hid, rfl⟩ := List.mem_map.mp hk
      obtain ⟨o, ho2⟩ := hg id hid
      obtain ⟨r, hr1, hr2, _⟩ := getObject_eq i id
      rw [(get_single_some ho).mp ho2] at hr1; cases hr1
      exact (hr2.mp rfl).1
  simpa [Stores.size, AMap.keys] using h1


/-- C08 in every legal history: `GetSize` is never less than the number of ids that `Get` finds. -/
theorem C08_size_lower (L : Lib V D) (dim : Nat) (c : Coll) (hr : ReachAny L dim c) (ho : c.closed = false) (ids : List UInt64)
    (hn : ids.Nodup) (hg : ∀ id ∈ ids, ∃ o, c.get L [id] = .ok [o]) : ∃ n, c.getSize = .ok n ∧ ids.length ≤ n :=
  w08_size_lower L dim c hr.weak.1 ho ids hn hg

/-- C08 is false: an insert that reports an error because the vector could not be written is counted, though `Get` finds
nothing under any id - and it still is after closing and opening again. -/
theorem C08_failed_insert_counts : ∃ (c c1 c2 : Coll) (o : Object UInt8),
    (Coll.new demoCfg ["a"] false).insert demoLib (demoObj 1) noEmbed { put := .vectors } false = .ok (c, o, some .io) ∧
    c.getSize = .ok 1 ∧ (∀ id, c.get demoLib [id] = .ok []) ∧
    c.close false = (c1, none) ∧ c1.reopen = .ok c2 ∧ c2.getSize = .ok 1 ∧ (∀ id, c2.get demoLib [id] = .ok []) := by
  refine ⟨_, _, _, _, rfl, rfl, ?_, rfl, rfl, rfl, ?_⟩
  all_goals
    intro id
    exact (get_single_none (by rfl)).mpr (getObject_noVectors _ _ _ rfl)

example : ∃ h c, Runs demoLib 1 (Coll.new demoCfg ["a"] false) h c ∧ (∀ p ∈ h, p.1.wholePuts) ∧ c.closed = false ∧
    c.getSize = .ok 2 ∧ h.length = 7 := by
  have h1 : ∃ c h, playLegal demoLib 1 (Coll.new demoCfg ["a"] false)
      [demoInsert 1, .insert (demoObj 3) noEmbed { counterFails := true } false, demoInsert 2,
       .insert (demoObj 3) noEmbed { put := .objects } false, demoInsert 7, .delete 2 false false, .reopen] = some (c, h) ∧
      c.closed = false ∧ c.getSize = .ok 2 ∧
      h.map Prod.fst = [demoInsert 1, .insert (demoObj 3) noEmbed { counterFails := true } false, demoInsert 2,
       .insert (demoObj 3) noEmbed { put := .objects } false, demoInsert 7, .delete 2 false false, .reopen] :=
    ⟨_, _, rfl, rfl, rfl, rfl⟩
  obtain ⟨c, h, h1, h2, h3, h4⟩ := h1
  refine ⟨h, c, playLegal_runs _ _ _ _ h1, ?_, h2, h3, ?_⟩
  · intro p hp
    have : p.1 ∈ h.map Prod.fst := List.mem_map_of_mem hp
    rw [h4] at this
    simp only [List.mem_cons, List.not_mem_nil, or_false] at this
    rcases this with h | h | h | h | h | h | h <;> rw [h] <;> simp [Op.wholePuts, demoInsert]
  · have := congrArg List.length h4; simpa using this

/-! ## C10 -/

theorem validateObject_none {ms : List String} {n : Nat} {o : Object V} :
    validateObject ms n o = none ↔ o.props.length ≤ ms.length ∧ ∀ m ∈ ms, m ∈ o.props.keys := by
  unfold validateObject
  split
  · rename_i h; constructor
    · intro h; cases h
    · intro hh; omega
  · rename_i h
    split
    · rename_i m hm
      constructor
      · intro h; cases h
      · intro hh
        have h1 := List.find?_some hm
        have h2 := hh.2 m (List.mem_of_find?_eq_some hm)
        rw [← AMap.get?_isSome_iff] at h2
        simp [AMap.has, h2] at h1
    · rename_i hm
      rw [List.find?_eq_none] at hm
      refine ⟨fun _ => ⟨by omega, ?_⟩, fun _ => rfl⟩
      intro m hmm
      have := hm m hmm
      rw [← AMap.get?_isSome_iff]
      cases hg : o.props.get? m with
      | none => simp [AMap.has, hg] at this
      | some v => rfl

theorem validateObjects_none {ms : List String} : ∀ {os : List (Object V)} {n : Nat},
    validateObjects ms n os = none ↔ ∀ o ∈ os, o.props.length ≤ ms.length ∧ ∀ m ∈ ms, m ∈ o.props.keys := by
  intro os
  induction os with
  | nil => intro n; simp [validateObjects]
  | cons o os ih =>
    intro n
    unfold validateObjects
    cases h : validateObject ms n o with
    | some e =>
      constructor
      · intro h; cases h
      · intro hh
        have := (validateObject_none (n := n)).mpr (hh o (List.mem_cons_self ..))
        rw [h] at this; cases this
    | none =>
      rw [ih]
      constructor
      · intro hh x hx
        rcases List.mem_cons.mp hx with rfl | hx
        · exact validateObject_none.mp h
        · exact hh x hx
      · intro hh x hx; exact hh x (List.mem_cons_of_mem _ hx)

theorem subset_antisymm_of_length {α : Type} [DecidableEq α] {l₁ l₂ : List α} (hn : l₁.Nodup) (hs : ∀ x ∈ l₁, x ∈ l₂)
    (hl : l₂.length ≤ l₁.length) : ∀ x ∈ l₂, x ∈ l₁ := by
  intro x hx
  apply Classical.byContradiction
  intro hnx
  have : (x :: l₁).length ≤ l₂.length := nodup_length_le (List.nodup_cons.mpr ⟨hnx, hn⟩) (by
    intro y hy
    rcases List.mem_cons.mp hy with rfl | hy
    · exact hx
    · exact hs y hy)
  simp at this
  omega

theorem insert_valid {L : Lib V D} {c c1 : Coll} {o o1 : Object V} {embed : Embed V} {env : InsEnv} {ff : Bool}
    (h : c.insert L o embed env ff = .ok (c1, o1, none)) : validateObjects c.mappings 0 [o] = none := by
  have key : ∀ e, c.insert L o embed env ff = .ok (c1, o1, e) → e = none → validateObjects c.mappings 0 [o] = none := by
    intro e h he
    cases insert_res h with
    | closed => cases he
    | invalid => cases he
    | embed => cases he
    | storage => cases he
    | done _ _ _ _ hv => exact hv
  exact key none h rfl

theorem batch_valid {L : Lib V D} {c c1 : Coll} {os os1 : List (Object V)} {embed : Embed V} {envs : Nat → InsEnv} {ff : Bool}
    (h : c.insertBatch L os embed envs ff = .ok (c1, os1, none)) : validateObjects c.mappings 0 os = none := by
  have key : ∀ e, c.insertBatch L os embed envs ff = .ok (c1, os1, e) → e = none → validateObjects c.mappings 0 os = none := by
    intro e h he
    cases batch_res h with
    | closed => cases he
    | invalid => cases he
    | embed => cases he
    | storage => cases he
    | done _ _ _ _ hv => exact hv
  exact key none h rfl

/-- C10, for mappings without repetitions: an object that `Insert` accepts has exactly the mapped property names. Excluded: mappings with a repeated name, where it is false
(`C10_repeated_mapping`). -/
theorem C10_insert_properties (L : Lib V D) (c c1 : Coll) (o o1 : Object V) (embed : Embed V) (env : InsEnv) (ff : Bool)
    (hm : c.mappings.Nodup) (h : c.insert L o embed env ff = .ok (c1, o1, none)) :
    ∀ name, name ∈ o.props.keys ↔ name ∈ c.mappings := by
  obtain ⟨h1, h2⟩ := validateObjects_none.mp (insert_valid h) o (by simp)
  intro name
  refine ⟨?_, h2 name⟩
  exact subset_antisymm_of_length hm h2 (by simpa [AMap.keys] using h1) name

/-- C10 for batches: every object of an accepted batch. -/
theorem C10_batch_properties (L : Lib V D) (c c1 : Coll) (os os1 : List (Object V)) (embed : Embed V)
    (envs : Nat → InsEnv) (ff : Bool) (hm : c.mappings.Nodup)
    (h : c.insertBatch L os embed envs ff = .ok (c1, os1, none)) :
    ∀ o ∈ os, ∀ name, name ∈ o.props.keys ↔ name ∈ c.mappings := by
  intro o ho
  obtain ⟨h1, h2⟩ := validateObjects_none.mp (batch_valid h) o ho
  intro name
  refine ⟨?_, h2 name⟩
  exact subset_antisymm_of_length hm h2 (by simpa [AMap.keys] using h1) name

theorem not_refused_of_valid {L : Lib V D} {c c1 : Coll} {o o1 : Object V} {embed : Embed V} {env : InsEnv} {ff : Bool} {e : Err}
    (hv : validateObjects c.mappings 0 [o] = none)
    (hem : ∀ os x, embed os = .error x → x = .embed) (h : c.insert L o embed env ff = .ok (c1, o1, some e)) :
    (∀ n, e ≠ .tooManyProperties n) ∧ ∀ n p, e ≠ .missingProperty n p := by
  have key : e = .collectionClosed ∨ e = .embed ∨ e = .missingVectorAndEmbedder ∨ e = .io ∨ e = .json ∨ e = .walOutOfOrder := by
    generalize hee : some e = ee at h
    cases insert_res h with
    | closed => cases hee; simp
    | invalid e1 _ hv1 => rw [hv] at hv1; cases hv1
    | embed e1 _ _ he1 =>
      cases hee
      unfold embedObjectsIfNeeded at he1
      split at he1
      · split at he1
        · cases he1; simp
        · cases he1
      · split at he1
        · rename_i x hx2
          cases he1
          rw [hem _ _ hx2]; simp
        · obtain ⟨t, _, h2⟩ := (bind_ok_iff _ _ _).mp he1
          cases h2
    | storage _ _ _ e1 _ _ _ hin =>
      cases hee
      rcases insertOne_err hin with h | h <;> simp [h]
    | done _ _ c2 _ _ _ _ =>
      have : (c2.flush ff).2 = (c2.index.wal.flush ff).2 := rfl
      rw [this] at hee
      unfold Wal.flush at hee
      split at hee
      · cases hee; simp
      · split at hee
        · cases hee
        · cases hee; simp
  refine ⟨?_, ?_⟩
  · intro n hn; subst hn; simp at key
  · intro n p hn; subst hn; simp at key

/-- the converse: an object with exactly the mapped names is never refused for its properties. -/
theorem C10_exact_not_refused (L : Lib V D) (c c1 : Coll) (o o1 : Object V) (embed : Embed V) (env : InsEnv) (ff : Bool) (e : Err)
    (hp : o.props.keys.Nodup) (hx : ∀ name, name ∈ o.props.keys ↔ name ∈ c.mappings)
    (hem : ∀ os x, embed os = .error x → x = .embed) (h : c.insert L o embed env ff = .ok (c1, o1, some e)) :
    (∀ n, e ≠ .tooManyProperties n) ∧ ∀ n p, e ≠ .missingProperty n p := by
  have hv : validateObjects c.mappings 0 [o] = none := by
    rw [validateObjects_none]
    intro x hx1
    simp at hx1
    subst hx1
    refine ⟨?_, fun m hm => (hx m).mpr hm⟩
    have := nodup_length_le hp (fun n hn => (hx n).mp hn)
    simpa [AMap.keys] using this
  exact not_refused_of_valid hv hem h

/-- C10 is false for a mapping list with a repeated name: `["a", "a"]` accepts an object that has a property `"b"`. -/
theorem C10_repeated_mapping : ∃ c1 o1, (Coll.new demoCfg ["a", "a"] false).insert demoLib
      { id := 0, props := [("a", 1), ("b", 2)], vec := some [5] } noEmbed {} false = .ok (c1, o1, none) ∧
    "b" ∈ o1.props.keys ∧ "b" ∉ (Coll.new demoCfg ["a", "a"] false).mappings :=
  ⟨_, _, rfl, by decide, by decide⟩

example : ∃ c1 o1, (Coll.new demoCfg ["a", "b"] false).mappings.Nodup ∧
    (Coll.new demoCfg ["a", "b"] false).insert demoLib { id := 0, props := [("b", 1), ("a", 2)], vec := some [5] } noEmbed {} false =
      .ok (c1, o1, none) := ⟨_, _, by decide, rfl⟩

/-- C10 for every mapping list: an accepted object has all mapped names, and at most as many others as the list has repetitions. -/
theorem C10_accepted_exact (L : Lib V D) (c c1 : Coll) (o o1 : Object V) (embed : Embed V) (env : InsEnv) (ff : Bool)
    (hp : o.props.keys.Nodup) (h : c.insert L o embed env ff = .ok (c1, o1, none)) :
    (∀ name ∈ c.mappings, name ∈ o.props.keys) ∧
    ∀ distinct : List String, distinct.Nodup → (∀ name, name ∈ distinct ↔ name ∈ c.mappings) →
      (o.props.keys.filter (fun name => !decide (name ∈ c.mappings))).length + distinct.length ≤ c.mappings.length := by
  obtain ⟨h1, h2⟩ := validateObjects_none.mp (insert_valid h) o (by simp)
  refine ⟨h2, fun distinct hd hm => ?_⟩
  have hsplit : ∀ (p : String → Bool) (l : List String), (l.filter (fun x => !p x)).length + (l.filter p).length = l.length := by
    intro p l
    induction l with
    | nil => rfl
    | cons a l ih => cases hp : p a <;> simp [hp] <;> omega
  have h3 : distinct.length ≤ (o.props.keys.filter (fun name => decide (name ∈ c.mappings))).length := by
    apply nodup_length_le hd
    intro x hx
    rw [List.mem_filter]
    exact ⟨h2 x ((hm x).mp hx), by simpa using (hm x).mp hx⟩
  have h4 := hsplit (fun name => decide (name ∈ c.mappings)) o.props.keys
  have h5 : o.props.keys.length ≤ c.mappings.length := by simpa [AMap.keys] using h1
  omega

/-- and what is refused for its properties is exactly what has too many of them or lacks a mapped one. -/
theorem C10_refused_exact (L : Lib V D) (c c1 : Coll) (o o1 : Object V) (embed : Embed V) (env : InsEnv) (ff : Bool) (e : Option Err)
    (ho : c.closed = false) (hem : ∀ os x, embed os = .error x → x = .embed) (h : c.insert L o embed env ff = .ok (c1, o1, e)) :
    ((∃ n, e = some (.tooManyProperties n)) ∨ (∃ n p, e = some (.missingProperty n p))) ↔
      (c.mappings.length < o.props.length ∨ ∃ name ∈ c.mappings, name ∉ o.props.keys) := by
  have hva : validateObjects c.mappings 0 [o] = none ↔ ¬ (c.mappings.length < o.props.length ∨ ∃ name ∈ c.mappings, name ∉ o.props.keys) := by
    rw [validateObjects_none]
    constructor
    · intro hh
      obtain ⟨a, b⟩ := hh o (by simp)
      rintro (h | ⟨n, h1, h2⟩)
      · omega
      · exact h2 (b n h1)
    · intro hh x hx
      simp at hx
      subst hx
      refine ⟨Nat.le_of_not_lt (fun h => hh (Or.inl h)), fun m hm => Decidable.byContradiction fun hc => hh (Or.inr ⟨m, hm, hc⟩)⟩
  have herr : ∀ x, validateObjects c.mappings 0 [o] = some x → (∃ n, x = .tooManyProperties n) ∨ ∃ n p, x = .missingProperty n p := by
    intro x hx
    unfold validateObjects at hx
    cases hv : validateObject c.mappings 0 o with
    | none => rw [hv] at hx; cases hx
    | some y =>
      rw [hv] at hx
      cases hx
      unfold validateObject at hv
      split at hv
      · cases hv; exact Or.inl ⟨_, rfl⟩
      · split at hv
        · cases hv; exact Or.inr ⟨_, _, rfl⟩
        · cases hv
  constructor
  · intro hh
    apply Decidable.byContradiction
    intro hc
    have hv := hva.mpr hc
    rcases hh with ⟨n, rfl⟩ | ⟨n, p, rfl⟩
    · exact (not_refused_of_valid hv hem h).1 n rfl
    · exact (not_refused_of_valid hv hem h).2 n p rfl
  · intro hh
    unfold Coll.insert at h
    rw [if_neg (by simp [ho])] at h
    cases hv : validateObjects c.mappings 0 [o] with
    | none => exact absurd hh (hva.mp hv)
    | some x =>
      rw [hv] at h
      cases h
      rcases herr x hv with ⟨n, rfl⟩ | ⟨n, p, rfl⟩
      · exact Or.inl ⟨n, rfl⟩
      · exact Or.inr ⟨n, p, rfl⟩

/-! ## C11 -/

/-- C11: whatever the state of the collection, when `Insert` returns an error that is not a failure of the disk or of JSON
(closed, wrong properties, no vector and no embedder, embedding failed), nothing has changed: not the collection (its files
included), not the caller's object. -/
theorem C11_insert_refused (L : Lib V D) (c c1 : Coll) (o o1 : Object V) (embed : Embed V) (env : InsEnv) (ff : Bool) (e : Err)
    (h : c.insert L o embed env ff = .ok (c1, o1, some e)) (he : e.rejection) : c1 = c ∧ o1 = o := by
  generalize hee : some e = ee at h
  cases insert_res h with
  | closed => exact ⟨rfl, rfl⟩
  | invalid => exact ⟨rfl, rfl⟩
  | embed => exact ⟨rfl, rfl⟩
  | storage _ _ _ e1 _ _ _ hin =>
    cases hee
    rcases insertOne_err hin with h | h <;> subst h <;> exact absurd he (by simp [Err.rejection])
  | done _ _ c2 _ _ _ _ =>
    exfalso
    have : (c2.flush ff).2 = (c2.index.wal.flush ff).2 := rfl
    rw [this] at hee
    unfold Wal.flush at hee
    split at hee
    · cases hee; exact he
    · split at hee
      · cases hee
      · cases hee; exact he

/-- C11 for batches. -/
theorem C11_batch_refused (L : Lib V D) (c c1 : Coll) (os os1 : List (Object V)) (embed : Embed V) (envs : Nat → InsEnv)
    (ff : Bool) (e : Err) (h : c.insertBatch L os embed envs ff = .ok (c1, os1, some e)) (he : e.rejection) :
    c1 = c ∧ os1 = os := by
  generalize hee : some e = ee at h
  cases batch_res h with
  | closed => exact ⟨rfl, rfl⟩
  | invalid => exact ⟨rfl, rfl⟩
  | embed => exact ⟨rfl, rfl⟩
  | storage _ _ _ e1 _ _ _ hin =>
    cases hee
    rcases insertAll_err hin with h | h <;> subst h <;> exact absurd he (by simp [Err.rejection])
  | done _ _ c2 _ _ _ _ =>
    exfalso
    have : (c2.flush ff).2 = (c2.index.wal.flush ff).2 := rfl
    rw [this] at hee
    unfold Wal.flush at hee
    split at hee
    · cases hee; exact he
    · split at hee
      · cases hee
      · cases hee; exact he

/-- what `validateObjects` reports is a refusal. -/
theorem validate_rejection {ms : List String} : ∀ {os : List (Object V)} {n : Nat} {e : Err},
    validateObjects ms n os = some e → e.rejection := by
  intro os
  induction os with
  | nil => intro n e h; cases h
  | cons o os ih =>
    intro n e h
    unfold validateObjects at h
    cases hv : validateObject ms n o with
    | none => rw [hv] at h; exact ih h
    | some x =>
      rw [hv] at h
      cases h
      unfold validateObject at hv
      split at hv
      · cases hv; trivial
      · split at hv
        · cases hv; trivial
        · cases hv

/-- C11: one object with a missing or an extra property anywhere in a batch is enough: the whole batch is refused, and
nothing has changed. -/
theorem C11_invalid_member (L : Lib V D) (c : Coll) (os : List (Object V)) (embed : Embed V) (envs : Nat → InsEnv) (ff : Bool)
    (ho : c.closed = false) (o : Object V) (hin : o ∈ os)
    (hbad : (∃ m ∈ c.mappings, m ∉ o.props.keys) ∨ c.mappings.length < o.props.length) :
    ∃ e, c.insertBatch L os embed envs ff = .ok (c, os, some e) ∧ e.rejection := by
  cases hv : validateObjects c.mappings 0 os with
  | none =>
    exfalso
    obtain ⟨h1, h2⟩ := validateObjects_none.mp hv o hin
    rcases hbad with ⟨m, hm, hn⟩ | hn
    · exact hn (h2 m hm)
    · omega
  | some e =>
    refine ⟨e, ?_, validate_rejection hv⟩
    unfold Coll.insertBatch
    rw [ho, hv]
    rfl

example : ∃ c1 os1 e, (demoState demoCfg [demoInsert 1, demoInsert 4]).insertBatch demoLib
      [demoObj 1, demoObj 2, { id := 0, props := [("b", 1)], vec := some [5] }] noEmbed (fun _ => {}) false =
      .ok (c1, os1, some e) ∧ e.rejection := ⟨_, _, _, rfl, trivial⟩

/-- the properties of `o` are refused by a collection with these mappings: too many, or a mapped one is missing. -/
def BadProperties (ms : List String) (o : Object V) : Prop := ms.length < o.props.length ∨ ∃ name ∈ ms, name ∉ o.props.keys

theorem validateObject_bad {ms : List String} {o : Object V} (n : Nat) (hb : BadProperties ms o) :
    if ms.length < o.props.length then validateObject ms n o = some (.tooManyProperties n)
    else ∃ p ∈ ms, p ∉ o.props.keys ∧ validateObject ms n o = some (.missingProperty n p) := by
  split
  · rename_i h; unfold validateObject; rw [if_pos h]
  · rename_i h
    cases hv : validateObject ms n o with
    | none =>
      obtain ⟨h1, h2⟩ := validateObject_none.mp hv
      rcases hb with hb | ⟨m, hm, hn⟩
      · exact absurd hb h
      · exact absurd (h2 m hm) hn
    | some e =>
      unfold validateObject at hv
      rw [if_neg h] at hv
      split at hv
      · rename_i p hf
        cases hv
        refine ⟨p, List.mem_of_find?_eq_some hf, ?_, rfl⟩
        have := List.find?_some hf
        intro hc
        simp [AMap.has, (AMap.get?_isSome_iff _ _).mpr hc] at this
      · cases hv

theorem validateObjects_first {ms : List String} : ∀ (os : List (Object V)) (n k : Nat) (o : Object V), os[k]? = some o →
    BadProperties ms o → (∀ (j : Nat) (o' : Object V), j < k → os[j]? = some o' → ¬ BadProperties ms o') →
    validateObjects ms n os = validateObject ms (n + k) o := by
  intro os
  induction os with
  | nil => intro n k o h; simp at h
  | cons a os ih =>
    intro n k o hk hb hf
    unfold validateObjects
    cases k with
    | zero =>
      simp at hk; subst hk
      have := validateObject_bad n hb
      split at this
      · rw [this]; simp [this]
      · obtain ⟨p, _, _, h⟩ := this; rw [h]; simp [h]
    | succ k =>
      have ha : ¬ BadProperties ms a := hf 0 a (by omega) rfl
      have hv : validateObject ms n a = none := by
        apply validateObject_none.mpr
        refine ⟨Nat.le_of_not_lt fun h => ha (Or.inl h), fun m hm => Decidable.byContradiction fun hc => ha (Or.inr ⟨m, hm, hc⟩)⟩
      rw [hv]
      dsimp only
      rw [ih (n + 1) k o (by simpa using hk) hb (fun j o' hj ho' => hf (j + 1) o' (by omega) (by simpa using ho'))]
      congr 1; omega

/-- C10: the error of a refused batch names the first object whose properties are wrong, and what is wrong with it. -/
theorem C10_refusal_names_first (L : Lib V D) (c : Coll) (os : List (Object V)) (embed : Embed V) (envs : Nat → InsEnv) (ff : Bool)
    (ho : c.closed = false) (k : Nat) (o : Object V) (hk : os[k]? = some o) (hbad : BadProperties c.mappings o)
    (hfirst : ∀ (j : Nat) (o' : Object V), j < k → os[j]? = some o' → ¬ BadProperties c.mappings o') :
    if c.mappings.length < o.props.length then c.insertBatch L os embed envs ff = .ok (c, os, some (.tooManyProperties k))
    else ∃ p ∈ c.mappings, p ∉ o.props.keys ∧ c.insertBatch L os embed envs ff = .ok (c, os, some (.missingProperty k p)) := by
  have h1 := validateObjects_first os 0 k o hk hbad hfirst
  rw [Nat.zero_add] at h1
  have h2 : ∀ e, validateObject c.mappings k o = some e → c.insertBatch L os embed envs ff = .ok (c, os, some e) := by
    intro e he
    unfold Coll.insertBatch
    rw [ho, h1, he]; rfl
  have h3 := validateObject_bad k hbad
  split at h3
  · rename_i hl; rw [if_pos hl]; exact h2 _ h3
  · rename_i hl; rw [if_neg hl]
    obtain ⟨p, hp, hn, h⟩ := h3
    exact ⟨p, hp, hn, h2 _ h⟩

/-- the third object lacks the property "a". -/
example : BadProperties ["a"] ({ id := 0, props := [("b", 1)], vec := some [5] } : Object UInt8) ∧ ¬ BadProperties ["a"] (demoObj 1) :=
  ⟨Or.inr ⟨"a", by decide, by decide⟩, by rintro (h | ⟨n, h, h'⟩); exact absurd h (by decide); simp at h; subst h; exact h' (by decide)⟩

/-! ## C12 -/

/-- the number of objects before position `n` that have no vector of their own. -/
def vectorless (os : List (Object V)) (n : Nat) : Nat := ((os.take n).filter (fun o => o.vec.isNone)).length

theorem assignVectors_get : ∀ (os : List (Object V)) (resp : List (Option Vec)) (os' : List (Object V)),
    assignVectors os resp = .ok os' → ∀ (n : Nat) (o o' : Object V), os[n]? = some o → os'[n]? = some o' →
      o'.vec = match o.vec with | some v => some v | none => (resp[vectorless os n]?).join := by
  intro os
  induction os with
  | nil => intro resp os' h n o o' hn; simp at hn
  | cons a os ih =>
    intro resp os' h n o o' hn hn'
    unfold assignVectors at h
    cases hv : a.vec with
    | some v =>
      rw [hv] at h
      dsimp only at h
      obtain ⟨t, ht, h2⟩ := (bind_ok_iff _ _ _).mp h
      cases h2
      cases n with
      | zero => simp at hn hn'; subst hn; subst hn'; rw [hv]
      | succ n =>
        have := ih _ _ ht n o o' (by simpa using hn) (by simpa using hn')
        rw [this]
        have : vectorless (a :: os) (n + 1) = vectorless os n := by simp [vectorless, hv]
        rw [this]
    | none =>
      rw [hv] at h
      cases resp with
      | nil => cases h
      | cons r resp =>
        dsimp only at h
        obtain ⟨t, ht, h2⟩ := (bind_ok_iff _ _ _).mp h
        cases h2
        cases n with
        | zero =>
          simp at hn hn'; subst hn; subst hn'
          rw [hv]
          simp [vectorless]
        | succ n =>
          have := ih _ _ ht n o o' (by simpa using hn) (by simpa using hn')
          rw [this]
          have : vectorless (a :: os) (n + 1) = vectorless os n + 1 := by simp [vectorless, hv]
          rw [this]
          rfl

theorem insertAll_vec {L : Lib V D} : ∀ {os : List (Object V × InsEnv)} {c c' : Coll} {os' : List (Object V)} {e : Option Err},
    c.insertAll L os = .ok (c', os', e) → os'.map Object.vec = os.map (fun p => p.1.vec) := by
  intro os
  induction os with
  | nil => intro c c' os' e h; cases h; rfl
  | cons p os ih =>
    obtain ⟨o, env⟩ := p
    intro c c' os' e h
    unfold Coll.insertAll at h
    obtain ⟨⟨c1, o1, e1⟩, h1, h2⟩ := (bind_ok_iff _ _ _).mp h
    have hv : o1.vec = o.vec := by
      unfold Coll.insertOne at h1
      dsimp only at h1
      split at h1
      · cases h1; rfl
      · split at h1
        · cases h1; rfl
        · obtain ⟨_, _, h3⟩ := (bind_ok_iff _ _ _).mp h1
          cases h3; rfl
    cases e1 with
    | some x =>
      cases h2
      simp [hv, Function.comp_def]
    | none =>
      obtain ⟨⟨c2, o2, e2⟩, h3, h4⟩ := (bind_ok_iff _ _ _).mp h2
      cases h4
      simp [hv, ih h3]

/-- C12: when a batch is accepted, an object that brought its vector has that vector, and the objects that brought none got
the vectors of the embedding service, which was asked exactly about them, in their order: the `j`-th of them got the `j`-th
answer. -/
theorem C12_batch_vectors (L : Lib V D) (c c1 : Coll) (os os1 : List (Object V)) (embed : Embed V) (envs : Nat → InsEnv)
    (ff : Bool) (hem : c.hasEmbedder = true) (h : c.insertBatch L os embed envs ff = .ok (c1, os1, none)) :
    ∃ resp, embed (os.filter (fun o => o.vec.isNone)) = .ok resp ∧
      ∀ (n : Nat) (o o1 : Object V), os[n]? = some o → os1[n]? = some o1 →
        o1.vec = match o.vec with | some v => some v | none => (resp[vectorless os n]?).join := by
  generalize he : (none : Option Err) = e at h
  cases batch_res h with
  | closed => cases he
  | invalid => cases he
  | embed => cases he
  | storage => cases he
  | done os2 _ c2 _ _ hemb hin =>
    unfold embedObjectsIfNeeded at hemb
    rw [hem] at hemb
    simp only [reduceCtorEq, if_false] at hemb
    cases hr : embed (os.filter (fun o => o.vec.isNone)) with
    | error x => rw [hr] at hemb; cases hemb
    | ok resp =>
      rw [hr] at hemb
      dsimp only at hemb
      obtain ⟨t, ht, h2⟩ := (bind_ok_iff _ _ _).mp hemb
      cases h2
      refine ⟨resp, rfl, ?_⟩
      intro n o o1 hn hn1
      have hv := insertAll_vec hin
      have h2 := congrArg (fun l => l[n]?) hv
      simp only [List.getElem?_map, hn1, Option.map_some, List.getElem?_zipIdx, Option.map_map] at h2
      cases h3 : os2[n]? with
      | none => rw [h3] at h2; cases h2
      | some o2 =>
        rw [h3] at h2
        simp only [Option.map_some, Function.comp, Option.some.injEq] at h2
        rw [h2]
        exact assignVectors_get _ _ _ ht n o o2 hn h3

/-- C12: the outcome depends on the embedding service only through its answer about the objects without a vector. -/
theorem C12_asked_only_for_missing (L : Lib V D) (c : Coll) (os : List (Object V)) (embed embed' : Embed V)
    (envs : Nat → InsEnv) (ff : Bool)
    (h : embed (os.filter (fun o => o.vec.isNone)) = embed' (os.filter (fun o => o.vec.isNone))) :
    c.insertBatch L os embed envs ff = c.insertBatch L os embed' envs ff := by
  unfold Coll.insertBatch embedObjectsIfNeeded
  rw [h]

/-- C12: without an embedder a batch with an object that has no vector is refused, and nothing has changed. -/
theorem C12_missing_vector_refused (L : Lib V D) (c : Coll) (os : List (Object V)) (embed : Embed V)
    (envs : Nat → InsEnv) (ff : Bool) (hem : c.hasEmbedder = false) (o : Object V) (ho : o ∈ os) (hv : o.vec = none) :
    ∃ e, c.insertBatch L os embed envs ff = .ok (c, os, some e) ∧ e.rejection := by
  cases hc : c.closed with
  | true => exact ⟨.collectionClosed, by unfold Coll.insertBatch; rw [hc]; rfl, trivial⟩
  | false =>
    cases hval : validateObjects c.mappings 0 os with
    | some e => exact ⟨e, by unfold Coll.insertBatch; rw [hc, hval]; rfl, validate_rejection hval⟩
    | none =>
      refine ⟨.missingVectorAndEmbedder, ?_, trivial⟩
      have hany : os.any (fun o => o.vec.isNone) = true := List.any_eq_true.mpr ⟨o, ho, by simp [hv]⟩
      unfold Coll.insertBatch embedObjectsIfNeeded
      rw [hc, hval, hem, hany]
      rfl

/-- C12 for a single insert: the caller's vector is kept, a missing one is the service's answer. -/
theorem C12_insert_vector (L : Lib V D) (c c1 : Coll) (o o1 : Object V) (embed : Embed V) (env : InsEnv) (ff : Bool)
    (h : c.insert L o embed env ff = .ok (c1, o1, none)) :
    (∀ v, o.vec = some v → o1.vec = some v) ∧
    (o.vec = none → c.hasEmbedder = true ∧ ∃ v rest, embed [o] = .ok (v :: rest) ∧ o1.vec = v) := by
  generalize he : (none : Option Err) = e at h
  cases insert_res h with
  | closed => cases he
  | invalid => cases he
  | embed => cases he
  | storage => cases he
  | done o2 _ c2 _ _ hemb hin =>
    have hv : o1.vec = o2.vec := by
      have := insertAll_vec (os := [(o2, env)]) (c := c) (c' := c2) (os' := [o1]) (e := none) (L := L)
        (by unfold Coll.insertAll; rw [hin]; rfl)
      simpa using this
    rw [hv]
    refine ⟨(embed_keep hemb 0 o o2 rfl rfl).2.2, ?_⟩
    intro hn
    unfold embedObjectsIfNeeded at hemb
    split at hemb
    · simp [hn] at hemb
    · rename_i hh
      refine ⟨by simpa using hh, ?_⟩
      simp only [List.filter_cons, hn, Option.isNone_none, if_true, List.filter_nil] at hemb
      cases hr : embed [o] with
      | error x => rw [hr] at hemb; cases hemb
      | ok resp =>
        rw [hr] at hemb
        dsimp only at hemb
        obtain ⟨t, ht, h2⟩ := (bind_ok_iff _ _ _).mp hemb
        cases h2
        unfold assignVectors at ht
        rw [hn] at ht
        cases resp with
        | nil => cases ht
        | cons v rest =>
          dsimp only at ht
          obtain ⟨t2, ht2, h3⟩ := (bind_ok_iff _ _ _).mp ht
          cases h3
          exact ⟨v, rest, rfl, rfl⟩

-- a mixed batch: objects 0 and 2 have no vector and get the two answers, object 1 keeps its own
example : ∃ c1 os1, (Coll.new demoCfg ["a"] true).insertBatch demoLib
      [{ demoObj 0 with vec := none }, demoObj 5, { demoObj 0 with vec := none }] (fun _ => .ok [some [8], some [9]])
      (fun _ => {}) false = .ok (c1, os1, none) ∧ os1.map Object.vec = [some [8], some [5], some [9]] :=
  ⟨_, _, rfl, rfl⟩

end Vectory
