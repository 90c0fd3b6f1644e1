import Verif.Props.Accept
/-! # C08, exactly: what `GetSize` counts besides the readable objects -/
namespace Vectory
variable {V D : Type}

/-- did this call return an error although it could write the object but not the vector? (Seen from outside: an insert that failed, in an
environment that lets the second write fail.) -/
def halfFailed : Op V × Out V D → Prop
  | (.insert _ _ env _, .inserted _ (some _)) => env.put = .vectors
  | (.insertBatch _ _ envs _, .insertedBatch _ (some _)) => ∃ i, (envs i).put = .vectors
  | _ => False

/-- an object without a vector. -/
def Lost (s : Stores) (id : UInt64) : Prop := keyOf id ∈ s.objects.keys ∧ keyOf id ∉ s.vectors.keys

theorem lost_same {s s' : Stores} (ho : s'.objects.keys = s.objects.keys) (hv : s'.vectors.keys = s.vectors.keys) (id : UInt64) :
    Lost s' id ↔ Lost s id := by unfold Lost; rw [ho, hv]

/-- what an internal insert does to the lost objects. -/
def OneMore (s s' : Stores) (half : Prop) (x : UInt64) : Prop := (∀ id, Lost s' id ↔ Lost s id) ∨ (half ∧ ∀ id, Lost s' id ↔ Lost s id ∨ id = x)

theorem insertOne_lost {S : Prop} {X : UInt64 → Prop} {L : Lib V D} {dim : Nat} {c c' : Coll} (i : WInv S L dim X c) {o o' : Object V} {env : InsEnv} {e : Option Err}
    (h : c.insertOne L o env = .ok (c', o', e)) :
    OneMore c.stores c'.stores (env.put = .vectors ∧ e = some .io) o'.id ∧
      (env.put = .vectors → e = some .io → o'.id ≠ o.id → Lost c'.stores o'.id) ∧ (env.put = .vectors → e ≠ none) := by
  obtain ⟨f1, f2, _⟩ := fresh_of i
  unfold Coll.insertOne at h
  dsimp only at h
  have hctr : ∀ id, (fetchAndInc c.counter env.counterFails).2 = .ok id → id = c.counter.count := by
    intro id hid
    unfold fetchAndInc at hid
    dsimp only at hid
    split at hid
    · cases hid
    · cases hid; rfl
  cases hq : (fetchAndInc c.counter env.counterFails).2 with
  | error e =>
    rw [hq] at h
    cases h
    refine ⟨Or.inl (fun _ => Iff.rfl), fun _ _ h => absurd rfl h, fun _ => ?_⟩
    simp
  | ok n =>
    rw [hq] at h
    have hn := hctr n hq
    subst hn
    dsimp only at h
    cases hp : putObject L.json c.stores { o with id := c.counter.count } env.put with
    | mk s e1 =>
      rw [hp] at h
      unfold putObject at hp
      cases hs : serializeProperties L.json { o with id := c.counter.count } with
      | error e2 =>
        rw [hs] at hp
        cases hp
        cases h
        have he : e2 = .json := by
          unfold serializeProperties at hs
          split at hs
          · cases hs; rfl
          · cases hs
        subst he
        exact ⟨Or.inl (fun _ => Iff.rfl), (fun _ h => by cases h), (fun _ => by simp)⟩
      | ok b =>
        rw [hs] at hp
        dsimp only at hp
        cases hf : env.put with
        | objects =>
          rw [hf, if_pos rfl] at hp
          cases hp; cases h
          exact ⟨Or.inl (fun _ => Iff.rfl), (fun h => by cases h), (fun h => by cases h)⟩
        | vectors =>
          rw [hf, if_neg (by simp), if_pos rfl] at hp
          cases hp; cases h
          have key : ∀ id, Lost { c.stores with objects := c.stores.objects.set (keyOf c.counter.count) b } id ↔
              Lost c.stores id ∨ id = c.counter.count := by
            intro id
            unfold Lost
            dsimp only
            rw [AMap.mem_keys_set]
            constructor
            · rintro ⟨h1 | h1, h2⟩
              · exact Or.inr (keyOf_inj h1)
              · exact Or.inl ⟨h1, h2⟩
            · rintro (⟨h1, h2⟩ | rfl)
              · exact ⟨Or.inr h1, h2⟩
              · exact ⟨Or.inl rfl, f2⟩
          exact ⟨Or.inr ⟨⟨rfl, rfl⟩, key⟩, fun _ _ _ => (key _).mpr (Or.inr rfl), fun _ => by simp⟩
        | none =>
          rw [hf, if_neg (by simp), if_neg (by simp)] at hp
          cases hp
          obtain ⟨idx, _, h⟩ := (bind_ok_iff _ _ _).mp h
          cases h
          refine ⟨Or.inl (fun id => ?_), (fun h => by cases h), (fun h => by cases h)⟩
          unfold Lost
          dsimp only
          rw [AMap.mem_keys_set, AMap.mem_keys_set]
          constructor
          · rintro ⟨h1 | h1, h2⟩
            · exact absurd (Or.inl h1) h2
            · exact ⟨h1, fun h => h2 (Or.inr h)⟩
          · rintro ⟨h1, h2⟩
            refine ⟨Or.inr h1, ?_⟩
            rintro (h | h)
            · rw [h] at h1; exact f1 h1
            · exact h2 h

theorem insertAll_lost {S : Prop} {X : UInt64 → Prop} {L : Lib V D} {dim : Nat} : ∀ {os : List (Object V × InsEnv)} {c c' : Coll} {os' : List (Object V)} {e : Option Err},
    WInv S L dim X c → (∀ p ∈ os, (p.1.vec.getD []).length = dim) → (∀ p ∈ os, p.2.level < 4294967296) →
    c.counter.count.toNat + os.length < 18446744073709551616 → c.insertAll L os = .ok (c', os', e) →
    ∃ x, OneMore c.stores c'.stores ((∃ p ∈ os, p.2.put = .vectors) ∧ e ≠ none) x := by
  intro os
  induction os with
  | nil => intro c c' os' e _ _ _ _ h; cases h; exact ⟨0, Or.inl (fun _ => Iff.rfl)⟩
  | cons q os ih =>
    obtain ⟨o, env⟩ := q
    intro c c' os' e i hd hl hc h
    simp only [List.length_cons] at hc
    unfold Coll.insertAll at h
    obtain ⟨⟨c1, o1, e1⟩, h1, h2⟩ := (bind_ok_iff _ _ _).mp h
    obtain ⟨c1', o1', e1', h1', i1, f1⟩ := insertOne_spec i (o := o) (env := env) (hd (o, env) (by simp)) (hl (o, env) (by simp)) (by omega)
    rw [h1] at h1'; cases h1'
    obtain ⟨k1, _, k3⟩ := insertOne_lost i h1
    cases e1 with
    | some y =>
      cases h2
      refine ⟨o1.id, ?_⟩
      rcases k1 with k | ⟨⟨k, _⟩, k'⟩
      · exact Or.inl k
      · exact Or.inr ⟨⟨⟨(o, env), by simp, k⟩, by simp⟩, k'⟩
    | none =>
      dsimp only at h2
      obtain ⟨⟨c2, o2, e2⟩, h3, h4⟩ := (bind_ok_iff _ _ _).mp h2
      cases h4
      have hcnt : (c.counter.count + 1).toNat = c.counter.count.toNat + 1 := by
        rw [UInt64.toNat_add]
        show (c.counter.count.toNat + 1) % 2 ^ 64 = _
        omega
      obtain ⟨x, k⟩ := ih i1 (fun p hp => hd p (by simp [hp])) (fun p hp => hl p (by simp [hp])) (by rw [f1.count, hcnt]; omega) h3
      have ke : ∀ id, Lost c1.stores id ↔ Lost c.stores id := by
        rcases k1 with k | ⟨⟨_, k⟩, _⟩
        · exact k
        · cases k
      refine ⟨x, ?_⟩
      rcases k with k | ⟨⟨⟨p, hp, kp⟩, ke2⟩, k⟩
      · exact Or.inl (fun id => (k id).trans (ke id))
      · refine Or.inr ⟨⟨⟨p, by simp [hp], kp⟩, ke2⟩, fun id => ?_⟩
        rw [k id, ke id]

/-- one call loses at most one object, and only when it is half-failed. -/
theorem apply_lost {S : Prop} {X : UInt64 → Prop} {L : Lib V D} {dim : Nat} {c c' : Coll} (i : WInv S L dim X c) {op : Op V} {out : Out V D} (hl : Legal dim c op)
    (h : c.apply L op = .ok (c', out)) :
    (∃ x, OneMore c.stores c'.stores (halfFailed (op, out)) x) ∧
    (∀ o embed env ff o', op = .insert o embed env ff → out = .inserted o' (some .io) → env.put = .vectors → o'.id ≠ o.id →
      Lost c'.stores o'.id) := by
  cases op with
  | insert o embed env ff =>
    obtain ⟨⟨r, hr, hd⟩, hlev, hcnt⟩ := hl
    simp only [Coll.apply] at h
    obtain ⟨⟨c1, o1, e⟩, h1, h2⟩ := (bind_ok_iff _ _ _).mp h
    cases h2
    cases insert_res (liftPanic_ok h1) with
    | closed => exact ⟨⟨0, Or.inl (fun _ => Iff.rfl)⟩, fun _ _ _ _ _ hop hout _ hne => by cases hop; cases hout⟩
    | invalid => exact ⟨⟨0, Or.inl (fun _ => Iff.rfl)⟩, fun _ _ _ _ _ hop hout _ hne => by cases hop; cases hout; exact absurd rfl hne⟩
    | embed => exact ⟨⟨0, Or.inl (fun _ => Iff.rfl)⟩, fun _ _ _ _ _ hop hout _ hne => by cases hop; cases hout; exact absurd rfl hne⟩
    | storage x1 _ _ _ _ _ hem hin =>
      obtain ⟨k1, k2, k3⟩ := insertOne_lost i hin
      refine ⟨⟨o1.id, ?_⟩, ?_⟩
      · rcases k1 with k | ⟨⟨k, _⟩, k'⟩
        · exact Or.inl k
        · exact Or.inr ⟨k, k'⟩
      · intro _ _ _ _ _ hop hout hv hne
        cases hop; cases hout
        refine k2 hv rfl ?_
        rw [(embed_keep hem 0 o x1 rfl rfl).2.1]
        exact hne
    | done x1 _ c2 _ _ hem hin =>
      obtain ⟨k1, k2, k3⟩ := insertOne_lost i hin
      have hs : ((c2.flush ff).1).stores = c2.stores := rfl
      refine ⟨⟨o1.id, ?_⟩, ?_⟩
      · rcases k1 with k | ⟨⟨_, k⟩, _⟩
        · exact Or.inl k
        · cases k
      · intro _ _ _ _ _ hop hout hv hne
        cases hop
        exact absurd rfl (k3 hv)
  | insertBatch os embed envs ff =>
    obtain ⟨⟨r, hr, hd⟩, hlev, hcnt⟩ := hl
    simp only [Coll.apply] at h
    obtain ⟨⟨c1, o1, e⟩, h1, h2⟩ := (bind_ok_iff _ _ _).mp h
    cases h2
    refine ⟨?_, fun _ _ _ _ _ hop => by cases hop⟩
    have key : ∀ os1, embedObjectsIfNeeded c embed os = .ok (.ok os1) → ∀ c2 os2 e2,
        c.insertAll L (os1.zipIdx.map (fun p => (p.1, envs p.2))) = .ok (c2, os2, e2) →
        ∃ x, OneMore c.stores c2.stores ((∃ i, (envs i).put = .vectors) ∧ e2 ≠ none) x := by
      intro os1 hem c2 os2 e2 hin
      rw [hem] at hr; cases hr
      obtain ⟨x, k⟩ := insertAll_lost i
        (fun p hp => by
          obtain ⟨q, hq, rfl⟩ := List.mem_map.mp hp
          exact hd _ rfl _ (List.fst_mem_of_mem_zipIdx hq))
        (fun p hp => by
          obtain ⟨q, hq, rfl⟩ := List.mem_map.mp hp
          exact hlev _)
        (by simpa [embed_length hem] using hcnt) hin
      refine ⟨x, ?_⟩
      rcases k with k | ⟨⟨⟨p, hp, kp⟩, ke⟩, k⟩
      · exact Or.inl k
      · obtain ⟨q, _, rfl⟩ := List.mem_map.mp hp
        exact Or.inr ⟨⟨⟨_, kp⟩, ke⟩, k⟩
    cases batch_res (liftPanic_ok h1) with
    | closed => exact ⟨0, Or.inl (fun _ => Iff.rfl)⟩
    | invalid => exact ⟨0, Or.inl (fun _ => Iff.rfl)⟩
    | embed => exact ⟨0, Or.inl (fun _ => Iff.rfl)⟩
    | storage _ _ _ _ _ _ hem hin =>
      obtain ⟨x, k⟩ := key _ hem _ _ _ hin
      refine ⟨x, ?_⟩
      rcases k with k | ⟨⟨k, _⟩, k'⟩
      · exact Or.inl k
      · exact Or.inr ⟨k, k'⟩
    | done _ _ c2 _ _ hem hin =>
      obtain ⟨x, k⟩ := key _ hem _ _ _ hin
      refine ⟨x, ?_⟩
      rcases k with k | ⟨⟨_, k⟩, _⟩
      · exact Or.inl k
      · exact absurd rfl k
  | delete id df ff =>
    refine ⟨?_, fun _ _ _ _ _ hop => by cases hop⟩
    simp only [Coll.apply] at h
    obtain ⟨⟨c1, e⟩, h1, h2⟩ := (bind_ok_iff _ _ _).mp h
    cases h2
    obtain ⟨c2, e2, h3, hres⟩ := delete_res i id df ff
    rw [liftPanic_ok h1] at h3; cases h3
    cases hres with
    | closed => exact ⟨0, Or.inl (fun _ => Iff.rfl)⟩
    | absent => exact ⟨0, Or.inl (fun _ => Iff.rfl)⟩
    | failed => exact ⟨0, Or.inl (fun _ => Iff.rfl)⟩
    | done o hc hg _ =>
      refine ⟨0, Or.inl (fun x => ?_)⟩
      show Lost (deleteObject c.stores id) x ↔ _
      obtain ⟨r, hr1, hr2, _⟩ := getObject_eq i id
      rw [hg] at hr1; cases hr1
      have hboth := hr2.mp rfl
      unfold Lost deleteObject
      dsimp only
      rw [AMap.keys_erase, List.mem_filter]
      constructor
      · rintro ⟨⟨h1, _⟩, h2⟩; exact ⟨h1, h2⟩
      · rintro ⟨h1, h2⟩
        refine ⟨⟨h1, ?_⟩, h2⟩
        have : keyOf x ≠ keyOf id := fun h => h2 (h ▸ hboth.2)
        simpa using this
  | get ids => cases h; exact ⟨⟨0, Or.inl (fun _ => Iff.rfl)⟩, fun _ _ _ _ _ hop => by cases hop⟩
  | search o embed k => cases h; exact ⟨⟨0, Or.inl (fun _ => Iff.rfl)⟩, fun _ _ _ _ _ hop => by cases hop⟩
  | size => cases h; exact ⟨⟨0, Or.inl (fun _ => Iff.rfl)⟩, fun _ _ _ _ _ hop => by cases hop⟩
  | update o => cases h; exact ⟨⟨0, Or.inl (fun _ => Iff.rfl)⟩, fun _ _ _ _ _ hop => by cases hop⟩
  | close sf =>
    refine ⟨⟨0, Or.inl ?_⟩, fun _ _ _ _ _ hop => by cases hop⟩
    simp only [Coll.apply, Coll.close] at h
    split at h
    · cases h; exact fun _ => Iff.rfl
    · split at h <;> (cases h; exact fun _ => Iff.rfl)
  | reopen =>
    refine ⟨⟨0, Or.inl ?_⟩, fun _ _ _ _ _ hop => by cases hop⟩
    obtain ⟨f, c1, _, hro, he, _⟩ := coll_reopen i hl (fun _ => False)
    simp only [Coll.apply, hro, ok_bind] at h
    cases h
    rw [he]
    exact fun _ => Iff.rfl

/-- how many of the calls half-failed. -/
inductive HalfFailures : List (Op V × Out V D) → Nat → Prop where
  | nil : HalfFailures [] 0
  | yes {p : Op V × Out V D} {h : List (Op V × Out V D)} {n : Nat} : halfFailed p → HalfFailures h n → HalfFailures (p :: h) (n + 1)
  | no {p : Op V × Out V D} {h : List (Op V × Out V D)} {n : Nat} : ¬ halfFailed p → HalfFailures h n → HalfFailures (p :: h) n

theorem runs_lost {S : Prop} {X : UInt64 → Prop} {L : Lib V D} {dim : Nat} {c c' : Coll} {h : List (Op V × Out V D)} (i : WInv S L dim X c)
    (r : Runs L dim c h c') (l : List UInt64) (hn : l.Nodup) (hl : ∀ id, id ∈ l ↔ Lost c.stores id) :
    ∃ l' : List UInt64, l'.Nodup ∧ (∀ id, id ∈ l' ↔ Lost c'.stores id) ∧ (∀ id ∈ l, id ∈ l') ∧
      (∀ n, HalfFailures h n → l'.length ≤ l.length + n) ∧
      (∀ o embed env ff o', (Op.insert o embed env ff, Out.inserted o' (some .io)) ∈ h → env.put = .vectors → o'.id ≠ o.id → o'.id ∈ l') := by
  induction r generalizing l with
  | nil =>
    refine ⟨l, hn, hl, fun _ h => h, fun n hf => ?_, fun _ _ _ _ _ h => by cases h⟩
    cases hf; exact Nat.le_refl _
  | @cons c c1 c2 op out t hleg ha _ ih =>
    obtain ⟨c3, out3, h3, i3, _⟩ := apply_spec i op hleg
    rw [ha] at h3; cases h3
    obtain ⟨⟨x, k⟩, k2⟩ := apply_lost i hleg ha
    rcases k with k | ⟨hh, k⟩
    · obtain ⟨l', q1, q2, q3, q4, q5⟩ := ih i3 l hn (fun id => (hl id).trans (k id).symm)
      refine ⟨l', q1, q2, q3, fun n hf => ?_, fun o embed env ff o' hm hv hne => ?_⟩
      · cases hf with
        | yes _ hf => have := q4 _ hf; omega
        | no _ hf => exact q4 _ hf
      · rcases List.mem_cons.mp hm with hm | hm
        · cases hm
          exact q3 _ ((hl _).mpr ((k _).mp (k2 _ _ _ _ _ rfl rfl hv hne)))
        · exact q5 _ _ _ _ _ hm hv hne
    · have hl1 : ∀ id, id ∈ (if x ∈ l then l else x :: l) ↔ Lost c1.stores id := by
        intro id
        rw [k id, ← hl id]
        split
        · rename_i hx
          constructor
          · exact Or.inl
          · rintro (h | rfl)
            · exact h
            · exact hx
        · simp [or_comm]
      have hn1 : (if x ∈ l then l else x :: l).Nodup := by
        split
        · exact hn
        · rename_i hx; exact List.nodup_cons.mpr ⟨hx, hn⟩
      obtain ⟨l', q1, q2, q3, q4, q5⟩ := ih i3 _ hn1 hl1
      have hlen : (if x ∈ l then l else x :: l).length ≤ l.length + 1 := by
        split
        · omega
        · simp
      refine ⟨l', q1, q2, fun id h => q3 id ?_, fun n hf => ?_, fun o embed env ff o' hm hv hne => ?_⟩
      · split
        · exact h
        · exact List.mem_cons_of_mem _ h
      · cases hf with
        | yes _ hf => have := q4 _ hf; omega
        | no hno hf => exact absurd hh hno
      · rcases List.mem_cons.mp hm with hm | hm
        · cases hm
          exact q3 _ ((hl1 _).mpr (k2 _ _ _ _ _ rfl rfl hv hne))
        · exact q5 _ _ _ _ _ hm hv hne

/-- **C08, exactly.** In every legal history: `GetSize` is the number of ids that `Get` finds plus the number of lost objects. An object is lost
when an insert could write it but not its vector: there are at most as many as calls that half-failed, the object of every insert that
visibly half-failed (it got an id, and an error) is among them, and none is ever found by `Get`. -/
theorem C08_size_exact (L : Lib V D) (dim : Nat) (cfg : Cfg) (ms : List String) (he : Bool) (hs : Setup L dim cfg)
    (h : List (Op V × Out V D)) (c : Coll) (hr : Runs L dim (Coll.new cfg ms he) h c) (ho : c.closed = false) :
    ∃ ids lost : List UInt64, ids.Nodup ∧ lost.Nodup ∧ (∀ id, id ∈ ids ↔ ∃ o, c.get L [id] = .ok [o]) ∧
      c.getSize = .ok (ids.length + lost.length) ∧ (∀ id ∈ lost, c.get L [id] = .ok []) ∧
      (∀ n, HalfFailures h n → lost.length ≤ n) ∧
      (∀ o embed env ff o', (Op.insert o embed env ff, Out.inserted o' (some .io)) ∈ h → env.put = .vectors → o'.id ≠ o.id → o'.id ∈ lost) := by
  have i0 := new_inv (S := True) (X := fun _ => False) L dim cfg ms he hs.json hs.metric hs.dim32 hs.cfg
  have i := runs_inv i0 hr
  obtain ⟨lost, q1, q2, _, q4, q5⟩ := runs_lost i0 hr [] List.nodup_nil (by simp [Lost, Coll.new, AMap.keys])
  obtain ⟨all, hall⟩ := keys_as_ids i.okeys
  have hk : ∀ id, id ∈ all ↔ keyOf id ∈ c.stores.objects.keys := by
    intro id
    rw [hall, List.mem_map]
    constructor
    · intro h; exact ⟨id, h, rfl⟩
    · rintro ⟨x, hx, he⟩; rw [← keyOf_inj he]; exact hx
  have hnall : all.Nodup := by have := i.ond; rw [hall] at this; exact nodup_of_map this
  have hread : ∀ id, (∃ o, c.get L [id] = .ok [o]) ↔ keyOf id ∈ c.stores.objects.keys ∧ keyOf id ∈ c.stores.vectors.keys := by
    intro id
    obtain ⟨r, hr1, hr2, _⟩ := getObject_eq i id
    rw [← hr2]
    constructor
    · rintro ⟨o, hg⟩
      rw [(get_single_some ho).mp hg] at hr1; cases hr1; rfl
    · intro h
      obtain ⟨o, rfl⟩ := Option.isSome_iff_exists.mp h
      exact ⟨o, (get_single_some ho).mpr hr1⟩
  have hsplit : ∀ (p : UInt64 → Bool) (l : List UInt64), (l.filter p).length + (l.filter (fun x => !p x)).length = l.length := by
    intro p l
    induction l with
    | nil => rfl
    | cons a l ih => cases hp : p a <;> simp [hp] <;> omega
  have hp : ∀ id, id ∈ lost ↔ id ∈ all.filter (fun x => decide (keyOf x ∉ c.stores.vectors.keys)) := by
    intro id
    rw [q2, List.mem_filter, hk]
    simp [Lost]
  refine ⟨all.filter (fun x => !decide (keyOf x ∉ c.stores.vectors.keys)), lost, hnall.filter _, q1, fun id => ?_, ?_, fun id hid => ?_, ?_, q5⟩
  · rw [hread, List.mem_filter, hk]
    simp
  · have h1 : lost.length = (all.filter (fun x => decide (keyOf x ∉ c.stores.vectors.keys))).length := by
      apply Nat.le_antisymm
      · exact nodup_length_le q1 (fun x hx => (hp x).mp hx)
      · exact nodup_length_le (hnall.filter _) (fun x hx => (hp x).mpr hx)
    have h2 : c.stores.objects.keys.length = all.length := by rw [hall, List.length_map]
    unfold Coll.getSize
    rw [ho, h1, Nat.add_comm, hsplit, ← h2]
    simp [Stores.size, AMap.keys]
  · obtain ⟨r, hr1, hr2, _⟩ := getObject_eq i id
    refine (get_single_none ho).mpr ?_
    cases r with
    | none => exact hr1
    | some o => exact absurd (hr2.mp rfl).2 ((q2 id).mp hid).2
  · intro n hf
    simpa using q4 n hf

/-- two objects, one half-failed insert and its visible trace. -/
example : ∃ h c, Runs demoLib 1 (Coll.new demoCfg ["a"] false) h c ∧ c.closed = false ∧ c.getSize = .ok 3 ∧ HalfFailures h 1 ∧
    (∃ o embed env ff o', (Op.insert o embed env ff, Out.inserted o' (some .io)) ∈ h ∧ env.put = .vectors ∧ o'.id ≠ o.id) := by
  have h1 : ∃ c h, playLegal demoLib 1 (Coll.new demoCfg ["a"] false)
      [demoInsert 1, .insert (demoObj 3) noEmbed { put := .vectors } false, demoInsert 2] = some (c, h) ∧
      c.closed = false ∧ c.getSize = .ok 3 ∧ ∃ a o' b, h = [(demoInsert 1, .inserted a none),
        (.insert (demoObj 3) noEmbed { put := .vectors } false, .inserted o' (some .io)), (demoInsert 2, .inserted b none)] ∧ o'.id = 1 :=
    ⟨_, _, rfl, rfl, rfl, _, _, _, rfl, rfl⟩
  obtain ⟨c, h, h1, h2, h3, a, o', b, rfl, h5⟩ := h1
  refine ⟨_, c, playLegal_runs _ _ _ _ h1, h2, h3, ?_, demoObj 3, noEmbed, { put := .vectors }, false, o', by simp, rfl, ?_⟩
  · exact .no (by simp [demoInsert, halfFailed]) (.yes rfl (.no (by simp [demoInsert, halfFailed]) .nil))
  · rw [h5]; decide

end Vectory
