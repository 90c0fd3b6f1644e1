import Verif.Spec.Given
import Verif.Lemmas.SwapColl
/-! The vectors of a collection were handed in by callers. -/
namespace Vectory
variable {V D : Type} {S : Prop}

/-- every vector of `c'` is one of `c` or satisfies `P`. -/
def VecFrom (c c' : Coll) (P : Vec → Prop) : Prop := ∀ v, c'.Holds v → c.Holds v ∨ P v

theorem VecFrom.refl (c : Coll) (P : Vec → Prop) : VecFrom c c P := fun _ h => Or.inl h

theorem VecFrom.of_eq {c c' : Coll} {P : Vec → Prop} (h : c'.stores.vectors = c.stores.vectors) : VecFrom c c' P := by
  intro v ⟨id, hv⟩
  refine Or.inl ⟨id, ?_⟩
  unfold getVector at hv ⊢
  rw [h] at hv
  exact hv

theorem VecFrom.trans {a b c : Coll} {P : Vec → Prop} (h1 : VecFrom a b P) (h2 : VecFrom b c P) : VecFrom a c P := by
  intro v hv
  rcases h2 v hv with h | h
  · exact h1 v h
  · exact Or.inr h

theorem VecFrom.mono {a b : Coll} {P Q : Vec → Prop} (h : VecFrom a b P) (hq : ∀ v, P v → Q v) : VecFrom a b Q :=
  fun v hv => (h v hv).imp id (hq v)

theorem insertOne_from {L : Lib V D} {c : Coll} {o : Object V} {env : InsEnv} (hd : (o.vec.getD []).length < 4294967296)
    {c' : Coll} {o' : Object V} {e : Option Err} (h : c.insertOne L o env = .ok (c', o', e)) :
    VecFrom c c' (· = o.vec.getD []) ∧ o'.vec = o.vec := by
  unfold Coll.insertOne at h
  rcases fetchAndInc_eq c.counter env.counterFails with ⟨e1, h1, _⟩ | ⟨h1, _⟩
  · rw [h1] at h; cases h; exact ⟨.refl _ _, rfl⟩
  · rw [h1] at h
    dsimp only at h
    have key : ∀ (st : Stores) (e1 : Option Err) (c' : Coll), putObject L.json c.stores { o with id := c.counter.count } env.put = (st, e1) →
        c'.stores.vectors = st.vectors → VecFrom c c' (· = o.vec.getD []) := by
      intro st e1 c' hp he
      unfold putObject at hp
      split at hp
      · cases hp; exact .of_eq he
      · dsimp only at hp
        split at hp
        · cases hp; exact .of_eq he
        · split at hp
          · cases hp; exact .of_eq he
          · cases hp
            intro v ⟨id, hv⟩
            dsimp only at he
            unfold getVector at hv
            rw [he] at hv
            by_cases hk : keyOf c.counter.count = keyOf id
            · rw [← hk, AMap.get?_set_self] at hv
              dsimp only at hv
              rw [deserialize_serializeVector _ hd] at hv
              cases hv
              exact Or.inr rfl
            · rw [AMap.get?_set_ne _ _ _ _ hk] at hv
              exact Or.inl ⟨id, hv⟩
    cases hp : putObject L.json c.stores { o with id := c.counter.count } env.put with
    | mk st e1 =>
      rw [hp] at h
      cases e1 with
      | some e1 => cases h; exact ⟨key st _ _ hp rfl, rfl⟩
      | none =>
        dsimp only at h
        rw [bind_ok_iff] at h
        obtain ⟨idx, hi, h⟩ := h
        cases h
        exact ⟨key st _ _ hp rfl, rfl⟩

theorem insertAll_from {L : Lib V D} : ∀ (os : List (Object V × InsEnv)) (c c' : Coll) (os' : List (Object V)) (e : Option Err),
    (∀ p ∈ os, (p.1.vec.getD []).length < 4294967296) → c.insertAll L os = .ok (c', os', e) →
    VecFrom c c' (fun v => ∃ o ∈ os', v = o.vec.getD []) := by
  intro os
  induction os with
  | nil => intro c c' os' e _ h; cases h; exact .refl _ _
  | cons a os ih =>
    intro c c' os' e hd h
    obtain ⟨o, env⟩ := a
    simp only [Coll.insertAll] at h
    rw [bind_ok_iff] at h
    obtain ⟨⟨c1, o1, e1⟩, h1, h⟩ := h
    obtain ⟨f1, f2⟩ := insertOne_from (hd (o, env) (by simp)) h1
    dsimp only at h
    cases e1 with
    | some e1 =>
      cases h
      exact f1.mono (fun v hv => ⟨o1, by simp, by rw [f2]; exact hv⟩)
    | none =>
      dsimp only at h
      rw [bind_ok_iff] at h
      obtain ⟨⟨c2, os2, e2⟩, h2, h⟩ := h
      cases h
      have := ih c1 c2 os2 e2 (fun p hp => hd p (List.mem_cons_of_mem _ hp)) h2
      exact (f1.mono (fun v hv => ⟨o1, by simp, by rw [f2]; exact hv⟩)).trans
        (this.mono (fun v ⟨x, hx, hv⟩ => ⟨x, List.mem_cons_of_mem _ hx, hv⟩))

theorem flush_from (c : Coll) (ff : Bool) (P : Vec → Prop) : VecFrom c (c.flush ff).1 P := by
  apply VecFrom.of_eq
  unfold Coll.flush
  rfl

theorem apply_from {L : Lib V D} {dim : Nat} {X : UInt64 → Prop} {c c' : Coll} (i : WInv S L dim X c) {op : Op V} {out : Out V D}
    (hl : Legal dim c op) (h : c.apply L op = .ok (c', out)) : VecFrom c c' (· ∈ given (op, out)) := by
  cases op with
  | insert o embed env ff =>
    simp only [Coll.apply] at h
    cases hx : c.insert L o embed env ff with
    | error e => rw [hx] at h; cases h
    | ok r =>
      obtain ⟨c1, o1, e1⟩ := r
      rw [hx] at h; cases h
      obtain ⟨⟨r, hr, hd⟩, hlev, hcnt⟩ := hl
      have i32 := i.dim32
      cases insert_res hx with
      | closed => exact .refl _ _
      | invalid => exact .refl _ _
      | embed => exact .refl _ _
      | storage o2 c2 e2 h1 h2 h3 h4 h5 =>
        rw [h4] at hr; cases hr
        have hdim := hd [o2] rfl o2 (by simp)
        obtain ⟨f1, f2⟩ := insertOne_from (by omega) h5
        exact f1.mono (fun v hv => by simp only [given, List.mem_singleton]; rw [f2]; exact hv)
      | done o2 c2 h1 h2 h3 h4 h5 =>
        rw [h4] at hr; cases hr
        have hdim := hd [o2] rfl o2 (by simp)
        obtain ⟨f1, f2⟩ := insertOne_from (by omega) h5
        exact (f1.mono (fun v hv => by simp only [given, List.mem_singleton]; rw [f2]; exact hv)).trans (flush_from _ _ _)
  | insertBatch os embed envs ff =>
    simp only [Coll.apply] at h
    cases hx : c.insertBatch L os embed envs ff with
    | error e => rw [hx] at h; cases h
    | ok r =>
      obtain ⟨c1, o1, e1⟩ := r
      rw [hx] at h; cases h
      obtain ⟨⟨r, hr, hd⟩, hlev, hcnt⟩ := hl
      have i32 := i.dim32
      have conv : ∀ v, (∃ o ∈ o1, v = o.vec.getD []) → v ∈ given (Op.insertBatch os embed envs ff, (.insertedBatch o1 e1 : Out V D)) := by
        intro v ⟨o, ho, hv⟩
        simp only [given, List.mem_map]
        exact ⟨o, ho, hv.symm⟩
      have dims : ∀ (os1 : List (Object V)), embedObjectsIfNeeded c embed os = .ok (.ok os1) →
          ∀ p ∈ os1.zipIdx.map (fun p => (p.1, envs p.2)), (p.1.vec.getD []).length < 4294967296 := by
        intro os1 h4 p hp
        rw [h4] at hr; cases hr
        obtain ⟨⟨x, k⟩, hxk, rfl⟩ := List.mem_map.mp hp
        have := hd os1 rfl x (List.fst_mem_of_mem_zipIdx hxk)
        dsimp only
        omega
      cases batch_res hx with
      | closed => exact .refl _ _
      | invalid => exact .refl _ _
      | embed => exact .refl _ _
      | storage os1 _ _ _ _ _ h4 h5 =>
        exact (insertAll_from _ _ _ _ _ (dims _ h4) h5).mono conv
      | done os1 _ _ _ _ h3 h4 =>
        exact ((insertAll_from _ _ _ _ _ (dims _ h3) h4).mono conv).trans (flush_from _ _ _)
  | delete id df ff =>
    simp only [Coll.apply] at h
    obtain ⟨c1, e1, h1, r1⟩ := delete_res i id df ff
    rw [h1] at h; cases h
    cases r1 with
    | closed => exact .refl _ _
    | absent => exact .refl _ _
    | failed => exact .refl _ _
    | done => exact .of_eq rfl
  | get ids => cases h; exact .refl _ _
  | search o embed k => cases h; exact .refl _ _
  | size => cases h; exact .refl _ _
  | update o => cases h; exact .refl _ _
  | close sf =>
    simp only [Coll.apply] at h
    cases h
    apply VecFrom.of_eq
    unfold Coll.close
    dsimp only
    split
    · rfl
    · split <;> rfl
  | reopen =>
    simp only [Coll.apply] at h
    obtain ⟨c2, h2, h⟩ := (bind_ok_iff _ _ _).mp h
    cases h
    unfold Coll.reopen openColl at h2
    obtain ⟨_, _, h2⟩ := (bind_ok_iff _ _ _).mp h2
    obtain ⟨_, _, h2⟩ := (bind_ok_iff _ _ _).mp h2
    obtain ⟨_, _, h2⟩ := (bind_ok_iff _ _ _).mp h2
    cases h2
    exact .of_eq rfl

theorem runs_from {L : Lib V D} {dim : Nat} {X : UInt64 → Prop} {c c' : Coll} {h : List (Op V × Out V D)} (r : Runs L dim c h c')
    (i : WInv S L dim X c) : VecFrom c c' (· ∈ h.flatMap given) := by
  induction r with
  | nil => exact .refl _ _
  | cons hl ha _ ih =>
    obtain ⟨c2, out, h2, i2, _⟩ := apply_spec i _ hl
    rw [ha] at h2; cases h2
    have a1 := apply_from i hl ha
    have a2 := ih i2
    exact (a1.mono (fun v hv => by simp only [List.flatMap_cons, List.mem_append]; exact Or.inl hv)).trans
      (a2.mono (fun v hv => by simp only [List.flatMap_cons, List.mem_append]; exact Or.inr hv))

/-- the vectors of a collection built by calls were given by callers. -/
theorem holds_given {L : Lib V D} {dim : Nat} {cfg : Cfg} {ms : List String} {he : Bool} {c : Coll} {h : List (Op V × Out V D)}
    (s : Setup L dim cfg) (r : Runs L dim (Coll.new cfg ms he) h c) {v : Vec} (hv : c.Holds v) : v ∈ h.flatMap given := by
  have i := new_inv (S := True) (X := fun _ => False) L dim cfg ms he s.json s.metric s.dim32 s.cfg
  rcases runs_from r i v hv with ⟨id, h⟩ | h
  · cases h
  · exact h

theorem WInv.holds_length {L : Lib V D} {dim : Nat} {X : UInt64 → Prop} {c : Coll} (i : WInv S L dim X c) {v : Vec} (hv : c.Holds v) :
    v.length = dim := by
  obtain ⟨id, hv⟩ := hv
  rw [i.vstore id] at hv
  unfold vecOf at hv
  cases hn : c.index.nodes.get? id with
  | none => rw [hn] at hv; cases hv
  | some x => rw [hn] at hv; cases hv; exact i.vecs id x hn

end Vectory
