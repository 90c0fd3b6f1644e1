import Verif.Lemmas.Swap
import Verif.Lemmas.CollMore
import Verif.Lemmas.Lift
import Verif.Lemmas.SwapFixed
import Verif.Spec.Compare
import Verif.Spec.History
/-! Comparisons of distances that never occur in a history do not matter: the total order that a proof needs may differ from the
program's comparison on them. -/
namespace Vectory
variable {V D : Type}

open Classical in
/-- the comparison `lt` on `S`, with everything else above it: a weak order if `lt` is one on `S`. -/
noncomputable def cmp (S : D → Prop) (lt : D → D → Bool) (a b : D) : Bool :=
  if S a ∧ S b then lt a b else decide (S a ∧ ¬ S b)

theorem cmp_eq {S : D → Prop} {lt : D → D → Bool} {a b : D} (ha : S a) (hb : S b) : cmp S lt a b = lt a b := if_pos ⟨ha, hb⟩

theorem cmp_true {S : D → Prop} {lt : D → D → Bool} {a b : D} : cmp S lt a b = true ↔ S a ∧ (S b → lt a b = true) := by
  unfold cmp
  by_cases ha : S a <;> by_cases hb : S b <;> simp [ha, hb]

theorem cmp_ord {S : D → Prop} {lt : D → D → Bool} (h : OrdOn S lt) : Ord (cmp S lt) := by
  have hf : ∀ a b, cmp S lt a b = false ↔ ¬ (S a ∧ (S b → lt a b = true)) := by
    intro a b
    rw [← cmp_true]
    cases cmp S lt a b <;> simp
  constructor
  · intro a b hab
    rw [cmp_true] at hab
    rw [hf]
    rintro ⟨hb, hba⟩
    have h1 := hab.2 hb
    have h2 := hba hab.1
    rw [h.asymm a b hab.1 hb h1] at h2; cases h2
  · intro a b c hba hcb
    rw [hf] at hba hcb ⊢
    rintro ⟨hc, hca⟩
    have hb : S b ∧ lt c b = false := by
      by_cases hb : S b
      · refine ⟨hb, ?_⟩
        cases hx : lt c b with
        | false => rfl
        | true => exact absurd ⟨hc, fun _ => hx⟩ hcb
      · exact absurd ⟨hc, fun x => absurd x hb⟩ hcb
    have ha : S a ∧ lt b a = false := by
      by_cases ha : S a
      · refine ⟨ha, ?_⟩
        cases hx : lt b a with
        | false => rfl
        | true => exact absurd ⟨hb.1, fun _ => hx⟩ hba
      · exact absurd ⟨hb.1, fun x => absurd x ha⟩ hba
    have := hca ha.1
    rw [h.negTrans a b c ha.1 hb.1 hc ha.2 hb.2] at this; cases this

theorem le_cmp {S : D → Prop} {lt : D → D → Bool} {a b : D} (ha : S a) (hb : S b) : Le (cmp S lt) a b ↔ Le lt a b := by
  unfold Le; rw [cmp_eq hb ha]

/-- the library with the completed comparison. -/
noncomputable def Lib.cmp (L : Lib V D) (S : D → Prop) : Lib V D := { L with metric := { L.metric with lt := Vectory.cmp S L.metric.lt } }

theorem WInv.cmp {S : Prop} {L : Lib V D} {dim : Nat} {X : UInt64 → Prop} {c : Coll} (i : WInv S L dim X c) (T : D → Prop) :
    WInv S (L.cmp T) dim X c :=
  { json := i.json, dimM := i.dimM, dim32 := i.dim32, idx := i.idx, cfg := i.cfg, vecs := i.vecs, ond := i.ond, vnd := i.vnd,
    vkeys := i.vkeys, okeys := i.okeys, vstore := i.vstore, dec := i.dec, ids := i.ids, del := i.del, live := i.live }

theorem sameOn_cmp (L : Lib V D) {P Q : Vec → Prop} {S : D → Prop} (h : ∀ v q d, Q v → P q → L.metric.dist v q = .ok d → S d) :
    SameOn P Q S L.metric (L.cmp S).metric :=
  ⟨rfl, h, fun _ _ ha hb => cmp_eq ha hb⟩

theorem WInv.holds {S : Prop} {L : Lib V D} {dim : Nat} {X : UInt64 → Prop} {c : Coll} (i : WInv S L dim X c) :
    NodesIn c.Holds c.index.nodes := by
  intro id v hv
  refine ⟨id, ?_⟩
  rw [i.vstore id]
  unfold vecOf
  rw [hv]; rfl

/-! ## One search -/

/-- the search does not see comparisons outside `S`. -/
theorem semanticSearch_cmp {S : Prop} {L : Lib V D} {dim : Nat} {X : UInt64 → Prop} {c : Coll} (i : WInv S L dim X c) {T : D → Prop}
    {o : Object V} {embed : Embed V} (k : Int)
    (hT : ∀ os, embedObjectsIfNeeded c embed [o] = .ok (.ok os) → ∀ x ∈ os, ∀ v d, c.Holds v → L.metric.dist v (x.vec.getD []) = .ok d → T d) :
    c.semanticSearch (L.cmp T) o embed k = c.semanticSearch L o embed k := by
  unfold Coll.semanticSearch
  split
  · rfl
  · cases he : embedObjectsIfNeeded c embed [o] with
    | error p => rfl
    | ok r =>
      simp only [liftPanic, ok_bind]
      cases r with
      | error e => rfl
      | ok os =>
        cases os with
        | nil => rfl
        | cons x xs =>
          dsimp only
          have g : SameOn (fun q => q = x.vec.getD []) c.Holds T L.metric (L.cmp T).metric :=
            sameOn_cmp L (fun v q d hv hq hd => by subst hq; exact hT _ he x (by simp) v d hv hd)
          rw [search_swap g i.holds rfl k]
          rfl

/-- the same of the repaired search. -/
theorem semanticSearchR_cmp {S : Prop} {L : Lib V D} {dim : Nat} {X : UInt64 → Prop} {c : Coll} (i : WInv S L dim X c) {T : D → Prop}
    {o : Object V} {embed : Embed V} (k : Int)
    (hT : ∀ os, embedObjectsIfNeeded c embed [o] = .ok (.ok os) → ∀ x ∈ os, ∀ v d, c.Holds v → L.metric.dist v (x.vec.getD []) = .ok d → T d) :
    c.semanticSearchR (L.cmp T) o embed k = c.semanticSearchR L o embed k := by
  unfold Coll.semanticSearchR
  split
  · rfl
  · cases he : embedObjectsIfNeeded c embed [o] with
    | error p => rfl
    | ok r =>
      simp only [liftPanic, ok_bind]
      cases r with
      | error e => rfl
      | ok os =>
        cases os with
        | nil => rfl
        | cons x xs =>
          dsimp only
          have g : SameOn (fun q => q = x.vec.getD []) c.Holds T L.metric (L.cmp T).metric :=
            sameOn_cmp L (fun v q d hv hq hd => by subst hq; exact hT _ he x (by simp) v d hv hd)
          rw [searchR_swap g i.holds rfl k]
          rfl

/-! ## Histories -/

/-- every vector of `c` is also in `c'`. -/
def VecKept (c c' : Coll) : Prop := ∀ k b, c.stores.vectors.get? k = some b → c'.stores.vectors.get? k = some b

theorem VecKept.holds {c c' : Coll} (h : VecKept c c') {v : Vec} (hv : c.Holds v) : c'.Holds v := by
  obtain ⟨id, hv⟩ := hv
  refine ⟨id, ?_⟩
  unfold getVector at hv ⊢
  cases hg : c.stores.vectors.get? (keyOf id) with
  | none => rw [hg] at hv; cases hv
  | some b => rw [hg] at hv; rw [h _ _ hg]; exact hv

theorem VecKept.of_eq {c c' : Coll} (h : c'.stores.vectors = c.stores.vectors) : VecKept c c' := fun k b hb => by rw [h]; exact hb

theorem VecKept.refl (c : Coll) : VecKept c c := fun _ _ h => h

theorem VecKept.trans {a b c : Coll} (h1 : VecKept a b) (h2 : VecKept b c) : VecKept a c := fun k x hx => h2 k x (h1 k x hx)

theorem insertOne_vecKept {S : Prop} {L : Lib V D} {dim : Nat} {X : UInt64 → Prop} {c : Coll} (i : WInv S L dim X c) {o : Object V} {env : InsEnv}
    {c' : Coll} {o' : Object V} {e : Option Err} (h : c.insertOne L o env = .ok (c', o', e)) : VecKept c c' := by
  unfold Coll.insertOne at h
  rcases fetchAndInc_eq c.counter env.counterFails with ⟨e1, h1, _⟩ | ⟨h1, _⟩
  · rw [h1] at h; cases h; exact .refl _
  · rw [h1] at h
    dsimp only at h
    have hfr := (fresh_of i).2.1
    have key : ∀ st e1, putObject L.json c.stores { o with id := c.counter.count } env.put = (st, e1) →
        ∀ k b, c.stores.vectors.get? k = some b → st.vectors.get? k = some b := by
      intro st e1 hp k b hb
      unfold putObject at hp
      split at hp
      · cases hp; exact hb
      · dsimp only at hp
        split at hp
        · cases hp; exact hb
        · split at hp
          · cases hp; exact hb
          · cases hp
            dsimp only
            rw [AMap.get?_set_ne _ _ _ _ ?_]
            · exact hb
            · intro hk
              apply hfr
              rw [hk, ← AMap.get?_isSome_iff, hb]; rfl
    cases hp : putObject L.json c.stores { o with id := c.counter.count } env.put with
    | mk st e1 =>
      rw [hp] at h
      cases e1 with
      | some e1 => cases h; exact key st _ hp
      | none =>
        dsimp only at h
        rw [bind_ok_iff] at h
        obtain ⟨idx, hi, h⟩ := h
        cases h
        exact key st _ hp

/-- storing an object needs no comparison outside `T`. -/
theorem insertOne_cmp {S : Prop} {L : Lib V D} {dim : Nat} {X : UInt64 → Prop} {c : Coll} (i : WInv S L dim X c) {o : Object V} {env : InsEnv}
    (hd : (o.vec.getD []).length = dim) {c' : Coll} {o' : Object V} {e : Option Err} (h : c.insertOne L o env = .ok (c', o', e))
    {Q : Vec → Prop} {T : D → Prop} (g : SameOn Q Q T L.metric (L.cmp T).metric) (hQ : ∀ v, c'.Holds v → Q v) :
    c.insertOne (L.cmp T) o env = .ok (c', o', e) := by
  have hk := insertOne_vecKept i h
  rw [← h]
  unfold Coll.insertOne at h ⊢
  rcases fetchAndInc_eq c.counter env.counterFails with ⟨e1, h1, _⟩ | ⟨h1, _⟩
  · rw [h1]
  · rw [h1] at h ⊢
    dsimp only at h ⊢
    rw [show (L.cmp T).json = L.json from rfl]
    cases hp : putObject L.json c.stores { o with id := c.counter.count } env.put with
    | mk st e1 =>
      rw [hp] at h
      cases e1 with
      | some e1 => rfl
      | none =>
        dsimp only at h ⊢
        obtain ⟨idx, hi, h⟩ := (bind_ok_iff _ _ _).mp h
        cases h
        have hv : Q (o.vec.getD []) := by
          apply hQ
          refine ⟨c.counter.count, ?_⟩
          unfold putObject at hp
          split at hp
          · cases hp
          · dsimp only at hp
            split at hp
            · cases hp
            · split at hp
              · cases hp
              · cases hp
                unfold getVector
                dsimp only
                rw [AMap.get?_set_self]
                dsimp only
                rw [deserialize_serializeVector _ (by have := i.dim32; omega)]
        have hn : NodesIn Q c.index.nodes := fun id v hv => hQ _ (hk.holds (i.holds id v hv))
        rw [(hnsw_insert_swap g hn hv c.counter.count env.level).1]

theorem insertAll_cmp {S : Prop} {L : Lib V D} {dim : Nat} {X : UInt64 → Prop} :
    ∀ (os : List (Object V × InsEnv)) (c c' : Coll) (os' : List (Object V)) (e : Option Err), WInv S L dim X c →
      (∀ p ∈ os, (p.1.vec.getD []).length = dim) → (∀ p ∈ os, p.2.level < 4294967296) →
      c.counter.count.toNat + os.length < 18446744073709551616 → c.insertAll L os = .ok (c', os', e) → VecKept c c' ∧
      ∀ (Q : Vec → Prop) (T : D → Prop), SameOn Q Q T L.metric (L.cmp T).metric → (∀ v, c'.Holds v → Q v) →
        c.insertAll (L.cmp T) os = .ok (c', os', e) := by
  intro os
  induction os with
  | nil => intro c c' os' e _ _ _ _ h; cases h; exact ⟨.refl _, fun _ _ _ _ => rfl⟩
  | cons a os ih =>
    intro c c' os' e i hd hl hc h
    obtain ⟨o, env⟩ := a
    have hcl : c.counter.count.toNat + (os.length + 1) < 18446744073709551616 := by simpa using hc
    obtain ⟨c1, o1, e1, h1, i1, f1⟩ := insertOne_spec i (env := env) (hd _ (List.mem_cons_self ..)) (hl _ (List.mem_cons_self ..)) (by omega)
    have p1 := insertOne_vecKept i h1
    have hcmp := fun Q T g hQ => insertOne_cmp (Q := Q) (T := T) i (hd _ (List.mem_cons_self ..)) h1 g hQ
    simp only [Coll.insertAll] at h ⊢
    rw [h1, ok_bind] at h
    dsimp only at h
    cases e1 with
    | some e1 =>
      cases h
      refine ⟨p1, fun Q T g hQ => ?_⟩
      rw [hcmp Q T g hQ]; rfl
    | none =>
      dsimp only at h
      rw [bind_ok_iff] at h
      obtain ⟨⟨c2, os2, e2⟩, h2, h⟩ := h
      cases h
      have hcnt : (c.counter.count + 1).toNat = c.counter.count.toNat + 1 := by
        rw [UInt64.toNat_add]
        show (c.counter.count.toNat + 1) % 2 ^ 64 = _
        omega
      obtain ⟨k2, hh⟩ := ih c1 c2 os2 e2 i1 (fun p hp => hd p (List.mem_cons_of_mem _ hp)) (fun p hp => hl p (List.mem_cons_of_mem _ hp))
        (by rw [f1.count, hcnt]; omega) h2
      refine ⟨p1.trans k2, fun Q T g hQ => ?_⟩
      rw [hcmp Q T g (fun v hv => hQ v (k2.holds hv)), ok_bind]
      dsimp only
      rw [hh Q T g hQ]; rfl

/-- one call needs no comparison outside `T` to reach the same state. -/
theorem apply_cmp {S : Prop} {L : Lib V D} {dim : Nat} {X : UInt64 → Prop} {c c' : Coll} (i : WInv S L dim X c) {op : Op V} {out : Out V D}
    (hl : Legal dim c op) (h : c.apply L op = .ok (c', out)) : VecKept c c' ∧
      ∀ (Q : Vec → Prop) (T : D → Prop), SameOn Q Q T L.metric (L.cmp T).metric → (∀ v, c'.Holds v → Q v) →
        ∃ out', c.apply (L.cmp T) op = .ok (c', out') := by
  cases op with
  | insert o embed env ff =>
    simp only [Coll.apply] at h
    cases hx : c.insert L o embed env ff with
    | error e => rw [hx] at h; cases h
    | ok r =>
      obtain ⟨c1, o1, e1⟩ := r
      rw [hx] at h; cases h
      obtain ⟨⟨r, hr, hd⟩, hlev, hcnt⟩ := hl
      have main : VecKept c c1 ∧ ∀ (Q : Vec → Prop) (T : D → Prop), SameOn Q Q T L.metric (L.cmp T).metric → (∀ v, c1.Holds v → Q v) →
          c.insert (L.cmp T) o embed env ff = .ok (c1, o1, e1) := by
        unfold Coll.insert at hx ⊢
        split at hx
        · rename_i hcl
          cases hx
          exact ⟨.refl _, fun _ _ _ _ => by rw [if_pos hcl]⟩
        · rename_i hcl
          split at hx
          · rename_i er hv
            cases hx
            refine ⟨.refl _, fun _ _ _ _ => ?_⟩
            rw [if_neg hcl]
          · rename_i hv
            rw [hr, ok_bind] at hx
            split at hx
            · rename_i er
              cases hx
              refine ⟨.refl _, fun _ _ _ _ => ?_⟩
              rw [if_neg hcl]
              rw [hr, ok_bind]
            · rename_i objs
              split at hx
              · cases hx
                refine ⟨.refl _, fun _ _ _ _ => ?_⟩
                rw [if_neg hcl]
                rw [hr, ok_bind]
              · rename_i o2 tl
                obtain ⟨⟨c2, o3, e3⟩, hin, hx⟩ := (bind_ok_iff _ _ _).mp hx
                have hd2 : (o2.vec.getD []).length = dim := hd _ rfl o2 (by simp)
                have k := insertOne_vecKept i hin
                have hc := fun Q T g hQ => insertOne_cmp (Q := Q) (T := T) i hd2 hin g hQ
                have hvec : c1.stores = c2.stores := by
                  cases e3 with
                  | some e3 => cases hx; rfl
                  | none => cases hx; rfl
                refine ⟨k.trans (.of_eq (by rw [hvec])), fun Q T g hQ => ?_⟩
                rw [if_neg hcl]
                rw [hr, ok_bind]; dsimp only
                rw [hc Q T g (fun v hv => hQ v (VecKept.holds (.of_eq (by rw [hvec])) hv)), ok_bind]
                exact hx
      refine ⟨main.1, fun Q T g hQ => ⟨.inserted o1 e1, ?_⟩⟩
      simp only [Coll.apply]
      rw [main.2 Q T g hQ]; rfl
  | insertBatch os embed envs ff =>
    simp only [Coll.apply] at h
    cases hx : c.insertBatch L os embed envs ff with
    | error e => rw [hx] at h; cases h
    | ok r =>
      obtain ⟨c1, o1, e1⟩ := r
      rw [hx] at h; cases h
      obtain ⟨⟨r, hr, hd⟩, hlev, hcnt⟩ := hl
      have main : VecKept c c1 ∧ ∀ (Q : Vec → Prop) (T : D → Prop), SameOn Q Q T L.metric (L.cmp T).metric → (∀ v, c1.Holds v → Q v) →
          c.insertBatch (L.cmp T) os embed envs ff = .ok (c1, o1, e1) := by
        unfold Coll.insertBatch at hx ⊢
        split at hx
        · rename_i hcl
          cases hx
          exact ⟨.refl _, fun _ _ _ _ => by rw [if_pos hcl]⟩
        · rename_i hcl
          split at hx
          · rename_i er hv
            cases hx
            refine ⟨.refl _, fun _ _ _ _ => ?_⟩
            rw [if_neg hcl]
          · rename_i hv
            have hlen : ∀ objs, r = .ok objs → objs.length = os.length := fun objs ho => embed_length (ho ▸ hr)
            rw [hr, ok_bind] at hx
            split at hx
            · rename_i er
              cases hx
              refine ⟨.refl _, fun _ _ _ _ => ?_⟩
              rw [if_neg hcl]
              rw [hr, ok_bind]
            · rename_i objs
              obtain ⟨⟨c2, o3, e3⟩, hin, hx⟩ := (bind_ok_iff _ _ _).mp hx
              have hz := zipIdx_dim (envs := envs) (hd objs rfl) hlev
              obtain ⟨k, hc⟩ := insertAll_cmp _ c c2 o3 e3 i hz.1 hz.2 (by have := hlen objs rfl; simp; omega) hin
              have hvec : c1.stores = c2.stores := by
                cases e3 with
                | some e3 => cases hx; rfl
                | none => cases hx; rfl
              refine ⟨k.trans (.of_eq (by rw [hvec])), fun Q T g hQ => ?_⟩
              rw [if_neg hcl]
              rw [hr, ok_bind]; dsimp only
              rw [hc Q T g (fun v hv => hQ v (VecKept.holds (.of_eq (by rw [hvec])) hv)), ok_bind]
              exact hx
      refine ⟨main.1, fun Q T g hQ => ⟨.insertedBatch o1 e1, ?_⟩⟩
      simp only [Coll.apply]
      rw [main.2 Q T g hQ]; rfl
  | delete id df ff =>
    simp only [Coll.apply] at h
    obtain ⟨c1, e1, h1, r1⟩ := delete_res i id df ff
    refine ⟨?_, fun Q T g hQ => ⟨_, h⟩⟩
    rw [h1] at h; cases h
    cases r1 with
    | closed => exact .refl _
    | absent => exact .refl _
    | failed => exact .refl _
    | done => exact .of_eq rfl
  | get ids => cases h; exact ⟨.refl _, fun _ _ _ _ => ⟨_, rfl⟩⟩
  | search o embed k => cases h; exact ⟨.refl _, fun _ _ _ _ => ⟨_, rfl⟩⟩
  | size => cases h; exact ⟨.refl _, fun _ _ _ _ => ⟨_, rfl⟩⟩
  | update o => cases h; exact ⟨.refl _, fun _ _ _ _ => ⟨_, rfl⟩⟩
  | close sf =>
    simp only [Coll.apply] at h ⊢
    cases h
    refine ⟨?_, fun _ _ _ _ => ⟨_, rfl⟩⟩
    apply VecKept.of_eq
    unfold Coll.close
    dsimp only
    split
    · rfl
    · split <;> rfl
  | reopen =>
    simp only [Coll.apply] at h ⊢
    refine ⟨?_, fun _ _ _ _ => ⟨_, h⟩⟩
    obtain ⟨c2, h2, h⟩ := (bind_ok_iff _ _ _).mp h
    cases h
    unfold Coll.reopen openColl at h2
    obtain ⟨_, _, h2⟩ := (bind_ok_iff _ _ _).mp h2
    obtain ⟨_, _, h2⟩ := (bind_ok_iff _ _ _).mp h2
    obtain ⟨_, _, h2⟩ := (bind_ok_iff _ _ _).mp h2
    cases h2
    exact .of_eq rfl

theorem runs_cmp {S : Prop} {L : Lib V D} {dim : Nat} {X : UInt64 → Prop} {c c' : Coll} {h : List (Op V × Out V D)} (r : Runs L dim c h c')
    (i : WInv S L dim X c) : VecKept c c' ∧
      ∀ (Q : Vec → Prop) (T : D → Prop), SameOn Q Q T L.metric (L.cmp T).metric → (∀ v, c'.Holds v → Q v) →
        ∃ h', Runs (L.cmp T) dim c h' c' := by
  induction r with
  | nil => exact ⟨.refl _, fun _ _ _ _ => ⟨[], .nil _⟩⟩
  | cons hl ha _ ih =>
    obtain ⟨c2, out, h2, i2, _⟩ := apply_spec i _ hl
    rw [ha] at h2; cases h2
    obtain ⟨k1, a1⟩ := apply_cmp i hl ha
    obtain ⟨k2, a2⟩ := ih i2
    refine ⟨k1.trans k2, fun Q T g hQ => ?_⟩
    obtain ⟨h', r'⟩ := a2 Q T g hQ
    obtain ⟨out', ho⟩ := a1 Q T g (fun v hv => hQ v (k2.holds hv))
    exact ⟨_, .cons hl ho r'⟩

/-- a collection whose vectors have distances in `T` is reached with the completed comparison, too. -/
theorem Reach.cmp {L : Lib V D} {dim : Nat} {c : Coll} (r : Reach L dim c) {T : D → Prop}
    (hT : ∀ v w d, c.Holds v → c.Holds w → L.metric.dist v w = .ok d → T d) : Reach (L.cmp T) dim c := by
  obtain ⟨cfg, ms, he, h, s, hr⟩ := r
  have i := new_inv (S := True) (X := fun _ => False) L dim cfg ms he s.json s.metric s.dim32 s.cfg
  obtain ⟨h', r'⟩ := (runs_cmp hr i).2 c.Holds T (sameOn_cmp L hT) (fun v hv => hv)
  exact ⟨cfg, ms, he, h', ⟨s.json, s.metric, s.dim32, s.cfg⟩, r'⟩

end Vectory
