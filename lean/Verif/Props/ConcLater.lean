import Verif.Props.ConcHistory
import Verif.Props.Ids
/-!
# Whole histories with concurrent batches: C02, C04, C05, C06

As in `Props/Objects` and `Props/Ids`, for histories (`Later`) in which batches are run by several workers under any schedule and the
process may also stop at any moment of such a batch.
-/
namespace Vectory.Conc
open Vectory
variable {V D : Type}

/-- what a history keeps: used ids keep their objects unless a delete was asked for, and what is gone stays gone. -/
structure Keeps (L : Lib V D) (c c' : Coll) (T : UInt64 → Prop) : Prop where
  file : fileCount c ≤ fileCount c'
  keep : ∀ id, id.toNat < fileCount c → ¬ T id → getObject L.json c'.stores id = getObject L.json c.stores id
  gone : ∀ id, id.toNat < fileCount c → getObject L.json c.stores id = .ok none → getObject L.json c'.stores id = .ok none

theorem Keeps.of {L : Lib V D} {c c' : Coll} {T : UInt64 → Prop} (h : EvoS L c c' T) : Keeps L c c' T := ⟨h.file, h.keep, h.gone⟩

theorem Keeps.trans {L : Lib V D} {a b c : Coll} {T : UInt64 → Prop} (h1 : Keeps L a b T) (h2 : Keeps L b c T) : Keeps L a c T :=
  ⟨Nat.le_trans h1.file h2.file,
    fun id h ht => (h2.keep id (Nat.lt_of_lt_of_le h h1.file) ht).trans (h1.keep id h ht),
    fun id h hn => h2.gone id (Nat.lt_of_lt_of_le h h1.file) (h1.gone id h hn)⟩

theorem reopen_keeps {L : Lib V D} {c c' : Coll} (h : c.reopen = .ok c') (T : UInt64 → Prop) : Keeps L c c' T := by
  unfold Coll.reopen openColl at h
  obtain ⟨ctr, hc, h⟩ := (bind_ok_iff _ _ _).mp h
  obtain ⟨hh, _, h⟩ := (bind_ok_iff _ _ _).mp h
  obtain ⟨hp, _, h⟩ := (bind_ok_iff _ _ _).mp h
  cases h
  have hc : liftErr (newIdCounter c.counter.file) = .ok ctr := hc
  have hf : ctr.file = c.counter.file := by
    unfold newIdCounter liftErr at hc
    split at hc
    · rename_i x hx
      cases hc
      split at hx
      · cases hx; rfl
      · split at hx <;> cases hx; rfl
    · cases hc
  refine ⟨?_, fun _ _ _ => rfl, fun _ _ h => h⟩
  have hf' : ctr.file = c.disk.counterFile := hf
  unfold fileCount
  dsimp only
  rw [hf]
  exact Nat.le_refl _

theorem batch_keeps {fixed two : Bool} {L : Lib V D} {dim workers : Nat} {X : UInt64 → Prop} {c : Coll} {os : List (Object V)}
    {embed : Embed V} {acts : List BAct} {b : Batch V D} (i : WInv False L dim X c)
    (h : BatchAt fixed two L dim workers c os embed acts b) (T : UInt64 → Prop) : Keeps L c b.c T := by
  obtain ⟨order, _, _, _, _, _, hf, _⟩ := batch_ids i h
  obtain ⟨objs, _, hopen, hemb, _, ok, ⟨F, A, B, X0, X1, X2, js, hj, s⟩, _⟩ := h.state i
  have key : ∃ b' : Batch V D, BInv fixed L dim c objs workers b' F A B X0 X1 X2 js ∧ b'.c.stores = b.c.stores := by
    rcases s with ⟨v, _⟩ | ⟨c1, ff, v, _, _, hc, _⟩
    · exact ⟨b, v, rfl⟩
    · exact ⟨_, v, by rw [hc]; rfl⟩
  obtain ⟨b', v, e⟩ := key
  have same : ∀ id : UInt64, id.toNat < fileCount c → getObject L.json b.c.stores id = getObject L.json c.stores id := by
    intro id hid
    rw [← e]
    refine v.keep ok id (fun hm => ?_)
    obtain ⟨p, hp, rfl⟩ := List.mem_map.mp hm
    have := v.dat.lo p (v.dat.subA _ (v.dat.subB _ hp))
    have := i.file_le
    omega
  exact ⟨hf, fun id hid _ => same id hid, fun id hid hn => by rw [same id hid]; exact hn⟩

theorem Later.spec {fixed : Bool} {L : Lib V D} {dim : Nat} {T : UInt64 → Prop} {c c' : Coll} {ids : List UInt64}
    (i : WInv False L dim (fun _ => True) c) (d : DInv False c.index) (h : Later fixed L dim T c ids c') :
    (WInv False L dim (fun _ => True) c' ∧ DInv False c'.index) ∧ Keeps L c c' T := by
  induction h with
  | refl => exact ⟨⟨i, d⟩, Nat.le_refl _, fun _ _ _ => rfl, fun _ _ h => h⟩
  | event _ hl hs ht ih =>
    exact ⟨step_weak ih.1.1 ih.1.2 hl hs, ih.2.trans (Keeps.of ((step_evoS ih.1.1 ih.1.2 hl hs).mono ht))⟩
  | batch _ hb ht _ hover ih =>
    exact ⟨⟨(batch_weak ih.1.1 hb ht hover).1, (batch_weak ih.1.1 hb ht hover).2 ih.1.2⟩, ih.2.trans (batch_keeps ih.1.1 hb T)⟩
  | crash _ hb ht hr ih =>
    exact ⟨crash_weak ih.1.1 ih.1.2 hb ht hr, ih.2.trans ((batch_keeps ih.1.1 hb T).trans (reopen_keeps hr T))⟩

/-- `ReachAnyConc` is reachability from a new collection by such histories. -/
theorem Later.reach {fixed : Bool} {L : Lib V D} {dim : Nat} {T : UInt64 → Prop} {c c' : Coll} {ids : List UInt64}
    (h : Later fixed L dim T c ids c') (hr : ReachAnyConc fixed L dim c) : ReachAnyConc fixed L dim c' := by
  induction h with
  | refl => exact hr
  | event _ hl hs _ ih => exact .event ih hl hs
  | batch _ hb ht h1 h2 ih => exact .batch ih hb ht h1 h2
  | crash _ hb ht h1 ih => exact .crash ih hb ht h1

/-! ## C02 -/

theorem Stored.keeps {L : Lib V D} {dim : Nat} {S : Prop} {X : UInt64 → Prop} {c c' : Coll} {T : UInt64 → Prop} {o : Object V}
    (i : WInv S L dim X c) (h : Stored L c o) (e : Keeps L c c' T) (ht : ¬ T o.id) : Stored L c' o := by
  obtain ⟨b, p, h1, h2, h3⟩ := h
  exact ⟨b, p, h1, h2, by rw [e.keep _ (getObject_used i h3) ht]; exact h3⟩

/-- C02 with concurrent batches before and after: once `Insert(o)` returned no error, the object is read back after any history that
does not delete it. -/
theorem C02_insert_readable_concurrent (fixed : Bool) (L : Lib V D) (dim : Nat) (c c1 c2 : Coll) (o o1 : Object V) (embed : Embed V)
    (env : InsEnv) (ff : Bool) (hr : ReachAnyConc fixed L dim c) (hl : Legal dim c (.insert o embed env ff))
    (h1 : c.insert L o embed env ff = .ok (c1, o1, none)) (ids : List UInt64)
    (h2 : Later fixed L dim (fun x => x ≠ o1.id) c1 ids c2) (ho : c2.closed = false) :
    (∃ text props, L.json.marshal o.props = some text ∧ L.json.unmarshal text = some props ∧
      c2.get L [o1.id] = .ok [{ id := o1.id, props := props, vec := some (o1.vec.getD []) }]) ∧
    (∀ v, o.vec = some v → o1.vec = some v) := by
  have i := hr.inv.1
  obtain ⟨i1, _⟩ := insert_inv i hl h1 (fun _ => False)
  have d1 := apply_dinv i hr.inv.2 (op := .insert o embed env ff) (out := .inserted o1 none) (c' := c1) hl (by simp [Coll.apply, h1, liftPanic])
  have hst : Stored L c1 o1 ∧ o1.props = o.props ∧ (∀ v, o.vec = some v → o1.vec = some v) := by
    obtain ⟨⟨r, hr, hd⟩, hlev, hcnt⟩ := hl
    generalize he : (none : Option Err) = e at h1
    cases insert_res h1 with
    | closed => cases he
    | invalid => cases he
    | embed => cases he
    | storage => cases he
    | done o2 _ c3 _ _ hem hin =>
      have hk := embed_keep hem 0 o o2 rfl rfl
      rw [hr] at hem; cases hem
      obtain ⟨c4, o3, e2, h2, i2, f2⟩ := insertOne_spec i (env := env) (hd [o2] rfl o2 (by simp)) hlev hcnt
      rw [hin] at h2; cases h2
      exact ⟨(f2.stored).evo i2 (flush_evo L c3 ff (fun _ => False)) (by simp), f2.props.trans hk.1,
        fun v hv => by rw [f2.vec]; exact hk.2.2 v hv⟩
  refine ⟨?_, hst.2.2⟩
  obtain ⟨b, p, s1, s2, s3⟩ := Stored.keeps i1 hst.1 (h2.spec i1 d1).2 (by simp)
  exact ⟨b, p, by rw [← hst.2.1]; exact s1, s2, (get_single_some ho).mpr s3⟩

/-- C02 for concurrent batches: once `InsertBatch` (or `InsertBatch2`), run by several workers under any schedule, returned nil, every
object of it is read back after any history that does not delete it. (Not for batches whose context was cancelled or that pass
through the race: `C57_fails`.) -/
theorem C02_batch_readable_concurrent (fixed two : Bool) (L : Lib V D) (dim workers : Nat) (c c2 : Coll)
    (hr : ReachAnyConc fixed L dim c) (os : List (Object V)) (embed : Embed V) (acts : List BAct) (b : Batch V D)
    (hb : BatchAt fixed two L dim workers c os embed acts b) (ht : NoRace fixed two L dim workers c os embed acts)
    (hcan : BAct.cancel ∉ acts) (hret : b.returned none) (n : Nat) (o o1 : Object V) (hn : os[n]? = some o) (hn1 : b.objs[n]? = some o1) (ids : List UInt64)
    (h2 : Later fixed L dim (fun x => x ≠ o1.id) b.c ids c2) (ho : c2.closed = false) :
    (∃ text props, L.json.marshal o.props = some text ∧ L.json.unmarshal text = some props ∧
      c2.get L [o1.id] = .ok [{ id := o1.id, props := props, vec := some (o1.vec.getD []) }]) ∧
    (∀ v, o.vec = some v → o1.vec = some v) := by
  have i := hr.inv.1
  have hover : ∀ t ∈ b.tasks, t.pc.over = true := by
    obtain ⟨objs, _, _, _, _, _, ⟨F, A, B, X0, X1, X2, js, hj, s⟩, _⟩ := hb.state i
    rcases s with ⟨v, hr⟩ | ⟨c1, ff, v, hover, _⟩
    · exfalso
      unfold Batch.returned at hret
      rcases hr with hr | ⟨e, hr, _⟩ <;> rw [hret] at hr <;> cases hr
    · exact List.all_eq_true.mp hover
  obtain ⟨i1, d1⟩ := batch_weak i hb ht hover
  have st := allStored i hb hcan (raceFree_noPanic i hb ht) hret
  obtain ⟨hp, hv⟩ := st.same n o o1 hn hn1
  refine ⟨?_, hv⟩
  obtain ⟨text, props, a1, a2, a3⟩ := st.read o1 (List.mem_of_getElem? hn1)
  have hcl : b.c.closed = false := by
    cases hc : b.c.closed with
    | false => rfl
    | true => unfold Coll.get at a3; rw [if_pos hc] at a3; cases a3
  obtain ⟨b', p', s1, s2, s3⟩ := Stored.keeps (o := o1) i1 ⟨text, props, a1, a2, (get_single_some hcl).mp a3⟩ (h2.spec i1 (d1 hr.inv.2)).2 (by simp)
  exact ⟨b', p', by rw [← hp]; exact s1, s2, (get_single_some ho).mpr s3⟩

/-! ## C06 -/

/-- C06 with concurrent batches: once `Delete(id)` of an object that could be read at some time before returned without an error, `Get`
never returns it and no search lists it, whatever follows. -/
theorem C06_deleted_stays_deleted_concurrent (fixed : Bool) (L : Lib V D) (dim : Nat) (c0 c c1 c2 : Coll)
    (hr : ReachAnyConc fixed L dim c0) (id : UInt64) (o : Object V) (hid : c0.get L [id] = .ok [o]) (ids : List UInt64)
    (hb : Later fixed L dim (fun _ => True) c0 ids c) (df ff : Bool) (hdel : c.delete L id df ff = .ok (c1, none))
    (ids' : List UInt64) (h2 : Later fixed L dim (fun _ => True) c1 ids' c2) :
    (c2.closed = false → c2.get L [id] = .ok []) ∧
    ∀ q embed k r, c2.semanticSearch L q embed k = .ok r → ∀ hit ∈ r.objects, hit.id ≠ id := by
  have hcl : c0.closed = false := by
    cases hc : c0.closed with
    | false => rfl
    | true => unfold Coll.get at hid; rw [if_pos hc] at hid; cases hid
  obtain ⟨⟨i, dv⟩, ev0⟩ := hb.spec hr.inv.1 hr.inv.2
  have hused : id.toNat < fileCount c0 := by
    obtain ⟨m, hm1, hm2, _⟩ := C03_get_filters_concurrent fixed L dim c0 hr hcl
    have h := hm2 id
    rw [hid] at h
    cases hmi : m id with
    | none => rw [hmi] at h; cases h
    | some x =>
      rw [hmi] at h
      injection h with h
      injection h with h _
      subst h
      have := hm1 id o hmi
      subst this
      exact getObject_used hr.inv.1 ((get_single_some hcl).mp hid)
  have d1 := apply_dinv i dv (op := .delete id df ff) (out := .deleted none) (c' := c1) trivial (by simp [Coll.apply, hdel, liftPanic])
  obtain ⟨c1', e, h3, hres⟩ := delete_res i id df ff
  rw [hdel] at h3; cases h3
  obtain ⟨i1, ev1⟩ := delete_inv i hres
  have hnone : getObject L.json c1.stores id = .ok none := by
    generalize hee : (none : Option Err) = e at hres
    cases hres with
    | closed => cases hee
    | absent h => exact h
    | failed => cases hee
    | done o hc hg _ => exact getObject_delete_self L.json c.stores id
  have hn2 := (h2.spec i1 d1).2.gone id (Nat.lt_of_lt_of_le (Nat.lt_of_lt_of_le hused ev0.file) ev1.file) hnone
  refine ⟨fun ho => (get_single_none ho).mpr hn2, ?_⟩
  intro q embed k r hsr hit hh he
  obtain ⟨x, hx⟩ := semanticSearch_stored hsr hit hh
  rw [he, hn2] at hx
  cases hx

/-! ## C04, C05 -/

theorem nodup_filterMap_idx {α β : Type} (f : α → Option β) (l : List α)
    (h : ∀ (i j : Nat) (x : β), i < j → (l[i]?).bind f = some x → (l[j]?).bind f ≠ some x) : (l.filterMap f).Nodup := by
  induction l with
  | nil => exact List.nodup_nil
  | cons a l ih =>
    have ih := ih (fun i j x hij h1 => by
      have := h (i + 1) (j + 1) x (by omega)
      simpa using this (by simpa using h1))
    rw [List.filterMap_cons]
    split
    · exact ih
    · rename_i x hx
      refine List.nodup_cons.mpr ⟨fun hm => ?_, ih⟩
      obtain ⟨y, hy, hfy⟩ := List.mem_filterMap.mp hm
      obtain ⟨j, hj⟩ := List.getElem?_of_mem hy
      exact h 0 (j + 1) x (by omega) (by simpa using hx) (by simp [hj, hfy])

theorem pairwise_two {α : Type} {R : α → α → Prop} {l : List α} (h : l.Pairwise R) {a b : α} (ha : a ∈ l) (hb : b ∈ l) (hab : a ≠ b) :
    R a b ∨ R b a := by
  induction h with
  | nil => cases ha
  | cons hx _ ih =>
    rcases List.mem_cons.mp ha with rfl | ha'
    · rcases List.mem_cons.mp hb with rfl | hb'
      · exact absurd rfl hab
      · exact Or.inl (hx _ hb')
    · rcases List.mem_cons.mp hb with rfl | hb'
      · exact Or.inr (hx _ ha')
      · exact ih ha' hb'

/-- the ids of a batch are distinct, unused before it and used after it. -/
theorem batch_received {fixed two : Bool} {L : Lib V D} {dim workers : Nat} {X : UInt64 → Prop} {c : Coll} {os : List (Object V)}
    {embed : Embed V} {acts : List BAct} {b : Batch V D} (i : WInv False L dim X c)
    (h : BatchAt fixed two L dim workers c os embed acts b) (ht : NoRace fixed two L dim workers c os embed acts) (hover : ∀ t ∈ b.tasks, t.pc.over = true) :
    (b.received os).Nodup ∧ ∀ x ∈ b.received os, fileCount c ≤ x.toNat ∧ x.toNat < fileCount b.c := by
  obtain ⟨order, h1, hlen, h2, h3, h4, hf, hle⟩ := batch_ids i h
  have hc0 := i.file_le
  by_cases hall : b.ret = some none ∧ b.cancelled = false
  · have st := allStored_of i h hall.2 (raceFree_noPanic i h ht) hall.1
    have i1 := (batch_weak i h ht hover).1
    have e : b.received os = b.objs.map Object.id := by
      unfold Batch.received
      simp only [hall, and_self, true_or, if_true]
      have h5 : (os.zip b.objs).filterMap (fun p => some p.2.id) = (os.zip b.objs).map (fun p => p.2.id) :=
        congrFun (List.filterMap_eq_map (f := fun p : Object V × Object V => p.2.id)) _
      have h6 : (os.zip b.objs).map Prod.snd = b.objs := List.map_snd_zip (by omega)
      rw [h5]
      conv => rhs; rw [← h6, List.map_map]
      rfl
    have hnd : (b.objs.map (fun o => o.id.toNat)).Nodup := (List.Perm.nodup_iff st.ids).mpr (List.nodup_range' (step := 1))
    rw [e]
    refine ⟨?_, ?_⟩
    · have : b.objs.map (fun o => o.id.toNat) = (b.objs.map Object.id).map UInt64.toNat := by rw [List.map_map]; rfl
      rw [this] at hnd
      exact List.Pairwise.of_map _ (fun a b h e => h (by rw [e])) hnd
    · intro x hx
      obtain ⟨o, ho, rfl⟩ := List.mem_map.mp hx
      have hm := st.ids.mem_iff.mp (List.mem_map.mpr ⟨o, ho, rfl⟩)
      rw [List.mem_range'] at hm
      obtain ⟨j, _, hj⟩ := hm
      obtain ⟨text, props, _, _, a3⟩ := st.read o ho
      have hcl : b.c.closed = false := by
        cases hc : b.c.closed with
        | false => rfl
        | true => unfold Coll.get at a3; rw [if_pos hc] at a3; cases a3
      have := getObject_used i1 ((get_single_some hcl).mp a3)
      exact ⟨by omega, this⟩
  · have hin : ∀ (k : Nat) (p : Object V × Object V), (os.zip b.objs)[k]? = some p →
        (if (b.ret = some none ∧ b.cancelled = false) ∨ p.2.id ≠ p.1.id then some p.2.id else none).isSome → k ∈ order ∧ b.objs[k]? = some p.2 := by
      intro k p hp hx
      obtain ⟨o, o'⟩ := p
      obtain ⟨ho, ho'⟩ := List.getElem?_zip_eq_some.mp hp
      refine ⟨?_, ho'⟩
      by_cases hk : k ∈ order
      · exact hk
      have := h2 k o o' ho ho' hk
      rw [if_neg (by simp only [hall, false_or]; exact fun hne => hne this)] at hx
      cases hx
    have hpw := List.pairwise_filterMap.mp h3
    refine ⟨nodup_filterMap_idx _ _ ?_, ?_⟩
    · intro k j x hkj ha hb
      obtain ⟨p, hp, hfp⟩ := Option.bind_eq_some_iff.mp ha
      obtain ⟨q, hq, hfq⟩ := Option.bind_eq_some_iff.mp hb
      obtain ⟨k1, k2⟩ := hin k p hp (by rw [hfp]; rfl)
      obtain ⟨j1, j2⟩ := hin j q hq (by rw [hfq]; rfl)
      have e1 : p.2.id = x := by split at hfp <;> cases hfp; rfl
      have e2 : q.2.id = x := by split at hfq <;> cases hfq; rfl
      rcases pairwise_two hpw k1 j1 (by omega) with h | h
      · have := h p.2.id.toNat (by simp [k2]) q.2.id.toNat (by simp [j2])
        rw [e1, e2] at this; omega
      · have := h q.2.id.toNat (by simp [j2]) p.2.id.toNat (by simp [k2])
        rw [e1, e2] at this; omega
    · intro x hx
      obtain ⟨p, hp, hfp⟩ := List.mem_filterMap.mp hx
      obtain ⟨k, hk⟩ := List.getElem?_of_mem hp
      obtain ⟨k1, k2⟩ := hin k p hk (by rw [hfp]; rfl)
      have e1 : p.2.id = x := by split at hfp <;> cases hfp; rfl
      obtain ⟨o, a, b1, b2⟩ := h4 k k1
      rw [k2] at a; cases a
      rw [← e1]
      exact ⟨by omega, b2⟩

theorem Later.ids {fixed : Bool} {L : Lib V D} {dim : Nat} {T : UInt64 → Prop} {c c' : Coll} {ids : List UInt64}
    (i : WInv False L dim (fun _ => True) c) (d : DInv False c.index) (h : Later fixed L dim T c ids c') :
    ids.Nodup ∧ ∀ x ∈ ids, fileCount c ≤ x.toNat ∧ x.toNat < fileCount c' := by
  have app : ∀ {a c1 c2 : Coll} {l r : List UInt64}, fileCount a ≤ fileCount c1 → fileCount c1 ≤ fileCount c2 →
      (l.Nodup ∧ ∀ x ∈ l, fileCount a ≤ x.toNat ∧ x.toNat < fileCount c1) →
      (r.Nodup ∧ ∀ x ∈ r, fileCount c1 ≤ x.toNat ∧ x.toNat < fileCount c2) →
      ((l ++ r).Nodup ∧ ∀ x ∈ l ++ r, fileCount a ≤ x.toNat ∧ x.toNat < fileCount c2) := by
    intro a c1 c2 l r h1 h2 hl hr
    refine ⟨List.nodup_append.mpr ⟨hl.1, hr.1, fun x hx y hy e => ?_⟩, fun x hx => ?_⟩
    · subst e
      have := (hl.2 x hx).2
      have := (hr.2 x hy).1
      omega
    · rcases List.mem_append.mp hx with hx | hx
      · have := hl.2 x hx; omega
      · have := hr.2 x hx; omega
  induction h with
  | refl => exact ⟨List.nodup_nil, by simp⟩
  | event r hl hs _ ih =>
    obtain ⟨⟨i1, _⟩, k⟩ := r.spec i d
    obtain ⟨hb, hu⟩ := legalEv_bound hl
    have s := event_ids hs hu i1.file_le hb
    exact app k.file s.mono ih ⟨s.inc.imp (fun h e => by subst e; omega), s.fresh⟩
  | batch r hb ht _ hover ih =>
    obtain ⟨⟨i1, _⟩, k⟩ := r.spec i d
    exact app k.file (batch_keeps i1 hb T).file ih (batch_received i1 hb ht hover)
  | crash r hb ht hr ih =>
    obtain ⟨⟨i1, _⟩, k⟩ := r.spec i d
    refine ⟨ih.1, fun x hx => ?_⟩
    have := (batch_keeps i1 hb T).file
    have := (reopen_keeps (L := L) hr T).file
    have := ih.2 x hx
    omega

/-- C04 with concurrent batches: over a whole history of calls, failures, reopens, crashes and batches run by several workers under any
schedule, no two objects receive the same id. -/
theorem C04_ids_distinct_concurrent (fixed : Bool) (L : Lib V D) (dim : Nat) (cfg : Cfg) (ms : List String) (he : Bool)
    (hs : Setup L dim cfg) (ids : List UInt64) (c : Coll) (h : Later fixed L dim (fun _ => True) (Coll.new cfg ms he) ids c) :
    ids.Nodup := by
  have r : ReachAnyConc fixed L dim (Coll.new cfg ms he) := .new hs
  exact (h.ids r.inv.1 r.inv.2).1

/-- C05 with concurrent batches: after such a history the next id is above every id that a caller received. (Counter writes that are
cut in the middle are excluded as in `C05_ids_after_crash`.) -/
theorem C05_next_id_concurrent (fixed : Bool) (L : Lib V D) (dim : Nat) (cfg : Cfg) (ms : List String) (he : Bool)
    (hs : Setup L dim cfg) (ids : List UInt64) (c : Coll) (h : Later fixed L dim (fun _ => True) (Coll.new cfg ms he) ids c) :
    ∀ x ∈ ids, x.toNat < c.counter.count.toNat := by
  have r : ReachAnyConc fixed L dim (Coll.new cfg ms he) := .new hs
  intro x hx
  have := ((h.ids r.inv.1 r.inv.2).2 x hx).2
  have := (h.spec r.inv.1 r.inv.2).1.1.file_le
  omega

theorem demo_setup' : Setup demoLib 1 demoCfg :=
  ⟨demoJson_ok, fun a b ha hb => demoDist_ok a b (by omega), by decide, by constructor <;> decide⟩

/-- an interleaved batch of four, a delete of the second object, a batch that is interrupted after one object was stored (not yet its
vector), and the reopen. -/
theorem later_demo : ∃ (c0 c1 c2 : Coll) (ids : List UInt64), Later false demoLib 1 (fun x => x ≠ 0) (Coll.new demoCfg ["a"] false) ids c0 ∧
    ids = [0, 2, 1, 3] ∧ c0.delete demoLib 1 false false = .ok (c1, none) ∧ Later false demoLib 1 (fun x => x ≠ 0) c1 [] c2 ∧
    c2.closed = false ∧ c2.counter.count = 5 ∧ (∃ o, c0.get demoLib [1] = .ok [o]) ∧ ∃ o, c2.get demoLib [0] = .ok [o] := by
  obtain ⟨b, h, hp⟩ := bleads_sound (cfg := demoCfg) (two := false) (fixed := false) (workers := 2) (os := c14Objs)
    (acts := c14Acts false) (P := fun b => decide (b.ret ≠ none) && (b.tasks.all (fun t => t.pc.over) &&
      (decide (b.received c14Objs = [0, 2, 1, 3]) && (decide ((b.c.get demoLib [1]).toOption.map List.length = some 1) &&
      (match b.c.delete demoLib 1 false false with
        | .ok (c, none) =>
          (match startBatch c [demoObj 7] 1 with
           | some b0 =>
            (match (b0.run false demoLib (works 0 3) : Option (Batch UInt8 Nat)) with
             | some b1 => (match b1.c.reopen with
                | .ok c2 => (match prepare c [demoObj 7] noEmbed with | .ok (.ok objs) => decide (objs = [demoObj 7]) | _ => false) &&
                  (!c.hasEmbedder && (!c2.closed && (decide (c2.counter.count = 5) && (decide ((c2.get demoLib [0]).toOption.map List.length = some 1) &&
                  decide (c.counter.count.toNat + 1 < 18446744073709551616)))))
                | _ => false)
             | _ => false)
           | _ => false)
        | _ => false))))) (by decide +kernel)
  simp only [Bool.and_eq_true, decide_eq_true_eq] at hp
  obtain ⟨h1, h2, h3, h4, h5⟩ := hp
  split at h5
  · rename_i c hc
    split at h5
    · rename_i b0 hb0
      split at h5
      · rename_i b1 hb1
        split at h5
        · rename_i c2 hc2
          simp only [Bool.and_eq_true, decide_eq_true_eq, Bool.not_eq_true'] at h5
          obtain ⟨q1, q2, q3, q4, q5, q6⟩ := h5
          have hprep : prepare c [demoObj 7] noEmbed = .ok (.ok [demoObj 7]) := by
            split at q1
            · rename_i objs ho; rw [ho, of_decide_eq_true q1]
            · cases q1
          have one : ∀ {ε : Type} (x : Except ε (List (Object UInt8))), x.toOption.map List.length = some 1 → ∃ o, x = .ok [o] := by
            intro ε x hx
            match x, hx with
            | .ok [o], _ => exact ⟨o, rfl⟩
          have hc0 : ReachAnyConc false demoLib 1 b.c := .batch (.new demo_setup') h c14_calm h1 (List.all_eq_true.mp h2)
          have hc1 : ReachAnyConc false demoLib 1 c := .event (e := .call (.delete 1 false false) (.deleted none)) hc0 trivial
            (.call (by simp [Coll.apply, hc, liftPanic, bind, Except.bind]))
          refine ⟨b.c, c, c2, _, .batch (.refl) h c14_calm h1 (List.all_eq_true.mp h2), h3, hc, ?_, q3, q4, one _ h4, one _ q5⟩
          refine .crash (two := false) (workers := 1) (os := [demoObj 7]) (embed := noEmbed) (acts := works 0 3) (b := b1) .refl
            ⟨by decide, demo_embedOK c q2 7, q6, ?_, [demoObj 7], b0, hprep, hb0, hb1⟩ (Low.noRace (Or.inr (Or.inl rfl)) hc1.inv.1) hc2
          intro i env hm
          obtain ⟨_, hm⟩ := List.mem_replicate.mp hm
          cases hm
          exact (by decide : 0 < 4294967296)
        · cases h5
      · cases h5
    · cases h5
  · cases h5

-- the hypotheses of the theorems above are met
example : ∃ (c0 c c1 c2 : Coll) (ids : List UInt64) (o : Object UInt8), ReachAnyConc false demoLib 1 c0 ∧ c0.get demoLib [1] = .ok [o] ∧
    Later false demoLib 1 (fun _ => True) c0 [] c ∧ c.delete demoLib 1 false false = .ok (c1, none) ∧
    Later false demoLib 1 (fun _ => True) c1 ids c2 ∧ c2.closed = false := by
  obtain ⟨c0, c1, c2, ids, h1, h2, h3, h4, h5, h6, ⟨o, h7⟩, h8⟩ := later_demo
  have weaken : ∀ {a b : Coll} {l : List UInt64}, Later false demoLib 1 (fun x => x ≠ 0) a l b → Later false demoLib 1 (fun _ => True) a l b := by
    intro a b l h
    induction h with
    | refl => exact .refl
    | event _ hl hs _ ih => exact .event ih hl hs (fun _ _ => trivial)
    | batch _ hb ht h1 h2 ih => exact .batch ih hb ht h1 h2
    | crash _ hb ht h1 ih => exact .crash ih hb ht h1
  exact ⟨c0, c0, c1, c2, _, o, h1.reach (.new demo_setup'), h7, .refl, h3, weaken h4, h5⟩

-- an insert after an interleaved batch, and then a delete of another object
example : ∃ (c c1 c2 : Coll) (o1 : Object UInt8) (ids : List UInt64), ReachAnyConc false demoLib 1 c ∧
    Legal 1 c (.insert (demoObj 77) noEmbed {} false) ∧ c.insert demoLib (demoObj 77) noEmbed {} false = .ok (c1, o1, none) ∧
    Later false demoLib 1 (fun x => x ≠ o1.id) c1 ids c2 ∧ c2.closed = false ∧ c2.index.deleted = [1] := by
  obtain ⟨b, h, hp⟩ := bleads_sound (cfg := demoCfg) (two := false) (fixed := false) (workers := 2) (os := c14Objs)
    (acts := c14Acts false) (P := fun b => decide (b.ret ≠ none) && (b.tasks.all (fun t => t.pc.over) &&
      (legalB 1 b.c (.insert (demoObj 77) noEmbed {} false) &&
      (match b.c.insert demoLib (demoObj 77) noEmbed {} false with
        | .ok (c, o, none) =>
          (match c.delete demoLib 1 false false with
           | .ok (c2, none) => decide (o.id = 4) && (!c2.closed && decide (c2.index.deleted = [1]))
           | _ => false)
        | _ => false)))) (by decide +kernel)
  simp only [Bool.and_eq_true, decide_eq_true_eq] at hp
  obtain ⟨h1, h2, h3, h4⟩ := hp
  split at h4
  · rename_i c1 o hc1
    split at h4
    · rename_i c2 hc2
      simp only [Bool.and_eq_true, decide_eq_true_eq, Bool.not_eq_true'] at h4
      refine ⟨b.c, c1, c2, o, _, .batch (.new demo_setup') h c14_calm h1 (List.all_eq_true.mp h2), legalB_sound h3, hc1,
        .event (e := .call (.delete 1 false false) (.deleted none)) .refl trivial (.call (by simp [Coll.apply, hc2, liftPanic, bind, Except.bind])) ?_,
        h4.2.1, h4.2.2⟩
      intro x hx
      rw [h4.1]
      have hx : x = 1 := hx
      subst hx
      decide
    · cases h4
  · cases h4

-- an interleaved batch that returned nil, with nothing after it
example : ∃ (b : Batch UInt8 Nat) (o1 : Object UInt8), BatchAt false false demoLib 1 2 (Coll.new demoCfg ["a"] false) c14Objs noEmbed (c14Acts false) b ∧
    BAct.cancel ∉ c14Acts false ∧ b.returned none ∧ b.objs[1]? = some o1 ∧ o1.id = 2 ∧ b.c.closed = false := by
  obtain ⟨b, h, hp⟩ := bleads_sound (cfg := demoCfg) (two := false) (fixed := false) (workers := 2) (os := c14Objs)
    (acts := c14Acts false) (P := fun b => decide (b.ret = some none) && (decide ((b.objs[1]?).map Object.id = some 2) && !b.c.closed)) (by decide +kernel)
  simp only [Bool.and_eq_true, decide_eq_true_eq, Bool.not_eq_true'] at hp
  obtain ⟨o1, ho, e⟩ := Option.map_eq_some_iff.mp hp.2.1
  refine ⟨b, o1, h, ?_, hp.1, ho, e, hp.2.2⟩
  have : (c14Acts false).all (fun a => match a with | .cancel => false | _ => true) = true := by decide +kernel
  intro hm
  have := List.all_eq_true.mp this _ hm
  cases this

end Vectory.Conc
