import Verif.Model.DbClose
import Verif.Props.DbLife
import Verif.Props.Db
import Verif.Spec.DemoLife
/-! # C72: `DB.Close` while clients work -/
namespace Vectory
variable {V D : Type}

/-- a client's call as an event in the life of the database. -/
def clientEv (x : String × Op V × Out V F32) : DbEv V := .call (.on x.1 x.2.1) (.called x.2.2)

/-- a call of `Close` on one collection. -/
def closeEv (n : String) : DbEv V := .call (.on n (.close false)) (.called (.done none))

/-- a call of `DB.Close` with nothing else going on. -/
def dbCloseEv : DbEv V := .call (.close false (fun _ => false)) (.done none)

/-- a closed collection stays closed, whatever is called. -/
theorem apply_closed {L : Lib V D} {c c' : Coll} {op : Op V} {out : Out V D} (hc : c.closed = true) (hop : op ≠ .reopen)
    (h : c.apply L op = .ok (c', out)) : c'.closed = true := by
  by_cases hd : ∃ id a b, op = .delete id a b
  · obtain ⟨id, a, b, rfl⟩ := hd
    obtain ⟨h1, h2⟩ := C39_delete_not_refused L c hc id a b
    cases hh : c.stores.objects.has (keyOf id) with
    | true =>
      simp only [Coll.apply, h2 hh, liftPanic] at h
      cases h; exact hc
    | false =>
      simp only [Coll.apply, h1 hh, liftPanic] at h
      cases h; exact hc
  · by_cases hcl : ∃ a, op = .close a
    · obtain ⟨a, rfl⟩ := hcl
      simp only [Coll.apply, Except.ok.injEq, Prod.mk.injEq] at h
      rw [← h.1]
      unfold Coll.close
      cases hq : c.counter.close with
      | mk ctr e =>
        cases e with
        | some e => exact hc
        | none =>
          dsimp only
          split
          · exact hc
          · rfl
    · obtain ⟨out', h', _⟩ := C39_collection L c hc op hop (fun id a b e => hd ⟨id, a, b, e⟩) (fun a e => hcl ⟨a, e⟩)
      rw [h'] at h; cases h; exact hc

theorem close_none {c c' : Coll} {sf : Bool} (h : c.close sf = (c', none)) : sf = false ∧ c'.closed = true := by
  have := C39_close_closes c sf (by rw [h])
  rw [h] at this
  refine ⟨?_, this.1⟩
  unfold Coll.close at h
  cases hq : c.counter.close with
  | mk ctr e =>
    rw [hq] at h
    cases e with
    | some e => cases h
    | none =>
      dsimp only at h
      cases sf with
      | true => cases h
      | false => rfl

theorem closeAll_idle (sf : String → Bool) : ∀ m : AMap String OpenColl, (∀ x ∈ m, x.2.coll.closed = true) → closeAll sf m = (m, none) := by
  intro m
  induction m with
  | nil => intro _; rfl
  | cons x m ih =>
    obtain ⟨n, oc⟩ := x
    intro h
    unfold closeAll
    rw [if_pos (h (n, oc) (by simp)), ih (fun x hx => h x (by simp [hx]))]

/-! ## Names occur once in the cache -/

theorem metaCreate_colls (db : Db) (cfg : Config) (env : CreateEnv) : (db.metaCreate cfg env).1.colls = db.colls := by
  unfold Db.metaCreate
  split
  · rfl
  · split
    · rfl
    · split
      · rfl
      · split
        · rfl
        · split
          · rfl
          · split
            · rfl
            · dsimp only
              split
              · rfl
              · split <;> rfl

theorem create_colls {db db' : Db} {cfg : Config} {env : CreateEnv} {e : Option Err} (h : db.create cfg env = .ok (db', e)) :
    db'.colls = db.colls ∨ ∃ oc, db'.colls = db.colls.set cfg.name oc := by
  unfold Db.create at h
  split at h
  · cases h; exact Or.inl rfl
  · split at h
    · cases h; exact Or.inl rfl
    · split at h
      · cases h; exact Or.inl rfl
      · have hm := metaCreate_colls db cfg env
        cases hq : db.metaCreate cfg env with
        | mk d r =>
          rw [hq] at h hm
          cases r with
          | error e => cases h; exact Or.inl hm
          | ok id =>
            dsimp only at h
            split at h
            · cases h
            · cases h; exact Or.inl hm
            · cases h; exact Or.inr ⟨_, by dsimp only; rw [hm]⟩

theorem closeAll_keys (sf : String → Bool) : ∀ m : AMap String OpenColl, AMap.keys (closeAll sf m).1 = AMap.keys m := by
  intro m
  induction m with
  | nil => rfl
  | cons x m ih =>
    obtain ⟨n, oc⟩ := x
    unfold closeAll
    split
    · dsimp only
      simpa [AMap.keys] using ih
    · cases hq : oc.coll.close (sf n) with
      | mk c e =>
        cases e with
        | some e => rfl
        | none =>
          dsimp only
          simpa [AMap.keys] using ih

theorem initColls_nodup (files : String → Option Disk) : ∀ (rows : List Row) (colls colls' : AMap String OpenColl),
    (AMap.keys colls).Nodup → initColls files rows colls = .ok colls' → (AMap.keys colls').Nodup := by
  intro rows
  induction rows with
  | nil => intro colls colls' h h1; cases h1; exact h
  | cons r rows ih =>
    intro colls colls' h h1
    unfold initColls at h1
    obtain ⟨c, _, h1⟩ := (bind_ok_iff _ _ _).mp h1
    exact ih _ _ (AMap.keys_set_nodup h _ _) h1

theorem names_once {js : Json V} {o : FloatOps} {W : Prop} {dims : Nat → Nat} {db db' : Db} {h : List (DbEv V)}
    (r : DbLife js o W dims db h db') (k : (AMap.keys db.colls).Nodup) : (AMap.keys db'.colls).Nodup := by
  have re : ∀ d d' : Db, d.reopen = .ok d' → (AMap.keys d'.colls).Nodup := fun d d' h =>
    initColls_nodup _ _ _ _ (by simp [AMap.keys]) (reopen_spec_db h).1
  induction r with
  | nil => exact k
  | cons _ hs _ ih =>
    apply ih
    cases hs with
    | call hs =>
      cases hs with
      | create h =>
        rcases create_colls h with h | ⟨oc, h⟩
        · rw [h]; exact k
        · rw [h]; exact AMap.keys_set_nodup k _ _
      | get => exact k
      | delete =>
        unfold Db.delete
        split
        · exact k
        · split
          · exact k
          · split
            · exact k
            · split
              · exact k
              · dsimp only
                split
                · exact k
                · exact AMap.keys_erase_nodup k _
      | on h1 h2 h3 h4 => exact AMap.keys_set_nodup k _ _
      | onMissing => exact k
      | close =>
        unfold Db.close
        split
        · exact k
        · dsimp only
          split <;> (dsimp only; rw [closeAll_keys]; exact k)
      | restart h => exact re _ _ h
    | crashInsert _ _ _ _ h => exact re _ _ h
    | crashDelete _ h => exact re _ _ h
    | crashCreate h => exact re _ _ h
    | crashDrop h => exact re _ _ h

/-! ## The run -/

/-- the collections that are not closed are those the loop will still look at. -/
def Closing.Covers (s : Closing) : Prop :=
  ∀ n oc, s.db.colls.get? n = some oc → oc.coll.closed = true ∨ n ∈ s.todo ∨ s.now = some n

theorem runs_returned {js : Json V} {o : FloatOps} {faults : Prop} {dims : Nat → Nat} {s s' : Closing} {H : List (String × Op V × Out V F32)}
    (r : Closing.Runs js o faults dims s H s') {x : Option Err} (h : s.ret = some x) : s' = s ∧ H = [] := by
  cases r with
  | nil => exact ⟨rfl, rfl⟩
  | loop h1 _ => cases h1 with | loop sf _ h2 => rw [h] at h2; cases h2
  | client _ h1 _ => cases h1 with | client h2 => rw [h] at h2; cases h2

theorem db_get_open {db : Db} {n : String} {oc : OpenColl} (hc : db.closed = false) (h : db.colls.get? n = some oc) : db.get n = .ok oc := by
  unfold Db.get; rw [hc, h]; rfl

theorem closing_step (s : Closing) (sf : Bool) (hret : s.ret = none) :
    (∃ n oc c, s.now = some n ∧ s.db.colls.get? n = some oc ∧ oc.coll.close sf = (c, none) ∧
      s.step sf = { s with db := { s.db with colls := s.db.colls.set n { oc with coll := c } }, now := none }) ∨
    (∃ e, (s.step sf).ret = some (some e)) ∨
    (s.now = none ∧ s.todo = [] ∧ s.step sf = { s with db := { s.db with closed := true }, ret := some none }) ∨
    ((s.step sf).db = s.db ∧ (s.step sf).ret = none ∧ (s.Covers → (s.step sf).Covers)) := by
  unfold Closing.step
  rw [hret]
  dsimp only
  cases hn : s.now with
  | some n =>
    dsimp only
    cases hg : s.db.colls.get? n with
    | none =>
      refine Or.inr (Or.inr (Or.inr ⟨rfl, rfl, fun cov m oc hm => ?_⟩))
      rcases cov m oc hm with h | h | h
      · exact Or.inl h
      · exact Or.inr (Or.inl h)
      · rw [hn] at h; cases h; rw [hg] at hm; cases hm
    | some oc =>
      dsimp only
      cases hq : oc.coll.close sf with
      | mk c e =>
        cases e with
        | some e => exact Or.inr (Or.inl ⟨e, rfl⟩)
        | none => exact Or.inl ⟨n, oc, c, rfl, hg, hq, rfl⟩
  | none =>
    dsimp only
    cases ht : s.todo with
    | nil => exact Or.inr (Or.inr (Or.inl ⟨rfl, rfl, rfl⟩))
    | cons n rest =>
      dsimp only
      refine Or.inr (Or.inr (Or.inr ?_))
      cases hg : s.db.colls.get? n with
      | none =>
        refine ⟨rfl, rfl, fun cov m oc hm => ?_⟩
        rcases cov m oc hm with h | h | h
        · exact Or.inl h
        · rw [ht] at h
          rcases List.mem_cons.mp h with rfl | h
          · rw [hg] at hm; cases hm
          · exact Or.inr (Or.inl h)
        · rw [hn] at h; cases h
      | some oc =>
        dsimp only
        cases hcl : oc.coll.closed with
        | true =>
          rw [if_pos rfl]
          refine ⟨rfl, rfl, fun cov m oc' hm => ?_⟩
          rcases cov m oc' hm with h | h | h
          · exact Or.inl h
          · rw [ht] at h
            rcases List.mem_cons.mp h with rfl | h
            · rw [hg] at hm; cases hm; exact Or.inl hcl
            · exact Or.inr (Or.inl h)
          · rw [hn] at h; cases h
        | false =>
          rw [if_neg (by simp)]
          refine ⟨rfl, rfl, fun cov m oc' hm => ?_⟩
          rcases cov m oc' hm with h | h | h
          · exact Or.inl h
          · rw [ht] at h
            rcases List.mem_cons.mp h with rfl | h
            · exact Or.inr (Or.inr rfl)
            · exact Or.inr (Or.inl h)
          · rw [hn] at h; cases h

theorem closing_life {js : Json V} {o : FloatOps} (W : Prop) {faults : Prop} {dims : Nat → Nat} (m0 : Bool) {s s' : Closing} {H : List (String × Op V × Out V F32)}
    (r : Closing.Runs js o faults dims s H s') (hr : s.ret = none) (hr' : s'.ret = some none) (hc : s.db.closed = false) (hm : s.db.metaClosed = true)
    (hk : (AMap.keys s.db.colls).Nodup) (hlib : ∀ n oc, s.db.colls.get? n = some oc → ∃ L, oc.config.lib js o = some L) (cov : s.Covers) :
    ∃ (l : List (DbEv V)) (closes : List String), DbLife js o W dims { s.db with metaClosed := m0 } (l ++ [dbCloseEv]) s'.db ∧
      (H.map clientEv).Sublist l ∧ l.Perm (H.map clientEv ++ closes.map closeEv) ∧
      (∀ n oc, s'.db.colls.get? n = some oc → oc.coll.closed = true) := by
  induction r with
  | nil => rw [hr] at hr'; cases hr'
  | @loop s s1 s2 H h1 r1 ih =>
    cases h1 with
    | loop sf _ hret =>
    rcases closing_step s sf hret with ⟨n, oc, c, hn, hg, hq, he⟩ | ⟨e, he⟩ | ⟨hn, ht, he⟩ | ⟨hdb, hret', hcov⟩
    · rw [he] at ih
      obtain ⟨L, hL⟩ := hlib n oc hg
      obtain ⟨hsf, hcc⟩ := close_none hq
      subst hsf
      obtain ⟨l, closes, k1, k2, k3, k4⟩ := ih hret hr' hc hm (AMap.keys_set_nodup hk _ _) (fun m oc' hm' => by
          dsimp only at hm'
          by_cases hmn : m = n
          · subst hmn
            rw [AMap.get?_set_self] at hm'; cases hm'
            exact ⟨L, hL⟩
          · rw [AMap.get?_set_ne _ _ _ _ (Ne.symm hmn)] at hm'
            exact hlib m oc' hm') (fun m oc' hm' => by
          dsimp only at hm'
          by_cases hmn : m = n
          · subst hmn
            rw [AMap.get?_set_self] at hm'; cases hm'
            exact Or.inl hcc
          · rw [AMap.get?_set_ne _ _ _ _ (Ne.symm hmn)] at hm'
            rcases cov m oc' hm' with h | h | h
            · exact Or.inl h
            · exact Or.inr (Or.inl h)
            · rw [hn] at h; cases h; exact absurd rfl hmn)
      refine ⟨closeEv n :: l, n :: closes, ?_, k2.cons _, ?_, k4⟩
      · refine .cons (db1 := { s.db with metaClosed := m0, colls := s.db.colls.set n { oc with coll := c } })
          ⟨⟨(fun h => nomatch h), fun oc' _ => trivial⟩, trivial⟩ (.call ?_) k1
        exact .on (c' := c) (L := L) (db_get_open (db := { s.db with metaClosed := m0 }) hc hg) hL (fun h => nomatch h) (by simp only [Coll.apply, hq])
      · simp only [List.map_cons]
        exact (List.Perm.cons _ k3).trans (List.perm_middle.symm)
    · obtain ⟨rfl, _⟩ := runs_returned r1 he
      rw [he] at hr'; cases hr'
    · rw [he] at r1
      obtain ⟨rfl, rfl⟩ := runs_returned r1 rfl
      have hall : ∀ n oc, s.db.colls.get? n = some oc → oc.coll.closed = true := by
        intro n oc h
        rcases cov n oc h with h | h | h
        · exact h
        · rw [ht] at h; cases h
        · rw [hn] at h; cases h
      refine ⟨[], [], ?_, List.Sublist.refl _, List.Perm.refl _, hall⟩
      refine .cons (db1 := { s.db with closed := true }) ⟨trivial, rfl⟩ (.call ?_) (.nil _)
      have hcl : Db.close { s.db with metaClosed := m0 } false (fun _ => false) = ({ s.db with closed := true }, none) := by
        unfold Db.close
        rw [if_neg (by simp), closeAll_idle _ _ (fun x hx => hall x.1 x.2 (AMap.get?_of_mem hk hx))]
        dsimp only
        rw [← hm]
      have := DbStep.close (js := js) (o := o) (db := { s.db with metaClosed := m0 }) (mf := false) (sf := fun _ => false)
      rw [hcl] at this
      exact this
    · have := ih hret' hr' (by rw [hdb]; exact hc) (by rw [hdb]; exact hm) (by rw [hdb]; exact hk) (by rw [hdb]; exact hlib) (hcov cov)
      rw [hdb] at this
      exact this
  | @client s s1 s2 n op out H hleg h1 r1 ih =>
    cases h1 with
    | @client _ _ oc L c' _ hret hg hL hop happ =>
    obtain ⟨l, closes, k1, k2, k3, k4⟩ := ih hret hr' hc hm (AMap.keys_set_nodup hk _ _) (fun m oc' hm' => by
      dsimp only at hm'
      by_cases hmn : m = n
      · subst hmn
        rw [AMap.get?_set_self] at hm'; cases hm'
        exact ⟨L, hL⟩
      · rw [AMap.get?_set_ne _ _ _ _ (Ne.symm hmn)] at hm'
        exact hlib m oc' hm') (fun m oc' hm' => by
      dsimp only at hm' ⊢
      by_cases hmn : m = n
      · subst hmn
        rw [AMap.get?_set_self] at hm'; cases hm'
        rcases cov m oc hg with h | h | h
        · exact Or.inl (apply_closed h hop happ)
        · exact Or.inr (Or.inl h)
        · exact Or.inr (Or.inr h)
      · rw [AMap.get?_set_ne _ _ _ _ (Ne.symm hmn)] at hm'
        exact cov m oc' hm')
    refine ⟨clientEv (n, op, out) :: l, closes, ?_, k2.cons_cons _, k3.cons _, k4⟩
    refine .cons (db1 := { s.db with metaClosed := m0, colls := s.db.colls.set n { oc with coll := c' } })
      ⟨⟨hop, fun oc' h => hleg oc' (get_ok h).2⟩, trivial⟩ (.call ?_) k1
    exact .on (db_get_open (db := { s.db with metaClosed := m0 }) hc hg) hL hop happ

/-! ## Which collections a `Close` would succeed on -/

theorem insertOne_flags {L : Lib V D} {c c' : Coll} {x x' : Object V} {env : InsEnv} {e : Option Err}
    (h : c.insertOne L x env = .ok (c', x', e)) : c'.closed = c.closed ∧ c'.counter.closed = c.counter.closed := by
  have hf : (fetchAndInc c.counter env.counterFails).1.closed = c.counter.closed := by
    unfold fetchAndInc
    dsimp only
    split <;> rfl
  unfold Coll.insertOne at h
  cases hq : fetchAndInc c.counter env.counterFails with
  | mk ctr r =>
    rw [hq] at h hf
    dsimp only at h hf
    cases r with
    | error e => cases h; exact ⟨rfl, hf⟩
    | ok id =>
      dsimp only at h
      cases hp : putObject L.json c.stores { x with id := id } env.put with
      | mk st e1 =>
        rw [hp] at h
        cases e1 with
        | some e => cases h; exact ⟨rfl, hf⟩
        | none =>
          obtain ⟨idx, _, h⟩ := (bind_ok_iff _ _ _).mp h
          cases h; exact ⟨rfl, hf⟩

theorem insertAll_flags {L : Lib V D} : ∀ (xs : List (Object V × InsEnv)) {c c' : Coll} {os : List (Object V)} {e : Option Err},
    c.insertAll L xs = .ok (c', os, e) → c'.closed = c.closed ∧ c'.counter.closed = c.counter.closed := by
  intro xs
  induction xs with
  | nil => intro c c' os e h; cases h; exact ⟨rfl, rfl⟩
  | cons x xs ih =>
    intro c c' os e h
    obtain ⟨x, env⟩ := x
    unfold Coll.insertAll at h
    obtain ⟨⟨c1, x1, e1⟩, h1, h⟩ := (bind_ok_iff _ _ _).mp h
    obtain ⟨k1, k2⟩ := insertOne_flags h1
    cases e1 with
    | some e => cases h; exact ⟨k1, k2⟩
    | none =>
      dsimp only at h
      obtain ⟨⟨c2, os2, e2⟩, h2, h⟩ := (bind_ok_iff _ _ _).mp h
      cases h
      obtain ⟨q1, q2⟩ := ih h2
      exact ⟨q1.trans k1, q2.trans k2⟩

/-- only `Close` closes. -/
theorem apply_flags {L : Lib V D} {c c' : Coll} {op : Op V} {out : Out V D} (hc : ∀ sf, op ≠ .close sf) (hop : op ≠ .reopen)
    (h : c.apply L op = .ok (c', out)) : c'.closed = c.closed ∧ c'.counter.closed = c.counter.closed := by
  cases op with
  | insert x embed env ff =>
    simp only [Coll.apply] at h
    obtain ⟨⟨c1, x1, e⟩, h1, h⟩ := (bind_ok_iff _ _ _).mp h
    cases h
    have h1 : c.insert L x embed env ff = .ok (c1, x1, e) := by
      cases hq : c.insert L x embed env ff with
      | error p => rw [hq] at h1; cases h1
      | ok r => rw [hq] at h1; cases h1; rfl
    cases insert_res h1 with
    | closed => exact ⟨rfl, rfl⟩
    | invalid => exact ⟨rfl, rfl⟩
    | embed => exact ⟨rfl, rfl⟩
    | storage => exact insertOne_flags (by assumption)
    | done => rename_i hin _; have k := insertOne_flags hin; exact k
  | insertBatch os embed envs ff =>
    simp only [Coll.apply] at h
    obtain ⟨⟨c1, x1, e⟩, h1, h⟩ := (bind_ok_iff _ _ _).mp h
    cases h
    have h1 : c.insertBatch L os embed envs ff = .ok (c1, x1, e) := by
      cases hq : c.insertBatch L os embed envs ff with
      | error p => rw [hq] at h1; cases h1
      | ok r => rw [hq] at h1; cases h1; rfl
    cases batch_res h1 with
    | closed => exact ⟨rfl, rfl⟩
    | invalid => exact ⟨rfl, rfl⟩
    | embed => exact ⟨rfl, rfl⟩
    | storage => exact insertAll_flags _ (by assumption)
    | done => rename_i hin _; have k := insertAll_flags _ hin; exact k
  | delete id a b =>
    simp only [Coll.apply] at h
    obtain ⟨⟨c1, e⟩, h1, h⟩ := (bind_ok_iff _ _ _).mp h
    cases h
    unfold Coll.delete at h1
    split at h1
    · cases h1; exact ⟨rfl, rfl⟩
    · split at h1
      · cases h1
      · cases h1; exact ⟨rfl, rfl⟩
      · cases h1; exact ⟨rfl, rfl⟩
      · split at h1
        · cases h1; exact ⟨rfl, rfl⟩
        · cases h1; exact ⟨rfl, rfl⟩
  | get ids => cases h; exact ⟨rfl, rfl⟩
  | search x embed k => cases h; exact ⟨rfl, rfl⟩
  | size => cases h; exact ⟨rfl, rfl⟩
  | update x => cases h; exact ⟨rfl, rfl⟩
  | close sf => exact absurd rfl (hc sf)
  | reopen => exact absurd rfl hop

theorem close_succeeds_iff {c : Coll} : (c.close false).2 = none ↔ c.counter.closed = false := by
  unfold Coll.close IdCounter.close
  cases c.counter.closed <;> simp

/-! ## C72 -/

/-- all that is needed of the database when `Close` is called. -/
theorem start_facts {js : Json V} {o : FloatOps} (hj : JsonOK js) {W : Prop} {dims : Nat → Nat} {before : List (DbEv V)} {db : Db}
    (hr : DbLife js o W dims {} before db) :
    (AMap.keys db.colls).Nodup ∧ ∀ n oc, db.colls.get? n = some oc → ∃ L, oc.config.lib js o = some L := by
  have g := (good_life hj (dbGood_init True js o W dims) hr).1
  refine ⟨names_once hr (by simp [AMap.keys]), fun n oc h => ?_⟩
  obtain ⟨r, _, _, L, k⟩ := g.held n oc h
  exact ⟨L, k.lib⟩

theorem life_split {js : Json V} {o : FloatOps} {W : Prop} {dims : Nat → Nat} : ∀ (l1 : List (DbEv V)) {l2 : List (DbEv V)} {db db2 : Db},
    DbLife js o W dims db (l1 ++ l2) db2 → ∃ db1, DbLife js o W dims db l1 db1 ∧ DbLife js o W dims db1 l2 db2 := by
  intro l1
  induction l1 with
  | nil => intro l2 db db2 h; exact ⟨db, .nil _, h⟩
  | cons e l1 ih =>
    intro l2 db db2 h
    cases h with
    | cons hl hs h =>
      obtain ⟨db1, h1, h2⟩ := ih h
      exact ⟨db1, .cons hl hs h1, h2⟩

theorem life_append {js : Json V} {o : FloatOps} {W : Prop} {dims : Nat → Nat} {l1 l2 : List (DbEv V)} {db db1 db2 : Db}
    (h1 : DbLife js o W dims db l1 db1) (h2 : DbLife js o W dims db1 l2 db2) : DbLife js o W dims db (l1 ++ l2) db2 := by
  induction h1 with
  | nil => exact h2
  | cons hl hs _ ih => exact .cons hl hs (ih h2)

theorem step_close {js : Json V} {o : FloatOps} {db db' : Db} {mf : Bool} {sf : String → Bool} {out : DbOut V}
    (h : DbStep js o db (.close mf sf) out db') : out = .done (db.close mf sf).2 ∧ db' = (db.close mf sf).1 := by
  cases h with
  | close => exact ⟨rfl, rfl⟩

/-- **C72.** When `DB.Close` returns nil, it did what some sequence of calls does: the clients' calls in their order, some
`Collection.Close` calls in between, then a `DB.Close` that finds every collection closed. -/
theorem C72_close_is_closing_one_by_one (js : Json V) (o : FloatOps) (hj : JsonOK js) (interrupted : Prop) (dims : Nat → Nat)
    (before : List (DbEv V)) (db : Db) (hr : DbLife js o interrupted dims {} before db) (hopen : db.closed = false) (order : List String)
    (hord : ∀ n oc, db.get n = .ok oc → n ∈ order) (faults : Prop) (H : List (String × Op V × Out V F32)) (s : Closing)
    (hrun : Closing.Runs js o faults dims (db.startClose false order) H s) (hret : s.ret = some none) :
    ∃ (l : List (DbEv V)) (closes : List String), DbLife js o interrupted dims db (l ++ [dbCloseEv]) s.db ∧
      (H.map clientEv).Sublist l ∧ l.Perm (H.map clientEv ++ closes.map closeEv) ∧
      (∀ n oc, s.db.colls.get? n = some oc → oc.coll.closed = true) ∧ s.db.closed = true := by
  obtain ⟨hk, hlib⟩ := start_facts hj hr
  have e : db.startClose false order = { db := { db with metaClosed := true }, todo := order } := rfl
  rw [e] at hrun
  obtain ⟨l, closes, h1, h2, h3, h4⟩ := closing_life interrupted db.metaClosed hrun rfl hret hopen rfl hk hlib
    (fun n oc h => Or.inr (Or.inl (hord n oc (db_get_open hopen h))))
  refine ⟨l, closes, h1, h2, h3, h4, ?_⟩
  obtain ⟨db1, _, h5⟩ := life_split l h1
  cases h5 with
  | cons hl hs h5 =>
    cases h5
    cases hs with
    | call hs =>
      obtain ⟨e1, e2⟩ := step_close hs
      rw [e2]
      simp only [DbOut.done.injEq] at e1
      revert e1
      unfold Db.close
      rw [if_neg (by simp)]
      dsimp only
      split
      · intro h; cases h
      · intro _; rfl

/-- an insert that a client was told about while `DB.Close` ran is there after any restarts. -/
theorem C72_insert_during_close_survives (js : Json V) (o : FloatOps) (hj : JsonOK js) (interrupted : Prop) (dims : Nat → Nat)
    (before : List (DbEv V)) (db : Db) (hr : DbLife js o interrupted dims {} before db) (hopen : db.closed = false) (order : List String)
    (hord : ∀ n oc, db.get n = .ok oc → n ∈ order) (faults : Prop) (H : List (String × Op V × Out V F32)) (s : Closing)
    (hrun : Closing.Runs js o faults dims (db.startClose false order) H s) (hret : s.ret = some none)
    (n : String) (x x1 : Object V) (embed : Embed V) (env : InsEnv) (ff : Bool)
    (hin : (n, Op.insert x embed env ff, Out.inserted x1 none) ∈ H) (hdel : ∀ y ∈ H, y.1 = n → ¬ y.2.1.touches x1.id)
    (later : List (DbEv V)) (db2 : Db) (hr2 : DbLife js o interrupted dims s.db later db2) (hd : ∀ e ∈ later, ¬ e.drops n)
    (ht : ∀ e ∈ later, ¬ e.touches n x1.id) (ho : db2.closed = false) (hoc : ∀ oc, db2.get n = .ok oc → oc.coll.closed = false) :
    (∃ text props, js.marshal x.props = some text ∧ js.unmarshal text = some props ∧
      db2.Reads js o n x1.id [{ id := x1.id, props := props, vec := some (x1.vec.getD []) }]) ∧
    (∀ v, x.vec = some v → x1.vec = some v) := by
  obtain ⟨l, closes, h1, h2, h3, h4, h5⟩ :=
    C72_close_is_closing_one_by_one js o hj interrupted dims before db hr hopen order hord faults H s hrun hret
  have hmem : clientEv (n, Op.insert x embed env ff, Out.inserted x1 none) ∈ l := h2.subset (List.mem_map_of_mem hin)
  obtain ⟨l1, l2, rfl⟩ := List.append_of_mem hmem
  rw [List.append_assoc] at h1
  obtain ⟨db1, q1, q2⟩ := life_split l1 h1
  cases q2 with
  | @cons _ db3 _ _ _ hl hs q2 =>
    have hs' : DbStep js o db1 (.on n (.insert x embed env ff)) (.called (.inserted x1 none)) db3 := by
      cases hs with
      | call hs => exact hs
    have ev : ∀ e ∈ l2 ++ [dbCloseEv], ¬ e.drops n ∧ ¬ e.touches n x1.id := by
      intro e he
      rcases List.mem_append.mp he with he | he
      · have : e ∈ H.map clientEv ++ closes.map closeEv := h3.subset (by simp [he])
        rcases List.mem_append.mp this with h | h
        · obtain ⟨y, hy, rfl⟩ := List.mem_map.mp h
          refine ⟨(fun h => h), fun h => ?_⟩
          exact hdel y hy h.1 h.2
        · obtain ⟨y, hy, rfl⟩ := List.mem_map.mp h
          exact ⟨(fun h => h), fun h => h.2⟩
      · rw [List.mem_singleton] at he
        subst he
        exact ⟨(fun h => h), (fun h => h)⟩
    exact C66_insert_survives js o hj interrupted dims (before ++ l1) db1 db3 (life_append hr q1) n x x1 embed env ff hl.1 hs'
      ((l2 ++ [dbCloseEv]) ++ later) db2 (life_append q2 hr2)
      (fun e he => (List.mem_append.mp he).elim (fun h => (ev e h).1) (fun h => hd e h))
      (fun e he => (List.mem_append.mp he).elim (fun h => (ev e h).2) (fun h => ht e h)) ho hoc

/-- if no store fails to close and no client calls `Close`, `DB.Close` succeeds: it does not return an error, and while it has not returned
the loop has something to do (so it returns after finitely many steps of its own). -/
theorem C72_close_succeeds (js : Json V) (o : FloatOps) (dims : Nat → Nat) (db : Db) (hopen : db.closed = false)
    (order : List String) (hcan : ∀ n oc, db.get n = .ok oc → oc.coll.closed = false → (oc.coll.close false).2 = none)
    (H : List (String × Op V × Out V F32)) (hcl : ∀ y ∈ H, ∀ sf, y.2.1 ≠ .close sf) (s : Closing)
    (hrun : Closing.Runs js o False dims (db.startClose false order) H s) :
    s.ret = none ∨ s.ret = some none := by
  suffices key : ∀ (s s' : Closing) (H : List (String × Op V × Out V F32)), Closing.Runs js o False dims s H s' →
      (∀ y ∈ H, ∀ sf, y.2.1 ≠ .close sf) → (s.ret = none ∨ s.ret = some none) →
      (∀ n oc, s.db.colls.get? n = some oc → oc.coll.closed = false → oc.coll.counter.closed = false) →
      (∀ n oc, s.now = some n → s.db.colls.get? n = some oc → oc.coll.closed = false) → (s'.ret = none ∨ s'.ret = some none) from
    key _ _ _ hrun hcl (Or.inl rfl) (fun n oc h hc => close_succeeds_iff.mp (hcan n oc (db_get_open hopen h) hc)) (fun n oc h => nomatch h)
  intro s s' H r
  induction r with
  | nil => intro _ h _ _; exact h
  | @loop s s1 s2 H h1 r1 ih =>
    intro hcl hret hctr hnow
    cases h1 with
    | loop sf hsf hr =>
    have hsf : sf = false := by cases sf with
      | false => rfl
      | true => exact (hsf rfl).elim
    subst hsf
    rcases closing_step s false hr with ⟨n, oc, c, hn, hg, hq, he⟩ | ⟨e, he⟩ | ⟨hn, ht, he⟩ | ⟨hdb, hret', hcov⟩
    · rw [he] at ih
      refine ih hcl (Or.inl hr) (fun m oc' hm hc => ?_) (fun m oc' hm => nomatch hm)
      dsimp only at hm
      by_cases hmn : m = n
      · subst hmn
        rw [AMap.get?_set_self] at hm; cases hm
        rw [(close_none hq).2] at hc; cases hc
      · rw [AMap.get?_set_ne _ _ _ _ (Ne.symm hmn)] at hm
        exact hctr m oc' hm hc
    · exfalso
      unfold Closing.step at he
      rw [hr] at he
      dsimp only at he
      cases hn : s.now with
      | none =>
        rw [hn] at he
        dsimp only at he
        cases ht : s.todo with
        | nil => rw [ht] at he; cases he
        | cons n rest =>
          rw [ht] at he
          dsimp only at he
          cases hg : s.db.colls.get? n with
          | none => rw [hg] at he; cases he
          | some oc =>
            rw [hg] at he
            dsimp only at he
            split at he <;> cases he
      | some n =>
        rw [hn] at he
        dsimp only at he
        cases hg : s.db.colls.get? n with
        | none => rw [hg] at he; cases he
        | some oc =>
          rw [hg] at he
          have := close_succeeds_iff.mpr (hctr n oc hg (hnow n oc hn hg))
          dsimp only at he
          rw [this] at he
          cases he
    · rw [he] at r1
      obtain ⟨rfl, _⟩ := runs_returned r1 rfl
      exact Or.inr rfl
    · refine ih hcl (Or.inl hret') (by rw [hdb]; exact hctr) ?_
      rw [hdb]
      intro n oc hn hg
      unfold Closing.step at hn
      rw [hr] at hn
      dsimp only at hn
      cases hw : s.now with
      | some m =>
        rw [hw] at hn
        dsimp only at hn
        cases hgm : s.db.colls.get? m with
        | none => rw [hgm] at hn; cases hn
        | some oc' =>
          rw [hgm] at hn
          dsimp only at hn
          split at hn <;> cases hn
      | none =>
        rw [hw] at hn
        dsimp only at hn
        cases ht : s.todo with
        | nil => rw [ht] at hn; cases hn
        | cons m rest =>
          rw [ht] at hn
          dsimp only at hn
          cases hgm : s.db.colls.get? m with
          | none => rw [hgm] at hn; cases hn
          | some oc' =>
            rw [hgm] at hn
            dsimp only at hn
            split at hn
            · cases hn
            · rename_i hcc
              cases hn
              rw [hg] at hgm; cases hgm
              simpa using hcc
  | @client s s1 s2 n op out H hleg h1 r1 ih =>
    intro hcl hret hctr hnow
    cases h1 with
    | @client _ _ oc L c' _ hr hg hL hop happ =>
    obtain ⟨f1, f2⟩ := apply_flags (hcl _ (List.mem_cons_self ..)) hop happ
    refine ih (fun y hy => hcl y (List.mem_cons_of_mem _ hy)) (Or.inl hr) (fun m oc' hm hc => ?_) (fun m oc' hn hm => ?_)
    · dsimp only at hm
      by_cases hmn : m = n
      · subst hmn
        rw [AMap.get?_set_self] at hm; cases hm
        dsimp only at hc ⊢
        rw [f2]; rw [f1] at hc; exact hctr m oc hg hc
      · rw [AMap.get?_set_ne _ _ _ _ (Ne.symm hmn)] at hm
        exact hctr m oc' hm hc
    · dsimp only at hm hn
      by_cases hmn : m = n
      · subst hmn
        rw [AMap.get?_set_self] at hm; cases hm
        dsimp only
        rw [f1]; exact hnow m oc hn hg
      · rw [AMap.get?_set_ne _ _ _ _ (Ne.symm hmn)] at hm
        exact hnow m oc' hn hm

/-- how much the loop has left to do. -/
def Closing.left (s : Closing) : Nat :=
  match s.ret with
  | some _ => 0
  | none => 2 * s.todo.length + (if s.now.isSome then 1 else 0) + 1

/-- every step of the loop brings `DB.Close` nearer to its end, and the clients cannot hold it up. -/
theorem C72_close_progress (js : Json V) (o : FloatOps) (faults : Prop) (s s' : Closing) (x : Option (String × Op V × Out V F32))
    (h : Closing.Step js o faults s x s') : (x = none → s'.left < s.left) ∧ (x ≠ none → s'.left = s.left) := by
  cases h with
  | client h1 => exact ⟨(fun h => nomatch h), fun _ => rfl⟩
  | loop sf _ hr =>
    refine ⟨fun _ => ?_, fun h => absurd rfl h⟩
    unfold Closing.step
    rw [hr]
    dsimp only
    cases hn : s.now with
    | some n =>
      dsimp only
      cases hg : s.db.colls.get? n with
      | none => simp [Closing.left, hr, hn]
      | some oc =>
        dsimp only
        cases (oc.coll.close sf).2 with
        | some e => simp [Closing.left, hr, hn]
        | none => simp [Closing.left, hr, hn]
    | none =>
      dsimp only
      cases ht : s.todo with
      | nil => simp [Closing.left, hr, hn]
      | cons n rest =>
        dsimp only
        cases hg : s.db.colls.get? n with
        | none => simp [Closing.left, hr, hn, ht]
        | some oc =>
          dsimp only
          split
          · simp [Closing.left, hr, hn, ht]
          · simp [Closing.left, hr, hn, ht]; omega

/-! ## Concrete schedules -/

/-- run a schedule: `none` is a step of the loop (no store fails), `some (n, op)` a client's call. -/
def Closing.play (js : Json V) (o : FloatOps) (dims : Nat → Nat) : Closing → List (Option (String × Op V)) →
    Option (Closing × List (String × Op V × Out V F32))
  | s, [] => some (s, [])
  | s, none :: xs => if s.ret.isSome then none else Closing.play js o dims (s.step false) xs
  | s, some (n, op) :: xs =>
    if s.ret.isSome || op.isReopen then none
    else
      match s.db.colls.get? n with
      | none => none
      | some oc =>
        match oc.config.lib js o with
        | none => none
        | some L =>
          if legalB (dims oc.id) oc.coll op then
            match oc.coll.apply L op with
            | .error _ => none
            | .ok (c', out) =>
              match Closing.play js o dims { s with db := { s.db with colls := s.db.colls.set n { oc with coll := c' } } } xs with
              | none => none
              | some (s', h) => some (s', (n, op, out) :: h)
          else none

theorem closing_play_runs (js : Json V) (o : FloatOps) (dims : Nat → Nat) : ∀ (xs : List (Option (String × Op V))) (s s' : Closing)
    (h : List (String × Op V × Out V F32)), Closing.play js o dims s xs = some (s', h) → Closing.Runs js o False dims s h s' := by
  intro xs
  induction xs with
  | nil => intro s s' h hp; cases hp; exact .nil _
  | cons x xs ih =>
    intro s s' h hp
    cases x with
    | none =>
      unfold Closing.play at hp
      split at hp
      · cases hp
      · rename_i hr
        exact .loop (.loop false (fun h => nomatch h) (by simpa using hr)) (ih _ _ _ hp)
    | some y =>
      obtain ⟨n, op⟩ := y
      unfold Closing.play at hp
      split at hp
      · cases hp
      · rename_i hr
        simp only [Bool.or_eq_true, not_or, Bool.not_eq_true, Option.isSome_eq_false_iff, Option.isNone_iff_eq_none] at hr
        split at hp
        · cases hp
        · rename_i oc hg
          split at hp
          · cases hp
          · rename_i L hL
            split at hp
            · rename_i hl
              split at hp
              · cases hp
              · rename_i c' out happ
                split at hp
                · cases hp
                · rename_i s1 h1 hq
                  cases hp
                  refine .client (fun oc' h => ?_) (.client hr.1 hg hL (fun h => ?_) happ) (ih _ _ _ hq)
                  · rw [hg] at h; cases h; exact legalB_sound hl
                  · subst h; exact absurd hr.2 (by simp [Op.isReopen])
            · cases hp

/-- two collections with an object each. -/
def closeOps : List (DbOp UInt8) :=
  [.create (demoConfig "a") {}, .on "a" (demoInsert 5), .create (demoConfig "b") {}, .on "b" (demoInsert 1)]

/-- a run of `DB.Close` from a database reached by `closeOps`, with what it does decided by `P`. -/
theorem closing_of (order : List String) (sched : List (Option (String × Op UInt8))) (P : Closing → List (String × Op UInt8 × Out UInt8 F32) → Bool)
    (h : (({} : Db).live demoJson intOps (fun _ => 1) closeOps).any (fun r => !r.1.closed &&
      (AMap.keys r.1.colls).all (fun n => decide (n ∈ order)) &&
      (r.1.colls.all fun x => x.2.coll.closed || decide ((x.2.coll.close false).2 = none)) &&
      (Closing.play demoJson intOps (fun _ => 1) (r.1.startClose false order) sched).any (fun q => P q.1 q.2)) = true) :
    ∃ db before s H, DbLife demoJson intOps False (fun _ => 1) {} before db ∧ db.closed = false ∧
      (∀ n oc, db.get n = .ok oc → n ∈ order) ∧
      (∀ n oc, db.get n = .ok oc → oc.coll.closed = false → (oc.coll.close false).2 = none) ∧
      Closing.Runs demoJson intOps False (fun _ => 1) (db.startClose false order) H s ∧ P s H = true := by
  obtain ⟨db, hs, h1, h2, _⟩ := life_of (js := demoJson) (o := intOps) (dims := fun _ => 1) (db := {}) (ops := closeOps) False
    (fun db _ => !db.closed && (AMap.keys db.colls).all (fun n => decide (n ∈ order)) &&
      (db.colls.all fun x => x.2.coll.closed || decide ((x.2.coll.close false).2 = none)) &&
      (Closing.play demoJson intOps (fun _ => 1) (db.startClose false order) sched).any (fun q => P q.1 q.2)) h
  simp only [Bool.and_eq_true, Bool.not_eq_true', List.all_eq_true, decide_eq_true_eq, Bool.or_eq_true] at h2
  obtain ⟨⟨⟨h2, h3⟩, h4⟩, h5⟩ := h2
  cases hp : Closing.play demoJson intOps (fun _ => 1) (db.startClose false order) sched with
  | none => rw [hp] at h5; cases h5
  | some q =>
    rw [hp] at h5
    refine ⟨db, hs, q.1, q.2, h1, h2, fun n oc hg => h3 n ?_, fun n oc hg hc => ?_, closing_play_runs _ _ _ _ _ _ _ hp, h5⟩
    · exact List.mem_map.mpr ⟨_, mem_of_get (get_ok hg).2, rfl⟩
    · rcases h4 _ (mem_of_get (get_ok hg).2) with h | h
      · dsimp only at h; rw [hc] at h; cases h
      · exact h

/-- the hypotheses of the theorems above are met: while `DB.Close` runs a client inserts into "b" (accepted: object 1) and reads "a". -/
example : ∃ db before s H, DbLife demoJson intOps False (fun _ => 1) {} before db ∧ db.closed = false ∧
    (∀ n oc, db.get n = .ok oc → n ∈ ["b", "a"]) ∧
    (∀ n oc, db.get n = .ok oc → oc.coll.closed = false → (oc.coll.close false).2 = none) ∧
    Closing.Runs demoJson intOps False (fun _ => 1) (db.startClose false ["b", "a"]) H s ∧
    (match s.ret, H with
      | some none, [("b", .insert _ _ _ _, .inserted x none), ("a", .get [0], .objects (.ok [_]))] => decide (x.id = 1)
      | _, _ => false) = true :=
  closing_of _ [none, some ("b", demoInsert 7), none, none, some ("a", .get [0]), none, none]
    (fun s H => match s.ret, H with
      | some none, [("b", .insert _ _ _ _, .inserted x none), ("a", .get [0], .objects (.ok [_]))] => decide (x.id = 1)
      | _, _ => false) (by decide +kernel)

/-- `DB.Close` is not one moment for all collections: a client is told that collection "a" is closed, and an insert it makes afterwards into
"b" is accepted. -/
theorem C72_not_one_moment : ∃ db before s H, DbLife demoJson intOps False (fun _ => 1) {} before db ∧ db.closed = false ∧
    (∀ n oc, db.get n = .ok oc → n ∈ ["a", "b"]) ∧
    (∀ n oc, db.get n = .ok oc → oc.coll.closed = false → (oc.coll.close false).2 = none) ∧
    Closing.Runs demoJson intOps False (fun _ => 1) (db.startClose false ["a", "b"]) H s ∧
    (match s.ret, H with
      | some none, [("a", .insert _ _ _ _, .inserted _ (some .collectionClosed)), ("b", .insert _ _ _ _, .inserted x none)] => decide (x.id = 1)
      | _, _ => false) = true :=
  closing_of _ [none, none, some ("a", demoInsert 7), some ("b", demoInsert 7), none, none, none]
    (fun s H => match s.ret, H with
      | some none, [("a", .insert _ _ _ _, .inserted _ (some .collectionClosed)), ("b", .insert _ _ _ _, .inserted x none)] => decide (x.id = 1)
      | _, _ => false) (by decide +kernel)

/-- a client that closes its collection at the wrong moment makes `DB.Close` fail: the database is not closed, "b" is still open. -/
theorem C72_client_close_breaks_close : ∃ db before s H, DbLife demoJson intOps False (fun _ => 1) {} before db ∧ db.closed = false ∧
    (∀ n oc, db.get n = .ok oc → n ∈ ["a", "b"]) ∧
    (∀ n oc, db.get n = .ok oc → oc.coll.closed = false → (oc.coll.close false).2 = none) ∧
    Closing.Runs demoJson intOps False (fun _ => 1) (db.startClose false ["a", "b"]) H s ∧
    (match s.ret, H with
      | some (some .io), [("a", .close false, .done none)] => !s.db.closed && (s.db.colls.get? "b").any (fun oc => !oc.coll.closed)
      | _, _ => false) = true :=
  closing_of _ [none, some ("a", .close false), none]
    (fun s H => match s.ret, H with
      | some (some .io), [("a", .close false, .done none)] => !s.db.closed && (s.db.colls.get? "b").any (fun oc => !oc.coll.closed)
      | _, _ => false) (by decide +kernel)

end Vectory
