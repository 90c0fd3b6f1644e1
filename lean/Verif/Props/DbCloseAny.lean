import Verif.Props.DbClose
/-! # C72: `DB.Close` that fails or is interrupted -/
namespace Vectory
variable {V D : Type}

/-- a call of `Close` on one collection that returned an error. -/
def failedCloseEv (x : String × Bool × Err) : DbEv V := .call (.on x.1 (.close x.2.1)) (.called (.done (some x.2.2)))

/-- a restart. -/
def restartEv : DbEv V := .call .restart (.done none)

theorem closing_step_any (s : Closing) (sf : Bool) (hret : s.ret = none) :
    (∃ n oc c, s.now = some n ∧ s.db.colls.get? n = some oc ∧ oc.coll.close sf = (c, none) ∧
      s.step sf = { s with db := { s.db with colls := s.db.colls.set n { oc with coll := c } }, now := none }) ∨
    (∃ n oc c e, s.now = some n ∧ s.db.colls.get? n = some oc ∧ oc.coll.close sf = (c, some e) ∧
      s.step sf = { s with db := { s.db with colls := s.db.colls.set n { oc with coll := c } }, now := none, ret := some (some e) }) ∨
    (s.step sf = { s with db := { s.db with closed := true }, ret := some none }) ∨
    ((s.step sf).db = s.db ∧ (s.step sf).ret = none) := by
  unfold Closing.step
  rw [hret]
  dsimp only
  cases hn : s.now with
  | some n =>
    dsimp only
    cases hg : s.db.colls.get? n with
    | none => exact Or.inr (Or.inr (Or.inr ⟨rfl, rfl⟩))
    | some oc =>
      dsimp only
      cases hq : oc.coll.close sf with
      | mk c e =>
        cases e with
        | some e => exact Or.inr (Or.inl ⟨n, oc, c, e, rfl, hg, hq, rfl⟩)
        | none => exact Or.inl ⟨n, oc, c, rfl, hg, hq, rfl⟩
  | none =>
    dsimp only
    cases ht : s.todo with
    | nil => exact Or.inr (Or.inr (Or.inl rfl))
    | cons n rest =>
      dsimp only
      refine Or.inr (Or.inr (Or.inr ?_))
      cases hg : s.db.colls.get? n with
      | none => exact ⟨rfl, rfl⟩
      | some oc =>
        dsimp only
        cases hcl : oc.coll.closed with
        | true => rw [if_pos rfl]; exact ⟨rfl, rfl⟩
        | false => rw [if_neg (by simp)]; exact ⟨rfl, rfl⟩

theorem closing_life_any {js : Json V} {o : FloatOps} (W : Prop) {faults : Prop} {dims : Nat → Nat} (m0 : Bool) {s s' : Closing}
    {H : List (String × Op V × Out V F32)} (r : Closing.Runs js o faults dims s H s') (hr : s.ret = none) (hc : s.db.closed = false)
    (hm : s.db.metaClosed = true) (hlib : ∀ n oc, s.db.colls.get? n = some oc → ∃ L, oc.config.lib js o = some L) :
    ∃ (l : List (DbEv V)) (closes : List String) (failed : List (String × Bool × Err)) (db3 : Db),
      DbLife js o W dims { s.db with metaClosed := m0 } (l ++ failed.map failedCloseEv) db3 ∧
      (H.map clientEv).Sublist l ∧ l.Perm (H.map clientEv ++ closes.map closeEv) ∧
      db3.closed = false ∧ s'.db = { db3 with metaClosed := true, closed := s'.db.closed } ∧
      (s'.db.closed = true ↔ s'.ret = some none) ∧
      ((s'.ret = none ∨ s'.ret = some none) → failed = []) ∧
      (∀ e, s'.ret = some (some e) → ∃ n sf, (sf = true → faults) ∧ failed = [(n, sf, e)]) := by
  induction r with
  | nil s =>
    refine ⟨[], [], [], _, .nil _, List.Sublist.refl _, List.Perm.refl _, hc, ?_, ?_, fun _ => rfl, fun e h => ?_⟩
    · cases s with
      | mk db todo now ret => dsimp only at hm ⊢; rw [← hm]
    · rw [hc, hr]; simp
    · rw [hr] at h; cases h
  | @loop s s1 s2 H h1 r1 ih =>
    cases h1 with
    | loop sf hsf hret =>
    rcases closing_step_any s sf hret with ⟨n, oc, c, hn, hg, hq, he⟩ | ⟨n, oc, c, e, hn, hg, hq, he⟩ | he | ⟨hdb, hret'⟩
    · rw [he] at ih
      obtain ⟨L, hL⟩ := hlib n oc hg
      obtain ⟨hsf, hcc⟩ := close_none hq
      subst hsf
      obtain ⟨l, closes, failed, db3, k1, k2, k3, k4⟩ := ih hret hc hm (fun m oc' hm' => by
          dsimp only at hm'
          by_cases hmn : m = n
          · subst hmn
            rw [AMap.get?_set_self] at hm'; cases hm'
            exact ⟨L, hL⟩
          · rw [AMap.get?_set_ne _ _ _ _ (Ne.symm hmn)] at hm'
            exact hlib m oc' hm')
      refine ⟨closeEv n :: l, n :: closes, failed, db3, ?_, k2.cons _, ?_, k4⟩
      · refine .cons (db1 := { s.db with metaClosed := m0, colls := s.db.colls.set n { oc with coll := c } })
          ⟨⟨(fun h => nomatch h), fun oc' _ => trivial⟩, trivial⟩ (.call ?_) k1
        exact .on (c' := c) (L := L) (db_get_open (db := { s.db with metaClosed := m0 }) hc hg) hL (fun h => nomatch h) (by simp only [Coll.apply, hq])
      · simp only [List.map_cons]
        exact (List.Perm.cons _ k3).trans (List.perm_middle.symm)
    · rw [he] at r1
      obtain ⟨rfl, rfl⟩ := runs_returned r1 rfl
      obtain ⟨L, hL⟩ := hlib n oc hg
      refine ⟨[], [], [(n, sf, e)], { s.db with metaClosed := m0, colls := s.db.colls.set n { oc with coll := c } }, ?_, List.Sublist.refl _,
        List.Perm.refl _, hc, ?_, ?_, fun h => ?_, fun e' h => ?_⟩
      · refine .cons (db1 := { s.db with metaClosed := m0, colls := s.db.colls.set n { oc with coll := c } })
          ⟨⟨(fun h => nomatch h), fun oc' _ => trivial⟩, trivial⟩ (.call ?_) (.nil _)
        exact .on (c' := c) (L := L) (db_get_open (db := { s.db with metaClosed := m0 }) hc hg) hL (fun h => nomatch h) (by simp only [Coll.apply, hq])
      · dsimp only; rw [← hm]
      · dsimp only; rw [hc]; simp
      · rcases h with h | h <;> cases h
      · cases h; exact ⟨n, sf, hsf, rfl⟩
    · rw [he] at r1
      obtain ⟨rfl, rfl⟩ := runs_returned r1 rfl
      refine ⟨[], [], [], _, .nil _, List.Sublist.refl _, List.Perm.refl _, hc, ?_, ?_, fun _ => rfl, fun e h => (nomatch h)⟩
      · dsimp only; rw [← hm]
      · simp
    · have := ih hret' (by rw [hdb]; exact hc) (by rw [hdb]; exact hm) (by rw [hdb]; exact hlib)
      rw [hdb] at this
      exact this
  | @client s s1 s2 n op out H hleg h1 r1 ih =>
    cases h1 with
    | @client _ _ oc L c' _ hret hg hL hop happ =>
    obtain ⟨l, closes, failed, db3, k1, k2, k3, k4⟩ := ih hret hc hm (fun m oc' hm' => by
      dsimp only at hm'
      by_cases hmn : m = n
      · subst hmn
        rw [AMap.get?_set_self] at hm'; cases hm'
        exact ⟨L, hL⟩
      · rw [AMap.get?_set_ne _ _ _ _ (Ne.symm hmn)] at hm'
        exact hlib m oc' hm')
    refine ⟨clientEv (n, op, out) :: l, closes, failed, db3, ?_, k2.cons_cons _, k3.cons _, k4⟩
    refine .cons (db1 := { s.db with metaClosed := m0, colls := s.db.colls.set n { oc with coll := c' } })
      ⟨⟨hop, fun oc' h => hleg oc' (get_ok h).2⟩, trivial⟩ (.call ?_) k1
    exact .on (db_get_open (db := { s.db with metaClosed := m0 }) hc hg) hL hop happ

/-- **C72, at any moment.** Whatever moment of a `DB.Close` one looks at, and also when it has returned an error: the collections and files
are as some sequence of calls leaves them: the clients' calls in their order and some successful `Collection.Close` calls in between, and,
if `DB.Close` returned an error, one more `Collection.Close`, which returned that error. Only the metadata store is closed already, and
`DB.Close` has returned nil exactly if the database counts as closed. -/
theorem C72_any_moment (js : Json V) (o : FloatOps) (hj : JsonOK js) (interrupted : Prop) (dims : Nat → Nat)
    (before : List (DbEv V)) (db : Db) (hr : DbLife js o interrupted dims {} before db) (hopen : db.closed = false) (order : List String)
    (faults : Prop) (H : List (String × Op V × Out V F32)) (s : Closing)
    (hrun : Closing.Runs js o faults dims (db.startClose false order) H s) :
    ∃ (l : List (DbEv V)) (closes : List String) (failed : List (String × Bool × Err)) (db3 : Db),
      DbLife js o interrupted dims db (l ++ failed.map failedCloseEv) db3 ∧
      (H.map clientEv).Sublist l ∧ l.Perm (H.map clientEv ++ closes.map closeEv) ∧
      db3.closed = false ∧ s.db = { db3 with metaClosed := true, closed := s.db.closed } ∧
      (s.db.closed = true ↔ s.ret = some none) ∧
      ((s.ret = none ∨ s.ret = some none) → failed = []) ∧
      (∀ e, s.ret = some (some e) → ∃ n sf, (sf = true → faults) ∧ failed = [(n, sf, e)]) := by
  obtain ⟨_, hlib⟩ := start_facts hj hr
  exact closing_life_any interrupted db.metaClosed (s := { db := { db with metaClosed := true }, todo := order }) hrun rfl hopen rfl hlib

/-- **C72, stopped inside `DB.Close`.** The process ends at any moment of a `DB.Close`, or after it failed, and the database is opened
again: an insert that a client had been told about meanwhile is there, then and after everything that does not delete it. -/
theorem C72_insert_survives_interrupted_close (js : Json V) (o : FloatOps) (hj : JsonOK js) (interrupted : Prop) (dims : Nat → Nat)
    (before : List (DbEv V)) (db : Db) (hr : DbLife js o interrupted dims {} before db) (hopen : db.closed = false) (order : List String)
    (faults : Prop) (H : List (String × Op V × Out V F32)) (s : Closing)
    (hrun : Closing.Runs js o faults dims (db.startClose false order) H s)
    (n : String) (x x1 : Object V) (embed : Embed V) (env : InsEnv) (ff : Bool)
    (hin : (n, Op.insert x embed env ff, Out.inserted x1 none) ∈ H) (hdel : ∀ y ∈ H, y.1 = n → ¬ y.2.1.touches x1.id)
    (hstop : interrupted ∨ s.db.flushed) (db1 : Db) (hre : s.db.reopen = .ok db1)
    (later : List (DbEv V)) (db2 : Db) (hr2 : DbLife js o interrupted dims db1 later db2) (hd : ∀ e ∈ later, ¬ e.drops n)
    (ht : ∀ e ∈ later, ¬ e.touches n x1.id) (ho : db2.closed = false) (hoc : ∀ oc, db2.get n = .ok oc → oc.coll.closed = false) :
    (∃ text props, js.marshal x.props = some text ∧ js.unmarshal text = some props ∧
      db2.Reads js o n x1.id [{ id := x1.id, props := props, vec := some (x1.vec.getD []) }]) ∧
    (∀ v, x.vec = some v → x1.vec = some v) := by
  obtain ⟨l, closes, failed, db3, h1, h2, h3, _, h5, _⟩ :=
    C72_any_moment js o hj interrupted dims before db hr hopen order faults H s hrun
  have hre3 : db3.reopen = .ok db1 := by rw [h5] at hre; exact hre
  have hfl : interrupted ∨ db3.flushed := hstop.imp (fun h => h) (fun h => by rw [h5] at h; exact h)
  have h1' : DbLife js o interrupted dims db (l ++ (failed.map failedCloseEv ++ [restartEv])) db1 := by
    rw [← List.append_assoc]
    exact life_append h1 (.cons ⟨hfl, trivial⟩ (.call (.restart hre3)) (.nil _))
  have hmem : clientEv (n, Op.insert x embed env ff, Out.inserted x1 none) ∈ l := h2.subset (List.mem_map_of_mem hin)
  obtain ⟨l1, l2, rfl⟩ := List.append_of_mem hmem
  rw [List.append_assoc] at h1'
  obtain ⟨db4, q1, q2⟩ := life_split l1 h1'
  cases q2 with
  | @cons _ db5 _ _ _ hl hs q2 =>
    have hs' : DbStep js o db4 (.on n (.insert x embed env ff)) (.called (.inserted x1 none)) db5 := by
      cases hs with
      | call hs => exact hs
    have ev : ∀ e ∈ l2 ++ (failed.map failedCloseEv ++ [restartEv]), ¬ e.drops n ∧ ¬ e.touches n x1.id := by
      intro e he
      rcases List.mem_append.mp he with he | he
      · have : e ∈ H.map clientEv ++ closes.map closeEv := h3.subset (by simp [he])
        rcases List.mem_append.mp this with h | h
        · obtain ⟨y, hy, rfl⟩ := List.mem_map.mp h
          refine ⟨(fun h => h), fun h => ?_⟩
          exact hdel y hy h.1 h.2
        · obtain ⟨y, hy, rfl⟩ := List.mem_map.mp h
          exact ⟨(fun h => h), fun h => h.2⟩
      · rcases List.mem_append.mp he with he | he
        · obtain ⟨y, hy, rfl⟩ := List.mem_map.mp he
          exact ⟨(fun h => h), fun h => h.2⟩
        · rw [List.mem_singleton] at he
          subst he
          exact ⟨(fun h => h), (fun h => h)⟩
    exact C66_insert_survives js o hj interrupted dims (before ++ l1) db4 db5 (life_append hr q1) n x x1 embed env ff hl.1 hs'
      ((l2 ++ (failed.map failedCloseEv ++ [restartEv])) ++ later) db2 (life_append q2 hr2)
      (fun e he => (List.mem_append.mp he).elim (fun h => (ev e h).1) (fun h => hd e h))
      (fun e he => (List.mem_append.mp he).elim (fun h => (ev e h).2) (fun h => ht e h)) ho hoc

/-- the hypotheses are met: `DB.Close` has closed "a" and is about to close "b" when a client inserts into "b"; then the process ends, and
the database opens again. -/
example : ∃ db before s H, DbLife demoJson intOps False (fun _ => 1) {} before db ∧ db.closed = false ∧
    (∀ n oc, db.get n = .ok oc → n ∈ ["a", "b"]) ∧
    (∀ n oc, db.get n = .ok oc → oc.coll.closed = false → (oc.coll.close false).2 = none) ∧
    Closing.Runs demoJson intOps False (fun _ => 1) (db.startClose false ["a", "b"]) H s ∧
    (match s.ret, H with
      | none, [("b", .insert _ _ _ _, .inserted x none)] => decide (x.id = 1) && s.db.colls.all (fun y => y.2.coll.index.wal.batch.isEmpty) &&
          (s.db.colls.get? "a").any (fun oc => oc.coll.closed) && (match s.db.reopen with | .ok _ => true | .error _ => false)
      | _, _ => false) = true :=
  closing_of _ [none, none, none, some ("b", demoInsert 7)]
    (fun s H => match s.ret, H with
      | none, [("b", .insert _ _ _ _, .inserted x none)] => decide (x.id = 1) && s.db.colls.all (fun y => y.2.coll.index.wal.batch.isEmpty) &&
          (s.db.colls.get? "a").any (fun oc => oc.coll.closed) && (match s.db.reopen with | .ok _ => true | .error _ => false)
      | _, _ => false) (by decide +kernel)

end Vectory
