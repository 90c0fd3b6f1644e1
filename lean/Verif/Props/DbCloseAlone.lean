import Verif.Props.DbCloseAny
/-! # C72: `DB.Close` with no clients is the `Close` of the sequential model -/
namespace Vectory
variable {V : Type}

theorem get?_append_right {m r : AMap String OpenColl} {n : String} {oc : OpenColl} (h : n ∉ AMap.keys m) :
    AMap.get? (m ++ (n, oc) :: r) n = some oc := by
  induction m with
  | nil => simp [AMap.get?]
  | cons p m ih =>
    have h1 : p.1 ≠ n := fun e => h (by simp [AMap.keys, e])
    have h2 : n ∉ AMap.keys m := fun e => h (List.mem_cons_of_mem _ e)
    show (if p.1 = n then some p.2 else AMap.get? (m ++ (n, oc) :: r) n) = _
    rw [if_neg h1, ih h2]

theorem set_append_right {m r : AMap String OpenColl} {n : String} {oc oc' : OpenColl} (h : n ∉ AMap.keys m) :
    AMap.set (m ++ (n, oc) :: r) n oc' = m ++ (n, oc') :: r := by
  induction m with
  | nil => simp [AMap.set]
  | cons p m ih =>
    have h1 : p.1 ≠ n := fun e => h (by simp [AMap.keys, e])
    have h2 : n ∉ AMap.keys m := fun e => h (List.mem_cons_of_mem _ e)
    show (if p.1 = n then (p.1, oc') :: (m ++ (n, oc) :: r) else p :: AMap.set (m ++ (n, oc) :: r) n oc') = _
    rw [if_neg h1, ih h2]
    rfl

/-- the loop from the point where the collections `rest` are still to be looked at. -/
def loopAt (db : Db) (pre rest : AMap String OpenColl) : Closing := { db := { db with colls := pre ++ rest }, todo := AMap.keys rest }

/-- where the sequential `Close` ends. -/
def endAt (db : Db) (pre rest : AMap String OpenColl) (sf : String → Bool) : Db × Option Err :=
  let (colls, e) := closeAll sf rest
  let db := { db with colls := pre ++ colls }
  match e with
  | some e => (db, some e)
  | none => ({ db with closed := true }, none)

theorem endAt_cons_closed {db : Db} {pre rest : AMap String OpenColl} {n : String} {oc : OpenColl} {sf : String → Bool} (h : oc.coll.closed = true) :
    endAt db pre ((n, oc) :: rest) sf = endAt db (pre ++ [(n, oc)]) rest sf := by
  simp only [endAt, closeAll, if_pos h]
  cases h1 : closeAll sf rest with
  | mk colls e => cases e <;> simp

theorem endAt_cons_open {db : Db} {pre rest : AMap String OpenColl} {n : String} {oc : OpenColl} {sf : String → Bool} (h : oc.coll.closed = false) :
    endAt db pre ((n, oc) :: rest) sf =
      match (oc.coll.close (sf n)).2 with
      | some e => ({ db with colls := pre ++ (n, { oc with coll := (oc.coll.close (sf n)).1 }) :: rest }, some e)
      | none => endAt db (pre ++ [(n, { oc with coll := (oc.coll.close (sf n)).1 })]) rest sf := by
  have hne : ¬ (oc.coll.closed = true) := by simp [h]
  simp only [endAt, closeAll, if_neg hne]
  cases h0 : oc.coll.close (sf n) with
  | mk c e =>
    cases e with
    | some e => simp
    | none =>
      cases h1 : closeAll sf rest with
      | mk colls e => cases e <;> simp

/-- C72: without clients, `DB.Close` that returned is a `DB.Close` of the sequential model: the same result, the same state; so all that is
said of that (C39, C36, C65) holds. And for every choice of what fails there is such a run. -/
theorem loop_alone (js : Json V) (o : FloatOps) (dims : Nat → Nat) (db : Db) :
    ∀ (rest pre : AMap String OpenColl), (AMap.keys (pre ++ rest)).Nodup →
      (∀ sf : String → Bool, ∃ s : Closing, Closing.Runs (V := V) js o True dims (loopAt db pre rest) [] s ∧
        s.db = (endAt db pre rest sf).1 ∧ s.ret = some (endAt db pre rest sf).2) ∧
      (∀ s : Closing, Closing.Runs (V := V) js o True dims (loopAt db pre rest) [] s → s.ret ≠ none →
        ∃ sf : String → Bool, s.db = (endAt db pre rest sf).1 ∧ s.ret = some (endAt db pre rest sf).2) := by
  intro rest
  induction rest with
  | nil =>
    intro pre _
    have e1 : (loopAt db pre []).step false = { loopAt db pre [] with db := { db with colls := pre ++ [], closed := true }, ret := some none } := rfl
    refine ⟨fun sf => ⟨_, .loop (.loop false (fun h => nomatch h) rfl) (.nil _), rfl, rfl⟩, fun s r hs => ⟨fun _ => false, ?_⟩⟩
    cases r with
    | nil => exact absurd rfl hs
    | loop h1 r1 =>
      cases h1 with
      | loop sf _ _ =>
        have e2 : (loopAt db pre []).step sf = { loopAt db pre [] with db := { db with colls := pre ++ [], closed := true }, ret := some none } := rfl
        rw [e2] at r1
        cases r1 with
        | nil => exact ⟨rfl, rfl⟩
        | loop h2 _ => cases h2 with | loop _ _ h3 => cases h3
  | cons p rest ih =>
    obtain ⟨n, oc⟩ := p
    intro pre hnd
    have hn : n ∉ AMap.keys pre := by
      simp only [AMap.keys, List.map_append, List.map_cons] at hnd
      have := (List.nodup_append.mp hnd).2.2
      intro h
      exact this n h n List.mem_cons_self rfl
    have hnd' : ∀ c, (AMap.keys ((pre ++ [(n, ({ oc with coll := c } : OpenColl))]) ++ rest)).Nodup := by
      intro c
      simpa [AMap.keys] using hnd
    have hget : AMap.get? (pre ++ (n, oc) :: rest) n = some oc := get?_append_right hn
    by_cases hc : oc.coll.closed = true
    · have e1 : ∀ sf, (loopAt db pre ((n, oc) :: rest)).step sf = loopAt db (pre ++ [(n, oc)]) rest := by
        intro sf
        simp only [Closing.step, loopAt, AMap.keys, List.map_cons, hget, if_pos hc]
        simp
      have hi := ih (pre ++ [(n, oc)]) (hnd' oc.coll)
      refine ⟨fun sf => ?_, fun s r hs => ?_⟩
      · obtain ⟨s, h1, h2, h3⟩ := hi.1 sf
        rw [endAt_cons_closed hc]
        exact ⟨s, .loop (.loop false (fun h => nomatch h) rfl) (by rw [e1]; exact h1), h2, h3⟩
      · cases r with
        | nil => exact absurd rfl hs
        | loop h1 r1 =>
          cases h1 with
          | loop sf _ _ =>
            rw [e1] at r1
            obtain ⟨sf, h2, h3⟩ := hi.2 s r1 hs
            exact ⟨sf, by rw [endAt_cons_closed hc]; exact ⟨h2, h3⟩⟩
    · have hc' : oc.coll.closed = false := by simpa using hc
      have e1 : ∀ sf, (loopAt db pre ((n, oc) :: rest)).step sf =
          { loopAt db pre ((n, oc) :: rest) with todo := AMap.keys rest, now := some n } := by
        intro sf
        simp only [Closing.step, loopAt, AMap.keys, List.map_cons, hget, if_neg hc]
      have e2 : ∀ sf e, (oc.coll.close sf).2 = some e →
          ({ loopAt db pre ((n, oc) :: rest) with todo := AMap.keys rest, now := some n } : Closing).step sf =
            { db := { db with colls := pre ++ (n, { oc with coll := (oc.coll.close sf).1 }) :: rest }, todo := AMap.keys rest, ret := some (some e) } := by
        intro sf e he
        simp only [Closing.step, loopAt, hget]
        cases hq : oc.coll.close sf with
        | mk c e' =>
          rw [hq] at he
          dsimp only at he
          subst he
          simp only [set_append_right hn]
      have e3 : ∀ sf, (oc.coll.close sf).2 = none →
          ({ loopAt db pre ((n, oc) :: rest) with todo := AMap.keys rest, now := some n } : Closing).step sf =
            loopAt db (pre ++ [(n, { oc with coll := (oc.coll.close sf).1 })]) rest := by
        intro sf he
        simp only [Closing.step, loopAt, hget]
        cases hq : oc.coll.close sf with
        | mk c e' =>
          rw [hq] at he
          dsimp only at he
          subst he
          simp only [set_append_right hn]
          simp
      refine ⟨fun sf => ?_, fun s r hs => ?_⟩
      · rw [endAt_cons_open hc']
        cases he : (oc.coll.close (sf n)).2 with
        | some e =>
          refine ⟨{ db := { db with colls := pre ++ (n, { oc with coll := (oc.coll.close (sf n)).1 }) :: rest }, todo := AMap.keys rest, ret := some (some e) },
            .loop (.loop false (fun h => nomatch h) rfl) ?_, rfl, rfl⟩
          rw [e1]
          refine .loop (.loop (sf n) (fun _ => trivial) rfl) ?_
          rw [e2 _ _ he]
          exact .nil _
        | none =>
          obtain ⟨s, h1, h2, h3⟩ := (ih (pre ++ [(n, { oc with coll := (oc.coll.close (sf n)).1 })]) (hnd' _)).1 sf
          refine ⟨s, .loop (.loop false (fun h => nomatch h) rfl) ?_, h2, h3⟩
          rw [e1]
          exact .loop (.loop (sf n) (fun _ => trivial) rfl) (by rw [e3 _ he]; exact h1)
      · cases r with
        | nil => exact absurd rfl hs
        | loop h1 r1 =>
          cases h1 with
          | loop sf1 _ _ =>
            rw [e1] at r1
            cases r1 with
            | nil => exact absurd rfl hs
            | loop h2 r2 =>
              cases h2 with
              | loop sf2 _ _ =>
                cases he : (oc.coll.close sf2).2 with
                | some e =>
                  rw [e2 _ _ he] at r2
                  refine ⟨fun _ => sf2, ?_⟩
                  rw [endAt_cons_open hc', he]
                  cases r2 with
                  | nil => exact ⟨rfl, rfl⟩
                  | loop h3 _ => cases h3 with | loop _ _ h4 => cases h4
                | none =>
                  rw [e3 _ he] at r2
                  obtain ⟨sf, h3, h4⟩ := (ih (pre ++ [(n, { oc with coll := (oc.coll.close sf2).1 })]) (hnd' _)).2 s r2 hs
                  refine ⟨fun m => if m = n then sf2 else sf m, ?_⟩
                  have hcong : ∀ (l : AMap String OpenColl), n ∉ AMap.keys l → closeAll (fun m => if m = n then sf2 else sf m) l = closeAll sf l := by
                    intro l
                    induction l with
                    | nil => intro _; rfl
                    | cons q l ihl =>
                      intro hl
                      have h1 : q.1 ≠ n := fun e => hl (by simp [AMap.keys, e])
                      have h2 := ihl (fun e => hl (List.mem_cons_of_mem _ e))
                      simp only [closeAll, h2, if_neg h1]
                  have hn2 : n ∉ AMap.keys rest := by
                    simp only [AMap.keys, List.map_append, List.map_cons] at hnd
                    exact (List.nodup_cons.mp (List.nodup_append.mp hnd).2.1).1
                  have hend : ∀ pre', endAt db pre' rest (fun m => if m = n then sf2 else sf m) = endAt db pre' rest sf := by
                    intro pre'
                    simp only [endAt, hcong rest hn2]
                  rw [endAt_cons_open hc']
                  simp only [if_pos, he, hend]
                  exact ⟨h3, h4⟩

/-- **C72, alone.** If no client calls anything meanwhile, `DB.Close` does, step by step, exactly what the `Close` of the sequential model does
in one step: for every choice of failures there is a run with the same answer and the same state, and every run that has returned is one of
these. (A Go map has each key once; the order is the arbitrary one in which the model lists it.) -/
theorem C72_alone (js : Json V) (o : FloatOps) (dims : Nat → Nat) (db : Db) (hnd : (AMap.keys db.colls).Nodup) (mf : Bool) :
    (∀ sf : String → Bool, ∃ s : Closing, Closing.Runs (V := V) js o True dims (db.startClose mf (AMap.keys db.colls)) [] s ∧
      s.db = (db.close mf sf).1 ∧ s.ret = some (db.close mf sf).2) ∧
    (∀ s : Closing, Closing.Runs (V := V) js o True dims (db.startClose mf (AMap.keys db.colls)) [] s → s.ret ≠ none →
      ∃ sf : String → Bool, s.db = (db.close mf sf).1 ∧ s.ret = some (db.close mf sf).2) := by
  cases mf with
  | true =>
    refine ⟨fun sf => ⟨_, .nil _, rfl, rfl⟩, fun s r hs => ⟨fun _ => false, ?_⟩⟩
    cases r with
    | nil => exact ⟨rfl, rfl⟩
    | loop h1 _ => cases h1 with | loop _ _ h2 => cases h2
  | false =>
    have h := loop_alone (V := V) js o dims { db with metaClosed := true } db.colls [] (by simpa using hnd)
    have e : ∀ sf, endAt { db with metaClosed := true } [] db.colls sf = db.close false sf := by
      intro sf
      simp only [endAt, Db.close, List.nil_append]
      cases closeAll sf db.colls with
      | mk c e => cases e <;> rfl
    simp only [e] at h
    exact h

/-- the hypothesis is met: a database with two collections. -/
example : ((({} : Db).live demoJson intOps (fun _ => 1) closeOps).any (fun r => decide ((AMap.keys r.1.colls).Nodup) &&
    decide (r.1.colls.length = 2) && decide ((r.1.close false (fun _ => false)).2 = none) &&
    decide ((r.1.close true (fun _ => false)).2 = some .io) && decide ((r.1.close false (fun n => n == "b")).2 = some .io))) = true := by decide +kernel

end Vectory
