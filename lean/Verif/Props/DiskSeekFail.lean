import Verif.Props.DiskSeek
/-! # C76: a case that meets the hypotheses, and runs in which a search beside an insertion goes wrong -/
namespace Vectory
open DiskAnn

namespace DiskAnn

theorem ok_of_toOption {E A : Type} {x : Except E A} {a : A} (h : x.toOption = some a) : x = .ok a := by
  cases x with
  | error e => cases h
  | ok b => cases h; rfl

/-- one step of a schedule: somebody else's or the search's. -/
inductive Both where
  | w (a : Act)
  | s

/-- a schedule, with no deletions. -/
def besideRun (P : Params Nat) (q : Vec) (k : Nat) : World × Seek Nat → List Both → World × Seek Nat
  | x, [] => x
  | (w, s), .w a :: as => besideRun P q k (World.run P w [a], s) as
  | (w, s), .s :: as => besideRun P q k (w, s.step P q k w.da []) as

/-- whether the steps are allowed. -/
def besideCan (P : Params Nat) (q : Vec) (k : Nat) : World × Seek Nat → List Both → Bool
  | _, [] => true
  | (w, s), .w a :: as => World.canRun P w [a] && besideCan P q k (World.run P w [a], s) as
  | (w, s), .s :: as => besideCan P q k (w, s.step P q k w.da []) as

theorem Beside.trans_other {P : Params Nat} {q : Vec} {k : Nat} {dels : List UInt32 → Prop} {w w' w'' : World} {s s' : Seek Nat}
    (b : Beside P q k dels w s w' s') (r : World.Runs P w' w'') : Beside P q k dels w s w'' s' := by
  induction r with
  | refl => exact b
  | step _ h ih => exact .other ih h

theorem besideRun_beside {P : Params Nat} {q : Vec} {k : Nat} {dels : List UInt32 → Prop} (hd : dels []) {w0 : World} {s0 : Seek Nat} :
    ∀ (as : List Both) (w : World) (s : Seek Nat), Beside P q k dels w0 s0 w s → besideCan P q k (w, s) as = true →
    Beside P q k dels w0 s0 (besideRun P q k (w, s) as).1 (besideRun P q k (w, s) as).2 := by
  intro as
  induction as with
  | nil => intro w s b _; exact b
  | cons a as ih =>
    intro w s b h
    cases a with
    | w a =>
      simp only [besideCan, Bool.and_eq_true] at h
      exact ih _ _ (b.trans_other (World.run_runs [a] w h.1)) h.2
    | s => exact ih _ _ (.seek [] _ b hd (World.Sees.refl _ _)) h

/-- the steps `pre` of the insertions of `vs`, then a search beside them. -/
def besideCase (P : Params Nat) (q : Vec) (k : Nat) (vs : List Vec) (pre : List Nat) (as : List Both) : World × Seek Nat :=
  besideRun P q k (World.run P (World.start P vs) (pre.map .t), {}) as

theorem besideCase_beside {P : Params Nat} {q : Vec} {k : Nat} {vs : List Vec} {pre : List Nat} {as : List Both}
    (h : besideCan P q k (World.run P (World.start P vs) (pre.map .t), {}) as = true) :
    Beside P q k (fun del => del = []) (World.run P (World.start P vs) (pre.map .t)) {} (besideCase P q k vs pre as).1 (besideCase P q k vs pre as).2 :=
  besideRun_beside (dels := fun del => del = []) rfl as _ _ (.refl _ _) h

/-- what the search returned: ids and distances. -/
def Seek.answer (s : Seek Nat) : Option (List (UInt64 × Nat)) :=
  match s.pc with
  | .done out => some (out.map (fun e => (e.id, e.dist)))
  | _ => none

theorem Seek.answer_some {s : Seek Nat} {r : List (UInt64 × Nat)} (h : s.answer = some r) :
    ∃ out, s.pc = .done out ∧ out.map (fun e => (e.id, e.dist)) = r := by
  unfold Seek.answer at h
  split at h
  · rename_i out e; cases h; exact ⟨out, e, rfl⟩
  · cases h

/-- whether the search has panicked. -/
def Seek.dead (s : Seek Nat) : Bool :=
  match s.pc with
  | .panicked => true
  | _ => false

theorem Seek.dead_true {s : Seek Nat} (h : s.dead = true) : s.pc = .panicked := by
  unfold Seek.dead at h
  split at h
  · assumption
  · cases h

end DiskAnn

/-- C76 speaks of something: three vectors are stored in parts of two; a fourth call runs beside the search, which returns three hits. -/
example : ∃ (w0 w : World) (s : Seek Nat), World.Runs (lineParams 2) (World.start (lineParams 2) [[10], [20], [30], [40]]) w0 ∧
    (∃ id v, w0.da.at w0.da.rw id = some v) ∧ w.da.parts.length = w0.da.parts.length ∧ w0.da.parts.length = 2 ∧
    Beside (lineParams 2) [27] 3 (fun del => del = []) w0 {} w s ∧ ∃ out, s.pc = .done out ∧ out.map (fun e => (e.id, e.dist)) = [(3, 3), (2, 7), (1, 17)] := by
  refine ⟨World.run (lineParams 2) (World.start (lineParams 2) [[10], [20], [30], [40]]) ([0, 0, 0, 0, 0, 0, 1, 1, 1, 1, 1, 1, 2, 2, 2, 2, 2, 2].map .t),
    (besideCase (lineParams 2) [27] 3 [[10], [20], [30], [40]] [0, 0, 0, 0, 0, 0, 1, 1, 1, 1, 1, 1, 2, 2, 2, 2, 2, 2] [.w (.t 3), .s, .s, .w (.t 3), .s, .w (.t 3), .s, .w (.t 3), .s, .s, .s, .s, .w (.t 3), .s, .s, .s, .s, .s, .s, .s]).1,
    (besideCase (lineParams 2) [27] 3 [[10], [20], [30], [40]] [0, 0, 0, 0, 0, 0, 1, 1, 1, 1, 1, 1, 2, 2, 2, 2, 2, 2] [.w (.t 3), .s, .s, .w (.t 3), .s, .w (.t 3), .s, .w (.t 3), .s, .s, .s, .s, .w (.t 3), .s, .s, .s, .s, .s, .s, .s]).2, World.run_runs _ _ (by decide +kernel), ⟨3, [30], by decide +kernel⟩, ?_, by decide +kernel,
    besideCase_beside (by decide +kernel),
    Seek.answer_some (by decide +kernel)⟩
  decide +kernel

/-- C76 fails: a search returns the same vector twice. It searches the newest part, then an insertion finds that part full and turns it into a
read-only part, then the search goes through the read-only parts. -/
theorem C76_same_vector_twice :
    ∃ (w0 w : World) (s : Seek Nat), World.Runs (lineParams 1) (World.start (lineParams 1) [[10], [20]]) w0 ∧
      Beside (lineParams 1) [12] 2 (fun del => del = []) w0 {} w s ∧ ∃ out, s.pc = .done out ∧ out.map (fun e => (e.id, e.dist)) = [(1, 2), (1, 2)] := by
  refine ⟨World.run (lineParams 1) (World.start (lineParams 1) [[10], [20]]) ([0, 0, 0, 0, 0].map .t),
    (besideCase (lineParams 1) [12] 2 [[10], [20]] [0, 0, 0, 0, 0] [.s, .s, .s, .s, .w (.t 1), .s, .s, .s, .s, .s, .s]).1,
    (besideCase (lineParams 1) [12] 2 [[10], [20]] [0, 0, 0, 0, 0] [.s, .s, .s, .s, .w (.t 1), .s, .s, .s, .s, .s, .s]).2, World.run_runs _ _ (by decide +kernel),
    besideCase_beside (by decide +kernel),
    Seek.answer_some (by decide +kernel)⟩

/-- C76 fails: a search panics although a vector has been acknowledged and nothing refused. An insertion has just started a new part. -/
theorem C76_panic_beside_insert :
    ∃ (w0 w : World) (s : Seek Nat), World.Runs (lineParams 1) (World.start (lineParams 1) [[10], [20]]) w0 ∧
      (∃ id v, w0.da.at w0.da.rw id = some v) ∧
      Beside (lineParams 1) [12] 2 (fun del => del = []) w0 {} w s ∧ s.pc = .panicked := by
  refine ⟨World.run (lineParams 1) (World.start (lineParams 1) [[10], [20]]) ([0, 0, 0, 0, 0].map .t),
    (besideCase (lineParams 1) [12] 2 [[10], [20]] [0, 0, 0, 0, 0] [.w (.t 1), .s, .s]).1,
    (besideCase (lineParams 1) [12] 2 [[10], [20]] [0, 0, 0, 0, 0] [.w (.t 1), .s, .s]).2, World.run_runs _ _ (by decide +kernel),
    ⟨1, [10], by decide +kernel⟩,
    besideCase_beside (by decide +kernel), Seek.dead_true (by decide +kernel)⟩

/-- C76: a search that runs while `[20]` is being linked to `[10]`. It meets the list of `[10]` already longer but not yet checked against the maximal
degree, and returns `[20]`, whose insertion has not returned. -/
theorem C76_sees_half_a_link :
    ∃ (w : World) (seen : DA) (s : Seek Nat), World.Runs (lineParams 3) (World.start (lineParams 3) [[10], [20]]) w ∧
      w.tasks.map Prod.snd = [.done 1 none, .added 2 0] ∧ w.Sees (lineParams 3) seen ∧ seen ≠ w.da ∧
      Beside (lineParams 3) [19] 2 (fun del => del = []) w {} w s ∧ ∃ out, s.pc = .done out ∧ out.map (fun e => (e.id, e.dist)) = [(2, 1), (1, 9)] := by
  let P := lineParams 3
  let w := World.run P (World.start P [[10], [20]]) ([0, 0, 0, 0, 0, 0, 1, 1, 1, 1, 1].map .t)
  let mi : MemIndex := { newMemIndex 1 P.maxDegree P.dim with s := 1, once := true, graph := [(1, { id := 1, vector := [10] }), (2, { id := 2, vector := [20] })] }
  let g : DiskAnn.Graph := [(1, { id := 1, vector := [10], neighbors := [2] }), (2, { id := 2, vector := [20], neighbors := [1] })]
  let seen : DA := { parts := [{ mi with graph := g }], currId := 3 }
  have hw : w.da.parts = [mi] := by decide +kernel
  have hc : Chosen P mi [20] 2 ([] ++ 1 :: []) := chosen_of (del := []) (vis := [{ id := 1, dist := 10 }]) (ns := [1]) line_ord
    (ok_of_toOption (by decide +kernel)) (ok_of_toOption (by decide +kernel))
  have hsee : w.Sees P seen := by
    refine ⟨by rw [hw]; rfl, fun p m hp => ?_⟩
    rw [hw] at hp
    cases p with
    | zero =>
      cases hp
      exact ⟨g, rfl, Or.inr ⟨1, [20], 2, by decide +kernel, .appended (nb := { id := 1, vector := [10] }) hc rfl rfl⟩⟩
    | succ p => cases hp
  have hb : ∀ (n : Nat) (s s' : Seek Nat), Beside P [19] 2 (fun del => del = []) w s w s' →
      Beside P [19] 2 (fun del => del = []) w s w (Seek.steps P [19] 2 seen [] n s') := by
    intro n
    induction n with
    | zero => intro s s' h; exact h
    | succ n ih => intro s s' h; exact ih _ _ (.seek [] seen h rfl hsee)
  refine ⟨w, seen, Seek.steps P [19] 2 seen [] 8 {}, World.run_runs _ _ (by decide +kernel), by decide +kernel, hsee, by decide +kernel,
    hb 8 {} {} (.refl _ _), Seek.answer_some (by decide +kernel)⟩

end Vectory
