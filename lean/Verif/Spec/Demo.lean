import Verif.Spec.History
/-!
# A concrete environment for the non-vacuity examples

Not part of any property: used to show that the hypotheses of the theorems are met by real, non-trivial runs.
-/
namespace Vectory
variable {V D : Type}

/-- property values are bytes; the JSON text is the list of values, and every key reads back as `"a"`. -/
def demoJson : Json UInt8 := { marshal := fun p => if p.length < 1000 then some (p.map Prod.snd) else none, unmarshal := fun b => some (b.map (fun x => ("a", x))) }

/-- `|a₀-b₀| + |a₁-b₁| + …` on the bit patterns; a panic when the lengths differ. -/
def demoDist : Vec → Vec → Except Panic Nat
  | [], [] => .ok 0
  | a :: as, b :: bs => do
    let d ← demoDist as bs
    .ok (d + (a.toNat - b.toNat) + (b.toNat - a.toNat))
  | _, _ => .error .indexOutOfRange

def demoLib : Lib UInt8 Nat := { json := demoJson, metric := { lt := fun a b => decide (a < b), dist := demoDist } }

def demoCfg : Cfg := { m := 2, mMax := 2, efC := 4, ef := 4, heuristic := false }

theorem demoJson_ok : JsonOK demoJson := by
  refine ⟨fun p b h => ?_⟩
  unfold demoJson at h
  dsimp only at h
  split at h
  · cases h
    exact ⟨by simp; omega, _, rfl⟩
  · cases h

theorem demoDist_ok : ∀ (a b : Vec), a.length = b.length → ∃ d, demoDist a b = .ok d := by
  intro a
  induction a with
  | nil => intro b h; cases b with
    | nil => exact ⟨0, rfl⟩
    | cons _ _ => simp at h
  | cons x a ih => intro b h; cases b with
    | nil => simp at h
    | cons y b =>
      obtain ⟨d, hd⟩ := ih b (by simpa using h)
      exact ⟨_, by unfold demoDist; rw [hd]; rfl⟩

theorem demo_ord : Ord demoLib.metric.lt :=
  ⟨fun a b h => by simp [demoLib] at *; omega, fun a b c h1 h2 => by simp [demoLib] at *; omega⟩

theorem demo_setup (dim : Nat) (h : dim < 4294967296) : Setup demoLib dim demoCfg :=
  ⟨demoJson_ok, fun a b ha hb => demoDist_ok a b (by omega), h, by constructor <;> decide⟩

/-- an object with property `a` and a one-dimensional vector. -/
def demoObj (x : UInt32) : Object UInt8 := { id := 0, props := [("a", 7)], vec := some [x] }

/-- the embedding service is not used. -/
def noEmbed : Embed V := fun _ => .error .embed

def demoInsert (x : UInt32) (level : Nat := 0) : Op UInt8 := .insert (demoObj x) noEmbed { level := level } false

/-- run calls one after the other. -/
def play (L : Lib V D) : Coll → List (Op V) → Except Abort (Coll × List (Op V × Out V D))
  | c, [] => .ok (c, [])
  | c, op :: ops =>
    match c.apply L op with
    | .error a => .error a
    | .ok (c1, out) =>
      match play L c1 ops with
      | .error a => .error a
      | .ok (c2, h) => .ok (c2, (op, out) :: h)

theorem play_trace {L : Lib V D} : ∀ (ops : List (Op V)) (c c' : Coll) (h : List (Op V × Out V D)),
    play L c ops = .ok (c', h) → Trace L c h c' := by
  intro ops
  induction ops with
  | nil => intro c c' h hp; cases hp; exact .nil _
  | cons op ops ih =>
    intro c c' h hp
    unfold play at hp
    cases ha : c.apply L op with
    | error a => rw [ha] at hp; cases hp
    | ok r =>
      obtain ⟨c1, out⟩ := r
      rw [ha] at hp
      dsimp only at hp
      cases hq : play L c1 ops with
      | error a => rw [hq] at hp; cases hp
      | ok r2 => rw [hq] at hp; cases hp; exact .cons ha (ih _ _ _ hq)

/-- `Legal`, checked. -/
def legalB (dim : Nat) (c : Coll) : Op V → Bool
  | .insert o embed env _ =>
    (match embedObjectsIfNeeded c embed [o] with
      | .error _ => false
      | .ok (.error _) => true
      | .ok (.ok os) => os.all (fun o => (o.vec.getD []).length == dim)) &&
    decide (env.level < 4294967296) && decide (c.counter.count.toNat + 1 < 18446744073709551616)
  | .insertBatch _ _ _ _ => false
  | .reopen => c.index.wal.batch.isEmpty
  | _ => true

theorem legalB_sound {dim : Nat} {c : Coll} {op : Op V} (h : legalB dim c op = true) : Legal dim c op := by
  cases op with
  | insert o embed env ff =>
    simp only [legalB, Bool.and_eq_true, decide_eq_true_eq] at h
    obtain ⟨⟨h1, h2⟩, h3⟩ := h
    refine ⟨?_, h2, h3⟩
    cases he : embedObjectsIfNeeded c embed [o] with
    | error p => rw [he] at h1; cases h1
    | ok r =>
      refine ⟨r, he, ?_⟩
      intro os hos
      subst hos
      rw [he] at h1
      intro o ho
      simpa using (List.all_eq_true.mp h1) o ho
  | insertBatch os embed envs ff => simp [legalB] at h
  | reopen => exact List.isEmpty_iff.mp h
  | delete id df ff => trivial
  | get ids => trivial
  | search o embed k => trivial
  | size => trivial
  | update o => trivial
  | close sf => trivial

/-- run calls one after the other, checking that each is legal. -/
def playLegal (L : Lib V D) (dim : Nat) : Coll → List (Op V) → Option (Coll × List (Op V × Out V D))
  | c, [] => some (c, [])
  | c, op :: ops =>
    if legalB dim c op then
      match c.apply L op with
      | .error _ => none
      | .ok (c1, out) =>
        match playLegal L dim c1 ops with
        | none => none
        | some (c2, h) => some (c2, (op, out) :: h)
    else none

theorem playLegal_runs {L : Lib V D} {dim : Nat} : ∀ (ops : List (Op V)) (c c' : Coll) (h : List (Op V × Out V D)),
    playLegal L dim c ops = some (c', h) → Runs L dim c h c' := by
  intro ops
  induction ops with
  | nil => intro c c' h hp; cases hp; exact .nil _
  | cons op ops ih =>
    intro c c' h hp
    unfold playLegal at hp
    split at hp
    · rename_i hl
      cases ha : c.apply L op with
      | error a => rw [ha] at hp; cases hp
      | ok r =>
        obtain ⟨c1, out⟩ := r
        rw [ha] at hp
        dsimp only at hp
        cases hq : playLegal L dim c1 ops with
        | none => rw [hq] at hp; cases hp
        | some r2 => rw [hq] at hp; cases hp; exact .cons (legalB_sound hl) ha (ih _ _ _ hq)
    · cases hp

/-- the state after some calls on a new collection with the given parameters. -/
def demoState (cfg : Cfg) (ops : List (Op UInt8)) : Coll :=
  match playLegal demoLib 1 (Coll.new cfg ["a"] false) ops with
  | some (c, _) => c
  | none => Coll.new cfg ["a"] false

theorem demo_reach (ops : List (Op UInt8)) : Reach demoLib 1 (demoState demoCfg ops) := by
  unfold demoState
  cases h : playLegal demoLib 1 (Coll.new demoCfg ["a"] false) ops with
  | none => exact ⟨demoCfg, ["a"], false, [], demo_setup 1 (by decide), .nil _⟩
  | some r => exact ⟨demoCfg, ["a"], false, r.2, demo_setup 1 (by decide), playLegal_runs _ _ _ _ h⟩

end Vectory
