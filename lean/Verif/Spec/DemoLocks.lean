import Verif.Spec.Locks
import Verif.Props.Db
/-! # Concrete runs of several processes on one directory, for the non-vacuity examples -/
namespace Vectory

def OpenColl.usableB (oc : OpenColl) : Bool := !oc.coll.closed && !oc.coll.counter.closed

theorem OpenColl.usableB_sound {oc : OpenColl} (h : oc.usableB = true) : oc.Usable := by
  unfold usableB at h
  simp only [Bool.and_eq_true, Bool.not_eq_true'] at h
  exact h

def World.tidyB (w : World) : WAct → Bool
  | .drop i n _ _ =>
    match w.insts i with
    | none => true
    | some x => x.metaClosed || (match x.colls.get? n with | none => true | some oc => oc.usableB)
  | _ => true

theorem World.tidyB_sound {w : World} {a : WAct} (h : w.tidyB a = true) : w.Tidy a := by
  cases a with
  | drop i n ef rf =>
    intro x oc hx hm ho
    simp only [World.tidyB, hx, hm, ho, Bool.false_or] at h
    exact OpenColl.usableB_sound h
  | _ => trivial

/-- running a list of steps. -/
def World.run (tidy : Bool) : World → List WAct → Option (World × List Outcome)
  | w, [] => some (w, [])
  | w, a :: as =>
    if tidy && !(w.tidyB a) then none
    else
      match w.step a with
      | none => none
      | some (w1, o) => (w1.run tidy as).map (fun p => (p.1, o :: p.2))

theorem World.run_reach : ∀ (as : List WAct) (w w' : World) (os : List Outcome), WReach w → w.run true as = some (w', os) → WReach w'
  | [], w, w', os, hw, h => by cases h; exact hw
  | a :: as, w, w', os, hw, h => by
    rw [World.run] at h
    split at h
    · cases h
    · rename_i ht
      cases hs : w.step a with
      | none => rw [hs] at h; cases h
      | some p =>
        obtain ⟨w1, o⟩ := p
        rw [hs] at h
        dsimp only at h
        cases hr : w1.run true as with
        | none => rw [hr] at h; cases h
        | some p =>
          rw [hr] at h
          cases h
          refine World.run_reach as w1 p.1 p.2 (.step hw (World.tidyB_sound ?_) hs) hr
          simpa using ht

/-- the state after a run (the empty directory if the run is not possible). -/
def World.after (as : List WAct) : World := ((World.run true {} as).map (·.1)).getD {}

/-- what the calls returned. -/
def World.outcomes (tidy : Bool) (as : List WAct) : Option (List Outcome) := (World.run tidy {} as).map (·.2)

theorem World.after_reach (as : List WAct) : WReach (World.after as) := by
  unfold World.after
  cases h : World.run true {} as with
  | none => exact .new
  | some p => exact World.run_reach as {} p.1 p.2 .new h

/-- `Open` in process `p`, nothing fails. -/
def wOpen (p : Nat) : WAct := .open p (fun _ => {})
/-- `CreateCollection` of an HNSW collection. -/
def wCreate (i : Nat) (n : String) : WAct := .create i (demoConfig n) {} {}
/-- `Collection.Close`. -/
def wCloseColl (i : Nat) (n : String) : WAct := .closeColl i n .none
/-- `DB.Close`. -/
def wClose (i : Nat) : WAct := .close i false (fun _ => .none)

end Vectory
