import Verif.Props.Locks
import Verif.Spec.DemoLocks
/-!
# C85: concrete runs
-/
namespace Vectory

/-- one process, two collections, the first closed by its client. -/
def lockRun : List WAct := [wOpen 1, wCreate 0 "x", wCreate 0 "y", wCloseColl 0 "x"]

/-- is the collection in use? -/
def World.usesB (w : World) (i : Nat) (n : String) : Bool :=
  match w.insts i with
  | none => false
  | some x => match x.colls.get? n with | none => false | some oc => oc.usableB

theorem World.usesB_sound {w : World} {i : Nat} {n : String} (h : w.usesB i n = true) : ∃ oc, w.Uses i n oc := by
  unfold World.usesB at h
  cases hx : w.insts i with
  | none => rw [hx] at h; cases h
  | some x =>
    rw [hx] at h
    dsimp only at h
    cases ho : x.colls.get? n with
    | none => rw [ho] at h; cases h
    | some oc => rw [ho] at h; exact ⟨oc, x, hx, ho, OpenColl.usableB_sound h⟩

/-- a second `Open` while `y` is in use fails; because it had opened `x` before, even after the first `DB` is closed the directory cannot be
opened again until the process ends. -/
theorem C85_run : World.outcomes true (lockRun ++ [wOpen 2, wOpen 1, wClose 0, wOpen 1, .exit 1, .exit 2, wOpen 3]) =
    some [.ok, .ok, .ok, .ok, .err .io, .err .io, .ok, .err .io, .ok, .ok, .ok] := by decide +kernel

/-- a `disk_ann` collection is refused after its stores were opened: once this `DB` is closed, the process cannot open the directory. -/
theorem C85_run_create : World.outcomes true [wOpen 1, .create 0 annConfig {} {}, wClose 0, wOpen 1] =
    some [.ok, .err .unknownIndexType, .ok, .err .io] := by decide +kernel

/-- closing a collection fails at its objects; the vectors stay locked, and the next `Open` panics. -/
theorem C85_run_panic : World.outcomes true [wOpen 1, wCreate 0 "x", .closeColl 0 "x" .objects, wOpen 1, wOpen 1] =
    some [.ok, .ok, .err .io, .panicked .nilDeref, .ok] := by decide +kernel

/-- why the runs of this file do not delete a collection that its client has closed: meanwhile another process can have opened it, and loses its
directory while it is in use. -/
theorem C85_closed_then_deleted :
    World.outcomes false [wOpen 1, wCreate 0 "x", wCloseColl 0 "x", wOpen 2, .drop 0 "x" false false] = some [.ok, .ok, .ok, .ok, .ok] ∧
    ((World.run false {} [wOpen 1, wCreate 0 "x", wCloseColl 0 "x", wOpen 2, .drop 0 "x" false false]).map
      (fun p => (p.1.usesB 1 "x", (p.1.dirs.get? "x").isSome, p.1.rows.length))) = some (true, false, 0) ∧
    World.outcomes true [wOpen 1, wCreate 0 "x", wCloseColl 0 "x", wOpen 2, .drop 0 "x" false false] = none := by decide +kernel

/-- `C85_exclusive`, `C85_second_open` and `C85_undisturbed` at a state where `y` is in use. -/
example : ∃ oc, (World.after lockRun).Uses 0 "y" oc := World.usesB_sound (by decide +kernel)

example : ∃ r ∈ (World.after lockRun).rows, r.name = "y" := by
  have : ((World.after lockRun).rows.any (fun r => decide (r.name = "y"))) = true := by decide +kernel
  obtain ⟨r, h1, h2⟩ := List.any_eq_true.mp this
  exact ⟨r, h1, by simpa using h2⟩

example : ((World.after lockRun).open 2 (fun _ => {})).2 ≠ .ok := by
  obtain ⟨oc, hoc⟩ := World.usesB_sound (w := World.after lockRun) (i := 0) (n := "y") (by decide +kernel)
  refine (C85_second_open (World.after_reach lockRun) hoc ?_ 2 _).1
  have : ((World.after lockRun).rows.any (fun r => decide (r.name = "y"))) = true := by decide +kernel
  obtain ⟨r, h1, h2⟩ := List.any_eq_true.mp this
  exact ⟨r, h1, by simpa using h2⟩

/-- `C85_failed_open_leaks` and then `C85_blocked`: the second `Open` of the same process leaves `x` locked for good. -/
theorem C85_leak_example : ((World.after lockRun).open 1 (fun _ => {})).2 = .err .io ∧ ((World.after lockRun).open 1 (fun _ => {})).1.Leaked "x" 1 := by
  have hrows : ∃ rx ry, (World.after lockRun).rows = [rx, ry] ∧ rx.name = "x" ∧ ry.name = "y" ∧ rx.indexType = "hnsw" := by
    have hl : (World.after lockRun).rows.length = 2 := by decide +kernel
    have hn : (World.after lockRun).rows.map (fun r => (r.name, r.indexType)) = [("x", "hnsw"), ("y", "hnsw")] := by decide +kernel
    generalize (World.after lockRun).rows = rows at hl hn
    cases rows with
    | nil => cases hl
    | cons rx rest =>
      cases rest with
      | nil => cases hl
      | cons ry rest =>
        cases rest with
        | cons _ _ => simp at hl
        | nil =>
          simp only [List.map_cons, List.map_nil, List.cons.injEq, Prod.mk.injEq, and_true] at hn
          exact ⟨rx, ry, rfl, hn.1.1, hn.2.1, hn.1.2⟩
  obtain ⟨rx, ry, h1, h2, h3, h4⟩ := hrows
  have hopen : ((World.after lockRun).rows.map (fun r => match newCollection r.config (((World.after lockRun).dirs.get? r.name).getD {}) false with
      | .ok _ => true | .error _ => false)) = [true, true] := by decide +kernel
  have hfree : (World.after lockRun).objLocks "x" = none ∧ (World.after lockRun).vecLocks "x" = none ∧ ((World.after lockRun).objLocks "y").isSome := by
    decide +kernel
  obtain ⟨k1, k2⟩ := C85_failed_open_leaks (World.after_reach lockRun) (pre := [rx]) (post := []) (r := ry) h1 (f := fun _ => {}) (by
      intro r hr
      rw [List.mem_singleton] at hr
      subst hr
      rw [h2]
      refine ⟨hfree.1, hfree.2.1, rfl, h4, ?_⟩
      rw [h1] at hopen
      simp only [List.map_cons, List.cons.injEq] at hopen
      have := hopen.1
      rw [h2] at this
      split at this
      · rename_i c hc; exact ⟨c, hc⟩
      · cases this) (by rw [h3]; intro h; rw [h] at hfree; exact absurd hfree.2.2 (by decide)) 1
  exact ⟨k1, by have := k2 rx (List.mem_singleton.mpr rfl); rwa [h2] at this⟩

/-- nobody around: the hypotheses of `C85_alone` and `C85_close_frees` in a run with two collections. -/
example : (∀ r ∈ (World.after (lockRun ++ [wClose 0])).rows, r.indexType = "hnsw") ∧
    ((World.after lockRun).step (wClose 0)).map (·.2) = some .ok ∧
    (["x", "y"].all (fun n => ((World.after (lockRun ++ [wClose 0])).objLocks n).isNone)) = true := by
  refine ⟨?_, by decide +kernel, by decide +kernel⟩
  have : ((World.after (lockRun ++ [wClose 0])).rows.all (fun r => decide (r.indexType = "hnsw"))) = true := by decide +kernel
  intro r hr
  simpa using List.all_eq_true.mp this r hr

end Vectory
