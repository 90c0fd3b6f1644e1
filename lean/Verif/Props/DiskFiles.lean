import Verif.Props.DiskInsFail
/-! # C71: which parts the snapshot files of a DiskANN index hold -/
namespace Vectory
open DiskAnn
variable {D : Type}

namespace DiskAnn

/-- runs in which every snapshot goroutine evaluates its operands at a moment allowed by `ok`. -/
inductive World.RunsWhen (P : Params D) (ok : When → Prop) : World → World → Prop where
  | refl (w : World) : World.RunsWhen P ok w w
  | task {a w : World} (del : List UInt32) (i : Nat) : World.RunsWhen P ok a w → w.panicked = false →
      w.da.currId.toNat + 1 < 18446744073709551616 → World.RunsWhen P ok a (w.stepTask P del i)
  | snap {a w : World} (j : Nat) (t : When) : World.RunsWhen P ok a w → w.panicked = false → ok t →
      World.RunsWhen P ok a (w.stepSnap j t)

theorem World.RunsWhen.runs {P : Params D} {ok : When → Prop} {a b : World} (h : World.RunsWhen P ok a b) : World.Runs P a b := by
  induction h with
  | refl => exact .refl _
  | task del i _ h1 h2 ih => exact .step ih (.task del i h1 h2)
  | snap j t _ h1 _ ih => exact .step ih (.snap j t h1)

/-- the vector under `x` in a memory index. -/
def MemIndex.vec (mi : MemIndex) (x : UInt64) : Option Vec := (mi.graph.get? x).map Vertex.vector

/-- `mi`, a copy of part `p` made earlier, is up to date, or lacks one vector, whose insertion had begun, and no insertion into `p` that
could add another is under way. -/
def Covers (w : World) (mi : MemIndex) (p : Nat) : Prop :=
  ∃ now, w.da.parts[p]? = some now ∧
    ((∀ x, now.vec x = mi.vec x) ∨
      ((∀ (i : Nat) (v : Vec) (id : UInt64), w.tasks[i]? ≠ some (v, .inside id p)) ∧
        ∃ (i : Nat) (v : Vec) (pc : PC) (id : UInt64), w.tasks[i]? = some (v, pc) ∧ pc.stores id ∧ mi.vec id = none ∧
          ∀ x, now.vec x = if x = id then some v else mi.vec x))

/-- the parts before the newest are read-only and whatever is said of the snapshots holds. `R p n`: part `p` may go to file `n`. -/
structure FInv (R : Nat → Nat → Prop) (w : World) : Prop where
  ne : w.da.parts ≠ []
  ro : ∀ (p : Nat) (mi : MemIndex), p < w.da.rw → w.da.parts[p]? = some mi → mi.readOnly = true
  sp : ∀ (j old : Nat), w.snaps[j]? = some (.spawned old) → old < w.da.rw
  bd : ∀ (j p n : Nat), w.snaps[j]? = some (.bound p n) → p < w.da.rw ∧ R p n
  fl : ∀ (n : Nat) (mi : MemIndex), w.files.get? n = some mi → mi.readOnly = true ∧ ∃ p, p < w.da.rw ∧ R p n ∧ Covers w mi p

theorem rotate_parts (P : Params D) (da : DA) (hne : da.parts ≠ []) :
    (da.full P = false ∧ da.rotate P = da) ∨
    (da.full P = true ∧ (da.rotate P).parts ≠ [] ∧ (da.rotate P).rw = da.rw + 1 ∧
      (∀ p : Nat, p < da.rw → (da.rotate P).parts[p]? = da.parts[p]?) ∧
      (∀ mi, (da.rotate P).parts[da.rw]? = some mi → mi.readOnly = true)) := by
  have hlt := DA.rw_lt hne
  unfold DA.rotate
  cases hf : da.full P with
  | false => exact Or.inl ⟨rfl, rfl⟩
  | true =>
    rw [if_pos rfl]
    refine Or.inr ⟨rfl, by simp, ?_, ?_, ?_⟩
    · simp only [DA.rw, List.length_append, List.length_modify, List.length_singleton] at hlt ⊢
      omega
    · intro p hp
      rw [List.getElem?_append_left (by rw [List.length_modify]; omega), List.getElem?_modify]
      have : da.rw ≠ p := by omega
      cases da.parts[p]? <;> simp [this]
    · intro mi h
      rw [List.getElem?_append_left (by rw [List.length_modify]; exact hlt), List.getElem?_modify] at h
      cases hq : da.parts[da.rw]? with
      | none => rw [hq] at h; cases h
      | some m => rw [hq] at h; simp at h; rw [← h]

theorem set_get {α : Type} {l : List α} {j k : Nat} {a x : α} (h : (l.set j a)[k]? = some x) : x = a ∨ l[k]? = some x := by
  rw [List.getElem?_set] at h
  split at h
  · split at h
    · cases h; exact Or.inl rfl
    · cases h
  · exact Or.inr h

/-- a step of goroutine `k` that leaves the vectors of part `p` and moves `k` on, not into part `p`. -/
theorem Covers.keep {w w' : World} {mi : MemIndex} {p : Nat} (c : Covers w mi p)
    (hp : ∀ now, w.da.parts[p]? = some now → ∃ now', w'.da.parts[p]? = some now' ∧ ∀ x, now'.vec x = now.vec x)
    {k : Nat} {u : Vec} {q q' : PC} (hk : w.tasks[k]? = some (u, q)) (ht : w'.tasks = w.tasks.set k (u, q')) (hin : ∀ id, q' ≠ .inside id p)
    (hst : ∀ id, q.stores id → q'.stores id) : Covers w' mi p := by
  obtain ⟨now, h1, h2⟩ := c
  obtain ⟨now', h1', hv⟩ := hp now h1
  have hlt : k < w.tasks.length := (List.getElem?_eq_some_iff.mp hk).1
  refine ⟨now', h1', ?_⟩
  rcases h2 with h2 | ⟨h2, i, v, pc, id, h3, h4, h5, h6⟩
  · exact Or.inl (fun x => by rw [hv, h2])
  · refine Or.inr ⟨fun j y id hj => ?_, ?_⟩
    · rw [ht] at hj
      rcases set_cases hj with ⟨_, e, _⟩ | ⟨_, e⟩
      · cases e; exact hin _ rfl
      · exact h2 j y id e
    · by_cases hik : i = k
      · subst hik
        rw [hk] at h3; cases h3
        exact ⟨i, u, q', id, by rw [ht]; simp [hlt], hst id h4, h5, fun x => by rw [hv, h6]⟩
      · exact ⟨i, v, pc, id, by rw [ht, List.getElem?_set, if_neg (Ne.symm hik)]; exact h3, h4, h5, fun x => by rw [hv, h6]⟩

theorem finv_task {P : Params D} (o : Ord P.metric.lt) (hd : DimOK P.metric P.dim.toNat) {R : Nat → Nat → Prop} {vs : List Vec} {w : World}
    (W : WInv P vs w) (i : FInv R w) (del : List UInt32) (k : Nat) : FInv R (w.stepTask P del k) := by
  unfold World.stepTask
  cases ht : w.tasks[k]? with
  | none => exact i
  | some x =>
    obtain ⟨vec, pc⟩ := x
    -- a step that writes `mi'` over part `p`
    have wr : ∀ (p : Nat) (mi mi' : MemIndex) (pc' : PC), w.da.parts[p]? = some mi → mi'.readOnly = mi.readOnly →
        (∀ (n : Nat) (m : MemIndex) (q : Nat), w.files.get? n = some m → q < w.da.rw → Covers w m q →
          Covers { w with da := { w.da with parts := w.da.parts.set p mi' }, tasks := w.tasks.set k (vec, pc') } m q) →
        FInv R { w with da := { w.da with parts := w.da.parts.set p mi' }, tasks := w.tasks.set k (vec, pc') } := by
      intro p mi mi' pc' hp hro hfl
      have hrw : DA.rw { w.da with parts := w.da.parts.set p mi' } = w.da.rw := by simp [DA.rw]
      refine ⟨?_, ?_, ?_, ?_, ?_⟩
      · intro h; have := congrArg List.length h; simp at this; exact i.ne this
      · intro q m hq h
        rw [hrw] at hq
        dsimp only at h
        rw [List.getElem?_set] at h
        split at h
        · rename_i e; subst e
          split at h
          · cases h; rw [hro]; exact i.ro _ _ hq hp
          · cases h
        · exact i.ro q m hq h
      · intro j old h; rw [hrw]; exact i.sp j old h
      · intro j q n h; rw [hrw]; exact i.bd j q n h
      · intro n m h
        obtain ⟨h0, q, h1, h2, h3⟩ := i.fl n m h
        exact ⟨h0, q, by rw [hrw]; exact h1, h2, hfl n m q h h1 h3⟩
    -- a step that moves goroutine `k` and leaves the parts
    have qt : ∀ (w' : World) (pc' : PC), w'.da.parts = w.da.parts → w'.snaps = w.snaps → w'.files = w.files → w'.tasks = w.tasks.set k (vec, pc') →
        (∀ id p, pc' = .inside id p → ¬ p < w.da.rw) → (∀ id, ¬ pc.stores id) → FInv R w' := by
      intro w' pc' h1 h2 h3 h4 h5 h6
      have hrw : w'.da.rw = w.da.rw := by simp [DA.rw, h1]
      refine ⟨by rw [h1]; exact i.ne, by rw [hrw, h1]; exact i.ro, by rw [hrw, h2]; exact i.sp, by rw [hrw, h2]; exact i.bd, ?_⟩
      intro n m h
      rw [h3] at h
      obtain ⟨g0, q, g1, g2, g3⟩ := i.fl n m h
      refine ⟨g0, q, by rw [hrw]; exact g1, g2, g3.keep (fun now hn => ⟨now, by rw [h1]; exact hn, fun _ => rfl⟩) ht h4 (fun id e => h5 id q e g1)
        (fun id hs => absurd hs (h6 id))⟩
    cases pc with
    | check =>
      dsimp only
      have hcov : ∀ (m : MemIndex) (q : Nat), Covers w m q →
          Covers { w with da := w.da.rotate P, tasks := w.tasks.set k (vec, .fetch), snaps := if w.da.full P then w.snaps ++ [.spawned w.da.rw] else w.snaps } m q := by
        intro m q c
        refine c.keep (fun now hn => ?_) ht rfl (fun _ h => nomatch h) (fun _ h => h.elim)
        obtain ⟨mi, h1, h2⟩ := (rotate_raw P i.ne).2.2.2.2.1 q now hn
        exact ⟨mi, h1, fun x => by rcases h2 with rfl | rfl <;> rfl⟩
      rcases rotate_parts P w.da i.ne with ⟨hf, hr⟩ | ⟨hf, hne, hrw, hlow, hlast⟩
      · rw [hf, hr] at hcov ⊢
        refine ⟨i.ne, i.ro, i.sp, i.bd, fun n m h => ?_⟩
        obtain ⟨g0, q, g1, g2, g3⟩ := i.fl n m h
        exact ⟨g0, q, g1, g2, hcov m q g3⟩
      · rw [hf, if_pos rfl] at hcov ⊢
        refine ⟨hne, ?_, ?_, ?_, ?_⟩
        · intro p mi hp h
          dsimp only at hp h
          rw [hrw] at hp
          by_cases hq : p < w.da.rw
          · rw [hlow p hq] at h; exact i.ro p mi hq h
          · have : p = w.da.rw := by omega
            subst this
            exact hlast mi h
        · intro j old h
          dsimp only at h ⊢
          rw [hrw]
          rw [List.getElem?_append] at h
          split at h
          · have := i.sp j old h; omega
          · rename_i hj
            cases hz : j - w.snaps.length with
            | zero => rw [hz] at h; cases h; omega
            | succ m => rw [hz] at h; cases h
        · intro j p n h
          dsimp only at h ⊢
          rw [hrw]
          rw [List.getElem?_append] at h
          split at h
          · have := i.bd j p n h; exact ⟨by omega, this.2⟩
          · cases hz : j - w.snaps.length with
            | zero => rw [hz] at h; cases h
            | succ m => rw [hz] at h; cases h
        · intro n mi h
          obtain ⟨h0, p, h1, h2, h3⟩ := i.fl n mi h
          exact ⟨h0, p, by dsimp only; rw [hrw]; omega, h2, hcov mi p h3⟩
    | fetch => exact qt _ _ rfl rfl rfl rfl (fun _ _ h => nomatch h) (fun _ h => h)
    | load id => exact qt _ _ rfl rfl rfl rfl (fun _ _ h => nomatch h) (fun _ h => h)
    | done id r => exact i
    | call id p =>
      dsimp only
      split
      · exact i
      · split
        · exact ⟨i.ne, i.ro, i.sp, i.bd, i.fl⟩
        · rename_i mi hmi
          split
          · exact qt _ _ rfl rfl rfl rfl (fun _ _ h => nomatch h) (fun _ h => h)
          · rename_i hr
            refine qt _ _ rfl rfl rfl rfl (fun _ q h hq => ?_) (fun _ h => h)
            cases h
            unfold MemIndex.refuses at hr
            rw [if_pos (i.ro p mi hq hmi)] at hr
            cases hr
    | inside id p =>
      dsimp only
      have hpl := W.ptr k vec id p (Or.inr (Or.inl ht))
      have hmi : w.da.parts[p]? = some w.da.parts[p] := List.getElem?_eq_getElem hpl
      rw [hmi]
      dsimp only
      have hfr := W.fresh ht rfl (fun _ h => h)
      obtain ⟨first, b, bt⟩ := W.built p _ hmi (fun j u x hj => by
        have := W.excl _ _ _ _ _ _ _ hj ht rfl rfl
        subst this; rw [ht] at hj; cases hj)
      obtain ⟨mi', f, h1, h2, h3, h4, h5, _, _⟩ := add_spec o hd b bt vec (W.fits _ _ _ _ ht) id (hfr p _ hmi)
      rw [h1]
      dsimp only
      refine wr p _ mi' _ hmi h3 (fun n m q hn hq c => ?_)
      have hlt : k < w.tasks.length := (List.getElem?_eq_some_iff.mp ht).1
      have hpc : ∀ id' q', (if f = true then PC.done id none else PC.added id p) ≠ .inside id' q' := by intro a b; cases f <;> simp
      by_cases hqp : q = p
      · subst hqp
        obtain ⟨now, g1, g2⟩ := c
        rw [hmi] at g1; cases g1
        refine ⟨mi', by dsimp only; rw [List.getElem?_set, if_pos rfl, if_pos hpl], ?_⟩
        rcases g2 with g2 | ⟨g2, _⟩
        · refine Or.inr ⟨fun j y id' hj => ?_, k, vec, if f = true then PC.done id none else PC.added id q, id, by simp [hlt], ?_, ?_, fun x => ?_⟩
          · rcases set_cases hj with ⟨_, e, _⟩ | ⟨hjk, e⟩
            · have := congrArg Prod.snd e; exact hpc _ _ this.symm
            · exact hjk (W.excl _ _ _ _ _ _ _ e ht rfl rfl)
          · cases f
            · exact rfl
            · exact ⟨rfl, rfl⟩
          · rw [← g2 id]
            unfold MemIndex.vec
            have := hfr q _ hmi
            rw [← AMap.get?_isSome_iff] at this
            cases hz : AMap.get? (w.da.parts[q]).graph id with
            | none => rfl
            | some y => rw [hz] at this; simp at this
          · rw [← g2 x]; exact h5 x
        · exact absurd ht (g2 k vec id)
      · exact c.keep (fun now hn => ⟨now, by dsimp only; rw [List.getElem?_set, if_neg (Ne.symm hqp)]; exact hn, fun _ => rfl⟩) ht rfl (fun _ => hpc _ _) (fun _ h => h.elim)
    | added id p =>
      dsimp only
      have hpl := W.ptr k vec id p (Or.inr (Or.inr ht))
      have hmi : w.da.parts[p]? = some w.da.parts[p] := List.getElem?_eq_getElem hpl
      rw [hmi]
      dsimp only
      obtain ⟨mi', first, h1, h2, h3, h4, h5, h6, h7⟩ := link_spec o hd (W.mid _ _ _ _ _ ht hmi) del
      rw [h1]
      dsimp only
      refine wr p _ mi' _ hmi h4 (fun n m q hn hq c => c.keep (fun now hnow => ?_) ht rfl (fun _ h => nomatch h) (fun _ h => ⟨h, rfl⟩))
      by_cases hqp : q = p
      · subst hqp
        rw [hmi] at hnow; cases hnow
        exact ⟨mi', by dsimp only; rw [List.getElem?_set, if_pos rfl, if_pos hpl], h6⟩
      · exact ⟨now, by dsimp only; rw [List.getElem?_set, if_neg (Ne.symm hqp)]; exact hnow, fun _ => rfl⟩

theorem finv_snap {R : Nat → Nat → Prop} {w : World} (i : FInv R w) (j : Nat) {t : When} (ht : t ≠ .late)
    (he : t = .early → ∀ p, R p p) (hb : t = .between → ∀ p, R p (p + 1)) : FInv R (w.stepSnap j t) := by
  unfold World.stepSnap
  cases hs : w.snaps[j]? with
  | none => exact i
  | some x =>
    cases x with
    | finished => exact i
    | spawned old =>
      have hold := i.sp j old hs
      cases t with
      | late => exact absurd rfl ht
      | early =>
        refine ⟨i.ne, i.ro, fun k o h => ?_, fun k p n h => ?_, i.fl⟩
        · rcases set_get h with h | h
          · cases h
          · exact i.sp k o h
        · rcases set_get h with h | h
          · cases h; exact ⟨hold, he rfl _⟩
          · exact i.bd k p n h
      | between =>
        refine ⟨i.ne, i.ro, fun k o h => ?_, fun k p n h => ?_, i.fl⟩
        · rcases set_get h with h | h
          · cases h
          · exact i.sp k o h
        · rcases set_get h with h | h
          · cases h; exact ⟨hold, hb rfl _⟩
          · exact i.bd k p n h
    | bound p n =>
      obtain ⟨hp, hr⟩ := i.bd j p n hs
      dsimp only
      cases hg : w.da.parts[p]? with
      | none => exact i
      | some mi =>
        refine ⟨i.ne, i.ro, fun k o h => ?_, fun k q m h => ?_, fun m mi' h => ?_⟩
        · rcases set_get h with h | h
          · cases h
          · exact i.sp k o h
        · rcases set_get h with h | h
          · cases h
          · exact i.bd k q m h
        · dsimp only at h
          by_cases hm : n = m
          · subst hm
            rw [AMap.get?_set_self] at h; cases h
            exact ⟨i.ro p _ hp hg, p, hp, hr, _, hg, Or.inl (fun _ => rfl)⟩
          · rw [AMap.get?_set_ne _ _ _ _ hm] at h
            exact i.fl m mi' h

theorem finv_start (R : Nat → Nat → Prop) (P : Params D) (vs : List Vec) : FInv R (World.start P vs) :=
  ⟨by simp [World.start, newDA], fun p mi h => absurd h (by simp [World.start, newDA, DA.rw]), fun j old h => by simp [World.start] at h,
    fun j p n h => by simp [World.start] at h, fun n mi h => by cases h⟩

end DiskAnn

/-- C71, what can be said of the files: if no snapshot goroutine evaluates `da.rwIndex` and `len(da.roIndexes)` later than the section that
started it, then each file `ro_n` holds a read-only part, part `n` if the operands were evaluated before the `append`, part `n - 1` if
between the `append` and the assignment of `rwIndex`. At every later moment the file has the vectors that part has, all of them except
perhaps one: a vector whose insertion into the part was under way when the file was written. -/
theorem C71_files (P : Params D) (o : Ord P.metric.lt) (hd : DimOK P.metric P.dim.toNat) (vs : List Vec) (w : World) (ok : When → Prop) (hok : ¬ ok .late)
    (r : World.RunsWhen P ok (World.start P vs) w) (n : Nat) (mi : MemIndex) (h : w.files.get? n = some mi) :
    mi.readOnly = true ∧ ∃ (p : Nat) (now : MemIndex), ((ok .early ∧ n = p) ∨ (ok .between ∧ n = p + 1)) ∧
      w.da.parts[p]? = some now ∧ now.readOnly = true ∧
      ((∀ x, now.vec x = mi.vec x) ∨
        ∃ (i : Nat) (v : Vec) (id : UInt64), (w.tasks[i]? = some (v, .done id none) ∨ ∃ q, w.tasks[i]? = some (v, .added id q)) ∧
          mi.vec id = none ∧ ∀ x, now.vec x = if x = id then some v else mi.vec x) := by
  have key : FInv (fun p n => (ok .early ∧ n = p) ∨ (ok .between ∧ n = p + 1)) w := by
    clear h
    induction r with
    | refl => exact finv_start _ P vs
    | task del i r _ _ ih => exact finv_task o hd (winv_runs o hd r.runs) ih del i
    | snap j t _ _ ht ih =>
      exact finv_snap ih j (fun h => hok (h ▸ ht)) (fun h p => Or.inl ⟨h ▸ ht, rfl⟩) (fun h p => Or.inr ⟨h ▸ ht, rfl⟩)
  obtain ⟨h0, p, hp, hr, now, hg, hc⟩ := key.fl n mi h
  refine ⟨h0, p, now, hr, hg, key.ro p now hp hg, ?_⟩
  rcases hc with hc | ⟨_, i, v, pc, id, h1, h2, h3, h4⟩
  · exact Or.inl hc
  · refine Or.inr ⟨i, v, id, ?_, h3, h4⟩
    cases pc with
    | added a q => cases h2; exact Or.inr ⟨q, h1⟩
    | done a q => obtain ⟨rfl, rfl⟩ := h2; exact Or.inl h1
    | _ => cases h2

namespace DiskAnn

theorem frozen_step {P : Params D} {w w' : World} (s : World.Step P w w') {p : Nat} {mi : MemIndex} (hp : w.da.parts[p]? = some mi)
    (hro : mi.readOnly = true) (hfree : ∀ (i : Nat) (v : Vec) (pc : PC), w.tasks[i]? = some (v, pc) → pc.lock ≠ some p) :
    w'.da.parts[p]? = some mi ∧ ∀ (i : Nat) (v : Vec) (pc : PC), w'.tasks[i]? = some (v, pc) → pc.lock ≠ some p := by
  cases s with
  | snap j t _ =>
    have h1 : (w.stepSnap j t).da = w.da := by unfold World.stepSnap; split <;> (try split) <;> rfl
    rw [h1, stepSnap_tasks]; exact ⟨hp, hfree⟩
  | task del k _ _ =>
    have hmove : ∀ (u : Vec) (pc' : PC), pc'.lock ≠ some p → ∀ (i : Nat) (v : Vec) (pc : PC), (w.tasks.set k (u, pc'))[i]? = some (v, pc) → pc.lock ≠ some p := by
      intro u pc' h i v pc hi
      rcases set_cases hi with ⟨_, e, _⟩ | ⟨_, e⟩
      · cases e; exact h
      · exact hfree i v pc e
    unfold World.stepTask
    cases ht : w.tasks[k]? with
    | none => exact ⟨hp, hfree⟩
    | some t =>
      obtain ⟨vec, pc⟩ := t
      have hk := hfree k vec pc ht
      cases pc with
      | check =>
        refine ⟨?_, hmove _ _ (fun h => nomatch h)⟩
        dsimp only
        unfold DA.rotate
        split
        · have hlt : p < w.da.parts.length := (List.getElem?_eq_some_iff.mp hp).1
          dsimp only
          rw [List.getElem?_append_left (by simpa using hlt), List.getElem?_modify, hp]
          have : ({ mi with readOnly := true } : MemIndex) = mi := by rw [← hro]
          split <;> simp [this]
        · exact hp
      | fetch => exact ⟨hp, hmove _ _ (fun h => nomatch h)⟩
      | load id => exact ⟨hp, hmove _ _ (fun h => nomatch h)⟩
      | call id q =>
        dsimp only
        split
        · exact ⟨hp, hfree⟩
        · split
          · exact ⟨hp, hfree⟩
          · rename_i m hm
            split
            · exact ⟨hp, hmove _ _ (fun h => nomatch h)⟩
            · rename_i hr
              refine ⟨hp, hmove _ _ (fun h => ?_)⟩
              cases h
              rw [hp] at hm; cases hm
              unfold MemIndex.refuses at hr
              rw [if_pos hro] at hr; cases hr
      | inside id q =>
        have hq : q ≠ p := fun h => hk (by rw [h]; rfl)
        dsimp only
        split
        · exact ⟨hp, hfree⟩
        · split
          · exact ⟨hp, hfree⟩
          · rename_i f _
            refine ⟨by dsimp only; rw [List.getElem?_set, if_neg hq]; exact hp, hmove _ _ ?_⟩
            cases f
            · simpa [PC.lock] using hq
            · simp [PC.lock]
      | added id q =>
        have hq : q ≠ p := fun h => hk (by rw [h]; rfl)
        dsimp only
        split
        · exact ⟨hp, hfree⟩
        · split
          · exact ⟨hp, hfree⟩
          · exact ⟨by dsimp only; rw [List.getElem?_set, if_neg hq]; exact hp, hmove _ _ (fun h => nomatch h)⟩
      | done id r => exact ⟨hp, hfree⟩

end DiskAnn

/-- C71: a read-only part in which no insertion is under way never changes again, vectors and links. So a file written while no insertion
into its part was under way holds the part exactly as it stays for ever. -/
theorem C71_read_only_frozen (P : Params D) (w w' : World) (r : World.Runs P w w') (p : Nat) (mi : MemIndex) (hp : w.da.parts[p]? = some mi)
    (hro : mi.readOnly = true)
    (hfree : ∀ (i : Nat) (v : Vec) (id : UInt64), w.tasks[i]? ≠ some (v, .inside id p) ∧ w.tasks[i]? ≠ some (v, .added id p)) :
    w'.da.parts[p]? = some mi := by
  have hfree' : ∀ (i : Nat) (v : Vec) (pc : PC), w.tasks[i]? = some (v, pc) → pc.lock ≠ some p := by
    intro i v pc hi hl
    cases pc with
    | inside id q => cases hl; exact (hfree i v id).1 hi
    | added id q => cases hl; exact (hfree i v id).2 hi
    | _ => cases hl
  suffices h : w'.da.parts[p]? = some mi ∧ ∀ (i : Nat) (v : Vec) (pc : PC), w'.tasks[i]? = some (v, pc) → pc.lock ≠ some p from h.1
  clear hfree
  induction r with
  | refl => exact ⟨hp, hfree'⟩
  | step _ s ih => exact frozen_step s ih.1 hro ih.2

namespace DiskAnn

/-- whether every snapshot step of a schedule is at the moment `t`. -/
def Act.at (t : When) : Act → Bool
  | .t _ => true
  | .s _ t' => decide (t' = t)

theorem World.run_when {P : Params D} {t : When} : ∀ (as : List Act) (a w : World), World.RunsWhen P (fun x => x = t) a w → World.canRun P w as = true →
    as.all (Act.at t) = true → World.RunsWhen P (fun x => x = t) a (World.run P w as) := by
  intro as
  induction as with
  | nil => intro a w r _ _; exact r
  | cons x as ih =>
    intro a w r h hat
    rw [List.all_cons, Bool.and_eq_true] at hat
    cases x with
    | t i =>
      simp only [World.canRun, Bool.and_eq_true, Bool.not_eq_true', decide_eq_true_eq] at h
      exact ih a _ (.task [] i r h.1.1 h.1.2) h.2 hat.2
    | s j t' =>
      simp only [World.canRun, Bool.and_eq_true, Bool.not_eq_true'] at h
      exact ih a _ (.snap j t' r h.1 (by simpa [Act.at] using hat.1)) h.2 hat.2

end DiskAnn

/-- three parts of one vector, two snapshots taken in time: files 0 and 1, and nothing missing from them. -/
example : ∃ w : World, World.RunsWhen (lineParams 1) (fun t => t = .early) (World.start (lineParams 1) [[10], [20], [30]]) w ∧
    w.files.map Prod.fst = [0, 1] ∧ w.da.parts.length = 3 ∧ w.files.map Prod.snd = w.da.parts.take 2 := by
  refine ⟨_, World.run_when ([0, 0, 0, 0, 0, 1, 1, 1, 1, 1, 2, 2, 2, 2, 2].map Act.t ++ [.s 0 .early, .s 0 .early, .s 1 .early, .s 1 .early]) _ _ (.refl _) ?_ ?_,
    ?_, ?_, ?_⟩ <;> decide

-- the second case occurs: a goroutine that reads its operands between the two assignments writes part 0 to the file of part 1
example : ∃ (w : World) (mi : MemIndex), World.RunsWhen (lineParams 1) (fun t => t = .between) (World.start (lineParams 1) [[10], [20]]) w ∧
    w.files.get? 1 = some mi ∧ w.da.parts[0]? = some mi ∧ AMap.keys mi.graph = [1] := by
  refine ⟨_, _, World.run_when ([0, 0, 0, 0, 0, 1, 1, 1, 1, 1].map Act.t ++ [.s 0 .between, .s 0 .between]) _ _ (.refl _) ?_ ?_,
    rfl, ?_, ?_⟩ <;> decide

/-- three goroutines, parts of one vector: goroutine 1 passed the checks of `insert` when goroutine 2 found the part full, made it read-only
and had it saved. -/
def lateInsert : World :=
  World.run (lineParams 1) (World.start (lineParams 1) [[10], [20], [30]])
    ([0, 1, 1, 1, 0, 0, 0, 0, 1, 2].map Act.t ++ [.s 0 .early, .s 0 .early] ++ [1, 1, 2, 2, 2, 2].map Act.t)

/-- C71 fails: a vector whose `Insert` returned nil is missing from the file of its part, although the part was saved as a read-only part,
the operands were evaluated in time, and nothing will ever save it again. -/
theorem C71_saved_without_it :
    ∃ (vs : List Vec) (w : World), World.RunsWhen (lineParams 1) (fun t => t = .early) (World.start (lineParams 1) vs) w ∧
      w.snaps = [.finished] ∧ w.tasks.map (fun t => t.2) = [.done 2 none, .done 1 none, .done 3 none] ∧
      ∃ (now : MemIndex) (file : MemIndex), w.da.parts[0]? = some now ∧ now.readOnly = true ∧ w.files.get? 0 = some file ∧
        now.vec 1 = some [20] ∧ file.vec 1 = none := by
  refine ⟨[[10], [20], [30]], lateInsert, World.run_when _ _ _ (.refl _) (by decide) (by decide), by decide, by decide,
    (lateInsert.da.parts[0]?).getD (newMemIndex 0 0 0), (lateInsert.files.get? 0).getD (newMemIndex 0 0 0), by decide, by decide, by decide, by decide, by decide⟩

/-- C71 fails: a part that is read-only still takes a vector. -/
theorem C71_read_only_grows :
    ∃ (vs : List Vec) (w w' : World), World.Runs (lineParams 1) (World.start (lineParams 1) vs) w ∧ World.Runs (lineParams 1) w w' ∧
      ∃ (mi mi' : MemIndex), w.da.parts[0]? = some mi ∧ mi.readOnly = true ∧ mi.graph.length = 1 ∧ w'.da.parts[0]? = some mi' ∧ mi'.graph.length = 2 := by
  let w := World.run (lineParams 1) (World.start (lineParams 1) [[10], [20], [30]]) ([0, 1, 1, 1, 0, 0, 0, 0, 1, 2].map Act.t)
  let w' := World.run (lineParams 1) w ([1, 1].map Act.t)
  refine ⟨[[10], [20], [30]], w, w', World.run_runs _ _ (by decide), World.run_runs _ _ (by decide), (w.da.parts[0]?).getD (newMemIndex 0 0 0),
    (w'.da.parts[0]?).getD (newMemIndex 0 0 0), by decide, by decide, by decide, by decide, by decide⟩

/-- parts of two vectors: goroutine 1 has added its vertex and not linked it when goroutine 2 finds the part full and has it saved. -/
def halfLinked : World :=
  World.run (lineParams 2) (World.start (lineParams 2) [[10], [20], [30]])
    ([0, 0, 0, 0, 0, 1, 1, 1, 1, 1, 2].map Act.t ++ [.s 0 .early, .s 0 .early] ++ [1, 2, 2, 2, 2].map Act.t)

/-- C71 fails: the file of a part has a vector without its links: in the part a search finds it, in the saved part no search can (the
search for the vector itself, with room for both, returns the other one only). -/
theorem C71_saved_without_links :
    ∃ (vs : List Vec) (w : World), World.RunsWhen (lineParams 2) (fun t => t = .early) (World.start (lineParams 2) vs) w ∧
      w.snaps = [.finished] ∧ (∀ t ∈ w.tasks, ∃ id, t.2 = .done id none) ∧
      ∃ (now : MemIndex) (file : MemIndex), w.da.parts[0]? = some now ∧ now.readOnly = true ∧ w.files.get? 0 = some file ∧
        (∀ x, file.vec x = now.vec x) ∧ file.vec 2 = some [20] ∧
        ((now.search lineMetric [] [20] 2 10).toOption.map (fun es => es.map Elem.id)) = some [2, 1] ∧
        ((file.search lineMetric [] [20] 2 10).toOption.map (fun es => es.map Elem.id)) = some [1] := by
  refine ⟨[[10], [20], [30]], halfLinked, World.run_when _ _ _ (.refl _) (by decide) (by decide), by decide, ?_,
    (halfLinked.da.parts[0]?).getD (newMemIndex 0 0 0), (halfLinked.files.get? 0).getD (newMemIndex 0 0 0), by decide, by decide, by decide, ?_, by decide, by decide +kernel, by decide +kernel⟩
  · have e : halfLinked.tasks = [([10], .done 1 none), ([20], .done 2 none), ([30], .done 3 none)] := by decide
    rw [e]
    intro t ht
    rcases List.mem_cons.mp ht with rfl | ht
    · exact ⟨_, rfl⟩
    · rcases List.mem_cons.mp ht with rfl | ht
      · exact ⟨_, rfl⟩
      · rcases List.mem_cons.mp ht with rfl | ht
        · exact ⟨_, rfl⟩
        · cases ht
  · intro x
    have e1 : ((halfLinked.files.get? 0).getD (newMemIndex 0 0 0)).graph = [(1, { id := 1, vector := [10] }), (2, { id := 2, vector := [20] })] := by decide
    have e2 : ((halfLinked.da.parts[0]?).getD (newMemIndex 0 0 0)).graph =
      [(1, { id := 1, vector := [10], neighbors := [2] }), (2, { id := 2, vector := [20], neighbors := [1] })] := by decide
    unfold MemIndex.vec
    rw [e1, e2]
    simp only [AMap.get?]
    repeat' split
    all_goals rfl

/-- C71 fails: if the goroutines evaluate their operands only after the section that started them (the usual case, as a new goroutine
starts late), then no file is ever written for the first part, whatever else happens. -/
theorem C71_first_part_never_saved (P : Params D) (vs : List Vec) (w : World)
    (r : World.RunsWhen P (fun t => t = .late) (World.start P vs) w) : w.files.get? 0 = none := by
  suffices h : w.da.parts ≠ [] ∧ (∀ j old : Nat, w.snaps[j]? = some (.spawned old) → 1 ≤ w.da.rw) ∧ (∀ j p n : Nat, w.snaps[j]? = some (.bound p n) → 1 ≤ n) ∧
      w.files.get? 0 = none from h.2.2.2
  induction r with
  | refl => exact ⟨by simp [World.start, newDA], fun j old h => by simp [World.start] at h, fun j p n h => by simp [World.start] at h, rfl⟩
  | @task w del i _ _ _ ih =>
    obtain ⟨h0, h1, h2, h3⟩ := ih
    unfold World.stepTask
    cases ht : w.tasks[i]? with
    | none => exact ⟨h0, h1, h2, h3⟩
    | some x =>
      obtain ⟨vec, pc⟩ := x
      cases pc with
      | check =>
        dsimp only
        rcases rotate_parts P w.da h0 with ⟨hf, hr⟩ | ⟨hf, hne, hrw, _, _⟩
        · rw [hf, hr]; exact ⟨h0, h1, h2, h3⟩
        · rw [hf, if_pos rfl]
          refine ⟨hne, fun j old h => ?_, fun j p n h => ?_, h3⟩
          · rw [hrw]; omega
          · rw [List.getElem?_append] at h
            split at h
            · exact h2 j p n h
            · cases hz : j - w.snaps.length with
              | zero => rw [hz] at h; cases h
              | succ m => rw [hz] at h; cases h
      | fetch => exact ⟨h0, h1, h2, h3⟩
      | load id => exact ⟨h0, h1, h2, h3⟩
      | done id r => exact ⟨h0, h1, h2, h3⟩
      | call id p =>
        dsimp only
        split
        · exact ⟨h0, h1, h2, h3⟩
        · split
          · exact ⟨h0, h1, h2, h3⟩
          · split <;> exact ⟨h0, h1, h2, h3⟩
      | inside id p =>
        dsimp only
        split
        · exact ⟨h0, h1, h2, h3⟩
        · split
          · exact ⟨h0, h1, h2, h3⟩
          · refine ⟨fun h => h0 ?_, fun j old h => ?_, h2, h3⟩
            · have := congrArg List.length h; simpa using this
            · have := h1 j old h; simpa [DA.rw] using this
      | added id p =>
        dsimp only
        split
        · exact ⟨h0, h1, h2, h3⟩
        · split
          · exact ⟨h0, h1, h2, h3⟩
          · refine ⟨fun h => h0 ?_, fun j old h => ?_, h2, h3⟩
            · have := congrArg List.length h; simpa using this
            · have := h1 j old h; simpa [DA.rw] using this
  | @snap w j t _ _ ht ih =>
    subst ht
    obtain ⟨h0, h1, h2, h3⟩ := ih
    unfold World.stepSnap
    cases hs : w.snaps[j]? with
    | none => exact ⟨h0, h1, h2, h3⟩
    | some x =>
      cases x with
      | finished => exact ⟨h0, h1, h2, h3⟩
      | spawned old =>
        refine ⟨h0, fun k o h => ?_, fun k p n h => ?_, h3⟩
        · rcases set_get h with h | h
          · cases h
          · exact h1 k o h
        · rcases set_get h with h | h
          · cases h; exact h1 j old hs
          · exact h2 k p n h
      | bound p n =>
        dsimp only
        cases hg : w.da.parts[p]? with
        | none => exact ⟨h0, h1, h2, h3⟩
        | some mi =>
          refine ⟨h0, fun k o h => ?_, fun k q m h => ?_, ?_⟩
          · rcases set_get h with h | h
            · cases h
            · exact h1 k o h
          · rcases set_get h with h | h
            · cases h
            · exact h2 k q m h
          · dsimp only
            rw [AMap.get?_set_ne _ _ _ _ (by have := h2 j p n hs; omega)]
            exact h3

end Vectory
