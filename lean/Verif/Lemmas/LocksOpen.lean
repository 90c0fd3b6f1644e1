import Verif.Lemmas.LocksInv
/-! # Locks: opening when nobody is in the way, and up to the first obstacle -/
namespace Vectory

/-- the state after the stores of `cfg` were opened. -/
def World.taken (w : World) (own : Owner) (name : String) : World :=
  { w with dirs := w.dirs.set name ((w.dirs.get? name).getD {}), objLocks := upd w.objLocks name (some own), vecLocks := upd w.vecLocks name (some own) }

theorem openOne_free {w : World} {own : Owner} {cfg : Config} {f : OpenFaults} (ho : w.objLocks cfg.name = none) (hv : w.vecLocks cfg.name = none)
    (hf : f = {}) (hx : cfg.indexType = "hnsw") :
    w.openOne own cfg f = (w.taken own cfg.name, newCollection cfg ((w.dirs.get? cfg.name).getD {}) false) := by
  subst hf
  unfold World.openOne World.taken
  dsimp only
  rw [ho, hv]
  simp only [Option.isSome_none, Bool.or_self, Bool.false_eq_true, if_false, if_pos hx]
  generalize (w.dirs.get? cfg.name).getD {} = d
  cases hn : newIdCounter d.counterFile with
  | ok c => rfl
  | error e =>
    unfold newCollection openColl
    rw [if_neg (by decide), if_pos hx, hn]
    rfl

/-- the objects can be locked, the vectors cannot. -/
theorem openOne_half {w : World} {own : Owner} {cfg : Config} {f : OpenFaults} (ho : w.objLocks cfg.name = none)
    (hv : f.vectors = true ∨ w.vecLocks cfg.name ≠ none) (hf : f.objects = false) (hf2 : f.counter = false) (hf3 : f.log = false)
    (hx : cfg.indexType = "hnsw") {c : Coll} (hc : newCollection cfg ((w.dirs.get? cfg.name).getD {}) false = .ok c) :
    (w.openOne own cfg f).2 = .error (.panic .nilDeref) := by
  unfold World.openOne
  dsimp only
  have hnv : (f.vectors || (w.vecLocks cfg.name).isSome) = true := by
    rcases hv with h | h
    · rw [h]; rfl
    · cases hl : w.vecLocks cfg.name with
      | none => exact absurd hl h
      | some _ => simp
  rw [ho, hf, hnv, hf2, hf3, if_pos hx]
  simp only [Option.isSome_none, Bool.or_self, Bool.false_eq_true, if_false, if_true]
  generalize (w.dirs.get? cfg.name).getD {} = d at hc ⊢
  unfold newCollection openColl at hc
  rw [if_neg (by decide), if_pos hx] at hc
  obtain ⟨ctr, h0, hc⟩ := (bind_ok_iff _ _ _).mp hc
  obtain ⟨h1, hl, hc⟩ := (bind_ok_iff _ _ _).mp hc
  cases hn : newIdCounter d.counterFile with
  | error e => rw [hn] at h0; cases h0
  | ok c' =>
    dsimp only
    rw [hl]

theorem bind_error {A B E : Type} (e : E) (k : A → Except E B) : (Except.error e >>= k) = Except.error e := rfl
theorem bind_ok' {A B E : Type} (a : A) (k : A → Except E B) : ((Except.ok a : Except E A) >>= k) = k a := rfl

/-- when nobody holds a lock and nothing fails, the loop of `Open` does what it does alone. -/
theorem openRows_free (own : Owner) (f : String → OpenFaults) (files : String → Option Disk) :
    ∀ (rows : List Row) (w : World) (colls : AMap String OpenColl), (rows.map Row.name).Nodup →
    (∀ r ∈ rows, w.objLocks r.name = none ∧ w.vecLocks r.name = none ∧ f r.name = {} ∧ r.indexType = "hnsw" ∧
      (w.dirs.get? r.name).getD {} = (files r.name).getD {}) →
    (World.openRows own f rows w colls).2 = initColls files rows colls ∧
    (∀ colls', initColls files rows colls = .ok colls' → (World.openRows own f rows w colls).1.dirs = touchDirs files rows w.dirs) := by
  intro rows
  induction rows with
  | nil => intro w colls _ _; exact ⟨rfl, fun _ _ => rfl⟩
  | cons r rest ih =>
    intro w colls hnd hr
    obtain ⟨h1, h2, h3, h4, h5⟩ := hr r (List.mem_cons_self ..)
    obtain ⟨hn1, hn2⟩ := List.nodup_cons.mp (show (r.name :: rest.map Row.name).Nodup from hnd)
    have hname : r.config.name = r.name := rfl
    have hone := openOne_free (w := w) (own := own) (cfg := r.config) (f := f r.name) h1 h2 h3 h4
    rw [hname, h5] at hone
    rw [World.openRows, initColls, hone]
    cases hc : newCollection r.config ((files r.name).getD {}) false with
    | error a =>
      rw [bind_error]
      exact ⟨rfl, (fun colls' h => by cases h)⟩
    | ok c =>
      rw [bind_ok']
      dsimp only
      have hk : ∀ q ∈ rest, q.name ≠ r.name := fun q hq he => hn1 (List.mem_map.mpr ⟨q, hq, he⟩)
      have := ih (w.taken own r.name) (colls.set r.name { id := r.id, config := r.config, coll := c }) hn2 (fun q hq => by
        obtain ⟨k1, k2, k3, k4, k5⟩ := hr q (List.mem_cons_of_mem _ hq)
        refine ⟨(upd_ne _ _ _ _ (hk q hq)).trans k1, (upd_ne _ _ _ _ (hk q hq)).trans k2, k3, k4, ?_⟩
        show ((w.dirs.set r.name _).get? q.name).getD {} = _
        rw [AMap.get?_set_ne _ _ _ _ (Ne.symm (hk q hq))]; exact k5)
      refine ⟨this.1, fun colls' h => ?_⟩
      rw [this.2 colls' h]
      show touchDirs files rest (w.dirs.set r.name _) = touchDirs files rest (w.dirs.set r.name _)
      rw [h5]

/-- the loop of `Open` over rows that can be opened. -/
theorem openRows_prefix (own : Owner) (f : String → OpenFaults) (l : List Row) :
    ∀ (pre : List Row) (w : World) (colls : AMap String OpenColl), (pre.map Row.name).Nodup →
    (∀ r ∈ pre, w.objLocks r.name = none ∧ w.vecLocks r.name = none ∧ f r.name = {} ∧ r.indexType = "hnsw" ∧
      ∃ c, newCollection r.config ((w.dirs.get? r.name).getD {}) false = .ok c) →
    ∃ w1 colls1, World.openRows own f (pre ++ l) w colls = World.openRows own f l w1 colls1 ∧ Grow own w w1 ∧
      (∀ r ∈ pre, w1.objLocks r.name = some own) ∧
      ∀ n, n ∉ pre.map Row.name → w1.objLocks n = w.objLocks n ∧ w1.vecLocks n = w.vecLocks n ∧ w1.dirs.get? n = w.dirs.get? n := by
  intro pre
  induction pre with
  | nil => intro w colls _ _; exact ⟨w, colls, rfl, Grow.refl _ _, (fun r hr => by cases hr), fun _ _ => ⟨rfl, rfl, rfl⟩⟩
  | cons r rest ih =>
    intro w colls hnd hr
    obtain ⟨h1, h2, h3, h4, c, h5⟩ := hr r (List.mem_cons_self ..)
    obtain ⟨hn1, hn2⟩ := List.nodup_cons.mp (show (r.name :: rest.map Row.name).Nodup from hnd)
    have hname : r.config.name = r.name := rfl
    have hone := openOne_free (w := w) (own := own) (cfg := r.config) (f := f r.name) h1 h2 h3 h4
    rw [hname, h5] at hone
    have g := (openOne_spec w own r.config (f r.name)).1
    rw [hone] at g
    have g : Grow own w (w.taken own r.name) := g
    have hk : ∀ q ∈ rest, q.name ≠ r.name := fun q hq he => hn1 (List.mem_map.mpr ⟨q, hq, he⟩)
    obtain ⟨w1, colls1, e1, e2, e3, e4⟩ := ih (w.taken own r.name) (colls.set r.name { id := r.id, config := r.config, coll := c }) hn2 (fun q hq => by
      obtain ⟨k1, k2, k3, k4, k5⟩ := hr q (List.mem_cons_of_mem _ hq)
      refine ⟨(upd_ne _ _ _ _ (hk q hq)).trans k1, (upd_ne _ _ _ _ (hk q hq)).trans k2, k3, k4, ?_⟩
      have : (w.taken own r.name).dirs.get? q.name = w.dirs.get? q.name := AMap.get?_set_ne _ _ _ _ (Ne.symm (hk q hq))
      rw [this]; exact k5)
    refine ⟨w1, colls1, ?_, g.trans e2, fun q hq => ?_, fun n hn => ?_⟩
    · rw [← e1, List.cons_append, World.openRows, hone]
    · rcases List.mem_cons.mp hq with rfl | hq
      · exact e2.obj _ _ (upd_self _ _ _)
      · exact e3 q hq
    · have hn : n ≠ r.name ∧ n ∉ rest.map Row.name := by
        rw [List.map_cons, List.mem_cons, not_or] at hn; exact hn
      obtain ⟨k1, k2, k3⟩ := e4 n hn.2
      exact ⟨k1.trans (upd_ne _ _ _ _ hn.1), k2.trans (upd_ne _ _ _ _ hn.1), k3.trans (AMap.get?_set_ne _ _ _ _ (Ne.symm hn.1))⟩

end Vectory
