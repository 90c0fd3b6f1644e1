import Verif.Lemmas.Pointers
import Verif.Props.CollConc
/-!
# C83: the same object several times in one batch
-/
namespace Vectory.Conc
open Vectory
variable {V D : Type}

/-! ### the start of the call -/

theorem assignPtrs_spec : ∀ (ks : List Nat) (resp : List (Option Vec)) (cells cells' : List (Object V)), assignPtrs cells ks resp = .ok cells' →
    cells'.length = cells.length ∧ ∀ (k : Nat) (o : Object V), cells[k]? = some o → ∃ o', cells'[k]? = some o' ∧ o'.props = o.props ∧
      (k ∉ ks → o' = o) := by
  intro ks
  induction ks with
  | nil => intro resp cells cells' h; cases h; exact ⟨rfl, fun k o h => ⟨o, h, rfl, fun _ => rfl⟩⟩
  | cons a ks ih =>
    intro resp cells cells' h
    cases resp with
    | nil => cases h
    | cons v resp =>
      obtain ⟨h1, h2⟩ := ih resp _ _ h
      rw [List.length_modify] at h1
      refine ⟨h1, fun k o ho => ?_⟩
      have hm : (cells.modify a (fun o => { o with vec := v }))[k]? = some (if a = k then { o with vec := v } else o) := by
        rw [List.getElem?_modify, ho]; rfl
      obtain ⟨o', g1, g2, g3⟩ := h2 k _ hm
      refine ⟨o', g1, ?_, ?_⟩
      · rw [g2]; split <;> rfl
      · intro hk
        simp only [List.mem_cons, not_or] at hk
        have := g3 hk.2
        rw [if_neg (fun e => hk.1 e.symm)] at this
        exact this

theorem embedPtrs_spec {c : Coll} {embed : Embed V} {cells cells' : List (Object V)} {ptrs : List Nat}
    (h : embedPtrs c embed cells ptrs = .ok (.ok cells')) :
    cells'.length = cells.length ∧ (∀ (k : Nat) (o : Object V), cells[k]? = some o → ∃ o', cells'[k]? = some o' ∧ o'.props = o.props ∧
      ∀ v, o.vec = some v → o' = o) ∧ (c.hasEmbedder = false → (deref cells' ptrs).any (fun o => o.vec.isNone) = false) := by
  unfold embedPtrs at h
  split at h
  · split at h
    · cases h
    · rename_i hn
      cases h
      exact ⟨rfl, fun k o h => ⟨o, h, rfl, fun _ _ => rfl⟩, fun _ => by simpa using hn⟩
  · rename_i he
    cases hr : embed ((deref cells ptrs).filter (fun o => o.vec.isNone)) with
    | error e => rw [hr] at h; cases h
    | ok resp =>
      rw [hr] at h
      dsimp only at h
      cases ha : assignPtrs cells (ptrs.filter (fun k => (cells[k]?.bind Object.vec).isNone)) resp with
      | error p => rw [ha] at h; cases h
      | ok cs =>
        rw [ha] at h
        cases h
        obtain ⟨h1, h2⟩ := assignPtrs_spec _ _ _ _ ha
        refine ⟨h1, fun k o ho => ?_, fun e => absurd e he⟩
        obtain ⟨o', g1, g2, g3⟩ := h2 k o ho
        refine ⟨o', g1, g2, fun v hv => g3 ?_⟩
        intro hm
        have := (List.mem_filter.mp hm).2
        rw [ho, Option.bind_some, hv] at this
        cases this

theorem deref_get {cells : List (Object V)} {ptrs : List Nat} (h : ∀ k ∈ ptrs, k < cells.length) :
    (deref cells ptrs).length = ptrs.length ∧ ∀ p : Nat, (deref cells ptrs)[p]? = ptrs[p]?.bind (fun k => cells[k]?) := by
  induction ptrs with
  | nil => exact ⟨rfl, fun p => by simp [deref]⟩
  | cons a ptrs ih =>
    obtain ⟨h1, h2⟩ := ih (fun k hk => h k (List.mem_cons_of_mem _ hk))
    have ha := h a (List.mem_cons_self ..)
    have e : deref cells (a :: ptrs) = cells[a] :: deref cells ptrs := by
      unfold deref
      rw [List.filterMap_cons, List.getElem?_eq_getElem ha]
    rw [e]
    refine ⟨by simp [h1], fun p => ?_⟩
    cases p with
    | zero => simp [List.getElem?_eq_getElem ha]
    | succ p => simp [h2]

theorem validate_props (ms : List String) : ∀ (xs ys : List (Object V)) (i : Nat), xs.map Object.props = ys.map Object.props →
    validateObjects ms i xs = validateObjects ms i ys := by
  intro xs
  induction xs with
  | nil => intro ys i h; cases ys with | nil => rfl | cons y ys => cases h
  | cons x xs ih =>
    intro ys i h
    cases ys with
    | nil => cases h
    | cons y ys =>
      simp only [List.map_cons, List.cons.injEq] at h
      have : validateObject ms i x = validateObject ms i y := by unfold validateObject; rw [h.1]
      unfold validateObjects
      rw [this, ih ys (i + 1) h.2]

theorem assign_none (os : List (Object V)) : assignVectors os ((os.filter (fun o => o.vec.isNone)).map (fun _ => (none : Option Vec))) = .ok os := by
  induction os with
  | nil => rfl
  | cons o os ih =>
    unfold assignVectors
    cases hv : o.vec with
    | some v =>
      rw [List.filter_cons_of_neg (by simp [hv])]
      dsimp only
      rw [ih]; rfl
    | none =>
      rw [List.filter_cons_of_pos (by simp [hv]), List.map_cons]
      dsimp only
      rw [ih]
      show Except.ok (_ :: os) = _
      congr 2
      cases o
      cases hv
      rfl

theorem mapM_map {A B : Type} (f : A → B) : ∀ (rs : List (Nat × Nat)) (xs : List A) {slices : List (List A)}, rs.mapM (goSlice xs) = some slices →
    rs.mapM (goSlice (xs.map f)) = some (slices.map (List.map f)) := by
  intro rs
  induction rs with
  | nil => intro xs slices h; cases h; rfl
  | cons r rs ih =>
    intro xs slices h
    rw [List.mapM_cons] at h ⊢
    cases h1 : goSlice xs r with
    | none => rw [h1] at h; cases h
    | some y =>
      rw [h1] at h
      cases h2 : rs.mapM (goSlice xs) with
      | none => rw [h2] at h; cases h
      | some ys =>
        rw [h2] at h
        cases h
        have : goSlice (xs.map f) r = some (y.map f) := by
          unfold goSlice at h1 ⊢
          rw [List.length_map]
          split at h1
          · rename_i hc
            cases h1
            rw [if_pos hc, List.map_drop, List.map_take]
          · cases h1
        rw [this, ih xs h2]
        rfl

/-- the number of the object at a position. -/
def ptrAt (ptrs : List Nat) (p : Nat) : Nat := ptrs[p]?.getD 0

theorem ptrs_range (ptrs : List Nat) : ptrs = (List.range ptrs.length).map (ptrAt ptrs) := by
  apply List.ext_getElem?
  intro p
  rw [List.getElem?_map]
  by_cases h : p < ptrs.length
  · rw [List.getElem?_range h, List.getElem?_eq_getElem h, Option.map_some]
    unfold ptrAt
    rw [List.getElem?_eq_getElem h]; rfl
  · rw [List.getElem?_eq_none (by omega), List.getElem?_eq_none (by simp; omega)]; rfl

theorem ptrAt_eq {ptrs : List Nat} {p k : Nat} (h : ptrs[p]? = some k) : ptrAt ptrs p = k := by
  unfold ptrAt; rw [h]; rfl

theorem sim_start {c : Coll} {cells : List (Object V)} {ptrs : List Nat} (hin : ∀ k ∈ ptrs, k < cells.length) (ts : List (Thread D))
    (own : Nat → List Nat) (tasks : List Task) (queue : List Nat) (hone : queue = [] ∨ tasks.length ≤ 1)
    (hpc : ∀ t ∈ tasks, t.pc = .wait) (hplan : ∀ (i : Nat) (t : Task), tasks[i]? = some t → own i = t.todo ++ queue) :
    PSim (ptrAt ptrs) ptrs.length own (fun _ => []) ({ c := c, ts := ts, tasks := tasks.map (Task.via (ptrAt ptrs)), queue := queue.map (ptrAt ptrs), objs := cells } : Batch V D)
      { c := c, ts := ts, tasks := tasks, queue := queue, objs := deref cells ptrs } := by
  obtain ⟨d1, d2⟩ := deref_get hin
  refine ⟨rfl, rfl, rfl, rfl, rfl, rfl, rfl, d1, ?_, hone, ?_, ?_, ?_, (fun i p h => nomatch h), ?_⟩
  · intro p o' h
    change (deref cells ptrs)[p]? = some o' at h
    rw [d2] at h
    obtain ⟨k, hk, h⟩ := Option.bind_eq_some_iff.mp h
    exact ⟨o', by rw [ptrAt_eq hk]; exact h, rfl, rfl⟩
  · intro i t h _
    rw [hpc t (List.mem_of_getElem? h)]
    exact hplan i t h
  · intro i t p h hp
    rw [hpc t (List.mem_of_getElem? h)] at hp; cases hp
  · intro i t h hp
    rw [hpc t (List.mem_of_getElem? h)] at hp; cases hp
  · intro i xs p ys h
    cases xs <;> cases h

/-- a batch of pointers that keeps the workers apart is a batch of the copies. -/
theorem ptr_sim {fixed two : Bool} {L : Lib V D} {dim workers : Nat} {c : Coll} {cells : List (Object V)} {ptrs : List Nat} {embed : Embed V}
    {acts : List BAct} {b : Batch V D} (h : PtrBatchAt fixed two L dim workers c cells ptrs embed acts b) (ha : Apart two workers ptrs) :
    ∃ (cells1 : List (Object V)) (embed' : Embed V) (b' : Batch V D) (own did : Nat → List Nat),
      cells1.length = cells.length ∧ (∀ (k : Nat) (o : Object V), cells[k]? = some o → ∃ o', cells1[k]? = some o' ∧ o'.props = o.props ∧
        ∀ v, o.vec = some v → o' = o) ∧
      BatchAt fixed two L dim workers c (deref cells1 ptrs) embed' acts b' ∧ PSim (ptrAt ptrs) ptrs.length own did b b' ∧
      (∀ i, (own i).Pairwise (· < ·)) ∧ (∀ p, p < ptrs.length → ∃ i, i < workers ∧ p ∈ own i) ∧ (∀ i, ∀ p ∈ own i, p < ptrs.length) := by
  obtain ⟨hw, hin, hroom, hlev, cells1, b0, hp, hdim, hs, hrun⟩ := h
  unfold preparePtrs at hp
  split at hp
  · cases hp
  rename_i hcl
  split at hp
  · cases hp
  rename_i hval
  obtain ⟨e1, e2, e3⟩ := embedPtrs_spec hp
  have hin1 : ∀ k ∈ ptrs, k < cells1.length := fun k hk => by rw [e1]; exact hin k hk
  obtain ⟨d1, d2⟩ := deref_get hin1
  obtain ⟨d3, d4⟩ := deref_get hin
  have hval1 : validateObjects c.mappings 0 (deref cells1 ptrs) = none := by
    rw [← hval]
    apply validate_props
    apply List.ext_getElem?
    intro p
    rw [List.getElem?_map, List.getElem?_map, d2, d4]
    cases hk : ptrs[p]? with
    | none => rfl
    | some k =>
      have := hin k (List.mem_of_getElem? hk)
      obtain ⟨o', g1, g2, _⟩ := e2 k _ (List.getElem?_eq_getElem this)
      simp only [Option.bind_some, g1, List.getElem?_eq_getElem this, Option.map_some, g2]
  have hemb : embedObjectsIfNeeded c (fun l => .ok (l.map (fun _ => none))) (deref cells1 ptrs) = .ok (.ok (deref cells1 ptrs)) := by
    unfold embedObjectsIfNeeded
    split
    · rename_i hc
      rw [e3 hc]; rfl
    · dsimp only
      rw [assign_none]; rfl
  have hprep : prepare c (deref cells1 ptrs) (fun l => .ok (l.map (fun _ => none))) = .ok (.ok (deref cells1 ptrs)) := by
    unfold prepare
    rw [if_neg hcl, hval1]
    exact hemb
  have hok : EmbedOK c (fun l => .ok (l.map (fun _ => none))) dim (deref cells1 ptrs) := by
    refine ⟨_, hemb, fun os' e o ho => ?_⟩
    cases e
    obtain ⟨p, hp⟩ := List.getElem?_of_mem ho
    rw [d2] at hp
    obtain ⟨k, hk, hko⟩ := Option.bind_eq_some_iff.mp hp
    exact hdim k (List.mem_of_getElem? hk) o hko
  have finish : ∀ (own : Nat → List Nat) (b0' : Batch V D), (if two then some (startBatch2 c (deref cells1 ptrs) workers) else startBatch c (deref cells1 ptrs) workers) = some b0' →
      PSim (ptrAt ptrs) ptrs.length own (fun _ => []) b0 b0' → (∀ i, (own i).Pairwise (· < ·)) → (∀ p, p < ptrs.length → ∃ i, i < workers ∧ p ∈ own i) →
      (∀ i, ∀ p ∈ own i, p < ptrs.length) → (∀ i j p q, p ∈ own i → q ∈ own j → ptrAt ptrs p = ptrAt ptrs q → i = j) →
      ∃ (cells1 : List (Object V)) (embed' : Embed V) (b' : Batch V D) (own did : Nat → List Nat),
      cells1.length = cells.length ∧ (∀ (k : Nat) (o : Object V), cells[k]? = some o → ∃ o', cells1[k]? = some o' ∧ o'.props = o.props ∧
        ∀ v, o.vec = some v → o' = o) ∧
      BatchAt fixed two L dim workers c (deref cells1 ptrs) embed' acts b' ∧ PSim (ptrAt ptrs) ptrs.length own did b b' ∧
      (∀ i, (own i).Pairwise (· < ·)) ∧ (∀ p, p < ptrs.length → ∃ i, i < workers ∧ p ∈ own i) ∧ (∀ i, ∀ p ∈ own i, p < ptrs.length) := by
    intro own b0' hs' s hpw hall hlt hap
    obtain ⟨b', did, hr, s'⟩ := PSim.run fixed L ⟨fun i => (hpw i).imp (fun h => Nat.ne_of_lt h), hlt, hap⟩ acts s hrun
    refine ⟨cells1, _, b', own, did, e1, e2, ⟨hw, hok, ?_, hlev, _, b0', hprep, hs', hr⟩, s', hpw, hall, hlt⟩
    rw [d1]; exact hroom
  cases two with
  | true =>
    have hw1 : workers = 1 := by
      rcases ha with h | h
      · exact h
      · cases h.1
    subst hw1
    simp only [if_true, Option.some.injEq] at hs
    subst hs
    refine finish (fun i => if i = 0 then List.range ptrs.length else []) _ rfl ?_ ?_ ?_ ?_ ?_
    · have := sim_start (c := c) hin1 (Mach.init c.index 1 : Mach D).ts (fun i => if i = 0 then List.range ptrs.length else [])
        [⟨[], .wait⟩] (List.range ptrs.length) (Or.inr (Nat.le_refl 1)) (by simp) (by
          intro i t h
          cases i with
          | zero => cases h; rfl
          | succ i => cases h)
      rw [← ptrs_range] at this
      have e : (startBatch2 c (deref cells1 ptrs) 1 : Batch V D) = { c := c, ts := (Mach.init c.index 1 : Mach D).ts, tasks := [⟨[], .wait⟩], queue := List.range ptrs.length, objs := deref cells1 ptrs } := by
        unfold startBatch2; rw [d1]; rfl
      rw [e]
      exact this
    · intro i; split
      · exact List.pairwise_lt_range
      · exact .nil
    · exact fun p hp => ⟨0, Nat.zero_lt_one, by simp [hp]⟩
    · intro i p hp; split at hp
      · exact List.mem_range.mp hp
      · cases hp
    · intro i j p q hp hq _
      split at hp
      · split at hq
        · omega
        · cases hq
      · cases hp
  | false =>
    simp only [Bool.false_eq_true, if_false] at hs
    obtain ⟨todos, g1, g2, g3⟩ := C13_partition (List.range ptrs.length) workers hw
    rw [List.length_range] at g1
    have g4 := mapM_map (ptrAt ptrs) _ _ g1
    rw [← ptrs_range] at g4
    unfold startPtrs at hs
    rw [g4] at hs
    cases hs
    have hown : ∀ (i p : Nat), p ∈ todos[i]?.getD [] → ∃ x, todos[i]? = some x ∧ p ∈ x := by
      intro i p hp
      cases hx : todos[i]? with
      | none => rw [hx] at hp; cases hp
      | some x => rw [hx] at hp; exact ⟨x, rfl, hp⟩
    have hsorted := List.pairwise_flatten.mp (show todos.flatten.Pairwise (· < ·) by rw [g3]; exact List.pairwise_lt_range)
    have hlt : ∀ i : Nat, ∀ p ∈ todos[i]?.getD [], p < ptrs.length := by
      intro i p hp
      obtain ⟨x, hx, hp⟩ := hown i p hp
      have : p ∈ todos.flatten := List.mem_flatten.mpr ⟨x, List.mem_of_getElem? hx, hp⟩
      rw [g3] at this
      exact List.mem_range.mp this
    refine finish (fun i => todos[i]?.getD []) { c := c, ts := (Mach.init c.index workers : Mach D).ts, tasks := todos.map (fun todo => { todo := todo, pc := .wait }), queue := [], objs := deref cells1 ptrs } ?_ ?_ ?_ ?_ hlt ?_
    · simp only [Bool.false_eq_true, if_false, startBatch, d1, g1]
    · have := sim_start (c := c) hin1 (Mach.init c.index workers : Mach D).ts (fun i => todos[i]?.getD []) (todos.map (fun todo => { todo := todo, pc := .wait })) []
        (Or.inl rfl) (by
          intro t ht
          obtain ⟨x, _, rfl⟩ := List.mem_map.mp ht
          rfl) (by
          intro i t h
          rw [List.getElem?_map] at h
          obtain ⟨x, hx, rfl⟩ := Option.map_eq_some_iff.mp h
          rw [hx]; simp)
      rw [List.map_map] at this
      rw [List.map_map]
      exact this
    · intro i
      cases hx : todos[i]? with
      | none => exact .nil
      | some x => exact hsorted.1 x (List.mem_of_getElem? hx)
    · intro p hp
      have : p ∈ todos.flatten := by rw [g3]; exact List.mem_range.mpr hp
      obtain ⟨x, hx, hpx⟩ := List.mem_flatten.mp this
      obtain ⟨i, hi⟩ := List.getElem?_of_mem hx
      refine ⟨i, ?_, by rw [hi]; exact hpx⟩
      rw [← g2]
      exact (List.getElem?_eq_some_iff.mp hi).1
    · intro i j p q hp hq e
      obtain ⟨x, hx, hp⟩ := hown i p hp
      obtain ⟨y, hy, hq⟩ := hown j q hq
      rcases ha with h1 | ⟨_, h1⟩
      · have a1 := (List.getElem?_eq_some_iff.mp hx).1
        have a2 := (List.getElem?_eq_some_iff.mp hy).1
        omega
      · refine h1 _ g4 i j (x.map (ptrAt ptrs)) (y.map (ptrAt ptrs)) (ptrAt ptrs p) ?_ ?_ (List.mem_map.mpr ⟨p, hp, rfl⟩) (List.mem_map.mpr ⟨q, hq, e.symm⟩)
        · rw [List.getElem?_map, hx]; rfl
        · rw [List.getElem?_map, hy]; rfl

/-! ### the end of the call -/

theorem all_done {fixed two : Bool} {L : Lib V D} {dim workers : Nat} {X : UInt64 → Prop} {c : Coll} {os : List (Object V)}
    {embed : Embed V} {acts : List BAct} {b : Batch V D} (i : WInv False L dim X c)
    (h : BatchAt fixed two L dim workers c os embed acts b) (hcan : BAct.cancel ∉ acts) (hp : b.noPanic) (hret : b.returned none) :
    (∀ t ∈ b.tasks, t.pc = .done) ∧ b.tasks.length = workers := by
  obtain ⟨objs, _, hopen, hemb, hw, ok, st, hc⟩ := h.state i
  obtain ⟨F, A, B, X0, X1, X2, js, hj, s⟩ := st
  unfold Batch.returned at hret
  rcases s with ⟨v, hr⟩ | ⟨c1, ff, v, hover, herr, hcf, hr⟩
  · exfalso
    rcases hr with hr | ⟨e, hr, _⟩ <;> rw [hret] at hr <;> cases hr
  have hover' : ∀ t ∈ b.tasks, t.pc.over = true := List.all_eq_true.mp hover
  have hno : ¬ (X0 ≠ [] ∨ X1 ≠ [] ∨ X2 ≠ [] ∨ ∃ t ∈ b.tasks, ∃ e, t.pc = .failed e) := fun h => v.errs h herr
  refine ⟨?_, v.lenT⟩
  intro t htm
  have h1 := hover' t htm
  have h2 := hp t htm
  have h3 : t.pc ≠ .skipped := by
    intro e
    rcases v.skip ⟨t, htm, e⟩ with h | h
    · exact h herr
    · rw [show ({ b with c := c1 } : Batch V D).cancelled = b.cancelled from rfl, hc hcan] at h; cases h
  have h4 : ∀ e, t.pc ≠ .failed e := fun e he => hno (Or.inr (Or.inr (Or.inr ⟨t, htm, e, he⟩)))
  revert h1 h2 h3 h4
  cases t.pc <;> intro h1 h2 h3 h4 <;>
    first | rfl | (cases h1; done) | exact absurd rfl h2 | exact absurd rfl h3 | exact absurd rfl (h4 _)

theorem eachStored {fixed two : Bool} {L : Lib V D} {dim workers : Nat} {X : UInt64 → Prop} {c : Coll} (i : WInv False L dim X c)
    {cells : List (Object V)} {ptrs : List Nat} {embed : Embed V} {acts : List BAct} {b : Batch V D}
    (h : PtrBatchAt fixed two L dim workers c cells ptrs embed acts b) (ha : Apart two workers ptrs) (hcan : BAct.cancel ∉ acts)
    (hp : b.noPanic ∨ Low fixed workers acts) (hret : b.returned none) : ∃ ids, EachStored L c cells ptrs b.c b.objs ids := by
  have hin := h.2.1
  obtain ⟨cells1, embed', b', own, did, e1, e2, hb, s, hpw, hall, hlt_own⟩ := ptr_sim h ha
  have hret' : b'.returned none := by unfold Batch.returned at hret ⊢; rw [← s.ret]; exact hret
  have hp' : b'.noPanic := by
    rcases hp with hp | hp
    · intro t ht e
      refine hp (t.via (ptrAt ptrs)) (by rw [s.tasks]; exact List.mem_map.mpr ⟨t, ht, rfl⟩) ?_
      obtain ⟨todo, pc⟩ := t
      cases e; rfl
    · exact tame_noPanic i hb hp
  have hst := allStored i hb hcan hp' hret'
  obtain ⟨hdone, hlen⟩ := all_done i hb hcan hp' hret'
  have hin1 : ∀ k ∈ ptrs, k < cells1.length := fun k hk => by rw [e1]; exact hin k hk
  obtain ⟨d1, d2⟩ := deref_get hin1
  have hpos : ∀ (p k : Nat), ptrs[p]? = some k → ∃ o o' : Object V, b.objs[k]? = some o ∧ b'.objs[p]? = some o' ∧ o.props = o'.props ∧ o.vec = o'.vec := by
    intro p k hk
    have hlt : p < b'.objs.length := by rw [s.len]; exact (List.getElem?_eq_some_iff.mp hk).1
    obtain ⟨o, g1, g2, g3⟩ := s.data p _ (List.getElem?_eq_getElem hlt)
    rw [ptrAt_eq hk] at g1
    exact ⟨o, _, g1, List.getElem?_eq_getElem hlt, g2, g3⟩
  refine ⟨b'.objs.map Object.id, ?_, ?_, ?_, ?_, ?_, ?_, ?_, ?_⟩
  · rw [List.length_map]; exact s.len
  · have := hst.ids
    rw [d1] at this
    rw [List.map_map]
    exact this
  · intro k o hk ho
    obtain ⟨p, hpk⟩ := List.getElem?_of_mem hk
    obtain ⟨o2, o3, g1, g2, g3, g4⟩ := hpos p k hpk
    obtain ⟨o1, f1, f2, f3⟩ := e2 k o ho
    have hd : (deref cells1 ptrs)[p]? = some o1 := by rw [d2, hpk]; exact f1
    obtain ⟨r1, r2⟩ := hst.same p o1 o3 hd g2
    refine ⟨o2, g1, by rw [g3, r1, f2], fun v hv => ?_⟩
    rw [g4]
    exact r2 v (by rw [f3 v hv]; exact hv)
  · intro p k id hk hid
    obtain ⟨o2, o3, g1, g2, g3, g4⟩ := hpos p k hk
    rw [List.getElem?_map, g2] at hid
    cases hid
    obtain ⟨text, props, r1, r2, r3⟩ := hst.read o3 (List.mem_of_getElem? g2)
    refine ⟨o2, text, props, g1, by rw [g3]; exact r1, r2, ?_⟩
    rw [s.c, g4]; exact r3
  · intro p k id hk hid
    obtain ⟨o2, o3, g1, g2, g3, g4⟩ := hpos p k hk
    rw [List.getElem?_map, g2] at hid
    cases hid
    obtain ⟨v, r1, r2⟩ := hst.index o3 (List.mem_of_getElem? g2)
    exact ⟨o2, v, g1, by rw [s.c]; exact r1, by rw [g4]; exact r2⟩
  · rw [s.c]
    have := hst.size
    rw [d1] at this
    exact this
  · intro id hid
    rw [s.c]
    exact hst.others id (fun o ho e => hid (List.mem_map.mpr ⟨o, ho, e⟩))
  · intro p k o hk hlast ho
    obtain ⟨o2, o3, g1, g2, g3, g4⟩ := hpos p k hk
    rw [ho] at g1
    cases g1
    have hplt : p < ptrs.length := (List.getElem?_eq_some_iff.mp hk).1
    obtain ⟨j, hj, hpj⟩ := hall p hplt
    have hjt : j < b'.tasks.length := by rw [hlen]; exact hj
    have hd := hdone _ (List.getElem_mem hjt)
    have hg := List.getElem?_eq_getElem hjt
    have hplan := s.plan j _ hg (fun e he => by rw [hd] at he; cases he)
    obtain ⟨q1, q2⟩ := s.fin j _ hg hd
    rw [hd, q1, q2] at hplan
    simp only [TPC.next, List.append_nil] at hplan
    obtain ⟨xs, ys, hxy⟩ := List.append_of_mem hpj
    have hys : ∀ q ∈ ys, ptrAt ptrs q ≠ ptrAt ptrs p := by
      intro q hq e
      have hsort := hpw j
      rw [hxy, List.pairwise_append] at hsort
      have hlt : p < q := List.rel_of_pairwise_cons hsort.2.1 hq
      have hq2 : q ∈ did j := by rw [← hplan, hxy]; simp [hq]
      have hqlt : q < ptrs.length := hlt_own j q (s.mem j q hq2)
      apply hlast q hlt
      rw [ptrAt_eq hk] at e
      unfold ptrAt at e
      rw [List.getElem?_eq_getElem hqlt] at e ⊢
      exact congrArg some e
    have := s.cur j xs p ys (by rw [← hplan]; exact hxy) hys o o3 (by rw [ptrAt_eq hk]; exact ho) g2
    rw [List.getElem?_map, g2, this]; rfl

/-- C83: a batch may contain the same object several times. If no object is given to two workers and the call returns nil (its context
is not cancelled and no worker panicked), every position is stored under a fresh id of its own, and the object carries the id of its
last position. -/
theorem C83_apart (two : Bool) (L : Lib V D) (dim workers : Nat) (c : Coll) (hr : ReachAnyConc false L dim c) (cells : List (Object V))
    (ptrs : List Nat) (embed : Embed V) (acts : List BAct) (b : Batch V D)
    (h : PtrBatchAt false two L dim workers c cells ptrs embed acts b) (ha : Apart two workers ptrs) (hcan : BAct.cancel ∉ acts)
    (hp : b.noPanic ∨ Low false workers acts) (hret : b.returned none) : ∃ ids, EachStored L c cells ptrs b.c b.objs ids :=
  eachStored hr.inv.1 h ha hcan hp hret

/-- C83: with one worker there is nothing to keep apart, for both kinds of batch and whatever is in the slice. -/
theorem C83_one_worker (two : Bool) (L : Lib V D) (dim : Nat) (c : Coll) (hr : ReachAnyConc false L dim c) (cells : List (Object V))
    (ptrs : List Nat) (embed : Embed V) (acts : List BAct) (b : Batch V D)
    (h : PtrBatchAt false two L dim 1 c cells ptrs embed acts b) (hcan : BAct.cancel ∉ acts) (hret : b.returned none) :
    ∃ ids, EachStored L c cells ptrs b.c b.objs ids :=
  eachStored hr.inv.1 h (Or.inl rfl) hcan (Or.inr (Or.inr (Or.inl rfl))) hret

/-! ### concrete schedules -/

/-- what happens to a batch of pointers on the new demo collection, checked. -/
def pleads (two : Bool) (workers : Nat) (cells : List (Object UInt8)) (ptrs : List Nat) (acts : List BAct)
    (P : Batch UInt8 Nat → Bool) : Bool :=
  let c := Coll.new demoCfg ["a"] false
  decide (0 < workers) && ptrs.all (fun k => decide (k < cells.length)) && decide (ptrs.length < 18446744073709551616) &&
  acts.all (fun a => match a with | .work _ env => decide (env.level < 4294967296) | _ => true) &&
  (match preparePtrs c cells ptrs noEmbed with
  | .ok (.ok cells') =>
    ptrs.all (fun k => match cells'[k]? with | some o => decide ((o.vec.getD []).length = 1) | none => true) &&
    (match (if two then some (startPtrs2 c cells' ptrs workers) else startPtrs c cells' ptrs workers : Option (Batch UInt8 Nat)) with
    | some b0 => (match b0.run false demoLib acts with | some b => P b | none => false)
    | none => false)
  | _ => false)

theorem pleads_sound {two : Bool} {workers : Nat} {cells : List (Object UInt8)} {ptrs : List Nat} {acts : List BAct}
    {P : Batch UInt8 Nat → Bool} (h : pleads two workers cells ptrs acts P = true) :
    ∃ b, PtrBatchAt false two demoLib 1 workers (Coll.new demoCfg ["a"] false) cells ptrs noEmbed acts b ∧ P b = true := by
  unfold pleads at h
  simp only [Bool.and_eq_true, decide_eq_true_eq] at h
  obtain ⟨⟨⟨⟨h1, h2⟩, h3⟩, h4⟩, h5⟩ := h
  split at h5
  · rename_i cells' hp
    simp only [Bool.and_eq_true] at h5
    obtain ⟨h5, h6⟩ := h5
    split at h6
    · rename_i b0 hb0
      split at h6
      · rename_i b hb
        refine ⟨b, ⟨h1, ?_, ?_, ?_, cells', b0, hp, ?_, hb0, hb⟩, h6⟩
        · intro k hk; simpa using List.all_eq_true.mp h2 k hk
        · simpa [Coll.new] using h3
        · intro i env hm
          simpa using List.all_eq_true.mp h4 _ hm
        · intro k hk o ho
          have := List.all_eq_true.mp h5 k hk
          rw [ho] at this
          simpa using this
      · cases h6
    · cases h6
  · cases h5

/-- a round robin of the workers on a new collection, until all have ended. -/
def ptrRobin (two : Bool) (workers : Nat) (cells : List (Object UInt8)) (ptrs : List Nat) : List BAct :=
  (match (if two then some (startPtrs2 (Coll.new demoCfg ["a"] false) cells ptrs workers)
      else startPtrs (Coll.new demoCfg ["a"] false) cells ptrs workers : Option (Batch UInt8 Nat)) with
    | some b => robin false 0 600 0 b
    | none => []) ++ [.finish false]

/-- two objects, each twice in its own half of the batch: the hypotheses of `C83_apart` are met by two workers that take turns. -/
example : ∃ b, PtrBatchAt false false demoLib 1 2 (Coll.new demoCfg ["a"] false) [demoObj 3, demoObj 9] [0, 0, 1, 1] noEmbed
    (ptrRobin false 2 [demoObj 3, demoObj 9] [0, 0, 1, 1]) b ∧ Apart false 2 [0, 0, 1, 1] ∧ b.noPanic ∧ b.returned none ∧
    b.c.getSize = .ok 4 ∧ b.objs.map Object.id = [2, 3] := by
  obtain ⟨b, h, hp⟩ := pleads_sound (two := false) (workers := 2) (cells := [demoObj 3, demoObj 9]) (ptrs := [0, 0, 1, 1])
    (acts := ptrRobin false 2 [demoObj 3, demoObj 9] [0, 0, 1, 1])
    (P := fun b => decide (b.ret = some none) && (decide (b.c.closed = false) && (decide (b.c.stores.size = 4) &&
      (decide (b.objs.map Object.id = [2, 3]) && b.tasks.all (fun t => decide (t.pc ≠ .panicked)))))) (by decide +kernel)
  simp only [Bool.and_eq_true, decide_eq_true_eq] at hp
  obtain ⟨p1, p2, p3, p4, p5⟩ := hp
  refine ⟨b, h, Or.inr ⟨rfl, ?_⟩, ?_, p1, ?_, p4⟩
  · intro slices hs
    have : slices = [[0, 0], [1, 1]] := by
      have e : (chunks [0, 0, 1, 1].length 2).mapM (goSlice [0, 0, 1, 1]) = some [[0, 0], [1, 1]] := by decide
      rw [e] at hs
      exact (Option.some.inj hs).symm
    subst this
    intro i j xs ys k hx hy hk hk'
    match i, j with
    | 0, 0 => rfl
    | 1, 1 => rfl
    | 0, 1 => cases hx; cases hy; simp at hk hk'; omega
    | 1, 0 => cases hx; cases hy; simp at hk hk'; omega
    | i + 2, _ => simp at hx
    | _, j + 2 => simp at hy
  · intro t ht
    simpa using List.all_eq_true.mp p5 t ht
  · unfold Coll.getSize
    rw [p2, p3]; rfl

/-- the same with one worker: `C83_one_worker` is not vacuous, for both kinds of batch. -/
example (two : Bool) : ∃ b, PtrBatchAt false two demoLib 1 1 (Coll.new demoCfg ["a"] false) [demoObj 3, demoObj 9] [0, 1, 0] noEmbed
    (ptrRobin two 1 [demoObj 3, demoObj 9] [0, 1, 0]) b ∧ b.returned none ∧ b.objs.map Object.id = [2, 1] := by
  obtain ⟨b, h, hp⟩ := pleads_sound (two := two) (workers := 1) (cells := [demoObj 3, demoObj 9]) (ptrs := [0, 1, 0])
    (acts := ptrRobin two 1 [demoObj 3, demoObj 9] [0, 1, 0])
    (P := fun b => decide (b.ret = some none) && decide (b.objs.map Object.id = [2, 1])) (by cases two <;> decide +kernel)
  simp only [Bool.and_eq_true, decide_eq_true_eq] at hp
  exact ⟨b, h, hp.1, hp.2⟩

/-- C83 fails when two workers share an object: the batch is the same object twice, each of two workers draws an id before either
writes, the call returns nil, nothing failed and nobody panicked, and yet only one object is stored, under the later id. The ids 0 and 1
are both used up. -/
theorem C83_fails (two : Bool) : ∃ (c : Coll) (cells : List (Object UInt8)) (acts : List BAct) (b : Batch UInt8 Nat),
    ReachAnyConc false demoLib 1 c ∧ PtrBatchAt false two demoLib 1 2 c cells [0, 0] noEmbed acts b ∧ BAct.cancel ∉ acts ∧
    (∀ i env, BAct.work i env ∈ acts → env.counterFails = false ∧ env.put = .none ∧ env.level = 0) ∧ b.noPanic ∧ b.returned none ∧
    c.getSize = .ok 0 ∧ b.c.getSize = .ok 1 ∧ b.objs.map Object.id = [1] ∧ b.c.counter.count = 2 ∧
    ¬ ∃ ids, EachStored demoLib c cells [0, 0] b.c b.objs ids := by
  obtain ⟨b, h, hp⟩ := pleads_sound (two := two) (workers := 2) (cells := [demoObj 3]) (ptrs := [0, 0])
    (acts := ptrRobin two 2 [demoObj 3] [0, 0])
    (P := fun b => decide (b.ret = some none) && (decide (b.c.closed = false) && (decide (b.c.stores.size = 1) &&
      (decide (b.objs.map Object.id = [1]) && (decide (b.c.counter.count = 2) && b.tasks.all (fun t => decide (t.pc ≠ .panicked)))))))
    (by cases two <;> decide +kernel)
  simp only [Bool.and_eq_true, decide_eq_true_eq] at hp
  obtain ⟨p1, p2, p3, p4, p5, p6⟩ := hp
  have hs : b.c.getSize = .ok 1 := by unfold Coll.getSize; rw [p2, p3]; rfl
  refine ⟨_, _, _, b, demo_reachAny demoCfg (by constructor <;> decide) _ _, h, by cases two <;> decide +kernel, ?_, ?_, p1, rfl, hs, p4, p5, ?_⟩
  · have : (ptrRobin two 2 [demoObj 3] [0, 0]).all (fun a => match a with
        | .work _ env => decide (env.counterFails = false ∧ env.put = .none ∧ env.level = 0) | _ => true) = true := by
      cases two <;> decide +kernel
    intro i env hm
    simpa using List.all_eq_true.mp this _ hm
  · intro t ht
    simpa using List.all_eq_true.mp p6 t ht
  · rintro ⟨ids, e⟩
    have := e.size
    rw [hs] at this
    cases this

end Vectory.Conc
