import Verif.Model.Batch
/-! # Splitting a batch: C13 -/
namespace Vectory

theorem chunkLoop_shape (len workers : Nat) (c : Nat) (hc : c = len / workers) : ∀ k i offset, i + k = workers → 0 < workers → i * c = offset →
    (chunkLoop len workers c k i offset).length = k ∧
    ∀ j, j < k → (chunkLoop len workers c k i offset)[j]? =
      some ((i + j) * c, if i + j = workers - 1 then len else (i + j + 1) * c) := by
  intro k
  induction k with
  | zero => intro i offset _ _ _; exact ⟨rfl, fun j hj => absurd hj (by omega)⟩
  | succ k ih =>
    intro i offset hik hw ho
    unfold chunkLoop
    dsimp only
    have hlen : workers * c + len % workers = len := by rw [hc]; exact Nat.div_add_mod len workers
    by_cases hi : i = workers - 1
    · have hk : k = 0 := by omega
      subst hk
      rw [if_pos hi]
      refine ⟨rfl, fun j hj => ?_⟩
      have : j = 0 := by omega
      subst this
      have e : offset + c + len % workers = len := by
        have : (i + 1) * c = workers * c := by rw [show i + 1 = workers by omega]
        rw [Nat.add_mul, Nat.one_mul, ho] at this
        omega
      simp only [List.getElem?_cons_zero, Nat.add_zero, ho, if_pos hi, e]
    · rw [if_neg hi]
      have hoff : (i + 1) * c = offset + c := by rw [Nat.add_mul, Nat.one_mul, ho]
      obtain ⟨h1, h2⟩ := ih (i + 1) (offset + c) (by omega) hw hoff
      refine ⟨by simp [h1], fun j hj => ?_⟩
      cases j with
      | zero => simp [hi, ← ho, Nat.add_mul]
      | succ j =>
        rw [List.getElem?_cons_succ, h2 j (by omega)]
        have e : i + 1 + j = i + (j + 1) := by omega
        rw [e]

/-- what each worker gets: worker `j` starts at `j` chunk sizes and ends where the next one starts, the last one at the end of the
batch. -/
theorem chunks_get (len workers : Nat) (hw : 0 < workers) (j : Nat) (hj : j < workers) :
    (chunks len workers)[j]? = some (j * (len / workers), if j = workers - 1 then len else (j + 1) * (len / workers)) := by
  have := (chunkLoop_shape len workers _ rfl workers 0 0 (by omega) hw (by omega)).2 j hj
  simpa [chunks] using this

theorem chunks_length (len workers : Nat) (hw : 0 < workers) : (chunks len workers).length = workers :=
  (chunkLoop_shape len workers _ rfl workers 0 0 (by omega) hw (by omega)).1

/-- C13: there is one slice per worker and every slice is within bounds, so taking it does not panic. -/
theorem C13_in_bounds (len workers : Nat) (hw : 0 < workers) :
    (chunks len workers).length = workers ∧ ∀ r ∈ chunks len workers, r.1 ≤ r.2 ∧ r.2 ≤ len := by
  refine ⟨chunks_length len workers hw, fun r hr => ?_⟩
  obtain ⟨j, hj, rfl⟩ := List.mem_iff_getElem.mp hr
  have hj' : j < workers := by rw [chunks_length len workers hw] at hj; exact hj
  have h := chunks_get len workers hw j hj'
  rw [List.getElem?_eq_getElem hj] at h
  have h := Option.some.inj h
  rw [h]
  dsimp only
  have hle : (j + 1) * (len / workers) ≤ len :=
    Nat.le_trans (Nat.mul_le_mul_right _ (by omega : j + 1 ≤ workers)) (Nat.mul_div_le len workers)
  generalize len / workers = c at *
  rw [Nat.add_mul, Nat.one_mul] at hle ⊢
  split <;> omega


theorem chunkLoop_join {A : Type} (objs : List A) (workers c : Nat) (hc : c = objs.length / workers) : ∀ k i offset,
    i + k = workers → 0 < workers → 0 < k → i * c = offset →
    ∃ ss, (chunkLoop objs.length workers c k i offset).mapM (goSlice objs) = some ss ∧ ss.flatten = objs.drop offset := by
  intro k
  induction k with
  | zero => intro i offset _ _ h _; omega
  | succ k ih =>
    intro i offset hik hw _ ho
    have hlen : workers * c + objs.length % workers = objs.length := by rw [hc]; exact Nat.div_add_mod _ _
    have hle : (i + 1) * c ≤ workers * c := Nat.mul_le_mul_right _ (by omega)
    have hoff : (i + 1) * c = offset + c := by rw [Nat.add_mul, Nat.one_mul, ho]
    unfold chunkLoop
    dsimp only
    by_cases hi : i = workers - 1
    · have hk : k = 0 := by omega
      subst hk
      rw [if_pos hi]
      have e : offset + c + objs.length % workers = objs.length := by
        have : (i + 1) * c = workers * c := by rw [show i + 1 = workers by omega]
        omega
      refine ⟨[objs.drop offset], ?_, by simp⟩
      simp only [chunkLoop, List.mapM_cons, List.mapM_nil, goSlice, e]
      rw [if_pos (by omega)]
      simp
    · rw [if_neg hi]
      obtain ⟨ss, h1, h2⟩ := ih (i + 1) (offset + c) (by omega) hw (by omega) hoff
      refine ⟨(objs.take (offset + c)).drop offset :: ss, ?_, ?_⟩
      · simp only [List.mapM_cons, goSlice]
        rw [if_pos (by omega)]
        rw [h1]
        rfl
      · rw [List.flatten_cons, h2, List.drop_take, Nat.add_sub_cancel_left, ← List.drop_drop]
        exact List.take_append_drop c (objs.drop offset)

/-- C13: taking the slices in the order of the workers and putting them together gives back the batch: every object is in exactly
one slice, in order, as often as it is in the batch. -/
theorem C13_partition {A : Type} (objs : List A) (workers : Nat) (hw : 0 < workers) :
    ∃ slices, (chunks objs.length workers).mapM (goSlice objs) = some slices ∧ slices.length = workers ∧ slices.flatten = objs := by
  obtain ⟨ss, h1, h2⟩ := chunkLoop_join objs workers _ rfl workers 0 0 (by omega) hw hw (by omega)
  refine ⟨ss, h1, ?_, by simpa using h2⟩
  rw [← chunks_length objs.length workers hw]
  have : ∀ (l : List (Nat × Nat)) (ss : List (List A)), l.mapM (goSlice objs) = some ss → ss.length = l.length := by
    intro l
    induction l with
    | nil => intro ss h; simp at h; subst h; rfl
    | cons r l ih =>
      intro ss h
      rw [List.mapM_cons] at h
      cases hr : goSlice objs r with
      | none => simp [hr] at h
      | some x =>
        cases hl : l.mapM (goSlice objs) with
        | none => simp [hr, hl] at h
        | some xs =>
          simp only [hr, hl] at h
          cases h
          simp [ih xs hl]
  exact this _ _ h1

/-- C13: every position of the batch lies in the slice of exactly one worker. -/
theorem C13_exactly_one (len workers : Nat) (hw : 0 < workers) (p : Nat) (hp : p < len) :
    ∃ (j : Nat) (r : Nat × Nat), (chunks len workers)[j]? = some r ∧ r.1 ≤ p ∧ p < r.2 ∧
      ∀ (j' : Nat) (r' : Nat × Nat), (chunks len workers)[j']? = some r' → r'.1 ≤ p → p < r'.2 → j' = j := by
  have hmod := Nat.div_add_mod len workers
  have hsmall := Nat.mod_lt len hw
  generalize hc : len / workers = c at *
  have get : ∀ j, j < workers → (chunks len workers)[j]? = some (j * c, if j = workers - 1 then len else (j + 1) * c) := by
    intro j hj; rw [← hc]; exact chunks_get len workers hw j hj
  have cut : ∀ (j : Nat) (r : Nat × Nat), (chunks len workers)[j]? = some r → r.1 ≤ p → p < r.2 →
      j < workers ∧ j * c ≤ p ∧ (j + 1 < workers → p < (j + 1) * c) := by
    intro j r hr h1 h2
    have hj : j < workers := by
      have := (List.getElem?_eq_some_iff.mp hr).1
      rwa [chunks_length len workers hw] at this
    rw [get j hj] at hr; cases hr
    dsimp only at h1 h2
    exact ⟨hj, h1, fun hlt => by rwa [if_neg (by omega)] at h2⟩
  have uniq : ∀ (j : Nat) (r : Nat × Nat) (j' : Nat) (r' : Nat × Nat), (chunks len workers)[j]? = some r → r.1 ≤ p → p < r.2 →
      (chunks len workers)[j']? = some r' → r'.1 ≤ p → p < r'.2 → ¬ j' < j := by
    intro j r j' r' a1 a2 a3 b1 b2 b3 hlt
    obtain ⟨ha, hb, _⟩ := cut j r a1 a2 a3
    obtain ⟨_, _, hd⟩ := cut j' r' b1 b2 b3
    have h1 := hd (by omega)
    have : (j' + 1) * c ≤ j * c := Nat.mul_le_mul_right _ (by omega)
    omega
  by_cases hlast : (workers - 1) * c ≤ p
  · refine ⟨workers - 1, _, get _ (by omega), hlast, by dsimp only; rw [if_pos rfl]; exact hp, fun j' r' h1 h2 h3 => ?_⟩
    have hlt := (cut j' r' h1 h2 h3).1
    have := uniq (workers - 1) _ j' r' (get _ (by omega)) hlast (by dsimp only; rw [if_pos rfl]; exact hp) h1 h2 h3
    omega
  · have hcpos : 0 < c := by
      apply Nat.pos_of_ne_zero
      intro h; subst h; simp at hlast
    have hpc : p / c < workers - 1 := by
      apply Nat.div_lt_of_lt_mul
      rw [Nat.mul_comm]; omega
    have h1 : (p / c) * c ≤ p := Nat.div_mul_le_self p c
    have h2 : p < (p / c + 1) * c := by
      have := Nat.lt_mul_div_succ p hcpos
      rw [Nat.mul_comm] at this; exact this
    have h3 : p < (if p / c = workers - 1 then len else (p / c + 1) * c) := by rw [if_neg (by omega)]; exact h2
    refine ⟨p / c, _, get _ (by omega), h1, h3, fun j' r' g1 g2 g3 => ?_⟩
    have u1 := uniq (p / c) _ j' r' (get _ (by omega)) h1 h3 g1 g2 g3
    have u2 := uniq j' r' (p / c) _ g1 g2 g3 (get _ (by omega)) h1 h3
    omega

-- ten objects, four workers; and fewer objects than workers
example : chunks 10 4 = [(0, 2), (2, 4), (4, 6), (6, 10)] ∧ chunks 3 4 = [(0, 0), (0, 0), (0, 0), (0, 3)] := by decide

end Vectory
