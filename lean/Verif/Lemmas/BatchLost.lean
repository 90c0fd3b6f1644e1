import Verif.Spec.BatchLost
import Verif.Lemmas.CollReach
namespace Vectory.Conc
open Vectory
variable {V D : Type}

theorem count_todos (k : Nat) (ts : List Task) : (ts.flatMap Task.todo).count k = tsum (fun t => t.todo.count k) ts := by
  induction ts with
  | nil => rfl
  | cons t ts ih => rw [List.flatMap_cons, List.count_append, ih]; rfl

theorem tsum_congr {f g : Task → Nat} {ts : List Task} (h : ∀ t ∈ ts, f t = g t) : tsum f ts = tsum g ts := by
  unfold tsum; rw [List.map_congr_left h]

/-- a batch that returned nil, whatever its workers ran into. -/
theorem storedExcept_of {fixed two : Bool} {L : Lib V D} {dim workers : Nat} {X : UInt64 → Prop} {c : Coll} {os : List (Object V)}
    {embed : Embed V} {acts : List BAct} {b : Batch V D} (i : WInv False L dim X c)
    (h : BatchAt fixed two L dim workers c os embed acts b) (hret : b.returned none) :
    StoredExcept L c os b.c b.objs b.untaken ∧
      (∀ t ∈ b.tasks, t.pc = .done ∨ t.pc = .panicked ∨ (t.pc = .skipped ∧ b.cancelled = true)) ∧
      (∀ t ∈ b.tasks, t.pc = .done → t.todo = [] ∧ b.queue = []) := by
  obtain ⟨objs, _, hopen, hemb, hw, ok, st, _⟩ := h.state i
  obtain ⟨F, A, B, X0, X1, X2, js, hj, s⟩ := st
  unfold Batch.returned at hret
  rcases s with ⟨v, hr⟩ | ⟨c1, ff, v, hover, herr, hcf, hr⟩
  · exfalso
    rcases hr with hr | ⟨e, hr, _⟩ <;> rw [hret] at hr <;> cases hr
  have hover' : ∀ t ∈ b.tasks, t.pc.over = true := List.all_eq_true.mp hover
  have hno : ¬ (X0 ≠ [] ∨ X1 ≠ [] ∨ X2 ≠ [] ∨ ∃ t ∈ b.tasks, ∃ e, t.pc = .failed e) := fun h => v.errs h herr
  have hdone : ∀ t ∈ b.tasks, t.pc = .done ∨ t.pc = .panicked ∨ (t.pc = .skipped ∧ b.cancelled = true) := by
    intro t htm
    have h1 := hover' t htm
    have h3 : t.pc = .skipped → b.cancelled = true := by
      intro e
      rcases v.skip ⟨t, htm, e⟩ with h | h
      · exact absurd herr h
      · exact h
    have h4 : ∀ e, t.pc ≠ .failed e := fun e he => hno (Or.inr (Or.inr (Or.inr ⟨t, htm, e, he⟩)))
    revert h1 h3 h4
    cases t.pc <;> intro h1 h3 h4 <;>
      first | exact Or.inl rfl | exact Or.inr (Or.inl rfl) | (cases h1; done) | exact Or.inr (Or.inr ⟨rfl, h3 rfl⟩) | exact absurd rfl (h4 _)
  have hX : X0 = [] ∧ X1 = [] ∧ X2 = [] :=
    ⟨Classical.byContradiction fun e => hno (Or.inl e), Classical.byContradiction fun e => hno (Or.inr (Or.inl e)),
      Classical.byContradiction fun e => hno (Or.inr (Or.inr (Or.inl e)))⟩
  obtain ⟨rfl, rfl, rfl⟩ := hX
  refine ⟨?_, hdone, v.fin⟩
  have hlen : b.objs.length = objs.length := v.lenO
  have hlo : objs.length = os.length := embed_length hemb
  have ca : ∀ k, (A.map Prod.fst).count k = (F.map Prod.fst).count k := by
    intro k
    have h1 := v.cnt.stA k
    have p1 : tsum (at1 k) b.tasks = 0 := tsum_zero _ _ (fun t ht => by unfold at1; rcases hdone t ht with h | h | ⟨h, _⟩ <;> rw [h] <;> rfl)
    dsimp only at h1
    rw [p1] at h1
    simpa using h1
  have cb : ∀ k, (B.map Prod.fst).count k = (F.map Prod.fst).count k := by
    intro k
    have h1 := v.cnt.stB k
    have p1 : tsum (at2 k) b.tasks = 0 := tsum_zero _ _ (fun t ht => by unfold at2; rcases hdone t ht with h | h | ⟨h, _⟩ <;> rw [h] <;> rfl)
    dsimp only at h1
    rw [p1] at h1
    rw [← ca k]
    simpa using h1
  have cu : ∀ k, b.untaken.count k + (F.map Prod.fst).count k = (List.range objs.length).count k := by
    intro k
    have h1 := v.cnt.once k
    have p1 : tsum (pend k) b.tasks = tsum (fun t => t.todo.count k) b.tasks := tsum_congr (fun t ht => by
      unfold pend; rcases hdone t ht with h | h | ⟨h, _⟩ <;> rw [h] <;> rfl)
    dsimp only at h1
    rw [p1, ← count_todos] at h1
    unfold Batch.untaken
    rw [List.count_append]
    simpa using h1
  have c1' : ∀ k, (List.range objs.length).count k ≤ 1 := count_range_le _
  have nodup : b.untaken.Nodup := List.nodup_iff_count.mpr (fun k => by have := cu k; have := c1' k; omega)
  have bound : ∀ k ∈ b.untaken, k < objs.length := by
    intro k hk
    have := List.count_pos_iff.mpr hk
    exact lt_of_count_range (by have := cu k; omega)
  have split : ∀ k, k < objs.length → (k ∉ b.untaken ↔ k ∈ F.map Prod.fst) := by
    intro k hk
    have h1 := cu k
    have h2 := c1' k
    have h3 := List.count_pos_iff.mpr (List.mem_range.mpr hk)
    rw [← List.count_pos_iff, ← List.count_pos_iff]
    omega
  have hst : b.c.stores = c1.stores := by rw [hcf]; rfl
  have hcl : b.c.closed = false := by
    have := v.conf.2.2
    rw [hcf]; show c1.closed = false
    rw [← hopen]; exact this
  obtain ⟨nF, nA, nB⟩ := v.nodups
  have ltF : ∀ p ∈ F, p.1 < objs.length := by
    intro p hp
    obtain ⟨o, ho, _⟩ := v.dat.ids p hp
    rw [← hlen]; exact (List.getElem?_eq_some_iff.mp ho).1
  have pF : (b.untaken ++ F.map Prod.fst).Perm (List.range objs.length) := by
    rw [List.perm_iff_count]; intro k; rw [List.count_append]; exact cu k
  have lenF : F.length = os.length - b.untaken.length := by
    have := pF.length_eq
    simp at this
    omega
  have lenA : A.length = F.length := by
    have h1 : (A.map Prod.fst).Perm (F.map Prod.fst) := by rw [List.perm_iff_count]; exact ca
    simpa using h1.length_eq
  have inB : ∀ (k : Nat) (o : Object V), k ∉ b.untaken → b.objs[k]? = some o → (k, o.id) ∈ B := by
    intro k o hk ho
    have hkl : k < objs.length := by rw [← hlen]; exact (List.getElem?_eq_some_iff.mp ho).1
    have h1 := List.count_pos_iff.mpr ((split k hkl).mp hk)
    have h2 : 0 < (B.map Prod.fst).count k := by have := cb k; omega
    obtain ⟨⟨k', id⟩, hp, e⟩ := List.mem_map.mp (List.count_pos_iff.mp h2)
    dsimp only at e; subst e
    obtain ⟨o', ho', e⟩ := v.dat.ids _ (v.dat.subA _ (v.dat.subB _ hp))
    dsimp only at ho' e
    rw [ho] at ho'; cases ho'
    rw [e]; exact hp
  refine ⟨nodup, fun k hk => hlo ▸ bound k hk, by rw [hlen, hlo], ?_, ?_, ?_, ?_, ?_, ?_⟩
  · intro k o o' ho ho'
    have hs := v.dat.same k
    dsimp only at hs
    rw [ho'] at hs
    cases h5 : objs[k]? with
    | none => rw [h5] at hs; cases hs
    | some o1 =>
      rw [h5] at hs
      simp only [Option.map_some, Option.some.injEq, Prod.mk.injEq] at hs
      obtain ⟨e1, _, e3⟩ := embed_keep hemb k o o1 ho h5
      exact ⟨hs.1.trans e1, fun w hw => by rw [hs.2]; exact e3 w hw⟩
  · intro k o o' hk ho ho'
    have hr := v.dat.rest k (fun hm => (split k (bound k hk)).mpr hm hk)
    dsimp only at hr
    rw [ho'] at hr
    obtain ⟨_, e2, _⟩ := embed_keep hemb k o o' ho hr.symm
    exact e2
  · have hFids := v.dat.exact rfl
    rw [lenF] at hFids
    rw [← hFids]
    have h1 : (b.objs.zipIdx.filter (fun p => decide (p.2 ∉ b.untaken))).map (fun p => p.1.id.toNat) =
        ((b.objs.zipIdx.filter (fun p => decide (p.2 ∉ b.untaken))).map Prod.snd).map
          (fun k => ((b.objs[k]?).map (fun o : Object V => o.id.toNat)).getD 0) := by
      rw [List.map_map]
      apply List.map_congr_left
      rintro ⟨o, k⟩ hp
      have := List.mem_zipIdx (List.mem_filter.mp hp).1
      simp only [Nat.sub_zero, Nat.zero_add] at this
      show _ = ((b.objs[k]?).map (fun o : Object V => o.id.toNat)).getD 0
      rw [List.getElem?_eq_getElem this.2.1]
      simp [this.2.2]
    have h2 : F.map (fun p => p.2.toNat) = (F.map Prod.fst).map (fun k => ((b.objs[k]?).map (fun o : Object V => o.id.toNat)).getD 0) := by
      rw [List.map_map]
      apply List.map_congr_left
      intro p hp
      obtain ⟨o, ho, e⟩ := v.dat.ids p hp
      show _ = ((b.objs[p.1]?).map (fun o : Object V => o.id.toNat)).getD 0
      have ho : b.objs[p.1]? = some o := ho
      rw [ho, ← e]; rfl
    rw [h1, h2]
    apply List.Perm.map
    have hf : (b.objs.zipIdx.filter (fun p => decide (p.2 ∉ b.untaken))).map Prod.snd =
        (List.range b.objs.length).filter (fun k => decide (k ∉ b.untaken)) := by
      rw [List.range_eq_range', ← List.zipIdx_map_snd 0 b.objs, List.filter_map]; rfl
    rw [hf, List.perm_iff_count]
    intro k
    by_cases hk : k ∈ b.untaken
    · rw [List.count_eq_zero.mpr (fun hm => by simp [hk] at hm)]
      symm
      apply List.count_eq_zero.mpr
      intro hm
      exact (split k (bound k hk)).mpr hm hk
    · rw [List.count_filter (by simpa using hk), hlen]
      have := cu k
      have h0 := List.count_eq_zero.mpr hk
      omega
  · intro k o hk ho
    obtain ⟨o', text, p, h1, h2, h3, h4, h5⟩ := v.read ok (inB k o hk ho)
    have h1 : b.objs[k]? = some o' := h1
    rw [ho] at h1; cases h1
    refine ⟨text, p, h3, h4, (get_single_some hcl).mpr ?_⟩
    rw [hst]; exact h5
  · unfold Coll.getSize
    rw [hcl, hopen]
    show Except.ok b.c.stores.size = Except.ok (c.stores.size + (os.length - b.untaken.length))
    unfold Stores.size
    rw [hst, v.dat.objects, List.length_append, List.length_map, lenA, lenF]
  · intro id hid
    rw [get_single L _ hcl, get_single L _ hopen]
    have hB : id ∉ B.map Prod.snd := by
      intro hm
      obtain ⟨p, hp, rfl⟩ := List.mem_map.mp hm
      have hF := v.dat.subA p (v.dat.subB p hp)
      obtain ⟨o, ho, e⟩ := v.dat.ids p hF
      exact hid p.1 o ((split p.1 (ltF p hF)).mpr (List.mem_map.mpr ⟨p, hF, rfl⟩)) ho e
    have := v.keep ok id hB
    rw [hst]
    dsimp only at this
    rw [this]

/-! ### Tasks only drop objects from the front of their lists -/

/-- `b'` came after `b`. -/
structure Shrinks (b b' : Batch V D) : Prop where
  len : b'.tasks.length = b.tasks.length
  todo : ∀ (i : Nat) (t t' : Task), b.tasks[i]? = some t → b'.tasks[i]? = some t' → t'.todo <:+ t.todo
  queue : b'.queue <:+ b.queue

theorem Shrinks.refl (b : Batch V D) : Shrinks b b :=
  ⟨rfl, fun i t t' h h' => by rw [h] at h'; cases h'; exact List.suffix_refl _, List.suffix_refl _⟩

theorem Shrinks.trans {b1 b2 b3 : Batch V D} (h : Shrinks b1 b2) (h' : Shrinks b2 b3) : Shrinks b1 b3 := by
  refine ⟨h'.len.trans h.len, ?_, h'.queue.trans h.queue⟩
  intro i t t' h1 h3
  cases h2 : b2.tasks[i]? with
  | none =>
    have := List.getElem?_eq_none_iff.mp h2
    have := (List.getElem?_eq_some_iff.mp h3).1
    have := h'.len
    omega
  | some t2 => exact (h'.todo i t2 t' h2 h3).trans (h.todo i t t2 h1 h2)

theorem Shrinks.frozen {b b' : Batch V D} (h : b'.tasks = b.tasks) (hq : b'.queue = b.queue) : Shrinks b b' :=
  ⟨by rw [h], fun i t t' h1 h2 => by rw [h, h1] at h2; cases h2; exact List.suffix_refl _, by rw [hq]; exact List.suffix_refl _⟩

theorem Shrinks.set {b b' : Batch V D} {i : Nat} {t t' : Task} (ht : b.tasks[i]? = some t) (hs : t'.todo <:+ t.todo)
    (h : b'.tasks = b.tasks.set i t') (hq : b'.queue <:+ b.queue) : Shrinks b b' := by
  refine ⟨by rw [h, List.length_set], ?_, hq⟩
  intro j x y hx hy
  rw [h, List.getElem?_set] at hy
  split at hy
  · rename_i e; subst e
    split at hy
    · cases hy; rw [ht] at hx; cases hx; exact hs
    · cases hy
  · rw [hx] at hy; cases hy; exact List.suffix_refl _

theorem work_shrinks {fixed : Bool} {L : Lib V D} {b b' : Batch V D} {i : Nat} {env : InsEnv} (h : b.work fixed L i env = some b') :
    Shrinks b b' := by
  unfold Batch.work at h
  cases ht : b.tasks[i]? with
  | none => rw [ht] at h; cases h
  | some t =>
    rw [ht] at h
    dsimp only at h
    have go : ∀ (b1 : Batch V D) (pc : TPC), b1.tasks = b.tasks → b1.queue = b.queue → Shrinks b (b1.goto i t pc) :=
      fun b1 pc h1 h2 => Shrinks.set (t' := { t with pc := pc }) ht (List.suffix_refl _) (by show b1.tasks.set i _ = _; rw [h1]) (by show b1.queue <:+ _; rw [h2]; exact List.suffix_refl _)
    have fl : ∀ (b1 : Batch V D) (e : Err), b1.tasks = b.tasks → b1.queue = b.queue → Shrinks b (b1.fail i t e) :=
      fun b1 e h1 h2 => Shrinks.set (t' := { t with pc := .failed e }) ht (List.suffix_refl _) (by show b1.tasks.set i _ = _; rw [h1]) (by show b1.queue <:+ _; rw [h2]; exact List.suffix_refl _)
    split at h
    · split at h <;> cases h <;> exact go _ _ rfl rfl
    · split at h
      · rename_i k ks hk
        cases h
        exact Shrinks.set ht (by rw [hk]; exact List.suffix_cons _ _) rfl (List.suffix_refl _)
      · rename_i hk
        split at h
        · rename_i k q hq
          cases h
          exact Shrinks.set ht (by rw [hk]; exact List.suffix_refl _) rfl (by rw [hq]; exact List.suffix_cons _ _)
        · cases h; exact go _ _ rfl rfl
    · split at h <;> cases h
      · exact fl _ _ rfl rfl
      · exact go _ _ rfl rfl
    · split at h
      · cases h
      · split at h
        · cases h; exact fl _ _ rfl rfl
        · split at h <;> cases h
          · exact fl _ _ rfl rfl
          · exact go _ _ rfl rfl
    · split at h
      · cases h
      · split at h <;> cases h
        · exact fl _ _ rfl rfl
        · exact go _ _ rfl rfl
    · split at h
      · cases h
      · split at h
        · cases h
        · cases h; exact go _ _ rfl rfl
    all_goals cases h

theorem step_shrinks {fixed : Bool} {L : Lib V D} {b b' : Batch V D} {a : BAct} (h : b.step fixed L a = some b') : Shrinks b b' := by
  cases a with
  | work i env => exact work_shrinks h
  | cancel => cases h; exact Shrinks.frozen rfl rfl
  | finish ff =>
    simp only [Batch.step] at h
    split at h
    · split at h <;> cases h <;> exact Shrinks.frozen rfl rfl
    · cases h
  | giveUp =>
    simp only [Batch.step] at h
    split at h
    · cases h; exact Shrinks.frozen rfl rfl
    · cases h

theorem run_shrinks {fixed : Bool} {L : Lib V D} : ∀ (acts : List BAct) (b b' : Batch V D), b.run fixed L acts = some b' → Shrinks b b' := by
  intro acts
  induction acts with
  | nil => intro b b' h; cases h; exact Shrinks.refl _
  | cons a as ih =>
    intro b b' h
    simp only [Batch.run] at h
    split at h
    · cases h
    · rename_i b1 h1
      exact (step_shrinks h1).trans (ih _ _ h)

end Vectory.Conc
