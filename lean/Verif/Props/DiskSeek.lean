import Verif.Lemmas.DiskSeek
import Verif.Props.DiskInsFail
/-! # C76: `DiskAnn.Search` beside running calls of `Insert` and `Delete` -/
namespace Vectory
open DiskAnn
variable {D : Type}

namespace DiskAnn

theorem beside_inv {P : Params D} (o : Ord P.metric.lt) (hd : DimOK P.metric P.dim.toNat) (hl : 1 ≤ P.limit.toNat) {vs : List Vec} {w0 : World}
    (r : World.Runs P (World.start P vs) w0) {q : Vec} (hq : q.length = P.dim.toNat) {k : Nat} {dels : List UInt32 → Prop} {w : World} {s : Seek D}
    (b : Beside P q k dels w0 {} w s) : World.Runs P (World.start P vs) w ∧ SOK P q k dels w0.da w.da s := by
  generalize hs : ({} : Seek D) = s0 at b
  induction b with
  | refl => subst hs; exact ⟨r, sok_start _⟩
  | other _ h ih =>
    obtain ⟨h1, h2⟩ := ih hs
    exact ⟨h1.step h, h2.other (grows_step o hd hl (winv_runs o hd h1) (full_runs o hd hl h1) h).1⟩
  | seek del seen _ h hsee ih =>
    obtain ⟨h1, h2⟩ := ih hs
    exact ⟨h1, h2.seek o hd hq (winv_runs o hd h1) (full_runs o hd hl h1) del h (sees_ok o hd (winv_runs o hd h1) hsee)⟩

theorem count_groups {P : Params D} {q : Vec} {k : Nat} {dels : List UInt32 → Prop} {da : DA} (x : UInt64) (p : Nat)
    (hx : ∀ r v, da.at r x = some v → r = p) : ∀ gs : List (Nat × List (Elem D)), (∀ g ∈ gs, Group P q k dels da g.1 g.2) →
    ((gs.map Prod.snd).flatten.map Elem.id).count x ≤ (gs.map Prod.fst).count p := by
  intro gs
  induction gs with
  | nil => intro _; simp
  | cons g gs ih =>
    intro h
    have h1 := ih (fun y hy => h y (List.mem_cons_of_mem _ hy))
    have hg := h g (List.mem_cons_self ..)
    simp only [List.map_cons, List.flatten_cons, List.map_append, List.count_append, List.count_cons]
    by_cases hm : x ∈ g.2.map Elem.id
    · obtain ⟨e, he, rfl⟩ := List.mem_map.mp hm
      obtain ⟨v, hv, _⟩ := hg.ok e he
      have := hx _ _ hv
      have hc : (g.2.map Elem.id).count e.id ≤ 1 := List.nodup_iff_count.mp hg.nd e.id
      rw [if_pos (by simp [this])]
      omega
    · rw [List.count_eq_zero.mpr hm]
      split <;> omega

end DiskAnn

/-- C76: a search that began at any moment, beside any number of running calls of `Insert` and `Delete`, interleaved in any way. If it
returns, every hit is a vector passed to one of those calls and stored by it, with its true distance to the query; there are at most `k`
hits; no id occurs more than twice, and none more than once if no part was started during the search; while nothing is deleted and `k` is
positive there is a hit, and while the object id that every vector carries is deleted there is none. -/
theorem C76_search_beside (P : Params D) (o : Ord P.metric.lt) (hd : DimOK P.metric P.dim.toNat) (hl : 1 ≤ P.limit.toNat) (vs : List Vec)
    (w0 : World) (r : World.Runs P (World.start P vs) w0) (q : Vec) (hq : q.length = P.dim.toNat) (k : Nat) (dels : List UInt32 → Prop)
    (w : World) (s : Seek D) (b : Beside P q k dels w0 {} w s) (out : List (Elem D)) (ho : s.pc = .done out) :
    out.length ≤ k ∧
    (∀ e ∈ out, ∃ v ∈ vs, w.da.Holds e.id v ∧ P.metric.dist v q = .ok e.dist) ∧
    (∀ x, (out.map Elem.id).count x ≤ 2) ∧
    (w.da.parts.length = w0.da.parts.length → (out.map Elem.id).Nodup) ∧
    ((∀ del, dels del → (0 : UInt32) ∉ del) → 1 ≤ k → out ≠ []) ∧
    ((∀ del, dels del → (0 : UInt32) ∈ del) → out = []) := by
  obtain ⟨r', i⟩ := DiskAnn.beside_inv o hd hl r hq b
  have wi := DiskAnn.winv_runs o hd r'
  obtain ⟨gs, g1, g2, g3⟩ := i.groups (by rw [ho]; exact (fun h => nomatch h))
  obtain ⟨d1, d2, d3⟩ := i.done out ho
  obtain ⟨out', dr, m1, m2, m3, m4⟩ := DiskAnn.merge_ok o k s.acc
  rw [d3] at m1; cases m1
  have hne : s.pc ≠ .start := by rw [ho]; exact (fun h => nomatch h)
  have hplan : gs.map Prod.fst = s.newest :: DiskAnn.roList s.ros := by
    rw [ho, d1] at g2
    have : s.plan = s.newest :: DiskAnn.roList s.ros := by unfold Seek.plan; rw [ho]
    rw [this] at g2
    simpa [SeekPC.cur] using g2
  have hok : ∀ e ∈ s.acc, ∃ p v, w.da.at p e.id = some v ∧ P.metric.dist v q = .ok e.dist := by
    intro e he
    rw [g1] at he
    obtain ⟨l, hl, hel⟩ := List.mem_flatten.mp he
    obtain ⟨g, hg, rfl⟩ := List.mem_map.mp hl
    obtain ⟨v, h1, h2⟩ := (g3 g hg).ok e hel
    exact ⟨g.1, v, h1, h2⟩
  have hsub : ∀ e ∈ out, e ∈ s.acc := fun e he => m2.symm.subset (List.mem_append_left _ he)
  have hcount : ∀ x, ∃ p, (out.map Elem.id).count x ≤ (s.newest :: DiskAnn.roList s.ros).count p := by
    intro x
    by_cases hx : x ∈ out.map Elem.id
    · obtain ⟨e, he, rfl⟩ := List.mem_map.mp hx
      obtain ⟨p, v, h1, _⟩ := hok e (hsub e he)
      refine ⟨p, ?_⟩
      have h2 := DiskAnn.count_groups e.id p (fun r u hr => by
        obtain ⟨mi, a1, a2⟩ := DiskAnn.at_key hr
        obtain ⟨mi', b1, b2⟩ := DiskAnn.at_key h1
        exact wi.disj r p mi mi' a1 b1 _ a2 b2) gs g3
      rw [← g1, hplan] at h2
      have h3 := (m2.map Elem.id).count_eq e.id
      rw [List.map_append, List.count_append] at h3
      omega
    · exact ⟨0, by rw [List.count_eq_zero.mpr hx]; exact Nat.zero_le _⟩
  have hro : ∀ p, (DiskAnn.roList s.ros).count p ≤ 1 := by
    intro p
    cases hr : s.ros with
    | none => simp [DiskAnn.roList]
    | some n => exact List.nodup_iff_count.mp List.nodup_range p
  refine ⟨m3, fun e he => ?_, fun x => ?_, fun hlen => ?_, fun h hk => ?_, fun h => ?_⟩
  · obtain ⟨p, v, h1, h2⟩ := hok e (hsub e he)
    obtain ⟨j, pc, hj, _⟩ := (wi.stored e.id v).mp ⟨p, h1⟩
    refine ⟨v, ?_, ⟨p, h1⟩, h2⟩
    rw [← wi.vecs]
    exact List.mem_map.mpr ⟨_, List.mem_of_getElem? hj, rfl⟩
  · obtain ⟨p, hp⟩ := hcount x
    rw [List.count_cons] at hp
    have := hro p
    split at hp <;> omega
  · rw [List.nodup_iff_count]
    intro x
    obtain ⟨p, hp⟩ := hcount x
    rw [List.count_cons] at hp
    have := hro p
    split at hp
    · rename_i e
      have e : s.newest = p := by simpa using e
      have : (DiskAnn.roList s.ros).count p = 0 := by
        rw [List.count_eq_zero]
        intro hm
        cases hr : s.ros with
        | none => exact d2 hr
        | some n =>
          rw [hr] at hm
          simp only [DiskAnn.roList, List.mem_range] at hm
          have h1 := (i.ros n hr).2
          have h2 := i.low hne
          have h3 : w.da.rw = w0.da.rw := by unfold DA.rw; rw [hlen]
          omega
      omega
    · omega
  · apply m4 hk
    intro h0
    cases gs with
    | nil => cases hplan
    | cons g gs =>
      have := (g3 g (List.mem_cons_self ..)).some h hk
      rw [h0] at g1
      simp at g1
      exact this g1.1
  · have h0 : s.acc = [] := by
      rw [g1, List.flatten_eq_nil_iff]
      intro l hl
      obtain ⟨g, hg, rfl⟩ := List.mem_map.mp hl
      exact (g3 g hg).none h
    rw [h0] at m2
    exact (List.append_eq_nil_iff.mp (List.nil_perm.mp m2)).1

/-- C76: a search that meets a newest part with a vector in it does not panic, unless a part is started while it runs. -/
theorem C76_no_panic (P : Params D) (o : Ord P.metric.lt) (hd : DimOK P.metric P.dim.toNat) (hl : 1 ≤ P.limit.toNat) (vs : List Vec)
    (w0 : World) (r : World.Runs P (World.start P vs) w0) (hne : ∃ id v, w0.da.at w0.da.rw id = some v) (q : Vec) (hq : q.length = P.dim.toNat)
    (k : Nat) (dels : List UInt32 → Prop) (w : World) (s : Seek D) (b : Beside P q k dels w0 {} w s)
    (hlen : w.da.parts.length = w0.da.parts.length) : s.pc ≠ .panicked := by
  obtain ⟨r', i⟩ := DiskAnn.beside_inv o hd hl r hq b
  intro hp
  obtain ⟨da', mi, h1, h2, h3⟩ := i.panic hp
  have hst : s.pc ≠ .start := by rw [hp]; exact (fun h => nomatch h)
  have e1 := i.low hst
  have e2 := i.high hst
  have e3 : w.da.rw = w0.da.rw := by unfold DA.rw; rw [hlen]
  have e4 : s.newest = w0.da.rw := by omega
  obtain ⟨id, v, hv⟩ := hne
  have := h1.at hv
  unfold DA.at at this
  rw [← e4, h2] at this
  simp only [Option.bind_some] at this
  rw [h3] at this
  cases this

namespace DiskAnn

/-- `n` steps of a search alone. -/
def Seek.steps (P : Params D) (q : Vec) (k : Nat) (da : DA) (del : List UInt32) : Nat → Seek D → Seek D
  | 0, s => s
  | n + 1, s => Seek.steps P q k da del n (s.step P q k da del)

theorem Seek.steps_add (P : Params D) (q : Vec) (k : Nat) (da : DA) (del : List UInt32) (m : Nat) : ∀ (n : Nat) (s : Seek D),
    Seek.steps P q k da del (n + m) s = Seek.steps P q k da del m (Seek.steps P q k da del n s) := by
  intro n
  induction n with
  | zero => intro s; simp [Seek.steps]
  | succ n ih => intro s; rw [Nat.add_right_comm]; exact ih _

/-- the loop of one part ends. -/
theorem loop_ends {P : Params D} (o : Ord P.metric.lt) (hd : DimOK P.metric P.dim.toNat) {q : Vec} (hq : q.length = P.dim.toNat) {k : Nat}
    {da : DA} {del : List UInt32} {p : Nat} {mi : MemIndex} (hp : da.parts[p]? = some mi) (G : GOK mi.graph P.dim.toNat) : ∀ (m : Nat) (s : Seek D)
    (st : SearchState D), s.pc = .loop p st → SInv P.metric mi.graph [] q st → st.results.length + openLinks mi.graph st.visited ≤ m →
    ∃ n acc, Seek.steps P q k da del n s = { s with pc := .between, acc := acc } := by
  intro m
  induction m with
  | zero =>
    intro s st hs I hm
    refine ⟨1, s.acc ++ popK (minLess P.metric.lt) k (newMinHeap P.metric.lt st.found), ?_⟩
    rcases round_spec o hd G hq P.listSize del I with ⟨r1, _⟩ | ⟨st', _, _, h, _⟩
    · simp only [Seek.steps, Seek.step, hs, hp, r1]
    · exact absurd (List.length_eq_zero_iff.mp (by omega)) h
  | succ m ih =>
    intro s st hs I hm
    rcases round_spec o hd G hq P.listSize del I with ⟨r1, _⟩ | ⟨st', r1, r2, _, r4, _⟩
    · refine ⟨1, s.acc ++ popK (minLess P.metric.lt) k (newMinHeap P.metric.lt st.found), ?_⟩
      simp only [Seek.steps, Seek.step, hs, hp, r1]
    · obtain ⟨n, acc, h⟩ := ih { s with pc := .loop p st' } st' rfl r2 (by omega)
      refine ⟨n + 1, acc, ?_⟩
      have : s.step P q k da del = { s with pc := .loop p st' } := by simp only [Seek.step, hs, hp, r1]
      simp only [Seek.steps]
      rw [this, h]

/-- the search has returned or panicked. -/
def SeekPC.over : SeekPC D → Prop
  | .done _ | .panicked => True
  | _ => False

theorem sok_steps {P : Params D} (o : Ord P.metric.lt) (hd : DimOK P.metric P.dim.toNat) {q : Vec} (hq : q.length = P.dim.toNat) {k : Nat}
    {dels : List UInt32 → Prop} {da0 : DA} {vs : List Vec} {w : World} (wi : WInv P vs w) (f : w.da.Full) {del : List UInt32} (hdel : dels del) :
    ∀ (n : Nat) (s : Seek D), SOK P q k dels da0 w.da s → SOK P q k dels da0 w.da (Seek.steps P q k w.da del n s) := by
  intro n
  induction n with
  | zero => intro s h; exact h
  | succ n ih => intro s h; exact ih _ (h.seek o hd hq wi f del hdel (seen_self wi))

/-- a search left alone ends. -/
theorem seek_ends {P : Params D} (o : Ord P.metric.lt) (hd : DimOK P.metric P.dim.toNat) {q : Vec} (hq : q.length = P.dim.toNat) {k : Nat}
    {dels : List UInt32 → Prop} {da0 : DA} {vs : List Vec} {w : World} (wi : WInv P vs w) (f : w.da.Full) {del : List UInt32} (hdel : dels del)
    {s : Seek D} (i : SOK P q k dels da0 w.da s) : ∃ n, (Seek.steps P q k w.da del n s).pc.over := by
  have back : ∀ (m : Nat) (s : Seek D), (∃ n, (Seek.steps P q k w.da del n (Seek.steps P q k w.da del m s)).pc.over) → ∃ n, (Seek.steps P q k w.da del n s).pc.over := by
    rintro m s ⟨n, h⟩
    exact ⟨m + n, by rw [Seek.steps_add]; exact h⟩
  have hloop : ∀ (s : Seek D) (p : Nat) (st : SearchState D), SOK P q k dels da0 w.da s → s.pc = .loop p st →
      (∀ acc, SOK P q k dels da0 w.da { s with pc := .between, acc := acc } → ∃ n, (Seek.steps P q k w.da del n { s with pc := .between, acc := acc }).pc.over) →
      ∃ n, (Seek.steps P q k w.da del n s).pc.over := by
    intro s p st i hs next
    obtain ⟨mi, h1, h2, _⟩ := i.loop p st hs
    obtain ⟨first, b⟩ := wi.part p mi h1
    obtain ⟨n, acc, h⟩ := loop_ends o hd hq (k := k) (del := del) h1 b.g _ s st hs h2 (Nat.le_refl _)
    have i' := sok_steps o hd hq wi f hdel n s i
    apply back n
    rw [h] at i' ⊢
    exact next acc i'
  have hent : ∀ (s : Seek D) (p : Nat), SOK P q k dels da0 w.da s → s.pc = .enter p →
      (∀ acc, SOK P q k dels da0 w.da { s with pc := .between, acc := acc } → ∃ n, (Seek.steps P q k w.da del n { s with pc := .between, acc := acc }).pc.over) →
      ∃ n, (Seek.steps P q k w.da del n s).pc.over := by
    intro s p i hs next
    have i' := i.seek o hd hq wi f del hdel (seen_self wi)
    have e : (∃ st, s.step P q k w.da del = { s with pc := .loop p st }) ∨ (s.step P q k w.da del).pc = .panicked := by
      simp only [Seek.step, hs]
      split
      · exact Or.inr rfl
      · split
        · exact Or.inr rfl
        · exact Or.inl ⟨_, rfl⟩
    rcases e with ⟨st, e⟩ | e
    · apply back 1
      simp only [Seek.steps]
      rw [e] at i' ⊢
      exact hloop _ p st i' rfl next
    · exact ⟨1, by simp only [Seek.steps]; rw [e]; trivial⟩
  have hsome : ∀ (m : Nat) (s : Seek D) (n : Nat), SOK P q k dels da0 w.da s → s.pc = .between → s.ros = some n → s.left.length = m →
      ∃ n, (Seek.steps P q k w.da del n s).pc.over := by
    intro m
    induction m with
    | zero =>
      intro s n i hs hr hm
      have hm := List.length_eq_zero_iff.mp hm
      obtain ⟨out, dr, m1, _⟩ := merge_ok o k s.acc
      refine ⟨1, ?_⟩
      simp only [Seek.steps, Seek.step, hs, hr, hm, m1]
      trivial
    | succ m ih =>
      intro s n i hs hr hm
      cases hl : s.left with
      | nil => rw [hl] at hm; cases hm
      | cons p left =>
        have e : s.step P q k w.da del = { s with pc := .enter p, left := left } := by simp only [Seek.step, hs, hr, hl]
        have i' := i.seek o hd hq wi f del hdel (seen_self wi)
        apply back 1
        simp only [Seek.steps]
        rw [e] at i' ⊢
        refine hent _ p i' rfl (fun acc i'' => ih _ n i'' rfl hr ?_)
        rw [hl] at hm
        simpa using hm
  have hbet : ∀ (s : Seek D), SOK P q k dels da0 w.da s → s.pc = .between → ∃ n, (Seek.steps P q k w.da del n s).pc.over := by
    intro s i hs
    cases hr : s.ros with
    | some n => exact hsome _ s n i hs hr rfl
    | none =>
      have e : s.step P q k w.da del = { s with ros := some w.da.rw, left := List.range w.da.rw } := by simp only [Seek.step, hs, hr]
      have i' := i.seek o hd hq wi f del hdel (seen_self wi)
      apply back 1
      simp only [Seek.steps]
      rw [e] at i' ⊢
      exact hsome _ _ w.da.rw i' hs rfl rfl
  cases hs : s.pc with
  | start =>
    have i' := i.seek o hd hq wi f del hdel (seen_self wi)
    have e : s.step P q k w.da del = { s with pc := .enter w.da.rw, newest := w.da.rw } := by simp only [Seek.step, hs]
    apply back 1
    simp only [Seek.steps]
    rw [e] at i' ⊢
    exact hent _ _ i' rfl (fun acc i'' => hbet _ i'' rfl)
  | enter p => exact hent s p i hs (fun acc i'' => hbet _ i'' rfl)
  | loop p st => exact hloop s p st i hs (fun acc i'' => hbet _ i'' rfl)
  | between => exact hbet s i hs
  | done out => exact ⟨0, by simp only [Seek.steps]; rw [hs]; trivial⟩
  | panicked => exact ⟨0, by simp only [Seek.steps]; rw [hs]; trivial⟩

end DiskAnn

/-- C76: wherever a search and the calls beside it are, the search returns (or panics) after finitely many steps of its own if the others
pause, or are through. -/
theorem C76_search_returns (P : Params D) (o : Ord P.metric.lt) (hd : DimOK P.metric P.dim.toNat) (hl : 1 ≤ P.limit.toNat) (vs : List Vec)
    (w0 : World) (r : World.Runs P (World.start P vs) w0) (q : Vec) (hq : q.length = P.dim.toNat) (k : Nat) (w : World) (s : Seek D)
    (b : Beside P q k (fun _ => True) w0 {} w s) (del : List UInt32) :
    ∃ n, (∃ out, (Seek.steps P q k w.da del n s).pc = .done out) ∨ (Seek.steps P q k w.da del n s).pc = .panicked := by
  obtain ⟨r', i⟩ := DiskAnn.beside_inv o hd hl r hq b
  obtain ⟨n, h⟩ := DiskAnn.seek_ends o hd hq (DiskAnn.winv_runs o hd r') (DiskAnn.full_runs o hd hl r') (del := del) trivial i
  refine ⟨n, ?_⟩
  cases hp : (Seek.steps P q k w.da del n s).pc with
  | done out => exact Or.inl ⟨out, rfl⟩
  | panicked => exact Or.inr rfl
  | _ => rw [hp] at h; cases h

namespace DiskAnn

/-! ## A search alone is `DA.search` -/

theorem loop_alone {P : Params D} {q : Vec} {k : Nat} {da : DA} {del : List UInt32} {p : Nat} {mi : MemIndex} (hp : da.parts[p]? = some mi) :
    ∀ (fuel : Nat) (s : Seek D) (st st' : SearchState D), s.pc = .loop p st → searchLoop P.metric mi.graph del q P.listSize fuel st = .ok st' →
    ∃ n, Seek.steps P q k da del n s = { s with pc := .between, acc := s.acc ++ popK (minLess P.metric.lt) k (newMinHeap P.metric.lt st'.found) } := by
  intro fuel
  induction fuel with
  | zero => intro s st st' _ h; cases h
  | succ fuel ih =>
    intro s st st' hs h
    unfold searchLoop at h
    have step : ∀ st1, searchRound P.metric mi.graph del q P.listSize st = .ok (some st1) → searchLoop P.metric mi.graph del q P.listSize fuel st1 = .ok st' →
        ∃ n, Seek.steps P q k da del n s = { s with pc := .between, acc := s.acc ++ popK (minLess P.metric.lt) k (newMinHeap P.metric.lt st'.found) } := by
      intro st1 h1 h2
      obtain ⟨n, hn⟩ := ih { s with pc := .loop p st1 } st1 st' rfl h2
      refine ⟨n + 1, ?_⟩
      have : s.step P q k da del = { s with pc := .loop p st1 } := by simp only [Seek.step, hs, hp, h1]
      simp only [Seek.steps]
      rw [this, hn]
    cases hpop : MMHeap.pop (minLess P.metric.lt) st.results with
    | none =>
      rw [hpop] at h
      cases h
      refine ⟨1, ?_⟩
      have : searchRound P.metric mi.graph del q P.listSize st = .ok none := by unfold searchRound; rw [hpop]
      simp only [Seek.steps, Seek.step, hs, hp, this]
    | some er =>
      obtain ⟨e, rest⟩ := er
      rw [hpop] at h
      dsimp only at h
      split at h
      · rename_i hv
        exact step _ (by unfold searchRound; rw [hpop]; dsimp only; rw [if_pos hv]) h
      · rename_i hv
        obtain ⟨v, h1, h⟩ := (bind_ok_iff _ _ _).mp h
        obtain ⟨l, h2, h⟩ := (bind_ok_iff _ _ _).mp h
        exact step _ (by unfold searchRound; rw [hpop]; dsimp only; rw [if_neg hv, h1]; simp only [ok_bind]; rw [h2]; rfl) h

theorem part_alone {P : Params D} {q : Vec} {k : Nat} {da : DA} {del : List UInt32} {p : Nat} {mi : MemIndex} (hp : da.parts[p]? = some mi)
    (s : Seek D) (hs : s.pc = .enter p) (hits : List (Elem D)) (h : mi.search P.metric del q k P.listSize = .ok hits) :
    ∃ n, Seek.steps P q k da del n s = { s with pc := .between, acc := s.acc ++ hits } := by
  unfold MemIndex.search MemIndex.visit at h
  obtain ⟨found, h1, h⟩ := (bind_ok_iff _ _ _).mp h
  obtain ⟨sv, h2, h1⟩ := (bind_ok_iff _ _ _).mp h1
  split at h1
  · cases h1
  · rename_i hw
    obtain ⟨d, h3, h1⟩ := (bind_ok_iff _ _ _).mp h1
    obtain ⟨st', h4, h1⟩ := (bind_ok_iff _ _ _).mp h1
    cases h1; cases h
    obtain ⟨n, hn⟩ := loop_alone (P := P) (q := q) (k := k) hp _ { s with pc := .loop p { results := MMHeap.init (minLess P.metric.lt) [{ id := mi.s, dist := d }], visited := [], found := [] } } _ st' rfl h4
    refine ⟨n + 1, ?_⟩
    have : s.step P q k da del = { s with pc := .loop p { results := MMHeap.init (minLess P.metric.lt) [{ id := mi.s, dist := d }], visited := [], found := [] } } := by
      simp only [Seek.step, hs, hp, h2, ok_bind, if_neg hw, h3]
    simp only [Seek.steps]
    rw [this, hn]

end DiskAnn

/-- C76: a search that nobody disturbs is the search of C58–C61, C74 and C75. -/
theorem C76_alone (P : Params D) (da : DA) (hne : da.parts ≠ []) (del : List UInt32) (q : Vec) (k : Nat) (out : List (Elem D))
    (h : da.search P del q k = .ok out) : ∃ n, (Seek.steps P q k da del n {}).pc = .done out := by
  have hrw := DA.rw_lt hne
  have hmi : da.parts[da.rw]? = some da.parts[da.rw] := List.getElem?_eq_getElem hrw
  unfold DA.search daSearch at h
  rw [hmi] at h
  dsimp only at h
  obtain ⟨a, h1, h⟩ := (bind_ok_iff _ _ _).mp h
  obtain ⟨bs, h2, h⟩ := (bind_ok_iff _ _ _).mp h
  -- the read-only parts from position `m` on
  have ro : ∀ (l : List MemIndex) (m : Nat) (s : Seek D) (bs : List (List (Elem D))), s.pc = .between → s.ros = some da.rw → s.left = List.range' m l.length →
      (∀ (j : Nat) (mi : MemIndex), l[j]? = some mi → da.parts[m + j]? = some mi) → l.mapM (fun mi => mi.search P.metric del q k P.listSize) = .ok bs →
      ∃ n, Seek.steps P q k da del n s = { s with left := [], acc := s.acc ++ bs.flatten } := by
    intro l
    induction l with
    | nil =>
      intro m s bs hs hr hleft _ hb
      cases hb
      refine ⟨0, ?_⟩
      obtain ⟨pc, newest, ros, left, acc⟩ := s
      simp only [List.length_nil, List.range'_zero] at hleft
      subst hleft
      simp [Seek.steps]
    | cons mi l ih =>
      intro m s bs hs hr hleft hget hb
      rw [List.mapM_cons] at hb
      obtain ⟨b, b1, hb⟩ := (bind_ok_iff _ _ _).mp hb
      obtain ⟨bs', b2, hb⟩ := (bind_ok_iff _ _ _).mp hb
      cases hb
      have hp := hget 0 mi rfl
      rw [Nat.add_zero] at hp
      have hleft : s.left = m :: List.range' (m + 1) l.length := by rw [hleft, List.length_cons, List.range'_succ]
      obtain ⟨n1, e1⟩ := DiskAnn.part_alone (P := P) (q := q) (k := k) (del := del) hp { s with pc := .enter m, left := List.range' (m + 1) l.length } rfl b b1
      obtain ⟨n2, e2⟩ := ih (m + 1) { s with pc := .between, left := List.range' (m + 1) l.length, acc := s.acc ++ b } bs' rfl hr rfl
        (fun j mi' hj => by have := hget (j + 1) mi' hj; rw [← this]; congr 1; omega) b2
      have e0 : s.step P q k da del = { s with pc := .enter m, left := List.range' (m + 1) l.length } := by simp only [Seek.step, hs, hr, hleft]
      refine ⟨(1 + n1) + n2, ?_⟩
      rw [Seek.steps_add, Seek.steps_add]
      have e00 : Seek.steps P q k da del 1 s = s.step P q k da del := rfl
      rw [e00, e0, e1, e2]
      simp [hs]
  obtain ⟨n1, e1⟩ := DiskAnn.part_alone (P := P) (q := q) (k := k) (del := del) hmi { pc := .enter da.rw, newest := da.rw } rfl a h1
  obtain ⟨n2, e2⟩ := ro (da.parts.take da.rw) 0 { pc := .between, newest := da.rw, ros := some da.rw, left := List.range da.rw, acc := a } bs rfl rfl
    (by rw [List.length_take, Nat.min_eq_left (by omega), List.range_eq_range'])
    (fun j mi hj => by
      rw [List.getElem?_take] at hj
      split at hj
      · rw [Nat.zero_add]; exact hj
      · cases hj) h2
  refine ⟨1 + n1 + 1 + n2 + 1, ?_⟩
  have e3 : ∀ s : Seek D, Seek.steps P q k da del 1 s = s.step P q k da del := fun _ => rfl
  rw [Seek.steps_add, Seek.steps_add, Seek.steps_add, Seek.steps_add]
  have e0 : Seek.steps P q k da del 1 ({} : Seek D) = { pc := .enter da.rw, newest := da.rw } := rfl
  rw [e0, e1]
  have e4 : Seek.steps P q k da del 1 ({ pc := .between, newest := da.rw, acc := [] ++ a } : Seek D) =
      { pc := .between, newest := da.rw, ros := some da.rw, left := List.range da.rw, acc := a } := rfl
  rw [e4, e2, e3]
  simp only [Seek.step, h]

end Vectory
