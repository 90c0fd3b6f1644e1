import Verif.Model.DiskSearchConc
import Verif.Props.DiskInsConc
import Verif.Lemmas.DiskWhole
/-! # One search beside running insertions: invariants -/
namespace Vectory.DiskAnn
variable {D : Type}

/-! ## What the other goroutines do to the parts -/

/-- no vector is lost, no vector is moved, no part is removed. -/
structure Grows (a b : DA) : Prop where
  len : a.parts.length ≤ b.parts.length
  part : ∀ (p : Nat) (mi : MemIndex), a.parts[p]? = some mi → ∃ mi', b.parts[p]? = some mi' ∧
    ∀ x vec, (mi.graph.get? x).map Vertex.vector = some vec → (mi'.graph.get? x).map Vertex.vector = some vec

theorem Grows.rfl' {a b : DA} (h : b.parts = a.parts) : Grows a b :=
  ⟨by rw [h]; exact Nat.le_refl _, fun p mi hp => ⟨mi, by rw [h]; exact hp, fun _ _ h => h⟩⟩

theorem Grows.trans {a b c : DA} (h : Grows a b) (k : Grows b c) : Grows a c := by
  refine ⟨Nat.le_trans h.len k.len, fun p mi hp => ?_⟩
  obtain ⟨mi1, h1, h2⟩ := h.part p mi hp
  obtain ⟨mi2, k1, k2⟩ := k.part p mi1 h1
  exact ⟨mi2, k1, fun x v hx => k2 x v (h2 x v hx)⟩

theorem Grows.at {a b : DA} (h : Grows a b) {p : Nat} {id : UInt64} {v : Vec} (hp : a.at p id = some v) : b.at p id = some v := by
  unfold DA.at at hp ⊢
  cases ha : a.parts[p]? with
  | none => rw [ha] at hp; cases hp
  | some mi =>
    rw [ha] at hp
    obtain ⟨mi', h1, h2⟩ := h.part p mi ha
    rw [h1]
    exact h2 id v hp

theorem Grows.rw {a b : DA} (h : Grows a b) : a.rw ≤ b.rw := by have := h.len; unfold DA.rw; omega

theorem Grows.sinv {a b : DA} (h : Grows a b) {M : Metric D} {q : Vec} {p : Nat} {mi mi' : MemIndex} (ha : a.parts[p]? = some mi) (hb : b.parts[p]? = some mi')
    {st : SearchState D} (s : SInv M mi.graph [] q st) : SInv M mi'.graph [] q st := by
  obtain ⟨m, h1, h2⟩ := h.part p mi ha
  rw [hb] at h1; cases h1
  have ht : ∀ e : Elem D, True' M mi.graph q e → True' M mi'.graph q e := by
    rintro e ⟨v, hv, hd⟩
    have := h2 e.id v.vector (by rw [hv]; rfl)
    cases hg : AMap.get? mi'.graph e.id with
    | none => rw [hg] at this; cases this
    | some v' =>
      rw [hg] at this
      refine ⟨v', hg, ?_⟩
      have hvv : v'.vector = v.vector := by simpa using this
      rw [hvv]; exact hd
  refine ⟨fun e he => ht e (s.res e he), fun e he => ?_, s.seen, s.nd⟩
  have := ht e (s.found e he).1
  obtain ⟨v, hv, _⟩ := this
  exact ⟨ht e (s.found e he).1, v, hv, by simp⟩

/-- every part but the newest is non-empty. -/
def DA.Full (da : DA) : Prop := ∀ (p : Nat) (mi : MemIndex), p < da.rw → da.parts[p]? = some mi → mi.graph ≠ []

theorem graph_ne_of_vec {g : Graph} {x : UInt64} {v : Vec} (h : (g.get? x).map Vertex.vector = some v) : g ≠ [] := by
  rintro rfl; cases h

theorem vec_of_graph_ne {g : Graph} (nd : (AMap.keys g).Nodup) (h : g ≠ []) : ∃ x v, (g.get? x).map Vertex.vector = some v := by
  cases g with
  | nil => exact absurd rfl h
  | cons a g =>
    refine ⟨a.1, a.2.vector, ?_⟩
    rw [AMap.get?_of_mem nd (List.mem_cons_self ..)]; rfl

theorem grows_set {da : DA} {p : Nat} {mi mi' : MemIndex} (hp : da.parts[p]? = some mi)
    (h : ∀ x vec, (mi.graph.get? x).map Vertex.vector = some vec → (mi'.graph.get? x).map Vertex.vector = some vec) :
    Grows da { da with parts := da.parts.set p mi' } := by
  refine ⟨by simp, fun r m hr => ?_⟩
  dsimp only
  rw [List.getElem?_set]
  split
  · rename_i e; subst e
    rw [hp] at hr; cases hr
    rw [if_pos (List.getElem?_eq_some_iff.mp hp).1]
    exact ⟨mi', rfl, h⟩
  · exact ⟨m, hr, fun _ _ h => h⟩

theorem full_set {da : DA} (f : da.Full) {p : Nat} {mi : MemIndex} (h : mi.graph ≠ []) : DA.Full { da with parts := da.parts.set p mi } := by
  intro r m hr hm
  have hrw : DA.rw { da with parts := da.parts.set p mi } = da.rw := by simp [DA.rw]
  rw [hrw] at hr
  dsimp only at hm
  rw [List.getElem?_set] at hm
  split at hm
  · split at hm
    · cases hm; exact h
    · cases hm
  · exact f r m hr hm

theorem grows_task {P : Params D} (o : Ord P.metric.lt) (hd : DimOK P.metric P.dim.toNat) (hl : 1 ≤ P.limit.toNat) {vs : List Vec} {w : World}
    (k : WInv P vs w) (f : w.da.Full) (del : List UInt32) (i : Nat) :
    Grows w.da (w.stepTask P del i).da ∧ (w.stepTask P del i).da.Full := by
  unfold World.stepTask
  cases ht : w.tasks[i]? with
  | none => exact ⟨.rfl' rfl, f⟩
  | some t =>
    obtain ⟨v, pc⟩ := t
    cases pc with
    | check =>
      dsimp only
      obtain ⟨r1, r2, r3, r4, r5, r6⟩ := rotate_raw P k.ne
      refine ⟨⟨r3, fun p mi hp => ?_⟩, ?_⟩
      · obtain ⟨mi', h1, rfl | rfl⟩ := r5 p mi hp
        · exact ⟨mi', h1, fun _ _ h => h⟩
        · exact ⟨_, h1, fun _ _ h => h⟩
      · intro p mi hp hm
        rcases r4 p mi hm with ⟨mi0, h0, he⟩ | ⟨hge, rfl⟩
        · have hg : mi.graph = mi0.graph := by rcases he with rfl | rfl <;> rfl
          rw [hg]
          rcases Nat.lt_or_ge p w.da.rw with hlt | hge
          · exact f p mi0 hlt h0
          · have hpl := (List.getElem?_eq_some_iff.mp h0).1
            have hpe : p = w.da.rw := by have := DA.rw_lt k.ne; unfold DA.rw at *; omega
            subst hpe
            cases hf : w.da.full P with
            | false =>
              have : w.da.rotate P = w.da := by unfold DA.rotate; rw [hf]; rfl
              rw [this] at hp; omega
            | true =>
              unfold DA.full at hf
              rw [h0] at hf
              intro hn
              simp [MemIndex.sizeNow, hn] at hf
              rw [← hf] at hl
              simp at hl
        · have hlen : p < (w.da.rotate P).parts.length := (List.getElem?_eq_some_iff.mp hm).1
          have : (w.da.rotate P).parts.length ≤ w.da.parts.length + 1 := by
            unfold DA.rotate
            split <;> simp
          unfold DA.rw at hp
          omega
    | fetch => exact ⟨.rfl' rfl, f⟩
    | load id => exact ⟨.rfl' rfl, f⟩
    | call id p =>
      dsimp only
      repeat' split
      all_goals exact ⟨.rfl' rfl, f⟩
    | inside id p =>
      dsimp only
      have hpl := k.ptr i v id p (Or.inr (Or.inl ht))
      have hmi : w.da.parts[p]? = some w.da.parts[p] := List.getElem?_eq_getElem hpl
      rw [hmi]
      dsimp only
      have hfr := k.fresh ht rfl (fun _ h => h)
      have hv := k.fits _ _ _ _ ht
      obtain ⟨first, b, bt⟩ := k.built p _ hmi (fun j u x hj => by
        have := k.excl _ _ _ _ _ _ _ hj ht rfl rfl
        subst this; rw [ht] at hj; cases hj)
      obtain ⟨mi', f', h1, h2, h3, h4, h5, h6, h7⟩ := add_spec o hd b bt v hv id (hfr p _ hmi)
      rw [h1]
      dsimp only
      refine ⟨grows_set hmi (fun x vec hx => ?_), full_set f ?_⟩
      · rw [h5 x]
        split
        · rename_i e; subst e
          exfalso
          apply hfr p _ hmi
          cases hg : AMap.get? (w.da.parts[p]).graph x with
          | none => rw [hg] at hx; cases hx
          | some u => exact mem_of_get hg
        · exact hx
      · intro h
        rw [h] at h4
        simp [AMap.keys] at h4
    | added id p =>
      dsimp only
      have hpl := k.ptr i v id p (Or.inr (Or.inr ht))
      have hmi : w.da.parts[p]? = some w.da.parts[p] := List.getElem?_eq_getElem hpl
      rw [hmi]
      dsimp only
      have m := k.mid _ _ _ _ _ ht hmi
      obtain ⟨mi', first, h1, h2, h3, h4, h5, h6, h7⟩ := link_spec o hd m del
      rw [h1]
      dsimp only
      refine ⟨grows_set hmi (fun x vec hx => by rw [h6 x]; exact hx), full_set f ?_⟩
      intro h
      rw [h] at h5
      rw [← h5] at h7
      cases h7
    | done id r => exact ⟨.rfl' rfl, f⟩

theorem stepSnap_da (w : World) (j : Nat) (t : When) : (w.stepSnap j t).da = w.da := by
  unfold World.stepSnap
  split
  · rfl
  · split <;> rfl
  · rfl

theorem grows_step {P : Params D} (o : Ord P.metric.lt) (hd : DimOK P.metric P.dim.toNat) (hl : 1 ≤ P.limit.toNat) {vs : List Vec} {w w' : World}
    (k : WInv P vs w) (f : w.da.Full) (s : World.Step P w w') : Grows w.da w'.da ∧ w'.da.Full ∧ WInv P vs w' := by
  cases s with
  | task del i _ hb => exact ⟨(grows_task o hd hl k f del i).1, (grows_task o hd hl k f del i).2, winv_task o hd k del i hb⟩
  | snap j t _ =>
    have e := stepSnap_da w j t
    exact ⟨.rfl' (by rw [e]), by rw [e]; exact f, winv_snap k j t⟩

theorem full_runs {P : Params D} (o : Ord P.metric.lt) (hd : DimOK P.metric P.dim.toNat) (hl : 1 ≤ P.limit.toNat) {vs : List Vec} {w : World}
    (r : World.Runs P (World.start P vs) w) : w.da.Full := by
  generalize hs : World.start P vs = s at r
  induction r with
  | refl =>
    subst hs
    intro p mi hp
    simp [World.start, newDA, DA.rw] at hp
  | step r h ih =>
    subst hs
    exact (grows_step o hd hl (winv_runs o hd r) ih h).2.1

/-! ## One round -/

theorem round_spec {M : Metric D} (w : Ord M.lt) {g : Graph} {dim : Nat} (hd : DimOK M dim) (G : GOK g dim) {q : Vec}
    (hq : q.length = dim) (ls : Nat) (del : List UInt32) {st : SearchState D} (I : SInv M g [] q st) :
    (searchRound M g del q ls st = .ok none ∧ st.results = []) ∨
    ∃ st', searchRound M g del q ls st = .ok (some st') ∧ SInv M g [] q st' ∧ st.results ≠ [] ∧
      st'.results.length + openLinks g st'.visited < st.results.length + openLinks g st.visited ∧
      (∀ e ∈ st.found, e ∈ st'.found) ∧ ((0 : UInt32) ∈ del → st'.found = st.found) ∧ ((0 : UInt32) ∉ del → st.visited = [] → st'.found ≠ []) ∧
      (st.visited ≠ [] → st'.visited ≠ []) ∧ (st'.visited = [] → st.visited = []) ∧ (st.visited = [] → st'.visited ≠ []) := by
  unfold searchRound
  rcases mm_pop w.min st.results with ⟨h0, h⟩ | ⟨e, rest, h, hp⟩
  · left; rw [h]; exact ⟨rfl, h0⟩
  · right
    rw [h]
    dsimp only
    have hlen := hp.length_eq
    simp only [List.length_cons] at hlen
    have hne : st.results ≠ [] := by intro h0; rw [h0] at hlen; simp at hlen
    have hrest : ∀ x ∈ rest, True' M g q x := fun x hx => I.res x (hp.symm.subset (List.mem_cons_of_mem _ hx))
    by_cases hv : e.id.toUInt32 ∈ st.visited
    · rw [if_pos hv]
      refine ⟨_, rfl, ⟨hrest, I.found, I.seen, I.nd⟩, hne, by dsimp only; omega, fun _ h => h, fun _ => rfl, fun _ h => ?_, fun h => h, fun h => h, fun h => ?_⟩
      · rw [h] at hv; cases hv
      · rw [h] at hv; cases hv
    · rw [if_neg hv]
      obtain ⟨v, hg, hdv⟩ : True' M g q e := I.res e (hp.symm.subset (List.mem_cons_self ..))
      rw [vertexAt_of hg]
      simp only [ok_bind]
      obtain ⟨l', h1, h2, h3⟩ := pushAll_spec w hd G hq ls v.neighbors rest (G.closed e.id v hg) hrest
      rw [h1]
      simp only [ok_bind]
      have hopen := openLinks_cons g e.id v st.visited (AMap.mem_of_get? hg) hv
      refine ⟨_, rfl, ⟨h2, ?_, ?_, ?_⟩, hne, by dsimp only; omega, ?_, ?_, ?_, fun _ h => (nomatch h), fun h => (nomatch h), fun _ h => (nomatch h)⟩
      · intro x hx
        dsimp only at hx
        split at hx
        · exact I.found x hx
        · rcases List.mem_append.mp hx with hx | hx
          · exact I.found x hx
          · rcases List.mem_singleton.mp hx with rfl
            exact ⟨⟨v, hg, hdv⟩, v, hg, by simp⟩
      · intro x hx
        dsimp only at hx ⊢
        split at hx
        · exact List.mem_cons_of_mem _ (I.seen x hx)
        · rcases List.mem_append.mp hx with hx | hx
          · exact List.mem_cons_of_mem _ (I.seen x hx)
          · rcases List.mem_singleton.mp hx with rfl
            exact List.mem_cons_self ..
      · dsimp only
        split
        · exact I.nd
        · rw [List.map_append, List.nodup_append]
          refine ⟨I.nd, by simp, ?_⟩
          intro a ha b hb hab
          obtain ⟨x, hx, rfl⟩ := List.mem_map.mp ha
          simp only [List.map_cons, List.map_nil, List.mem_singleton] at hb
          exact hv (hb ▸ hab ▸ I.seen x hx)
      · intro x hx
        dsimp only
        split
        · exact hx
        · exact List.mem_append_left _ hx
      · intro h0
        dsimp only
        rw [G.obj _ v hg, if_pos h0]
      · intro h0 _
        dsimp only
        rw [G.obj _ v hg, if_neg h0]
        simp

/-! ## The whole search -/

/-- the merge never fails; it returns at most `k` of the hits, and some if there are some. -/
theorem merge_ok {M : Metric D} (w : Ord M.lt) (k : Nat) (acc : List (Elem D)) :
    ∃ out dr, merge M k acc = .ok out ∧ acc.Perm (out ++ dr) ∧ out.length ≤ k ∧ (1 ≤ k → acc ≠ [] → out ≠ []) := by
  cases k with
  | zero => exact ⟨[], acc, C61_zero w _, by simp, by simp, fun h => by omega⟩
  | succ k =>
    cases acc with
    | nil =>
      refine ⟨[], [], ?_, by simp, by simp, fun _ h => absurd rfl h⟩
      have e : MMHeap.init (minLess M.lt) ([] : List (Elem D)) = [] := List.perm_nil.mp (MMHeap.init_perm _ [])
      unfold merge; rw [e]; rfl
    | cons x rs =>
      obtain ⟨kept, dr, h1, h2, h3, _⟩ := C61_merge_exact w (k + 1) (by omega) x rs
      exact ⟨x :: kept, dr, h1, by simpa using h2.cons x, by simp only [List.length_cons]; omega, fun _ _ h => (nomatch h)⟩

/-- the part being searched. -/
def SeekPC.cur : SeekPC D → List Nat
  | .enter p | .loop p _ => [p]
  | _ => []

/-- the read-only parts, once `range` is evaluated. -/
def roList : Option Nat → List Nat
  | none => []
  | some n => List.range n

/-- the parts to be searched, in order, as far as they are known. -/
def Seek.plan (s : Seek D) : List Nat :=
  match s.pc with
  | .start => []
  | _ => s.newest :: roList s.ros

/-- hits of part `p`. -/
structure Group (P : Params D) (q : Vec) (k : Nat) (dels : List UInt32 → Prop) (da : DA) (p : Nat) (l : List (Elem D)) : Prop where
  nd : (l.map Elem.id).Nodup
  ok : ∀ e ∈ l, ∃ v, da.at p e.id = some v ∧ P.metric.dist v q = .ok e.dist
  none : (∀ del, dels del → (0 : UInt32) ∈ del) → l = []
  some : (∀ del, dels del → (0 : UInt32) ∉ del) → 1 ≤ k → l ≠ []

/-- the invariant of a search that began when the parts were `da0`. -/
structure SOK (P : Params D) (q : Vec) (k : Nat) (dels : List UInt32 → Prop) (da0 da : DA) (s : Seek D) : Prop where
  grown : Grows da0 da
  low : s.pc ≠ .start → da0.rw ≤ s.newest
  high : s.pc ≠ .start → s.newest ≤ da.rw
  ros : ∀ n, s.ros = some n → s.newest ≤ n ∧ n ≤ da.rw
  one : s.ros = none → s.left = []
  early : s.pc = .start → s.ros = none ∧ s.left = [] ∧ s.acc = []
  groups : s.pc ≠ .panicked → ∃ gs : List (Nat × List (Elem D)), s.acc = (gs.map Prod.snd).flatten ∧ gs.map Prod.fst ++ s.pc.cur ++ s.left = s.plan ∧
    ∀ g ∈ gs, Group P q k dels da g.1 g.2
  loop : ∀ p st, s.pc = .loop p st → ∃ mi, da.parts[p]? = some mi ∧ SInv P.metric mi.graph [] q st ∧
    ((∀ del, dels del → (0 : UInt32) ∈ del) → st.found = []) ∧
    ((∀ del, dels del → (0 : UInt32) ∉ del) → (st.visited = [] ∧ st.results ≠ []) ∨ st.found ≠ [])
  done : ∀ out, s.pc = .done out → s.left = [] ∧ s.ros ≠ none ∧ merge P.metric k s.acc = .ok out
  panic : s.pc = .panicked → ∃ (da' : DA) (mi : MemIndex), Grows da0 da' ∧ da'.parts[s.newest]? = some mi ∧ mi.graph = []

theorem Group.grows {P : Params D} {q : Vec} {k : Nat} {dels : List UInt32 → Prop} {da da' : DA} {p : Nat} {l : List (Elem D)}
    (g : Group P q k dels da p l) (h : Grows da da') : Group P q k dels da' p l :=
  ⟨g.nd, fun e he => by obtain ⟨v, h1, h2⟩ := g.ok e he; exact ⟨v, h.at h1, h2⟩, g.none, g.some⟩

theorem SOK.other {P : Params D} {q : Vec} {k : Nat} {dels : List UInt32 → Prop} {da0 da da' : DA} {s : Seek D}
    (i : SOK P q k dels da0 da s) (h : Grows da da') : SOK P q k dels da0 da' s := by
  have hrw := h.rw
  refine ⟨i.grown.trans h, i.low, fun hs => Nat.le_trans (i.high hs) hrw, fun n hn => ⟨(i.ros n hn).1, Nat.le_trans (i.ros n hn).2 hrw⟩, i.one, i.early,
    fun hp => ?_, fun p st hs => ?_, i.done, i.panic⟩
  · obtain ⟨gs, h1, h2, h3⟩ := i.groups hp
    exact ⟨gs, h1, h2, fun g hg => (h3 g hg).grows h⟩
  · obtain ⟨mi, h1, h2, h3⟩ := i.loop p st hs
    obtain ⟨mi', k1, _⟩ := h.part p mi h1
    exact ⟨mi', k1, h.sinv h1 k1 h2, h3⟩

/-- the hits of one part, once its loop has ended. -/
theorem group_of {P : Params D} (o : Ord P.metric.lt) {q : Vec} {k : Nat} {dels : List UInt32 → Prop} {da : DA} {p : Nat} {mi : MemIndex}
    (hp : da.parts[p]? = some mi) {st : SearchState D} (I : SInv P.metric mi.graph [] q st)
    (hn : (∀ del, dels del → (0 : UInt32) ∈ del) → st.found = []) (hs : (∀ del, dels del → (0 : UInt32) ∉ del) → st.found ≠ []) :
    Group P q k dels da p (popK (minLess P.metric.lt) k (newMinHeap P.metric.lt st.found)) := by
  obtain ⟨left, a1, a2, a3, _⟩ := popK_spec o k (newMinHeap P.metric.lt st.found) (Heap.init_heap o.min _)
  have hperm : (newMinHeap P.metric.lt st.found).Perm st.found := Heap.init_perm _ _
  have hsub : ∀ e ∈ popK (minLess P.metric.lt) k (newMinHeap P.metric.lt st.found), e ∈ st.found := fun e he =>
    hperm.subset (a1.symm.subset (List.mem_append_left _ he))
  refine ⟨?_, fun e he => ?_, fun h => ?_, fun h hk h0 => ?_⟩
  · have h1 : ((newMinHeap P.metric.lt st.found).map (fun e => e.id.toUInt32)).Nodup := (hperm.map _).nodup_iff.mpr I.nd
    have h2 := (a1.map (fun e : Elem D => e.id.toUInt32)).nodup_iff.mp h1
    rw [List.map_append] at h2
    have h3 := (List.nodup_append.mp h2).1
    have h4 : (popK (minLess P.metric.lt) k (newMinHeap P.metric.lt st.found)).map (fun e => e.id.toUInt32) =
        ((popK (minLess P.metric.lt) k (newMinHeap P.metric.lt st.found)).map Elem.id).map UInt64.toUInt32 := by
      rw [List.map_map]; rfl
    rw [h4] at h3
    exact (List.pairwise_map.mp h3).imp (fun h e => h (by rw [e]))
  · obtain ⟨⟨v, h1, h2⟩, _⟩ := I.found e (hsub e he)
    exact ⟨v.vector, by unfold DA.at; rw [hp]; simp [h1], h2⟩
  · cases hc : popK (minLess P.metric.lt) k (newMinHeap P.metric.lt st.found) with
    | nil => rfl
    | cons e l =>
      have := hsub e (by rw [hc]; exact List.mem_cons_self ..)
      rw [hn h] at this; cases this
  · have hf := List.length_pos_iff.mpr (hs h)
    have hl := hperm.length_eq
    rw [h0] at a2
    simp at a2
    omega

/-- what a search meets in place of the parts `da`: the same vectors, with links between them. -/
structure SeenOK (dim : Nat) (da seen : DA) : Prop where
  len : seen.parts.length = da.parts.length
  part : ∀ (p : Nat) (mi : MemIndex), da.parts[p]? = some mi → ∃ g, seen.parts[p]? = some { mi with graph := g } ∧ GOK g dim ∧
    AMap.keys g = AMap.keys mi.graph ∧ vecs g = vecs mi.graph

theorem SeenOK.rw {dim : Nat} {da seen : DA} (h : SeenOK dim da seen) : seen.rw = da.rw := by unfold DA.rw; rw [h.len]

theorem sinv_vecs {M : Metric D} {g g' : Graph} {q : Vec} {st : SearchState D} (h : vecs g' = vecs g) (s : SInv M g [] q st) : SInv M g' [] q st := by
  have ht : ∀ e : Elem D, True' M g q e → True' M g' q e := by
    rintro e ⟨v, hv, hd⟩
    have := congrFun h e.id
    unfold vecs at this
    rw [hv] at this
    cases hg : AMap.get? g' e.id with
    | none => rw [hg] at this; cases this
    | some v' =>
      rw [hg] at this
      refine ⟨v', hg, ?_⟩
      have hvv : v'.vector = v.vector := by simpa using this
      rw [hvv]; exact hd
  refine ⟨fun e he => ht e (s.res e he), fun e he => ?_, s.seen, s.nd⟩
  have := ht e (s.found e he).1
  obtain ⟨v, hv, _⟩ := this
  exact ⟨ht e (s.found e he).1, v, hv, by simp⟩

theorem SOK.seek {P : Params D} (o : Ord P.metric.lt) (hd : DimOK P.metric P.dim.toNat) {q : Vec} (hq : q.length = P.dim.toNat) {k : Nat}
    {dels : List UInt32 → Prop} {da0 : DA} {vs : List Vec} {w : World} (wi : WInv P vs w) (f : w.da.Full) {s : Seek D}
    (i : SOK P q k dels da0 w.da s) (del : List UInt32) (hdel : dels del) {seen : DA} (S : SeenOK P.dim.toNat w.da seen) :
    SOK P q k dels da0 w.da (s.step P q k seen del) := by
  obtain ⟨pc, newest, ros, left, acc⟩ := s
  cases pc with
  | start =>
    obtain ⟨h1, h2, h3⟩ := i.early rfl
    dsimp only at h1 h2 h3
    subst h1 h2 h3
    refine ⟨i.grown, fun _ => by show da0.rw ≤ seen.rw; rw [S.rw]; exact i.grown.rw, fun _ => by show seen.rw ≤ w.da.rw; rw [S.rw]; exact Nat.le_refl _, fun n h => (nomatch h), fun _ => rfl, fun h => (nomatch h), fun _ => ⟨[], rfl, rfl, fun g h => (nomatch h)⟩,
      fun p st h => (nomatch h), fun out h => (nomatch h), fun h => (nomatch h)⟩
  | enter p =>
    obtain ⟨gs, g1, g2, g3⟩ := i.groups (fun h => nomatch h)
    have hne : (SeekPC.enter p : SeekPC D) ≠ .start := fun h => nomatch h
    have hmem : p = newest ∨ p < w.da.rw := by
      have : p ∈ gs.map Prod.fst ++ [p] ++ left := by simp
      have g2' : gs.map Prod.fst ++ [p] ++ left = newest :: roList ros := g2
      rw [g2'] at this
      rcases List.mem_cons.mp this with h | h
      · exact Or.inl h
      · cases ros with
        | none => cases h
        | some n => have := (i.ros n rfl).2; simp only [roList] at h; rw [List.mem_range] at h; right; omega
    have hlt : p < w.da.parts.length := by
      have := DA.rw_lt wi.ne
      have := i.high hne
      dsimp only at this
      omega
    have hmi : w.da.parts[p]? = some w.da.parts[p] := List.getElem?_eq_getElem hlt
    obtain ⟨first, b⟩ := wi.part p _ hmi
    obtain ⟨g, hsee, G, hkeys, hvecs⟩ := S.part p _ hmi
    unfold Seek.step
    dsimp only
    rw [hsee]
    dsimp only
    by_cases hg : (w.da.parts[p]).graph = []
    · have hpn : p = newest := by
        rcases hmem with h | h
        · exact h
        · exact absurd hg (f p _ h hmi)
      have hg0 : g = [] := by
        rw [hg] at hkeys
        cases g with
        | nil => rfl
        | cons x l => cases hkeys
      have hv : vertexAt g (w.da.parts[p]).s = .error .nilDeref := by unfold vertexAt; rw [hg0]; rfl
      rw [hv]
      show SOK P q k dels da0 w.da { pc := .panicked, newest := newest, ros := ros, left := left, acc := acc }
      refine ⟨i.grown, fun _ => i.low hne, fun _ => i.high hne, i.ros, i.one, fun h => (nomatch h), fun h => absurd rfl h, fun _ _ h => (nomatch h),
        fun _ h => (nomatch h), fun _ => ⟨w.da, w.da.parts[p], i.grown, ?_, hg⟩⟩
      dsimp only
      rw [← hpn]; exact hmi
    · have ho : (w.da.parts[p]).once = true := by
        cases h : (w.da.parts[p]).once with
        | true => rfl
        | false => exact absurd (b.fresh h).1 hg
      obtain ⟨v, hv⟩ := get_of_mem (hkeys.symm ▸ b.start ho)
      obtain ⟨d, hdd⟩ := hd v.vector q (G.vec _ v hv) hq
      rw [vertexAt_of hv]
      simp only [ok_bind, b.wired, Bool.true_eq_false, if_false, hdd]
      refine ⟨i.grown, fun _ => i.low hne, fun _ => i.high hne, i.ros, i.one, fun h => (nomatch h), fun _ => ⟨gs, g1, g2, g3⟩, fun r st h => ?_, fun _ h => (nomatch h),
        fun h => (nomatch h)⟩
      cases h
      refine ⟨_, hmi, sinv_vecs (g := g) hvecs.symm ⟨?_, fun e he => (nomatch he), fun e he => (nomatch he), List.nodup_nil⟩, fun _ => rfl, fun _ => Or.inl ⟨rfl, ?_⟩⟩
      · intro e he
        dsimp only at he
        rw [init_single] at he
        rcases List.mem_singleton.mp he with rfl
        exact ⟨v, hv, hdd⟩
      · dsimp only
        rw [init_single]; simp
  | loop p st =>
    obtain ⟨gs, g1, g2, g3⟩ := i.groups (fun h => nomatch h)
    obtain ⟨mi, h1, h2, h3, h4⟩ := i.loop p st rfl
    have hne : (SeekPC.loop p st : SeekPC D) ≠ .start := fun h => nomatch h
    obtain ⟨first, b⟩ := wi.part p _ h1
    obtain ⟨g, hsee, G, hkeys, hvecs⟩ := S.part p _ h1
    unfold Seek.step
    dsimp only
    rw [hsee]
    dsimp only
    rcases round_spec o hd G hq P.listSize del (sinv_vecs hvecs h2) with ⟨r1, r2⟩ | ⟨st', r1, r2, r3, _, r5, r6, r7, _, _, r10⟩
    · rw [r1]
      dsimp only
      refine ⟨i.grown, fun _ => i.low hne, fun _ => i.high hne, i.ros, i.one, fun h => (nomatch h), fun _ => ?_, fun _ _ h => (nomatch h), fun _ h => (nomatch h),
        fun h => (nomatch h)⟩
      refine ⟨gs ++ [(p, popK (minLess P.metric.lt) k (newMinHeap P.metric.lt st.found))], ?_, ?_, fun g hg => ?_⟩
      · dsimp only at g1 ⊢; rw [g1]; simp
      · have : gs.map Prod.fst ++ [p] ++ left = newest :: roList ros := g2
        show (gs ++ [(p, _)]).map Prod.fst ++ [] ++ left = newest :: roList ros
        rw [← this]; simp
      · rcases List.mem_append.mp hg with hg | hg
        · exact g3 g hg
        · rcases List.mem_singleton.mp hg with rfl
          exact group_of o h1 h2 h3 (fun h => by
            rcases h4 h with ⟨_, h5⟩ | h5
            · exact absurd r2 h5
            · exact h5)
    · rw [r1]
      dsimp only
      refine ⟨i.grown, fun _ => i.low hne, fun _ => i.high hne, i.ros, i.one, fun h => (nomatch h), fun _ => ⟨gs, g1, g2, g3⟩, fun r st'' h => ?_, fun _ h => (nomatch h),
        fun h => (nomatch h)⟩
      cases h
      refine ⟨mi, h1, sinv_vecs hvecs.symm r2, fun h => by rw [r6 (h del hdel)]; exact h3 h, fun h => ?_⟩
      rcases h4 h with ⟨h5, _⟩ | h5
      · exact Or.inr (r7 (h del hdel) h5)
      · right
        cases hf : st.found with
        | nil => exact absurd hf h5
        | cons e l =>
          intro h0
          have := r5 e (by rw [hf]; exact List.mem_cons_self ..)
          rw [h0] at this; cases this
  | between =>
    obtain ⟨gs, g1, g2, g3⟩ := i.groups (fun h => nomatch h)
    have hne : (SeekPC.between : SeekPC D) ≠ .start := fun h => nomatch h
    have g2' : gs.map Prod.fst ++ [] ++ left = newest :: roList ros := g2
    unfold Seek.step
    dsimp only
    cases ros with
    | none =>
      dsimp only at g2' ⊢
      refine ⟨i.grown, fun _ => i.low hne, fun _ => i.high hne, fun n h => ?_, fun h => (nomatch h), fun h => (nomatch h), fun _ => ?_, fun _ _ h => (nomatch h), fun _ h => (nomatch h),
        fun h => (nomatch h)⟩
      · cases h; rw [S.rw]; exact ⟨i.high hne, Nat.le_refl _⟩
      · have hleft : left = [] := i.one rfl
        subst hleft
        cases gs with
        | nil => cases g2'
        | cons g gs =>
          have : gs = [] := by
            simp [roList] at g2'; exact g2'.2
          subst this
          refine ⟨[g], g1, ?_, g3⟩
          simp [roList] at g2'
          show [g.1] ++ [] ++ List.range seen.rw = newest :: List.range seen.rw
          rw [g2']; rfl
    | some n =>
      dsimp only
      cases left with
      | cons p left =>
        dsimp only
        refine ⟨i.grown, fun _ => i.low hne, fun _ => i.high hne, i.ros, fun h => (nomatch h), fun h => (nomatch h), fun _ => ⟨gs, g1, ?_, g3⟩, fun _ _ h => (nomatch h), fun _ h => (nomatch h),
          fun h => (nomatch h)⟩
        show gs.map Prod.fst ++ [p] ++ left = newest :: roList (some n)
        rw [← g2']; simp
      | nil =>
        dsimp only
        obtain ⟨out, dr, m1, _⟩ := merge_ok o k acc
        rw [m1]
        dsimp only
        refine ⟨i.grown, fun _ => i.low hne, fun _ => i.high hne, i.ros, i.one, fun h => (nomatch h), fun _ => ⟨gs, g1, g2', g3⟩, fun _ _ h => (nomatch h), fun out' h => ?_,
          fun h => (nomatch h)⟩
        cases h
        exact ⟨rfl, (fun h => nomatch h), m1⟩
  | done out => exact i
  | panicked => exact i

theorem sok_start {P : Params D} {q : Vec} {k : Nat} {dels : List UInt32 → Prop} (da : DA) : SOK P q k dels da da ({} : Seek D) :=
  ⟨.rfl' rfl, fun h => absurd rfl h, fun h => absurd rfl h, fun _ h => (nomatch h), fun _ => rfl, fun _ => ⟨rfl, rfl, rfl⟩, fun _ => ⟨[], rfl, rfl, fun _ h => (nomatch h)⟩,
    fun _ _ h => (nomatch h), fun _ h => (nomatch h), fun h => (nomatch h)⟩

/-! ## The graphs met while a vertex is being linked -/

theorem seen_self {P : Params D} {vs : List Vec} {w : World} (wi : WInv P vs w) : SeenOK P.dim.toNat w.da w.da :=
  ⟨rfl, fun p mi h => by obtain ⟨_, b⟩ := wi.part p mi h; exact ⟨mi.graph, h, b.g, rfl, rfl⟩⟩

theorem rounds_inv {M : Metric D} (w : Ord M.lt) {g : Graph} {dim : Nat} (hd : DimOK M dim) (G : GOK g dim) {q : Vec} (hq : q.length = dim)
    {ls : Nat} {a b : SearchState D} (h : Rounds M g q ls a b) (I : SInv M g [] q a) : SInv M g [] q b := by
  induction h with
  | refl => exact I
  | step del _ h ih =>
    rcases round_spec w hd G hq ls del ih with ⟨r1, _⟩ | ⟨st', r1, r2, _⟩
    · rw [r1] at h; cases h
    · rw [r1] at h; cases h; exact r2

theorem chosen_spec {P : Params D} (o : Ord P.metric.lt) (hd : DimOK P.metric P.dim.toNat) {mi : MemIndex} (G : GOK mi.graph P.dim.toNat)
    {vec : Vec} (hv : vec.length = P.dim.toNat) {id : UInt64} {ns : List UInt64} (c : Chosen P mi vec id ns) :
    ∀ n ∈ ns, n ∈ AMap.keys mi.graph ∧ n ≠ id := by
  obtain ⟨sv, d, st, h1, h2, h3, _, h5⟩ := c.ex
  have I : SInv P.metric mi.graph [] vec st := by
    refine rounds_inv o hd G hv h3 ⟨?_, fun e he => (nomatch he), fun e he => (nomatch he), List.nodup_nil⟩
    intro e he
    dsimp only at he
    rw [init_single] at he
    rcases List.mem_singleton.mp he with rfl
    refine ⟨sv, ?_, h2⟩
    unfold vertexAt at h1
    dsimp only
    split at h1
    · cases h1; assumption
    · cases h1
  have hc : ∀ e ∈ st.found, e.id ∈ AMap.keys mi.graph := fun e he => by
    obtain ⟨⟨v, hg, _⟩, _⟩ := I.found e he
    exact mem_of_get hg
  obtain ⟨own, r, b1, b2, b3, b4, _⟩ := robustPrune_spec o P.close hd G mi.maxDegree { id := id, vector := vec } hv (fun x hx => (nomatch hx)) st.found hc
  rw [b1] at h5
  cases h5
  intro n hn
  refine ⟨?_, ?_⟩
  · obtain ⟨e, he, rfl⟩ := b4.sub n hn
    rcases List.mem_append.mp he with h | h
    · exact hc e h
    · have : e.id ∈ own.map Elem.id := List.mem_map_of_mem h
      rw [b3] at this; cases this
  · rintro rfl
    exact b4.out _ hn (List.mem_cons_self ..)

theorem linkView_spec {P : Params D} (o : Ord P.metric.lt) (hd : DimOK P.metric P.dim.toNat) {mi : MemIndex} (G : GOK mi.graph P.dim.toNat)
    {vec : Vec} {id : UInt64} {v : Vertex} (hid : mi.graph.get? id = some v) (hv : v = { id := id, vector := vec }) {g : Graph} (h : LinkView P mi vec id g) :
    GOK g P.dim.toNat ∧ AMap.keys g = AMap.keys mi.graph ∧ vecs g = vecs mi.graph := by
  have hlen : vec.length = P.dim.toNat := by have := G.vec _ _ hid; rw [hv] at this; exact this
  have mk : ∀ ns, (∀ n ∈ ns, n ∈ AMap.keys mi.graph ∧ n ≠ id) → GOK (mi.graph.set id { id := id, vector := vec, neighbors := ns }) P.dim.toNat ∧
      AMap.keys (mi.graph.set id { id := id, vector := vec, neighbors := ns }) = AMap.keys mi.graph ∧
      vecs (mi.graph.set id { id := id, vector := vec, neighbors := ns }) = vecs mi.graph := by
    intro ns hns
    obtain ⟨G1, k1⟩ := G.setNeighbors hid ns (fun n hn => (hns n hn).1) (fun h => (hns id h).2 rfl)
    have v1 := vecs_set hid ns
    subst hv
    exact ⟨G1, k1, v1⟩
  have hk : id ∈ AMap.keys mi.graph := mem_of_get hid
  cases h with
  | before => exact ⟨G, rfl, rfl⟩
  | @between pre post _ c h =>
    have hns := chosen_spec o hd G hlen c
    obtain ⟨G1, k1, v1⟩ := mk _ hns
    obtain ⟨g', a1, a2, a3, a4⟩ := linkAll_spec o P.close hd mi.maxDegree id pre _ G1 (k1 ▸ hk) (fun n hn => k1 ▸ hns n (List.mem_append_left _ hn))
    rw [a1] at h; cases h
    exact ⟨a2, a3.trans k1, a4.trans v1⟩
  | @appended pre post n nb g0 c h hnb =>
    have hns := chosen_spec o hd G hlen c
    obtain ⟨G1, k1, v1⟩ := mk _ hns
    obtain ⟨g', a1, a2, a3, a4⟩ := linkAll_spec o P.close hd mi.maxDegree id pre _ G1 (k1 ▸ hk) (fun n hn => k1 ▸ hns n (List.mem_append_left _ hn))
    rw [a1] at h; cases h
    have hg : g0.get? n = some nb := by
      unfold vertexAt at hnb
      split at hnb
      · cases hnb; assumption
      · cases hnb
    have hn := hns n (List.mem_append_right _ (List.mem_cons_self ..))
    obtain ⟨G2, k2⟩ := a2.setNeighbors hg (nb.neighbors ++ [id]) (fun x hx => by
        rcases List.mem_append.mp hx with h | h
        · exact a2.closed n nb hg x h
        · rcases List.mem_singleton.mp h with rfl; rw [a3, k1]; exact hk) (fun h => by
        rcases List.mem_append.mp h with h | h
        · exact a2.noself n nb hg h
        · exact hn.2 (List.mem_singleton.mp h))
    exact ⟨G2, k2.trans (a3.trans k1), (vecs_set hg _).trans (a4.trans v1)⟩

theorem sees_ok {P : Params D} (o : Ord P.metric.lt) (hd : DimOK P.metric P.dim.toNat) {vs : List Vec} {w : World} (wi : WInv P vs w) {seen : DA}
    (h : w.Sees P seen) : SeenOK P.dim.toNat w.da seen := by
  refine ⟨h.len, fun p mi hp => ?_⟩
  obtain ⟨_, b⟩ := wi.part p mi hp
  obtain ⟨g, h1, rfl | ⟨i, v, id, hi, hv⟩⟩ := h.part p mi hp
  · exact ⟨_, h1, b.g, rfl, rfl⟩
  · obtain ⟨⟨mi0, _, _, _, _, _, _, e⟩, _⟩ := wi.mid i v id p mi hi hp
    have hid : mi.graph.get? id = some { id := id, vector := v } := by rw [e]; exact AMap.get?_set_self _ _ _
    exact ⟨g, h1, linkView_spec o hd b.g hid rfl hv⟩

theorem World.Sees.refl (P : Params D) (w : World) : w.Sees P w.da := ⟨rfl, fun p mi h => ⟨mi.graph, h, Or.inl rfl⟩⟩

/-! ## What `link` does in one step is among what can be met -/

theorem Rounds.head {M : Metric D} {g : Graph} {q : Vec} {ls : Nat} {a b c : SearchState D} (del : List UInt32)
    (h : searchRound M g del q ls a = .ok (some b)) (r : Rounds M g q ls b c) : Rounds M g q ls a c := by
  induction r with
  | refl => exact .step del (.refl _) h
  | step d _ h1 ih => exact .step d ih h1

theorem rounds_of_loop {M : Metric D} (w : Ord M.lt) {g : Graph} {del : List UInt32} {q : Vec} {ls : Nat} : ∀ (fuel : Nat) (st st' : SearchState D),
    searchLoop M g del q ls fuel st = .ok st' → Rounds M g q ls st st' ∧ st'.results = [] := by
  intro fuel
  induction fuel with
  | zero => intro st st' h; cases h
  | succ fuel ih =>
    intro st st' h
    unfold searchLoop at h
    rcases mm_pop w.min st.results with ⟨h0, hp⟩ | ⟨e, rest, hp, _⟩
    · rw [hp] at h; cases h; exact ⟨.refl _, h0⟩
    · rw [hp] at h
      dsimp only at h
      split at h
      · rename_i hv
        obtain ⟨r, e⟩ := ih _ _ h
        exact ⟨r.head del (by unfold searchRound; rw [hp]; dsimp only; rw [if_pos hv]), e⟩
      · rename_i hv
        obtain ⟨v, h1, h⟩ := (bind_ok_iff _ _ _).mp h
        obtain ⟨l, h2, h⟩ := (bind_ok_iff _ _ _).mp h
        obtain ⟨r, e⟩ := ih _ _ h
        exact ⟨r.head del (by unfold searchRound; rw [hp]; dsimp only; rw [if_neg hv, h1]; simp only [ok_bind]; rw [h2]; rfl), e⟩

theorem chosen_of {P : Params D} (o : Ord P.metric.lt) {mi : MemIndex} {vec : Vec} {id : UInt64} {del : List UInt32} {vis : List (Elem D)} {ns : List UInt64}
    (h1 : mi.visit P.metric del vec P.listSize = .ok vis)
    (h2 : robustPrune P.metric P.close mi.graph mi.maxDegree { id := id, vector := vec } vis = .ok ns) : Chosen P mi vec id ns := by
  unfold MemIndex.visit at h1
  obtain ⟨sv, a1, h1⟩ := (bind_ok_iff _ _ _).mp h1
  split at h1
  · cases h1
  · obtain ⟨d, a2, h1⟩ := (bind_ok_iff _ _ _).mp h1
    obtain ⟨st, a3, h1⟩ := (bind_ok_iff _ _ _).mp h1
    cases h1
    obtain ⟨r, e⟩ := rounds_of_loop o _ _ _ a3
    exact ⟨sv, d, st, a1, a2, r, e, h2⟩

/-- the links `World.stepTask` makes in one step are among those a search can meet before it. -/
theorem link_view {P : Params D} (o : Ord P.metric.lt) {mi mi' : MemIndex} {vec : Vec} {id : UInt64} {del : List UInt32}
    (h : mi.link P.metric P.close del vec P.listSize id = .ok mi') : LinkView P mi vec id mi'.graph := by
  unfold MemIndex.link at h
  obtain ⟨vis, h1, h⟩ := (bind_ok_iff _ _ _).mp h
  obtain ⟨ns, h2, h⟩ := (bind_ok_iff _ _ _).mp h
  obtain ⟨g, h3, h⟩ := (bind_ok_iff _ _ _).mp h
  cases h
  have hc := chosen_of o h1 h2
  have e : ns = ns ++ [] := by simp
  rw [e] at hc
  exact .between hc (by rw [← e]; exact h3)

end Vectory.DiskAnn
