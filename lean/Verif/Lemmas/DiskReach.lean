import Verif.Props.DiskAnn
/-! # Small DiskANN parts: what a search visits -/
namespace Vectory.DiskAnn
open Vectory (Elem Metric Ord DimOK)
variable {D : Type}

/-- `b` can be reached from `a` along links. -/
inductive Path (g : Graph) (a : UInt64) : UInt64 → Prop where
  | refl : Path g a a
  | step {b c : UInt64} {v : Vertex} : Path g a b → g.get? b = some v → c ∈ v.neighbors → Path g a c

/-- cut to 32 bits, the ids are still different. -/
def Inj32 (g : Graph) : Prop := ∀ a ∈ AMap.keys g, ∀ b ∈ AMap.keys g, a.toUInt32 = b.toUInt32 → a = b

theorem trim_none {M : Metric D} (ls : Nat) : ∀ n (l : List (Elem D)), l.length ≤ ls → trim M ls n l = .ok l := by
  intro n l h
  cases n with
  | zero => rfl
  | succ n => unfold trim; rw [if_neg (by omega)]

theorem pushAll_all {M : Metric D} {g : Graph} {dim : Nat} (hd : DimOK M dim) (G : GOK g dim) {q : Vec}
    (hq : q.length = dim) (ls : Nat) : ∀ (ns : List UInt64) (l : List (Elem D)), (∀ n ∈ ns, n ∈ AMap.keys g) →
    (∀ e ∈ l, True' M g q e) → l.length + ns.length ≤ ls →
    ∃ l', ns.foldlM (pushNeighbor M g q ls) l = .ok l' ∧ (∀ e ∈ l', True' M g q e) ∧ l'.length = l.length + ns.length ∧
      (∀ e ∈ l, e ∈ l') ∧ (∀ n ∈ ns, ∃ e ∈ l', e.id = n) := by
  intro ns
  induction ns with
  | nil => intro l _ hl _; exact ⟨l, rfl, hl, by simp, fun e he => he, fun n hn => (nomatch hn)⟩
  | cons n ns ih =>
    intro l hn hl hls
    simp only [List.length_cons] at hls
    obtain ⟨v, hv⟩ := get_of_mem (hn n (List.mem_cons_self ..))
    obtain ⟨d, hdd⟩ := hd v.vector q (G.vec n v hv) hq
    have hp := MMHeap.push_perm (minLess M.lt) l { id := n, dist := d }
    have hlen := hp.length_eq
    simp only [List.length_cons] at hlen
    have h1 : pushNeighbor M g q ls l n = .ok (MMHeap.push (minLess M.lt) l { id := n, dist := d }) := by
      unfold pushNeighbor
      rw [vertexAt_of hv]
      simp only [ok_bind, hdd]
      exact trim_none ls _ _ (by omega)
    have ht : ∀ e ∈ MMHeap.push (minLess M.lt) l { id := n, dist := d }, True' M g q e := by
      intro e he
      rcases List.mem_cons.mp (hp.subset he) with rfl | h
      · exact ⟨v, hv, hdd⟩
      · exact hl e h
    obtain ⟨l2, k1, k2, k3, k4, k5⟩ := ih _ (fun x hx => hn x (List.mem_cons_of_mem _ hx)) ht (by omega)
    refine ⟨l2, ?_, k2, by simp only [List.length_cons]; omega, ?_, ?_⟩
    · rw [List.foldlM_cons, h1]; exact k1
    · intro e he; exact k4 e (hp.symm.subset (List.mem_cons_of_mem _ he))
    · intro m hm
      rcases List.mem_cons.mp hm with rfl | hm
      · exact ⟨_, k4 _ (hp.symm.subset (List.mem_cons_self ..)), rfl⟩
      · exact k5 m hm

/-- what holds while nothing is cut off: visited vertices were found, and their neighbours are visited or waiting. -/
structure Wide (g : Graph) (st : SearchState D) : Prop where
  found : ∀ k ∈ AMap.keys g, k.toUInt32 ∈ st.visited → ∃ e ∈ st.found, e.id = k
  next : ∀ k v, g.get? k = some v → k.toUInt32 ∈ st.visited → ∀ n ∈ v.neighbors, n.toUInt32 ∈ st.visited ∨ ∃ e ∈ st.results, e.id = n

theorem searchLoop_wide {M : Metric D} (w : Ord M.lt) {g : Graph} {dim : Nat} (hd : DimOK M dim) (G : GOK g dim) (hi : Inj32 g) {q : Vec}
    (hq : q.length = dim) (ls : Nat) (del : List UInt32) (h0 : (0 : UInt32) ∉ del) : ∀ fuel (st : SearchState D), SInv M g del q st →
    Wide g st → st.results.length + openLinks g st.visited ≤ ls → ∀ st', searchLoop M g del q ls fuel st = .ok st' →
    Wide g st' ∧ st'.results = [] ∧ (∀ x ∈ st.visited, x ∈ st'.visited) ∧ (∀ e ∈ st.results, e.id.toUInt32 ∈ st'.visited) := by
  intro fuel
  induction fuel with
  | zero => intro st _ _ _ st' h; cases h
  | succ fuel ih =>
    intro st I W hb st' h
    unfold searchLoop at h
    rcases mm_pop w.min st.results with ⟨he, h1⟩ | ⟨e, rest, h1, hp⟩
    · rw [h1] at h; cases h
      exact ⟨W, he, fun x hx => hx, fun e hx => by rw [he] at hx; cases hx⟩
    · rw [h1] at h
      dsimp only at h
      have hlen := hp.length_eq
      simp only [List.length_cons] at hlen
      have hrest : ∀ x ∈ rest, True' M g q x := fun x hx => I.res x (hp.symm.subset (List.mem_cons_of_mem _ hx))
      by_cases hv : e.id.toUInt32 ∈ st.visited
      · rw [if_pos hv] at h
        obtain ⟨a, b, c, d⟩ := ih { st with results := rest } ⟨hrest, I.found, I.seen, I.nd⟩
          ⟨W.found, fun k v hk hkv n hn => by
            rcases W.next k v hk hkv n hn with h | ⟨x, hx, hxn⟩
            · exact Or.inl h
            · rcases List.mem_cons.mp (hp.subset hx) with rfl | hx
              · rw [hxn] at hv; exact Or.inl hv
              · exact Or.inr ⟨x, hx, hxn⟩⟩ (by dsimp only; omega) st' h
        refine ⟨a, b, c, fun x hx => ?_⟩
        rcases List.mem_cons.mp (hp.subset hx) with rfl | hx
        · exact c _ hv
        · exact d x hx
      · rw [if_neg hv] at h
        obtain ⟨v, hg, hdv⟩ := I.res e (hp.symm.subset (List.mem_cons_self ..))
        rw [vertexAt_of hg] at h
        simp only [ok_bind] at h
        have hopen := openLinks_cons g e.id v st.visited (AMap.mem_of_get? hg) hv
        obtain ⟨l', h2, h3, h4, h5, h6⟩ := pushAll_all hd G hq ls v.neighbors rest (G.closed e.id v hg) hrest (by omega)
        rw [h2] at h
        simp only [ok_bind] at h
        rw [if_neg (by rw [G.obj _ _ hg]; exact h0)] at h
        have hek : e.id ∈ AMap.keys g := mem_of_get hg
        obtain ⟨a, b, c, d⟩ := ih (SearchState.mk l' (e.id.toUInt32 :: st.visited) (st.found ++ [e])) (by
            refine ⟨h3, ?_, ?_, ?_⟩
            · intro x hx
              rcases List.mem_append.mp hx with hx | hx
              · exact I.found x hx
              · rcases List.mem_singleton.mp hx with rfl
                exact ⟨⟨v, hg, hdv⟩, v, hg, by rw [G.obj _ _ hg]; exact h0⟩
            · intro x hx
              rcases List.mem_append.mp hx with hx | hx
              · exact List.mem_cons_of_mem _ (I.seen x hx)
              · rcases List.mem_singleton.mp hx with rfl
                exact List.mem_cons_self ..
            · dsimp only
              rw [List.map_append, List.nodup_append]
              refine ⟨I.nd, by simp, ?_⟩
              intro a ha b hb hab
              obtain ⟨x, hx, rfl⟩ := List.mem_map.mp ha
              simp only [List.map_cons, List.map_nil, List.mem_singleton] at hb
              exact hv (hb ▸ hab ▸ I.seen x hx))
          (by
            refine ⟨?_, ?_⟩
            · intro k hk hkv
              rcases List.mem_cons.mp hkv with hkv | hkv
              · exact ⟨e, by simp, (hi _ hk _ hek hkv).symm⟩
              · obtain ⟨x, hx, hxk⟩ := W.found k hk hkv
                exact ⟨x, List.mem_append_left _ hx, hxk⟩
            · intro k u hk hkv n hn
              dsimp only
              rcases List.mem_cons.mp hkv with hkv | hkv
              · have := hi _ (mem_of_get hk) _ hek hkv
                rw [this, hg] at hk; cases hk
                exact Or.inr (h6 n hn)
              · rcases W.next k u hk hkv n hn with h | ⟨x, hx, hxn⟩
                · exact Or.inl (List.mem_cons_of_mem _ h)
                · rcases List.mem_cons.mp (hp.subset hx) with rfl | hx
                  · exact Or.inl (by rw [hxn]; exact List.mem_cons_self ..)
                  · exact Or.inr ⟨x, h5 x hx, hxn⟩)
          (by dsimp only; omega) st' h
        refine ⟨a, b, fun x hx => c x (List.mem_cons_of_mem _ hx), fun x hx => ?_⟩
        rcases List.mem_cons.mp (hp.subset hx) with rfl | hx
        · exact c _ (List.mem_cons_self ..)
        · exact d x (h5 x hx)

/-- with a list long enough for all links, a search visits everything that can be reached. -/
theorem visit_all {M : Metric D} (w : Ord M.lt) {mi : MemIndex} {dim : Nat} (hd : DimOK M dim) (G : GOK mi.graph dim) (hi : Inj32 mi.graph)
    (hs : mi.s ∈ AMap.keys mi.graph) (hw : mi.wired = true) {q : Vec} (hq : q.length = dim) (ls : Nat) (hls : links mi.graph + 1 ≤ ls)
    (del : List UInt32) (h0 : (0 : UInt32) ∉ del) :
    ∃ found, mi.visit M del q ls = .ok found ∧ Found M mi.graph del q found ∧ ∀ k, Path mi.graph mi.s k → ∃ e ∈ found, e.id = k := by
  obtain ⟨v, hv⟩ := get_of_mem hs
  obtain ⟨d, hdd⟩ := hd v.vector q (G.vec _ v hv) hq
  have I0 : SInv M mi.graph del q { results := MMHeap.init (minLess M.lt) [{ id := mi.s, dist := d }], visited := [], found := [] } :=
    ⟨by
      intro e he
      rw [init_single] at he
      rcases List.mem_singleton.mp he with rfl
      exact ⟨v, hv, hdd⟩, fun e he => (nomatch he), fun e he => (nomatch he), List.nodup_nil⟩
  obtain ⟨st, h1, h2, _⟩ := searchLoop_spec w hd G hq ls del (links mi.graph + 2) _ I0
    (by dsimp only; rw [init_single, openLinks_nil]; simp; omega)
  obtain ⟨W, hr, _, hvis⟩ := searchLoop_wide w hd G hi hq ls del h0 _ _ I0 ⟨fun _ _ h => (nomatch h), fun _ _ _ h => (nomatch h)⟩
    (by dsimp only; rw [init_single, openLinks_nil]; simp; omega) st h1
  refine ⟨st.found, ?_, ⟨h2.found, h2.nd⟩, ?_⟩
  · unfold MemIndex.visit
    rw [vertexAt_of hv]
    simp only [ok_bind, hw, Bool.true_eq_false, if_false, hdd, h1]
  · intro k hk
    have : k ∈ AMap.keys mi.graph ∧ k.toUInt32 ∈ st.visited := by
      induction hk with
      | refl => exact ⟨hs, hvis ⟨mi.s, d⟩ (by rw [init_single]; simp)⟩
      | @step b c u _ hb hc ih =>
        refine ⟨G.closed b u hb c hc, ?_⟩
        rcases W.next b u hb ih.2 c hc with h | ⟨e, he, _⟩
        · exact h
        · rw [hr] at he; cases he
    exact W.found k this.1 this.2

/-- unless object id 0 is deleted, every search finds the start vertex. -/
theorem visit_entry {M : Metric D} (w : Ord M.lt) {mi : MemIndex} {dim : Nat} (hd : DimOK M dim) (G : GOK mi.graph dim)
    (hs : mi.s ∈ AMap.keys mi.graph) (hw : mi.wired = true) {q : Vec} (hq : q.length = dim) (ls : Nat) (del : List UInt32)
    (h0 : (0 : UInt32) ∉ del) : ∃ found, mi.visit M del q ls = .ok found ∧ Found M mi.graph del q found ∧ ∃ e ∈ found, e.id = mi.s := by
  obtain ⟨v, hv⟩ := get_of_mem hs
  obtain ⟨d, hdd⟩ := hd v.vector q (G.vec _ v hv) hq
  have hpop : MMHeap.pop (minLess M.lt) [(⟨mi.s, d⟩ : Elem D)] = some (⟨mi.s, d⟩, []) := by
    rcases mm_pop w.min [(⟨mi.s, d⟩ : Elem D)] with ⟨h, _⟩ | ⟨x, rest, h, hp⟩
    · cases h
    · have hl := hp.length_eq
      simp only [List.length_cons, List.length_nil] at hl
      have : rest = [] := List.length_eq_zero_iff.mp (by omega)
      subst this
      have := List.perm_singleton.mp hp.symm
      cases this; exact h
  have I0 : ∀ l', (∀ e ∈ l', True' M mi.graph q e) →
      SInv M mi.graph del q { results := l', visited := [mi.s.toUInt32], found := [⟨mi.s, d⟩] } := by
    intro l' hl'
    refine ⟨hl', ?_, ?_, by simp⟩
    · intro e he
      rcases List.mem_singleton.mp he with rfl
      exact ⟨⟨v, hv, hdd⟩, v, hv, by rw [G.obj _ _ hv]; exact h0⟩
    · intro e he
      rcases List.mem_singleton.mp he with rfl
      exact List.mem_singleton.mpr rfl
  obtain ⟨l', k1, k2, k3⟩ := pushAll_spec w hd G hq ls v.neighbors [] (G.closed _ v hv) (fun e he => (nomatch he))
  have hopen := openLinks_cons mi.graph mi.s v [] (AMap.mem_of_get? hv) (fun h => nomatch h)
  rw [openLinks_nil] at hopen
  obtain ⟨st, h1, h2, _, h3⟩ := searchLoop_spec w hd G hq ls del (links mi.graph + 1) _ (I0 l' k2)
    (by dsimp only; simp only [List.length_nil] at k3; omega)
  refine ⟨st.found, ?_, ⟨h2.found, h2.nd⟩, ⟨mi.s, d⟩, h3 _ (List.mem_singleton.mpr rfl), rfl⟩
  unfold MemIndex.visit
  rw [vertexAt_of hv]
  simp only [ok_bind, hw, Bool.true_eq_false, if_false, hdd]
  rw [init_single, searchLoop, hpop]
  dsimp only
  rw [if_neg (by simp), vertexAt_of hv]
  simp only [ok_bind]
  rw [k1]
  simp only [ok_bind, List.nil_append]
  rw [if_neg (by rw [G.obj _ _ hv]; exact h0), h1]
  rfl

end Vectory.DiskAnn
