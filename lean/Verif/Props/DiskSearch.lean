import Verif.Lemmas.DiskWhole
/-! # C74, C75: `DiskAnn.Search` on an index filled by calls of `DiskAnn.Insert` -/
namespace Vectory
open DiskAnn
variable {D : Type}

/-- how many of the calls carried a vector of the index's dimension. -/
def acceptedCount (dim : UInt32) (ops : List (List UInt32 × Vec)) : Nat := (ops.filter (fun op => decide (op.2.length = dim.toNat))).length

/-- the last call carried a vector of the index's dimension. -/
def lastAccepted (dim : UInt32) (ops : List (List UInt32 × Vec)) : Prop := ∃ op, ops.getLast? = some op ∧ op.2.length = dim.toNat

namespace DiskAnn

structure SeqMore (P : Params D) (da : DA) (ops : List (List UInt32 × Vec)) : Prop where
  total : da.total = acceptedCount P.dim ops
  mod : da.newest % P.limit.toNat = acceptedCount P.dim ops % P.limit.toNat
  no : ¬ lastAccepted P.dim ops → da.newest < P.limit.toNat
  yes : lastAccepted P.dim ops → 1 ≤ da.newest

theorem acceptedCount_snoc (dim : UInt32) (ops : List (List UInt32 × Vec)) (op : List UInt32 × Vec) :
    acceptedCount dim (ops ++ [op]) = acceptedCount dim ops + (if op.2.length = dim.toNat then 1 else 0) := by
  unfold acceptedCount
  rw [List.filter_append, List.length_append]
  by_cases h : op.2.length = dim.toNat <;> simp [h]

theorem lastAccepted_snoc (dim : UInt32) (ops : List (List UInt32 × Vec)) (op : List UInt32 × Vec) :
    lastAccepted dim (ops ++ [op]) ↔ op.2.length = dim.toNat := by
  unfold lastAccepted
  simp

theorem more_step {P : Params D} (w : Ord P.metric.lt) (hd : DimOK P.metric P.dim.toNat) (hl : 1 ≤ P.limit.toNat) {da da' : DA}
    {ops : List (List UInt32 × Vec)} (s : SeqInv P da (ops.map Prod.snd)) (t : SeqMore P da ops) {op : List UInt32 × Vec} {r : Option Fail}
    (hn : ops.length + 2 < 18446744073709551616) (h : da.insert P op.1 op.2 = .ok (da', r)) : SeqMore P da' (ops ++ [op]) := by
  obtain ⟨h1, h2, _⟩ := insert_parts w hd hl s (by simpa using hn) h
  have hlt := DA.rw_lt s.p.ne
  have hle : da.newest ≤ P.limit.toNat := by
    unfold DA.newest; rw [List.getElem?_eq_getElem hlt]; exact s.le _ _ (List.getElem?_eq_getElem hlt)
  have hmod : (if da.newest = P.limit.toNat then 0 else da.newest) % P.limit.toNat = da.newest % P.limit.toNat := by
    split
    · rename_i h; rw [h]; simp
    · rfl
  have hsm : (if da.newest = P.limit.toNat then 0 else da.newest) < P.limit.toNat := by split <;> omega
  refine ⟨?_, ?_, ?_, ?_⟩
  · rw [h1, acceptedCount_snoc, t.total]
  · rw [h2, acceptedCount_snoc, Nat.add_mod, hmod, t.mod, ← Nat.add_mod]
  · rw [lastAccepted_snoc]; intro hv; rw [h2, if_neg hv]; omega
  · rw [lastAccepted_snoc]; intro hv; rw [h2, if_pos hv]; omega

theorem more_run {P : Params D} (w : Ord P.metric.lt) (hd : DimOK P.metric P.dim.toNat) (hl : 1 ≤ P.limit.toNat) (Q : MemIndex → Prop)
    (q1 : ∀ first, Q (newMemIndex first P.maxDegree P.dim)) (q2 : ∀ mi, Q mi → Q { mi with readOnly := true }) (B : Nat) :
    ∀ (ops pre : List (List UInt32 × Vec)) (da da' : DA) (rs : List (Option Fail)),
    (∀ op ∈ ops, ∀ mi mi' id first, BInv P.dim P.maxDegree first mi → id ∉ AMap.keys mi.graph → id.toNat ≤ B → Q mi →
        mi.graph.length < P.limit.toNat →
        mi.insert P.metric P.close op.1 op.2 P.listSize id = .ok mi' → Q mi') →
    pre.length + ops.length ≤ B →
    SeqInv P da (pre.map Prod.snd) → SeqMore P da pre → (∀ mi ∈ da.parts, Q mi) → pre.length + ops.length + 1 < 18446744073709551616 →
    insertAll P da ops = .ok (da', rs) →
    SeqInv P da' ((pre ++ ops).map Prod.snd) ∧ SeqMore P da' (pre ++ ops) ∧ ∀ mi ∈ da'.parts, Q mi := by
  intro ops
  induction ops with
  | nil => intro pre da da' rs _ _ s t hq _ h; cases h; rw [List.append_nil]; exact ⟨s, t, hq⟩
  | cons op ops ih =>
    intro pre da da' rs q3 hB s t hq hn h
    simp only [List.length_cons] at hn hB
    obtain ⟨da1, h1, s1⟩ := seq_step w hd hl s op.1 op.2 (by simp; omega)
    have t1 := more_step w hd hl s t (by omega) h1
    obtain ⟨_, _, p3⟩ := insert_parts w hd hl s (by simp; omega) h1
    have hq1 := p3 Q q1 q2 (fun mi mi' id first b hid hle hQ hlt hi => q3 op (List.mem_cons_self ..) mi mi' id first b hid
      (by simp at hle; omega) hQ hlt hi) hq
    have hins : ∃ rs', insertAll P da1 ops = .ok (da', rs') := by
      unfold insertAll at h
      rw [h1, ok_bind] at h
      dsimp only at h
      obtain ⟨⟨d, r⟩, k1, k2⟩ := (bind_ok_iff _ _ _).mp h
      cases k2; exact ⟨r, k1⟩
    obtain ⟨rs', hins⟩ := hins
    have := ih (pre ++ [op]) da1 da' rs' (fun o ho => q3 o (List.mem_cons_of_mem _ ho)) (by simp; omega)
      (by simpa using s1) t1 hq1 (by simp; omega) hins
    simpa using this

theorem seqInv_new (P : Params D) : SeqInv P (newDA P) [] := by
  refine ⟨DiskAnn.pinv_new P, rfl, ?_, ?_, ?_⟩
  · intro id v
    constructor
    · rintro ⟨p, hp⟩
      cases p with
      | zero => cases hp
      | succ p => cases hp
    · rintro ⟨i, hi, _⟩; cases hi
  · intro p mi _ hlt; exact absurd hlt (by simp [DA.rw, newDA])
  · intro p mi hp
    cases p with
    | zero => cases hp; exact Nat.zero_le _
    | succ p => cases hp

theorem seqMore_new (P : Params D) (hl : 1 ≤ P.limit.toNat) : SeqMore P (newDA P) [] :=
  ⟨rfl, rfl, fun _ => hl, fun ⟨_, h, _⟩ => by cases h⟩

/-- the newest part after a sequence of calls. -/
theorem newest_zero {P : Params D} {da : DA} {ops : List (List UInt32 × Vec)} (t : SeqMore P da ops) :
    da.newest = 0 ↔ (P.limit.toNat ∣ acceptedCount P.dim ops ∧ ¬ lastAccepted P.dim ops) := by
  rw [Nat.dvd_iff_mod_eq_zero, ← t.mod]
  constructor
  · intro h
    exact ⟨by rw [h]; simp, fun hl => by have := t.yes hl; omega⟩
  · rintro ⟨h1, h2⟩
    rw [Nat.mod_eq_of_lt (t.no h2)] at h1
    exact h1

end DiskAnn

/-- **C74.** After any calls of `DiskAnn.Insert`, one after the other and with any vectors and deletions, a search either panics (whatever
the query) or returns properly. It panics exactly when the number of accepted vectors is a multiple of the part size and the last call was
not an accepted one: nothing accepted yet, or a vector of the wrong length given while the newest part was full. Otherwise it returns, for
every query of the right dimension, at most `k` hits, none twice, each with the id of an accepted insert and the true distance of the vector
inserted there; nothing at all if object id 0 was deleted, and something if it was not and `k ≥ 1`. -/
theorem C74_search (P : Params D) (w : Ord P.metric.lt) (hd : DimOK P.metric P.dim.toNat) (hl : 1 ≤ P.limit.toNat)
    (ops : List (List UInt32 × Vec)) (hn : ops.length + 1 < 18446744073709551616) (da : DA) (rs : List (Option DiskAnn.Fail))
    (h : DiskAnn.insertAll P (newDA P) ops = .ok (da, rs)) (del : List UInt32) (k : Nat) :
    ((P.limit.toNat ∣ acceptedCount P.dim ops ∧ ¬ lastAccepted P.dim ops) → ∀ q, da.search P del q k = .error .nilDeref) ∧
    (¬ (P.limit.toNat ∣ acceptedCount P.dim ops ∧ ¬ lastAccepted P.dim ops) → ∀ q, q.length = P.dim.toNat →
      ∃ hits, da.search P del q k = .ok hits ∧ hits.length ≤ k ∧ (hits.map Elem.id).Nodup ∧
        (∀ e ∈ hits, ∃ i op, ops[i]? = some op ∧ op.2.length = P.dim.toNat ∧ e.id.toNat = i + 1 ∧ P.metric.dist op.2 q = .ok e.dist) ∧
        ((0 : UInt32) ∈ del → hits = []) ∧ ((0 : UInt32) ∉ del → 1 ≤ k → hits ≠ [])) := by
  obtain ⟨s, t, _⟩ := DiskAnn.more_run w hd hl (fun _ => True) (fun _ => trivial) (fun _ _ => trivial) ops.length ops [] _ _ _
    (fun _ _ _ _ _ _ _ _ _ _ _ _ => trivial) (by simp) (DiskAnn.seqInv_new P) (DiskAnn.seqMore_new P hl) (fun _ _ => trivial)
    (by simpa using hn) h
  rw [List.nil_append] at s t
  have hlt := DA.rw_lt s.p.ne
  have hget : da.parts[da.rw]? = some da.parts[da.rw] := List.getElem?_eq_getElem hlt
  have hnew : da.newest = da.parts[da.rw].graph.length := by unfold DA.newest; rw [hget]
  refine ⟨fun hb q => ?_, fun hb q hq => ?_⟩
  · have h0 := (DiskAnn.newest_zero t).mpr hb
    rw [hnew] at h0
    exact DiskAnn.da_search_empty s.p hget (List.length_eq_zero_iff.mp h0) del q k
  · have h0 : da.newest ≠ 0 := fun h => hb ((DiskAnn.newest_zero t).mp h)
    have hne : ∀ (p : Nat) (mi : MemIndex), da.parts[p]? = some mi → mi.graph ≠ [] := by
      intro p mi hp h1
      have hpl := (List.getElem?_eq_some_iff.mp hp).1
      by_cases he : p = da.rw
      · subst he
        rw [hget] at hp; cases hp
        rw [hnew, h1] at h0; exact h0 rfl
      · have hlt' : p < da.rw := by unfold DA.rw at he ⊢; omega
        have := s.full p mi hp hlt'
        rw [h1] at this
        simp at this; omega
    obtain ⟨out, a1, a2, a3, a4, a5, a6⟩ := DiskAnn.da_search w hd s.p hne del q hq k
    refine ⟨out, a1, a2, a3, ?_, a5, a6⟩
    intro e he
    obtain ⟨v, hv, hdv⟩ := a4 e he
    obtain ⟨i, h1, h2, h3⟩ := (s.holds e.id v).mp hv
    rw [List.getElem?_map] at h1
    cases hop : ops[i]? with
    | none => rw [hop] at h1; cases h1
    | some op =>
      rw [hop] at h1
      simp at h1
      subst h1
      exact ⟨i, op, hop, h2, h3, hdv⟩

namespace DiskAnn

/-- a part's `k` nearest vectors. -/
structure Best (M : Metric D) (q : Vec) (k : Nat) (mi : MemIndex) (hits : List (Elem D)) : Prop extends Hits M q mi hits where
  len : hits.length = min k mi.graph.length
  sorted : hits.Pairwise (fun a b => M.lt b.dist a.dist = false)
  best : ∀ x v d, mi.graph.get? x = some v → M.dist v.vector q = .ok d → x ∉ hits.map Elem.id → ∀ e ∈ hits, M.lt d e.dist = false

theorem part_exact {P : Params D} (w : Ord P.metric.lt) (hd : DimOK P.metric P.dim.toNat) {first : UInt64} {mi : MemIndex}
    (I : BInv P.dim P.maxDegree first mi) (hne : mi.graph ≠ []) (T : Tight mi.graph mi.s) (hi : Inj32 mi.graph)
    (hls : mi.graph.length * mi.graph.length ≤ P.listSize) (del : List UInt32) (h0 : (0 : UInt32) ∉ del) (q : Vec)
    (hq : q.length = P.dim.toNat) (k : Nat) : ∃ hits, mi.search P.metric del q k P.listSize = .ok hits ∧ Best P.metric q k mi hits := by
  have ho : mi.once = true := by
    cases h : mi.once with
    | true => rfl
    | false => exact absurd (I.fresh h).1 hne
  have hn : 1 ≤ mi.graph.length := List.length_pos_iff.mpr hne
  have hlinks := links_le I.g T
  obtain ⟨found, f1, f2, f3⟩ := visit_all w hd I.g hi (I.start ho) I.wired hq P.listSize (by omega) del h0
  have hfnd : (found.map Elem.id).Nodup := by
    have h4 : found.map (fun e => e.id.toUInt32) = (found.map Elem.id).map UInt64.toUInt32 := by rw [List.map_map]; rfl
    have h3 := f2.nd
    rw [h4] at h3
    exact (List.pairwise_map.mp h3).imp (fun h e => h (by rw [e]))
  have hflen : found.length = mi.graph.length := by
    refine Nat.le_antisymm ?_ ?_
    · rw [← List.length_map (f := Elem.id), ← AMap.length_keys]
      refine nodup_length_le hfnd ?_
      intro x hx
      obtain ⟨e, he, rfl⟩ := List.mem_map.mp hx
      obtain ⟨⟨v, hv, _⟩, _⟩ := f2.ok e he
      exact mem_of_get hv
    · rw [← List.length_map (f := Elem.id), ← AMap.length_keys]
      refine nodup_length_le I.g.nd ?_
      intro x hx
      obtain ⟨e, he, hex⟩ := f3 x (T.all x hx)
      exact hex ▸ List.mem_map_of_mem he
  obtain ⟨left, a1, a2, a3, a4⟩ := popK_spec w k (newMinHeap P.metric.lt found) (Heap.init_heap w.min _)
  have hperm : (newMinHeap P.metric.lt found).Perm found := Heap.init_perm _ _
  have hpf : found.Perm (popK (minLess P.metric.lt) k (newMinHeap P.metric.lt found) ++ left) := hperm.symm.trans a1
  refine ⟨_, by unfold MemIndex.search; rw [f1]; rfl, ⟨⟨?_, ?_⟩, ?_, a3, ?_⟩⟩
  · have h := (hpf.map Elem.id).nodup_iff.mp hfnd
    rw [List.map_append] at h
    exact (List.nodup_append.mp h).1
  · intro e he
    obtain ⟨⟨v, h1, h2⟩, _⟩ := f2.ok e (hpf.symm.subset (List.mem_append_left _ he))
    exact ⟨v, h1, h2⟩
  · rw [a2, hperm.length_eq, hflen]
  · intro x v d hx hdx hnot e he
    obtain ⟨c, hc, hcx⟩ := f3 x (T.all x (mem_of_get hx))
    rcases List.mem_append.mp (hpf.subset hc) with hc' | hc'
    · exact absurd (hcx ▸ List.mem_map_of_mem hc') hnot
    · obtain ⟨⟨v', h1, h2⟩, _⟩ := f2.ok c hc
      rw [hcx, hx] at h1; cases h1
      rw [hdx] at h2; cases h2
      exact a4 e he c hc'

theorem min_sum (k : Nat) : ∀ (ns ms : List Nat), ns.length = ms.length → (∀ (i n m : Nat), ns[i]? = some n → ms[i]? = some m → n = min k m) →
    min k ns.sum = min k ms.sum := by
  intro ns
  induction ns with
  | nil => intro ms h _; cases ms with | nil => rfl | cons _ _ => cases h
  | cons n ns ih =>
    intro ms h hp
    cases ms with
    | nil => cases h
    | cons m ms =>
      have h1 := hp 0 n m rfl rfl
      have h2 := ih ms (by simpa using h) (fun i a b ha hb => hp (i + 1) a b (by simpa using ha) (by simpa using hb))
      simp only [List.sum_cons]
      omega

theorem eq_of_id : ∀ {l : List (Elem D)}, (l.map Elem.id).Nodup → ∀ {a b : Elem D}, a ∈ l → b ∈ l → a.id = b.id → a = b := by
  intro l
  induction l with
  | nil => intro _ a b h; cases h
  | cons c l ih =>
    intro hnd a b ha hb hab
    simp only [List.map_cons, List.nodup_cons] at hnd
    rcases List.mem_cons.mp ha with h1 | h1 <;> rcases List.mem_cons.mp hb with h2 | h2
    · rw [h1, h2]
    · exact absurd (by rw [← h1, hab]; exact List.mem_map_of_mem h2) hnd.1
    · exact absurd (by rw [← h2, ← hab]; exact List.mem_map_of_mem h1) hnd.1
    · exact ih hnd.2 h1 h2 hab

/-- a search of the whole index, when every part gives its nearest. -/
theorem da_exact {P : Params D} (w : Ord P.metric.lt) {da : DA} (i : PInv P da) (del : List UInt32) (q : Vec) (k : Nat) (hk : 1 ≤ k)
    (hnew : 1 ≤ da.newest)
    (h : ∀ (p : Nat) (mi : MemIndex), da.parts[p]? = some mi → ∃ hits, mi.search P.metric del q k P.listSize = .ok hits ∧ Best P.metric q k mi hits) :
    ∃ x kept, da.search P del q k = .ok (x :: kept) ∧ ((x :: kept).map Elem.id).Nodup ∧ (x :: kept).length = min k da.total ∧
      (∀ e ∈ x :: kept, ∃ v, da.Holds e.id v ∧ P.metric.dist v q = .ok e.dist) ∧
      (∃ v, da.at da.rw x.id = some v) ∧
      (∀ id v d, da.at da.rw id = some v → P.metric.dist v q = .ok d → P.metric.lt d x.dist = false) ∧
      (∀ id v d, da.Holds id v → P.metric.dist v q = .ok d → id ∉ (x :: kept).map Elem.id → ∀ e ∈ kept, P.metric.lt d e.dist = false) := by
  obtain ⟨a, bs, rwi, hrw, ha, hqa, hb, hs, hlen, hbl, hall⟩ := search_parts i.ne (P := P) (del := del) (q := q) (k := k)
    (Q := fun mi hits => Best P.metric q k mi hits) h
  obtain ⟨hnd, hok⟩ := hits_all i hlen (fun p mi hp => by obtain ⟨h, a, b⟩ := hall p mi hp; exact ⟨h, a, b.toHits⟩)
  have hperm : (a ++ bs.flatten).Perm (bs ++ [a]).flatten := by
    rw [List.flatten_append]; simp only [List.flatten_cons, List.flatten_nil, List.append_nil]
    exact List.perm_append_comm
  have hnd' : ((a ++ bs.flatten).map Elem.id).Nodup := (hperm.map Elem.id).nodup_iff.mpr hnd
  have hok' : ∀ e ∈ a ++ bs.flatten, ∃ v, da.Holds e.id v ∧ P.metric.dist v q = .ok e.dist := fun e he => hok e (hperm.subset he)
  have hnewl : da.newest = rwi.graph.length := by unfold DA.newest; rw [hrw]
  have hane : a ≠ [] := by
    intro h0
    have := hqa.len
    rw [h0] at this
    simp at this; omega
  have htot : min k (a ++ bs.flatten).length = min k da.total := by
    rw [hperm.length_eq, List.length_flatten]
    unfold DA.total
    refine min_sum k _ _ (by simp only [List.length_map]; exact hlen) ?_
    intro p n m hn hm
    rw [List.getElem?_map] at hn hm
    cases hp : da.parts[p]? with
    | none => rw [hp] at hm; cases hm
    | some mi =>
      rw [hp] at hm
      obtain ⟨hits, h1, h2⟩ := hall p mi hp
      rw [h1] at hn
      simp at hn hm
      rw [← hn, ← hm]; exact h2.len
  cases hac : a with
  | nil => exact absurd hac hane
  | cons x as =>
    have hcons : a ++ bs.flatten = x :: (as ++ bs.flatten) := by rw [hac]; rfl
    obtain ⟨kept, dr, h1, h2, h3, h4⟩ := C61_merge_exact w k hk x (as ++ bs.flatten)
    rw [hcons] at hnd' hok' htot
    have hsub : ∀ e ∈ x :: kept, e ∈ x :: (as ++ bs.flatten) := by
      intro e he
      rcases List.mem_cons.mp he with rfl | he
      · exact List.mem_cons_self ..
      · exact List.mem_cons_of_mem _ (h2.symm.subset (List.mem_append_left _ he))
    have hlen' : (x :: kept).length = min k da.total := by
      rw [← htot]; simp only [List.length_cons]; omega
    have hxa : x ∈ a := by rw [hac]; exact List.mem_cons_self ..
    have hndk : ((x :: kept).map Elem.id).Nodup := by
      have h5 : ((x :: (kept ++ dr)).map Elem.id).Nodup := ((h2.cons x).map Elem.id).nodup_iff.mp hnd'
      rw [← List.cons_append, List.map_append] at h5
      exact (List.nodup_append.mp h5).1
    refine ⟨x, kept, by rw [hs, hcons]; exact h1, hndk, hlen', fun e he => hok' e (hsub e he), ?_, ?_, ?_⟩
    · obtain ⟨v, g1, _⟩ := hqa.ok x hxa
      exact ⟨v.vector, by unfold DA.at; rw [hrw]; simp [g1]⟩
    · intro id v d hat hdv
      unfold DA.at at hat
      rw [hrw] at hat
      simp only [Option.bind_some] at hat
      cases hg : AMap.get? rwi.graph id with
      | none => rw [hg] at hat; cases hat
      | some u =>
        rw [hg] at hat; simp at hat; subst hat
        by_cases hin : id ∈ a.map Elem.id
        · obtain ⟨e, he, hei⟩ := List.mem_map.mp hin
          obtain ⟨u', g1, g2⟩ := hqa.ok e he
          rw [hei, hg] at g1; cases g1
          rw [hdv] at g2; cases g2
          rw [hac] at he
          rcases List.mem_cons.mp he with rfl | he
          · exact w.irrefl _
          · have := hqa.sorted
            rw [hac] at this
            exact (List.pairwise_cons.mp this).1 e he
        · exact hqa.best id u d hg hdv hin x hxa
    · intro id v d hh hdv hnot e he
      obtain ⟨p, hat⟩ := hh
      unfold DA.at at hat
      cases hp : da.parts[p]? with
      | none => rw [hp] at hat; cases hat
      | some mi =>
        rw [hp] at hat
        simp only [Option.bind_some] at hat
        cases hg : AMap.get? mi.graph id with
        | none => rw [hg] at hat; cases hat
        | some u =>
          rw [hg] at hat; simp at hat; subst hat
          obtain ⟨hits, hh1, B⟩ := hall p mi hp
          have hin : ∀ b ∈ hits, b ∈ x :: (as ++ bs.flatten) := by
            intro b hb
            rw [← hcons]
            exact hperm.symm.subset (List.mem_flatten.mpr ⟨hits, List.mem_of_getElem? hh1, hb⟩)
          have hcase : ∀ b ∈ hits, b ∈ x :: kept ∨ b ∈ dr := by
            intro b hb
            rcases List.mem_cons.mp (hin b hb) with rfl | hb'
            · exact Or.inl (List.mem_cons_self ..)
            · rcases List.mem_append.mp (h2.subset hb') with h | h
              · exact Or.inl (List.mem_cons_of_mem _ h)
              · exact Or.inr h
          by_cases hid : id ∈ hits.map Elem.id
          · obtain ⟨b, hb, hbi⟩ := List.mem_map.mp hid
            obtain ⟨u', g1, g2⟩ := B.ok b hb
            rw [hbi, hg] at g1; cases g1
            rw [hdv] at g2; cases g2
            rcases hcase b hb with h | h
            · exact absurd (hbi ▸ List.mem_map_of_mem h) hnot
            · exact h4 e he b h
          · -- the part has more than `k` vectors
            have hful : hits.length = k := by
              rw [B.len]
              refine Nat.min_eq_left (Nat.le_of_not_lt fun hlt => ?_)
              have hle : (id :: hits.map Elem.id).length ≤ (AMap.keys mi.graph).length := by
                refine nodup_length_le (List.nodup_cons.mpr ⟨hid, B.nd⟩) ?_
                intro y hy
                rcases List.mem_cons.mp hy with rfl | hy
                · exact mem_of_get hg
                · obtain ⟨b, hb, rfl⟩ := List.mem_map.mp hy
                  obtain ⟨u', g1, _⟩ := B.ok b hb
                  exact mem_of_get g1
              rw [AMap.length_keys] at hle
              have := B.len
              simp only [List.length_cons, List.length_map] at hle
              omega
            by_cases hsome : ∃ b ∈ hits, b ∈ dr
            · obtain ⟨b, hb, hbd⟩ := hsome
              exact Le.trans w (h4 e he b hbd) (B.best id u d hg hdv hid b hb)
            · have hsubk : ∀ b ∈ hits, b ∈ x :: kept := fun b hb => (hcase b hb).resolve_right (fun h => hsome ⟨b, hb, h⟩)
              have hein : e ∈ hits := by
                by_cases hei : e.id ∈ hits.map Elem.id
                · obtain ⟨b, hb, hbe⟩ := List.mem_map.mp hei
                  rw [← eq_of_id hndk (hsubk b hb) (List.mem_cons_of_mem _ he) hbe]; exact hb
                · exfalso
                  have hle : (e.id :: hits.map Elem.id).length ≤ ((x :: kept).map Elem.id).length := by
                    refine nodup_length_le (List.nodup_cons.mpr ⟨hei, B.nd⟩) ?_
                    intro y hy
                    rcases List.mem_cons.mp hy with rfl | hy
                    · exact List.mem_map_of_mem (List.mem_cons_of_mem _ he)
                    · obtain ⟨b, hb, rfl⟩ := List.mem_map.mp hy
                      exact List.mem_map_of_mem (hsubk b hb)
                  rw [List.length_map, hlen'] at hle
                  simp only [List.length_cons, List.length_map] at hle
                  omega
              exact B.best id u d hg hdv hid e hein

end DiskAnn

/-- **C75.** When every part is small (its size limit is at most `maxDegree + 1`, and `listSize` is at least the square of the limit), fewer
than `2^32` vectors were inserted and object id 0 was never deleted, a search returns `min k n` of the `n` accepted vectors, none twice, with
their true distances: first the nearest vector of the newest part, then the `k - 1` nearest of all others. -/
theorem C75_small_parts (P : Params D) (w : Ord P.metric.lt) (hd : DimOK P.metric P.dim.toNat) (hl : 1 ≤ P.limit.toNat)
    (hdeg : P.limit.toNat ≤ P.maxDegree.toNat + 1) (hls : P.limit.toNat * P.limit.toNat ≤ P.listSize)
    (ops : List (List UInt32 × Vec)) (hn : ops.length < 2 ^ 32) (hdel : ∀ op ∈ ops, (0 : UInt32) ∉ op.1) (da : DA)
    (rs : List (Option DiskAnn.Fail)) (h : DiskAnn.insertAll P (newDA P) ops = .ok (da, rs))
    (hok : ¬ (P.limit.toNat ∣ acceptedCount P.dim ops ∧ ¬ lastAccepted P.dim ops))
    (del : List UInt32) (h0 : (0 : UInt32) ∉ del) (k : Nat) (hk : 1 ≤ k) (q : Vec) (hq : q.length = P.dim.toNat) :
    ∃ x others, da.search P del q k = .ok (x :: others) ∧ ((x :: others).map Elem.id).Nodup ∧
      (x :: others).length = min k (acceptedCount P.dim ops) ∧
      (∀ e ∈ x :: others, ∃ i op, ops[i]? = some op ∧ op.2.length = P.dim.toNat ∧ e.id.toNat = i + 1 ∧ P.metric.dist op.2 q = .ok e.dist) ∧
      (∃ v, da.at da.rw x.id = some v) ∧
      (∀ id v d, da.at da.rw id = some v → P.metric.dist v q = .ok d → P.metric.lt d x.dist = false) ∧
      (∀ (i : Nat) op d, ops[i]? = some op → op.2.length = P.dim.toNat → P.metric.dist op.2 q = .ok d →
        (∀ e ∈ x :: others, e.id.toNat ≠ i + 1) → ∀ e ∈ others, P.metric.lt d e.dist = false) := by
  obtain ⟨s, t, hQ⟩ := DiskAnn.more_run w hd hl (fun mi => DiskAnn.Tight mi.graph mi.s ∧ ∀ x ∈ AMap.keys mi.graph, x.toNat ≤ ops.length)
    (fun _ => ⟨⟨fun _ _ h => (nomatch h), fun _ h => (nomatch h)⟩, fun _ h => (nomatch h)⟩) (fun _ h => h) ops.length ops [] _ _ _
    (fun op hop mi mi' id first b hid hle hT hlt hi => by
      refine ⟨DiskAnn.insert_tight w P.close hd b op.1 (hdel op hop) op.2 P.listSize id hid hT.1 (by omega) hi, ?_⟩
      obtain ⟨hro, hv⟩ := DiskAnn.insert_ok P.close hi
      rw [b.dim] at hv
      obtain ⟨m2, k1, _, _, k4, _⟩ := DiskAnn.insert_spec w P.close hd b hro op.1 op.2 hv P.listSize id hid
      rw [hi] at k1; cases k1
      rw [k4]
      intro x hx
      rcases List.mem_append.mp hx with hx | hx
      · exact hT.2 x hx
      · rcases List.mem_singleton.mp hx with rfl; exact hle)
    (by simp) (DiskAnn.seqInv_new P) (DiskAnn.seqMore_new P hl)
    (fun mi hm => by
      rcases List.mem_singleton.mp hm with rfl
      exact ⟨⟨fun _ _ h => (nomatch h), fun _ h => (nomatch h)⟩, fun _ h => (nomatch h)⟩)
    (by simp; omega) h
  rw [List.nil_append] at s t
  have hnew : 1 ≤ da.newest := by
    rcases Nat.eq_zero_or_pos da.newest with h1 | h1
    · exact absurd ((DiskAnn.newest_zero t).mp h1) hok
    · exact h1
  have hlt := DA.rw_lt s.p.ne
  have hget : da.parts[da.rw]? = some da.parts[da.rw] := List.getElem?_eq_getElem hlt
  have hnewl : da.newest = da.parts[da.rw].graph.length := by unfold DA.newest; rw [hget]
  obtain ⟨x, kept, a1, a2, a3, a4, a5, a6, a7⟩ := DiskAnn.da_exact w s.p del q k hk hnew (by
    intro p mi hp
    obtain ⟨T, hsm⟩ := hQ mi (List.mem_of_getElem? hp)
    obtain ⟨first, b, _⟩ := s.p.part p mi hp
    have hle := s.le p mi hp
    have hne : mi.graph ≠ [] := by
      intro h1
      have hpl := (List.getElem?_eq_some_iff.mp hp).1
      by_cases he : p = da.rw
      · subst he
        rw [hget] at hp; cases hp
        rw [hnewl, h1] at hnew; simp at hnew
      · have hlt' : p < da.rw := by unfold DA.rw at he ⊢; omega
        have := s.full p mi hp hlt'
        rw [h1] at this
        simp at this; omega
    refine DiskAnn.part_exact w hd b hne T ?_ (Nat.le_trans (Nat.mul_le_mul hle hle) hls) del h0 q hq k
    intro a ha b hb hab
    have h1 := hsm a ha
    have h2 := hsm b hb
    have h3 := congrArg UInt32.toNat hab
    simp only [UInt64.toNat_toUInt32] at h3
    apply UInt64.toNat_inj.mp
    omega)
  refine ⟨x, kept, a1, a2, by rw [a3, t.total], ?_, a5, a6, ?_⟩
  · intro e he
    obtain ⟨v, hv, hdv⟩ := a4 e he
    obtain ⟨i, h1, h2, h3⟩ := (s.holds e.id v).mp hv
    rw [List.getElem?_map] at h1
    cases hop : ops[i]? with
    | none => rw [hop] at h1; cases h1
    | some op =>
      rw [hop] at h1
      simp at h1
      subst h1
      exact ⟨i, op, hop, h2, h3, hdv⟩
  · intro i op d hop hv hdv hnot e he
    have hi : i < ops.length := (List.getElem?_eq_some_iff.mp hop).1
    have hto : (UInt64.ofNat (i + 1)).toNat = i + 1 := by
      rw [UInt64.toNat_ofNat']
      exact Nat.mod_eq_of_lt (by omega)
    refine a7 (UInt64.ofNat (i + 1)) op.2 d ((s.holds _ _).mpr ⟨i, by rw [List.getElem?_map, hop]; rfl, hv, hto⟩) hdv ?_ e he
    intro hin
    obtain ⟨e', he', hid⟩ := List.mem_map.mp hin
    exact hnot e' he' (by rw [hid]; exact hto)

/-- **C75, one part.** As long as fewer vectors were accepted than fit into one part, the result is exactly the `k` nearest of all. -/
theorem C75_one_part (P : Params D) (w : Ord P.metric.lt) (hd : DimOK P.metric P.dim.toNat) (hl : 1 ≤ P.limit.toNat)
    (hdeg : P.limit.toNat ≤ P.maxDegree.toNat + 1) (hls : P.limit.toNat * P.limit.toNat ≤ P.listSize)
    (ops : List (List UInt32 × Vec)) (hn : ops.length < 2 ^ 32) (hdel : ∀ op ∈ ops, (0 : UInt32) ∉ op.1) (da : DA)
    (rs : List (Option DiskAnn.Fail)) (h : DiskAnn.insertAll P (newDA P) ops = .ok (da, rs))
    (hpos : 1 ≤ acceptedCount P.dim ops) (hfew : acceptedCount P.dim ops < P.limit.toNat)
    (del : List UInt32) (h0 : (0 : UInt32) ∉ del) (k : Nat) (hk : 1 ≤ k) (q : Vec) (hq : q.length = P.dim.toNat) :
    ∃ hits, da.search P del q k = .ok hits ∧ (hits.map Elem.id).Nodup ∧ hits.length = min k (acceptedCount P.dim ops) ∧
      (∀ e ∈ hits, ∃ i op, ops[i]? = some op ∧ op.2.length = P.dim.toNat ∧ e.id.toNat = i + 1 ∧ P.metric.dist op.2 q = .ok e.dist) ∧
      (∀ (i : Nat) op d, ops[i]? = some op → op.2.length = P.dim.toNat → P.metric.dist op.2 q = .ok d →
        (∀ e ∈ hits, e.id.toNat ≠ i + 1) → ∀ e ∈ hits, P.metric.lt d e.dist = false) := by
  obtain ⟨x, others, a1, a2, a3, a4, _, a6, a7⟩ := C75_small_parts P w hd hl hdeg hls ops hn hdel da rs h
    (fun ⟨h1, _⟩ => by have := Nat.le_of_dvd (by omega) h1; omega) del h0 k hk q hq
  refine ⟨x :: others, a1, a2, a3, a4, ?_⟩
  intro i op d hop hv hdv hnot e he
  rcases List.mem_cons.mp he with rfl | he
  · obtain ⟨s, t, _⟩ := DiskAnn.more_run w hd hl (fun _ => True) (fun _ => trivial) (fun _ _ => trivial) ops.length ops [] _ _ _
      (fun _ _ _ _ _ _ _ _ _ _ _ _ => trivial) (by simp) (DiskAnn.seqInv_new P) (DiskAnn.seqMore_new P hl) (fun _ _ => trivial)
      (by simp; omega) h
    rw [List.nil_append] at s t
    have hi : i < ops.length := (List.getElem?_eq_some_iff.mp hop).1
    have hto : (UInt64.ofNat (i + 1)).toNat = i + 1 := by
      rw [UInt64.toNat_ofNat']
      exact Nat.mod_eq_of_lt (by omega)
    obtain ⟨p, hp⟩ := (s.holds (UInt64.ofNat (i + 1)) op.2).mpr ⟨i, by rw [List.getElem?_map, hop]; rfl, hv, hto⟩
    have hprw : p = da.rw := by
      cases hpp : da.parts[p]? with
      | none => unfold DA.at at hp; rw [hpp] at hp; cases hp
      | some mi =>
        have hpl := (List.getElem?_eq_some_iff.mp hpp).1
        rcases Nat.lt_or_ge p da.rw with hlt | hge
        · exfalso
          have hf := s.full p mi hpp hlt
          have hmem : mi.graph.length ∈ da.parts.map (fun m => m.graph.length) := List.mem_map_of_mem (f := fun m : MemIndex => m.graph.length) (List.mem_of_getElem? hpp)
          have hsum : ∀ (l : List Nat) (n : Nat), n ∈ l → n ≤ l.sum := by
            intro l n
            induction l with
            | nil => intro h; cases h
            | cons a l ih =>
              intro h
              rcases List.mem_cons.mp h with rfl | h
              · simp
              · have := ih h; simp; omega
          have := hsum _ _ hmem
          have ht := t.total
          unfold DA.total at ht
          omega
        · unfold DA.rw at hge ⊢; omega
    subst hprw
    exact a6 _ _ d hp hdv
  · exact a7 i op d hop hv hdv hnot e he

end Vectory
