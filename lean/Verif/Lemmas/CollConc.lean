import Verif.Model.CollConc
import Verif.Lemmas.ConcReal
import Verif.Lemmas.CollMore
/-! The invariant of a batch in progress. -/
namespace Vectory.Conc
open Vectory
variable {V D : Type}

/-! ### Counting -/

def tsum (f : Task → Nat) (ts : List Task) : Nat := (ts.map f).sum

theorem tsum_set (f : Task → Nat) : ∀ (ts : List Task) (i : Nat) (t t' : Task), ts[i]? = some t →
    tsum f (ts.set i t') + f t = tsum f ts + f t' := by
  intro ts
  induction ts with
  | nil => intro i t t' h; simp at h
  | cons x ts ih =>
    intro i t t' h
    cases i with
    | zero =>
      simp only [List.getElem?_cons_zero, Option.some.injEq] at h
      subst h
      simp only [tsum, List.set_cons_zero, List.map_cons, List.sum_cons]; omega
    | succ i =>
      simp only [List.getElem?_cons_succ] at h
      have := ih i t t' h
      simp only [tsum, List.set_cons_succ, List.map_cons, List.sum_cons] at this ⊢; omega

theorem tsum_le (f : Task → Nat) : ∀ (ts : List Task) (i : Nat) (t : Task), ts[i]? = some t → f t ≤ tsum f ts := by
  intro ts
  induction ts with
  | nil => intro i t h; simp at h
  | cons x ts ih =>
    intro i t h
    simp only [tsum, List.map_cons, List.sum_cons]
    cases i with
    | zero => simp only [List.getElem?_cons_zero, Option.some.injEq] at h; subst h; omega
    | succ i => simp only [List.getElem?_cons_succ] at h; have := ih i t h; simp only [tsum] at this; omega

theorem tsum_zero (f : Task → Nat) (ts : List Task) (h : ∀ t ∈ ts, f t = 0) : tsum f ts = 0 := by
  induction ts with
  | nil => rfl
  | cons x ts ih =>
    have h1 := ih (fun t ht => h t (List.mem_cons_of_mem _ ht))
    have h2 := h x List.mem_cons_self
    simp only [tsum, List.map_cons, List.sum_cons] at h1 ⊢
    omega

/-- the task has taken or will take `k`, but has not fetched an id for it. -/
def pend (k : Nat) (t : Task) : Nat := t.todo.count k + if t.pc = .fetch k then 1 else 0
def at1 (k : Nat) (t : Task) : Nat := if t.pc = .putObj k then 1 else 0
def at2 (k : Nat) (t : Task) : Nat := if t.pc = .putVec k then 1 else 0

/-- every position of the batch is at exactly one stage. -/
structure Cnt (len : Nat) (queue : List Nat) (tasks : List Task) (F A B X0 X1 X2 : List Nat) : Prop where
  once : ∀ k, queue.count k + tsum (pend k) tasks + F.count k + X0.count k = (List.range len).count k
  stA : ∀ k, A.count k + tsum (at1 k) tasks + X1.count k = F.count k
  stB : ∀ k, B.count k + tsum (at2 k) tasks + X2.count k = A.count k

theorem count_range_le (n k : Nat) : (List.range n).count k ≤ 1 := List.nodup_iff_count.mp List.nodup_range k

theorem lt_of_count_range {n k : Nat} (h : 1 ≤ (List.range n).count k) : k < n :=
  List.mem_range.mp (List.count_pos_iff.mp h)

/-- the stages of one task's position move by one. -/
theorem Cnt.move {len : Nat} {queue queue' : List Nat} {tasks : List Task} {F A B X0 X1 X2 F' A' B' X0' X1' X2' : List Nat}
    (c : Cnt len queue tasks F A B X0 X1 X2) {i : Nat} {t t' : Task} (ht : tasks[i]? = some t)
    (h0 : ∀ k, queue'.count k + pend k t' + F'.count k + X0'.count k + tsum (pend k) tasks =
      queue.count k + pend k t + F.count k + X0.count k + tsum (pend k) tasks)
    (hA : ∀ k, A'.count k + at1 k t' + X1'.count k + F.count k = A.count k + at1 k t + X1.count k + F'.count k)
    (hB : ∀ k, B'.count k + at2 k t' + X2'.count k + A.count k = B.count k + at2 k t + X2.count k + A'.count k) :
    Cnt len queue' (tasks.set i t') F' A' B' X0' X1' X2' := by
  refine ⟨fun k => ?_, fun k => ?_, fun k => ?_⟩
  · have := c.once k; have := h0 k; have := tsum_set (pend k) tasks i t t' ht; omega
  · have := c.stA k; have := hA k; have := tsum_set (at1 k) tasks i t t' ht; omega
  · have := c.stB k; have := hB k; have := tsum_set (at2 k) tasks i t t' ht; omega

/-! ### The data -/

/-- what is written for the object at position `k`. -/
def objBytes (L : Lib V D) (objs : List (Object V)) (k : Nat) : Bytes :=
  match objs[k]? with
  | none => []
  | some o =>
    match serializeProperties L.json o with
    | .ok b => b
    | .error _ => []

def vecAt (objs : List (Object V)) (k : Nat) : Vec :=
  match objs[k]? with
  | none => []
  | some o => o.vec.getD []

/-- `F`: the positions that have fetched an id, with the id, in that order; `A`: those whose object was put; `B`: those whose vector
was put; `X0`: those whose fetch failed. -/
structure Dat (L : Lib V D) (c0 : Coll) (objs0 : List (Object V)) (st : Stores) (ctr : IdCounter) (objs : List (Object V))
    (F A B : List (Nat × UInt64)) (X0 : List Nat) : Prop where
  same : ∀ k : Nat, (objs[k]?).map (fun o : Object V => (o.props, o.vec)) = (objs0[k]?).map (fun o : Object V => (o.props, o.vec))
  ids : ∀ p ∈ F, ∃ o : Object V, objs[p.1]? = some o ∧ o.id = p.2
  rest : ∀ k : Nat, k ∉ F.map Prod.fst → objs[k]? = objs0[k]?
  count : ctr.count.toNat = c0.counter.count.toNat + F.length + X0.length
  cl : ctr.closed = c0.counter.closed
  file : (F = [] → ctr.file = c0.counter.file)
  ctrOK : ∀ f0, CounterOK c0.counter f0 → ∃ f, CounterOK ctr f ∧ f0.toNat ≤ f.toNat ∧ ∀ p ∈ F, p.2.toNat < f.toNat
  lo : ∀ p ∈ F, c0.counter.count.toNat ≤ p.2.toNat
  hi : ∀ p ∈ F, p.2.toNat < ctr.count.toNat
  inc : (F.map (fun p => p.2.toNat)).Pairwise (· < ·)
  exact : X0 = [] → F.map (fun p => p.2.toNat) = List.range' c0.counter.count.toNat F.length
  subA : ∀ p ∈ A, p ∈ F
  subB : ∀ p ∈ B, p ∈ A
  objects : st.objects = c0.stores.objects ++ A.map (fun p => (keyOf p.2, objBytes L objs0 p.1))
  vectors : st.vectors = c0.stores.vectors ++ B.map (fun p => (keyOf p.2, serializeVector (vecAt objs0 p.1)))
  ser : ∀ p ∈ A, ∃ (o : Object V) (text : Bytes), objs0[p.1]? = some o ∧ L.json.marshal o.props = some text

theorem Dat.inj {L : Lib V D} {c0 : Coll} {objs0 objs : List (Object V)} {st : Stores} {ctr : IdCounter} {F A B : List (Nat × UInt64)}
    {X0 : List Nat} (d : Dat L c0 objs0 st ctr objs F A B X0) {a b : Nat} {id : UInt64} (ha : (a, id) ∈ F) (hb : (b, id) ∈ F) :
    a = b := by
  have h := d.inc
  clear d
  induction F with
  | nil => cases ha
  | cons p F ih =>
    rw [List.map_cons, List.pairwise_cons] at h
    have key : ∀ c, (c, id) ∈ F → p.2.toNat < id.toNat := fun c hc => h.1 _ (List.mem_map.mpr ⟨(c, id), hc, rfl⟩)
    rcases List.mem_cons.mp ha with ha | ha <;> rcases List.mem_cons.mp hb with hb | hb
    · rw [← ha] at hb; cases hb; rfl
    · have := key _ hb; rw [← ha] at this; exact absurd this (Nat.lt_irrefl _)
    · have := key _ ha; rw [← hb] at this; exact absurd this (Nat.lt_irrefl _)
    · exact ih ha hb h.2

theorem Dat.at {L : Lib V D} {c0 : Coll} {objs0 objs : List (Object V)} {st : Stores} {ctr : IdCounter} {F A B : List (Nat × UInt64)}
    {X0 : List Nat} (d : Dat L c0 objs0 st ctr objs F A B X0) {k : Nat} {o : Object V} (ho : objs[k]? = some o)
    (hk : k ∈ F.map Prod.fst) : (k, o.id) ∈ F ∧ ∃ o0, objs0[k]? = some o0 ∧ o.props = o0.props ∧ o.vec = o0.vec := by
  obtain ⟨⟨k', id⟩, h1, h2⟩ := List.mem_map.mp hk
  dsimp only at h2
  subst h2
  obtain ⟨o', h3, h4⟩ := d.ids _ h1
  dsimp only at h3 h4
  rw [ho] at h3
  cases h3
  refine ⟨by rw [h4]; exact h1, ?_⟩
  have hs := d.same k'
  rw [ho] at hs
  cases h5 : objs0[k']? with
  | none => rw [h5] at hs; cases hs
  | some o0 =>
    rw [h5] at hs
    simp only [Option.map_some, Option.some.injEq, Prod.mk.injEq] at hs
    exact ⟨o0, rfl, hs.1, hs.2⟩

/-- the keys used by the batch are not old ones. -/
theorem fresh_key {L : Lib V D} {dim : Nat} {S : Prop} {X : UInt64 → Prop} {c0 : Coll} (i : WInv S L dim X c0) {id : UInt64}
    (h : c0.counter.count.toNat ≤ id.toNat) :
    keyOf id ∉ c0.stores.objects.keys ∧ keyOf id ∉ c0.stores.vectors.keys ∧ id ∉ c0.index.nodes.keys := by
  obtain ⟨f, hf, hu⟩ := i.ids
  have h1 := hf.2
  refine ⟨fun hk => ?_, fun hk => ?_, fun hk => ?_⟩
  · have := hu id (Or.inl hk); omega
  · have := hu id (Or.inr (Or.inl hk)); omega
  · have := hu id (Or.inr (Or.inl ((vkey_iff i id).mpr hk))); omega

section
variable {L : Lib V D} {c0 : Coll} {objs0 objs : List (Object V)} {st : Stores} {ctr : IdCounter} {F A B : List (Nat × UInt64)}
  {X0 : List Nat}

theorem Dat.fetchFail (d : Dat L c0 objs0 st ctr objs F A B X0) (k : Nat) (hb : ctr.count.toNat + 1 < 18446744073709551616) :
    Dat L c0 objs0 st { ctr with count := ctr.count + 1 } objs F A B (X0 ++ [k]) := by
  have hc : (ctr.count + 1).toNat = ctr.count.toNat + 1 := by
    rw [UInt64.toNat_add]; show (ctr.count.toNat + 1) % 2 ^ 64 = _; omega
  refine ⟨d.same, d.ids, d.rest, ?_, d.cl, d.file, ?_, d.lo, ?_, d.inc, ?_, d.subA, d.subB, d.objects, d.vectors, d.ser⟩
  · have := d.count
    simp only [hc, List.length_append, List.length_cons, List.length_nil]; omega
  · intro f0 h0
    obtain ⟨f, h1, h2, h3⟩ := d.ctrOK f0 h0
    exact ⟨f, (counter_step h1 hb).1, h2, h3⟩
  · intro p hp
    have := d.hi p hp
    show p.2.toNat < (ctr.count + 1).toNat
    omega
  · intro h
    exact absurd h (by simp)

theorem Dat.fetch (d : Dat L c0 objs0 st ctr objs F A B X0) {k : Nat} (hk : k ∉ F.map Prod.fst) (hlen : k < objs.length)
    (hb : ctr.count.toNat + 1 < 18446744073709551616) :
    Dat L c0 objs0 st { ctr with count := ctr.count + 1, file := overwrite ctr.file (putUint64 (ctr.count + 1)) }
      (objs.modify k (fun o => { o with id := ctr.count })) (F ++ [(k, ctr.count)]) A B X0 := by
  have hc : (ctr.count + 1).toNat = ctr.count.toNat + 1 := by
    rw [UInt64.toNat_add]; show (ctr.count.toNat + 1) % 2 ^ 64 = _; omega
  have hcount := d.count
  refine ⟨?_, ?_, ?_, ?_, d.cl, ?_, ?_, ?_, ?_, ?_, ?_, ?_, d.subB, d.objects, d.vectors, d.ser⟩
  · intro n
    rw [← d.same n, List.getElem?_modify]
    cases objs[n]? with
    | none => rfl
    | some o => by_cases h : k = n <;> simp [h]
  · intro p hp
    rcases List.mem_append.mp hp with hp | hp
    · obtain ⟨o, h1, h2⟩ := d.ids p hp
      have hne : k ≠ p.1 := fun e => hk (e ▸ List.mem_map.mpr ⟨p, hp, rfl⟩)
      exact ⟨o, by rw [List.getElem?_modify, h1]; simp [hne], h2⟩
    · rw [List.mem_singleton] at hp
      subst hp
      refine ⟨{ objs[k] with id := ctr.count }, ?_, rfl⟩
      simp [List.getElem?_eq_getElem hlen]
  · intro n hn
    rw [List.map_append, List.mem_append, not_or] at hn
    have hne : k ≠ n := fun e => hn.2 (by simp [e])
    rw [List.getElem?_modify, ← d.rest n hn.1]
    cases objs[n]? <;> simp [hne]
  · simp only [hc, List.length_append, List.length_cons, List.length_nil]; omega
  · intro h; exact absurd h (by simp)
  · intro f0 h0
    obtain ⟨f, h1, h2, h3⟩ := d.ctrOK f0 h0
    have h4 := (counter_step h1 hb).2.2
    have h5 := h1.2
    refine ⟨_, h4, by omega, ?_⟩
    intro p hp
    rcases List.mem_append.mp hp with hp | hp
    · have := h3 p hp; omega
    · rw [List.mem_singleton] at hp; subst hp; show ctr.count.toNat < _; omega
  · intro p hp
    rcases List.mem_append.mp hp with hp | hp
    · exact d.lo p hp
    · rw [List.mem_singleton] at hp; subst hp; show _ ≤ ctr.count.toNat; omega
  · intro p hp
    show p.2.toNat < (ctr.count + 1).toNat
    rcases List.mem_append.mp hp with hp | hp
    · have := d.hi p hp; omega
    · rw [List.mem_singleton] at hp; subst hp; show ctr.count.toNat < _; omega
  · rw [List.map_append, List.pairwise_append]
    refine ⟨d.inc, by simp, ?_⟩
    intro a ha b hb'
    obtain ⟨p, hp, rfl⟩ := List.mem_map.mp ha
    simp only [List.map_cons, List.map_nil, List.mem_singleton] at hb'
    subst hb'
    exact d.hi p hp
  · intro hx
    subst hx
    simp at hcount
    rw [List.map_append, d.exact rfl, List.length_append]
    simp only [List.map_cons, List.map_nil, List.length_cons, List.length_nil, Nat.zero_add]
    rw [List.range'_concat, hcount, Nat.one_mul]
  · intro p hp
    exact List.mem_append_left _ (d.subA p hp)

theorem Dat.putObj {dim : Nat} {S : Prop} {X : UInt64 → Prop} (i : WInv S L dim X c0) (d : Dat L c0 objs0 st ctr objs F A B X0)
    {k : Nat} {o : Object V} {bytes : Bytes} (ho : objs[k]? = some o) (hF : k ∈ F.map Prod.fst) (hA : k ∉ A.map Prod.fst)
    (hs : serializeProperties L.json o = .ok bytes) :
    Dat L c0 objs0 { st with objects := st.objects.set (keyOf o.id) bytes } ctr objs F (A ++ [(k, o.id)]) B X0 := by
  obtain ⟨h1, o0, h2, h3, h4⟩ := d.at ho hF
  have hm : ∃ text, L.json.marshal o.props = some text := by
    unfold serializeProperties at hs
    cases hm : L.json.marshal o.props with
    | none => rw [hm] at hs; cases hs
    | some t => exact ⟨t, rfl⟩
  obtain ⟨text, hm⟩ := hm
  refine ⟨d.same, d.ids, d.rest, d.count, d.cl, d.file, d.ctrOK, d.lo, d.hi, d.inc, d.exact, ?_, ?_, ?_, d.vectors, ?_⟩
  · intro p hp
    rcases List.mem_append.mp hp with hp | hp
    · exact d.subA p hp
    · rw [List.mem_singleton] at hp; subst hp; exact h1
  · intro p hp; exact List.mem_append_left _ (d.subB p hp)
  · show st.objects.set (keyOf o.id) bytes = _
    rw [AMap.set_absent]
    · rw [d.objects, List.map_append, List.append_assoc]
      congr 1
      have : objBytes L objs0 k = bytes := by
        unfold objBytes
        rw [h2]
        unfold serializeProperties at hs ⊢
        rw [h3] at hs
        dsimp only
        rw [hs]
      simp [this]
    · rw [d.objects]
      intro hk
      unfold AMap.keys at hk
      rw [List.map_append, List.mem_append] at hk
      rcases hk with hk | hk
      · exact (fresh_key i (d.lo _ h1)).1 hk
      · rw [List.map_map] at hk
        obtain ⟨p, hp, e⟩ := List.mem_map.mp hk
        have e : p.2 = o.id := keyOf_inj e
        have : p.1 = k := d.inj (id := o.id) (by rw [← e]; exact d.subA p hp) h1
        exact hA (by rw [← this]; exact List.mem_map.mpr ⟨p, hp, rfl⟩)
  · intro p hp
    rcases List.mem_append.mp hp with hp | hp
    · exact d.ser p hp
    · rw [List.mem_singleton] at hp; subst hp; exact ⟨o0, text, h2, by rw [← h3]; exact hm⟩

theorem Dat.putVec {dim : Nat} {S : Prop} {X : UInt64 → Prop} (i : WInv S L dim X c0) (d : Dat L c0 objs0 st ctr objs F A B X0)
    {k : Nat} {o : Object V} (ho : objs[k]? = some o) (hF : k ∈ A.map Prod.fst) (hB : k ∉ B.map Prod.fst) :
    Dat L c0 objs0 { st with vectors := st.vectors.set (keyOf o.id) (serializeVector (o.vec.getD [])) } ctr objs F A
      (B ++ [(k, o.id)]) X0 ∧ o.vec.getD [] = vecAt objs0 k ∧ c0.counter.count.toNat ≤ o.id.toNat ∧ o.id ∉ B.map Prod.snd := by
  have hF' : k ∈ F.map Prod.fst := by
    obtain ⟨p, hp, e⟩ := List.mem_map.mp hF
    exact List.mem_map.mpr ⟨p, d.subA p hp, e⟩
  obtain ⟨h1, o0, h2, h3, h4⟩ := d.at ho hF'
  have hkA : (k, o.id) ∈ A := by
    obtain ⟨p, hp, e⟩ := List.mem_map.mp hF
    have := d.subA p hp
    obtain ⟨o', h5, h6⟩ := d.ids p this
    rw [e, ho] at h5
    cases h5
    rw [← e, h6]; exact hp
  have hnew : o.id ∉ B.map Prod.snd := by
    intro hk
    obtain ⟨p, hp, e⟩ := List.mem_map.mp hk
    have : p.1 = k := d.inj (id := o.id) (by rw [← e]; exact d.subA p (d.subB p hp)) h1
    exact hB (by rw [← this]; exact List.mem_map.mpr ⟨p, hp, rfl⟩)
  have hv : o.vec.getD [] = vecAt objs0 k := by unfold vecAt; rw [h2, h4]
  refine ⟨⟨d.same, d.ids, d.rest, d.count, d.cl, d.file, d.ctrOK, d.lo, d.hi, d.inc, d.exact, d.subA, ?_, d.objects, ?_, d.ser⟩,
    hv, d.lo _ h1, hnew⟩
  · intro p hp
    rcases List.mem_append.mp hp with hp | hp
    · exact d.subB p hp
    · rw [List.mem_singleton] at hp; subst hp; exact hkA
  · show st.vectors.set (keyOf o.id) _ = _
    rw [AMap.set_absent]
    · rw [d.vectors, List.map_append, List.append_assoc]
      congr 1
      simp [hv]
    · rw [d.vectors]
      intro hk
      unfold AMap.keys at hk
      rw [List.map_append, List.mem_append] at hk
      rcases hk with hk | hk
      · exact (fresh_key i (d.lo _ h1)).2.1 hk
      · rw [List.map_map] at hk
        obtain ⟨p, hp, e⟩ := List.mem_map.mp hk
        exact hnew (List.mem_map.mpr ⟨p, hp, keyOf_inj e⟩)

end

/-! ### The invariant -/

structure BInv (fixed : Bool) (L : Lib V D) (dim : Nat) (c0 : Coll) (objs0 : List (Object V)) (n : Nat) (b : Batch V D)
    (F A B : List (Nat × UInt64)) (X0 X1 X2 : List Nat) (js : List Job) : Prop where
  conf : b.c.mappings = c0.mappings ∧ b.c.hasEmbedder = c0.hasEmbedder ∧ b.c.closed = c0.closed
  cnt : Cnt objs0.length b.queue b.tasks (F.map Prod.fst) (A.map Prod.fst) (B.map Prod.fst) X0 X1 X2
  dat : Dat L c0 objs0 b.c.stores b.c.counter b.objs F A B X0
  sched : Sched fixed L.metric dim (Mach.init c0.index n) js { h := b.c.index, ts := b.ts }
  jobs : js.map (fun j => (j.id, j.vec)) = B.map (fun p => (p.2, vecAt objs0 p.1))
  lenT : b.tasks.length = n
  lenTs : b.ts.length = n
  thr : ∀ (i : Nat) (t : Task) (th : Thread D), b.tasks[i]? = some t → b.ts[i]? = some th →
    match t.pc with
    | .index _ => th.pc.active = true ∧ th.pc.panicked = false
    | .panicked => th.pc.panicked = true
    | _ => th.pc.active = false
  errs : (X0 ≠ [] ∨ X1 ≠ [] ∨ X2 ≠ [] ∨ ∃ t ∈ b.tasks, ∃ e, t.pc = .failed e) → b.err ≠ none
  skip : (∃ t ∈ b.tasks, t.pc = .skipped) → b.err ≠ none ∨ b.cancelled = true
  fin : ∀ t ∈ b.tasks, t.pc = .done → t.todo = [] ∧ b.queue = []

/-- the assumptions on a batch. -/
structure BatchOK (L : Lib V D) (dim : Nat) (c0 : Coll) (objs0 : List (Object V)) : Prop where
  inv : WInv False L dim (fun _ => True) c0
  dim : ∀ o ∈ objs0, (o.vec.getD []).length = dim
  room : c0.counter.count.toNat + objs0.length < 18446744073709551616

theorem BInv.frozen {fixed : Bool} {L : Lib V D} {dim : Nat} {c0 : Coll} {objs0 : List (Object V)} {n : Nat} {b b' : Batch V D}
    {F A B : List (Nat × UInt64)} {X0 X1 X2 : List Nat} {js : List Job} (v : BInv fixed L dim c0 objs0 n b F A B X0 X1 X2 js)
    (h1 : b'.c = b.c) (h2 : b'.ts = b.ts) (h3 : b'.tasks = b.tasks) (h4 : b'.queue = b.queue) (h5 : b'.objs = b.objs)
    (h6 : b.err ≠ none → b'.err ≠ none) (h7 : b.cancelled = true → b'.cancelled = true) :
    BInv fixed L dim c0 objs0 n b' F A B X0 X1 X2 js := by
  obtain ⟨a1, a2, a3, a4, a5, a6, a7, a8, a9, a10, a11⟩ := v
  refine ⟨by rw [h1]; exact a1, by rw [h3, h4]; exact a2, by rw [h1, h5]; exact a3, by rw [h1, h2]; exact a4, a5, by rw [h3]; exact a6,
    by rw [h2]; exact a7, by rw [h2, h3]; exact a8, by rw [h3]; exact fun h => h6 (a9 h), ?_, by rw [h3, h4]; exact a11⟩
  rw [h3]
  exact fun h => (a10 h).imp h6 h7

/-- a step of task `i` that is not inside the index and not the call of it. -/
theorem BInv.build {fixed : Bool} {L : Lib V D} {dim : Nat} {c0 : Coll} {objs0 : List (Object V)} {n : Nat} {b b' : Batch V D}
    {F A B F' A' B' : List (Nat × UInt64)} {X0 X1 X2 X0' X1' X2' : List Nat} {js : List Job}
    (v : BInv fixed L dim c0 objs0 n b F A B X0 X1 X2 js) {i : Nat} {t t' : Task} (ht : b.tasks[i]? = some t)
    (hp : ∀ k, t.pc ≠ .index k) (hp2 : t.pc ≠ .panicked) (hp' : ∀ k, t'.pc ≠ .index k) (hp2' : t'.pc ≠ .panicked)
    (htasks : b'.tasks = b.tasks.set i t') (hts : b'.ts = b.ts) (hidx : b'.c.index = b.c.index)
    (hconf : b'.c.mappings = b.c.mappings ∧ b'.c.hasEmbedder = b.c.hasEmbedder ∧ b'.c.closed = b.c.closed)
    (hcnt : Cnt objs0.length b'.queue b'.tasks (F'.map Prod.fst) (A'.map Prod.fst) (B'.map Prod.fst) X0' X1' X2')
    (hdat : Dat L c0 objs0 b'.c.stores b'.c.counter b'.objs F' A' B' X0')
    (hB : B' = B) (herr : b.err ≠ none → b'.err ≠ none) (hcan : b'.cancelled = b.cancelled)
    (hX : (X0' = X0 ∧ X1' = X1 ∧ X2' = X2 ∧ ∀ e, t'.pc ≠ .failed e) ∨ b'.err ≠ none)
    (hskip : t'.pc = .skipped → b'.err ≠ none ∨ b'.cancelled = true)
    (hfin : t'.pc = .done → t'.todo = [] ∧ b'.queue = []) (hq : b.queue = [] → b'.queue = []) :
    BInv fixed L dim c0 objs0 n b' F' A' B' X0' X1' X2' js := by
  obtain ⟨a1, a2, a3, a4, a5, a6, a7, a8, a9, a10, a11⟩ := v
  refine ⟨⟨hconf.1.trans a1.1, hconf.2.1.trans a1.2.1, hconf.2.2.trans a1.2.2⟩, hcnt, hdat, by rw [hidx, hts]; exact a4,
    by rw [hB]; exact a5, by rw [htasks, List.length_set]; exact a6, by rw [hts]; exact a7, ?_, ?_, ?_, ?_⟩
  · intro k u th hu hth
    rw [htasks] at hu
    rw [hts] at hth
    rcases set_get hu with ⟨rfl, rfl⟩ | ⟨_, hu2⟩
    · have h := a8 k t th ht hth
      have h' : th.pc.active = false := by
        revert h
        cases hpc : t.pc <;> first | exact fun h => h | exact absurd hpc (hp _) | exact absurd hpc hp2
      cases hpc : u.pc <;> first | exact h' | exact absurd hpc (hp' _) | exact absurd hpc hp2'
    · exact a8 k u th hu2 hth
  · intro h
    rcases hX with ⟨x0, x1, x2, hf⟩ | hX
    · apply herr
      apply a9
      rw [x0, x1, x2] at h
      rcases h with h | h | h | ⟨u, hu, e, he⟩
      · exact Or.inl h
      · exact Or.inr (Or.inl h)
      · exact Or.inr (Or.inr (Or.inl h))
      · rw [htasks] at hu
        rcases List.mem_or_eq_of_mem_set hu with hu | hu
        · exact Or.inr (Or.inr (Or.inr ⟨u, hu, e, he⟩))
        · subst hu; exact absurd he (hf e)
    · exact hX
  · rintro ⟨u, hu, he⟩
    rw [htasks] at hu
    rcases List.mem_or_eq_of_mem_set hu with hu | hu
    · rw [hcan]; exact (a10 ⟨u, hu, he⟩).imp herr id
    · subst hu; exact hskip he
  · intro u hu he
    rw [htasks] at hu
    rcases List.mem_or_eq_of_mem_set hu with hu | hu
    · obtain ⟨h1, h2⟩ := a11 u hu he
      exact ⟨h1, hq h2⟩
    · subst hu; exact hfin he

/-! ### Every step keeps it -/

theorem index_dead {fixed : Bool} {L : Lib V D} {b b' : Batch V D} {i : Nat} {env : InsEnv} {t : Task} (ht : b.tasks[i]? = some t)
    (h : b.work fixed L i env = some b') : t.pc.over = false := by
  cases hpc : t.pc <;> first | rfl | (simp [Batch.work, ht, hpc] at h)

section
variable {fixed : Bool} {L : Lib V D} {dim : Nat} {c0 : Coll} {objs0 : List (Object V)} {n : Nat} {b b' : Batch V D}
  {F A B : List (Nat × UInt64)} {X0 X1 X2 : List Nat} {js : List Job}

theorem BInv.lenO (v : BInv fixed L dim c0 objs0 n b F A B X0 X1 X2 js) : b.objs.length = objs0.length := by
  apply Nat.le_antisymm
  · apply Nat.le_of_not_lt
    intro h
    have := v.dat.same objs0.length
    rw [List.getElem?_eq_getElem h, List.getElem?_eq_none (Nat.le_refl _)] at this
    cases this
  · apply Nat.le_of_not_lt
    intro h
    have := v.dat.same b.objs.length
    rw [List.getElem?_eq_getElem h, List.getElem?_eq_none (Nat.le_refl _)] at this
    cases this

/-- a task about to fetch an id: the position is new and there is room. -/
theorem BInv.atFetch (v : BInv fixed L dim c0 objs0 n b F A B X0 X1 X2 js) (ok : BatchOK L dim c0 objs0) {i k : Nat} {t : Task}
    (ht : b.tasks[i]? = some t) (hpc : t.pc = .fetch k) :
    k < objs0.length ∧ k ∉ F.map Prod.fst ∧ b.c.counter.count.toNat + 1 < 18446744073709551616 := by
  have hp : 1 ≤ tsum (pend k) b.tasks := by
    have := tsum_le (pend k) _ _ _ ht
    have h2 : 1 ≤ pend k t := by unfold pend; rw [if_pos hpc]; omega
    omega
  have h1 := v.cnt.once k
  have h2 := count_range_le objs0.length k
  have hk : k < objs0.length := lt_of_count_range (by omega)
  have hF : (F.map Prod.fst).count k = 0 := by omega
  have hX : X0.count k = 0 := by omega
  refine ⟨hk, List.count_eq_zero.mp hF, ?_⟩
  have hnd : (k :: (F.map Prod.fst ++ X0)).Nodup := by
    rw [List.nodup_iff_count]
    intro a
    have h1 := v.cnt.once a
    have h2 := count_range_le objs0.length a
    rw [List.count_cons, List.count_append]
    by_cases e : k = a
    · subst e; simp; omega
    · simp [e]; omega
  have hle := nodup_length_le (l₂ := List.range objs0.length) hnd (by
    intro a ha
    have h1 := v.cnt.once a
    apply List.count_pos_iff.mp
    rcases List.mem_cons.mp ha with ha | ha
    · subst ha; omega
    · have : 1 ≤ (F.map Prod.fst ++ X0).count a := List.count_pos_iff.mpr ha
      rw [List.count_append] at this; omega)
  simp only [List.length_cons, List.length_append, List.length_map, List.length_range] at hle
  have := v.dat.count
  have := ok.room
  omega

theorem BInv.atObj (v : BInv fixed L dim c0 objs0 n b F A B X0 X1 X2 js) {i k : Nat} {t : Task}
    (ht : b.tasks[i]? = some t) (hpc : t.pc = .putObj k) : k ∈ F.map Prod.fst ∧ k ∉ A.map Prod.fst := by
  have h2 : 1 ≤ tsum (at1 k) b.tasks := by
    have := tsum_le (at1 k) _ _ _ ht
    have h2 : 1 ≤ at1 k t := by unfold at1; rw [if_pos hpc]; omega
    omega
  have h0 := v.cnt.once k
  have h1 := v.cnt.stA k
  have h3 := count_range_le objs0.length k
  exact ⟨List.count_pos_iff.mp (by omega), List.count_eq_zero.mp (by omega)⟩

theorem BInv.atVec (v : BInv fixed L dim c0 objs0 n b F A B X0 X1 X2 js) {i k : Nat} {t : Task}
    (ht : b.tasks[i]? = some t) (hpc : t.pc = .putVec k) : k ∈ A.map Prod.fst ∧ k ∉ B.map Prod.fst := by
  have h2 : 1 ≤ tsum (at2 k) b.tasks := by
    have := tsum_le (at2 k) _ _ _ ht
    have h2 : 1 ≤ at2 k t := by unfold at2; rw [if_pos hpc]; omega
    omega
  have h0 := v.cnt.once k
  have h1 := v.cnt.stA k
  have h1' := v.cnt.stB k
  have h3 := count_range_le objs0.length k
  exact ⟨List.count_pos_iff.mp (by omega), List.count_eq_zero.mp (by omega)⟩

theorem init_quiet' (h : Hnsw) (n : Nat) : (Mach.init h n : Mach D).quiet := by
  intro t ht
  simp only [Mach.init, List.mem_replicate] at ht
  rw [ht.2]; rfl

theorem BInv.thread (v : BInv fixed L dim c0 objs0 n b F A B X0 X1 X2 js) {i : Nat} {t : Task} (ht : b.tasks[i]? = some t) :
    ∃ th, b.ts[i]? = some th := by
  have h1 := (List.getElem?_eq_some_iff.mp ht).1
  have : i < b.ts.length := by rw [v.lenTs, ← v.lenT]; exact h1
  exact ⟨_, List.getElem?_eq_getElem this⟩

theorem PC.idle_of {pc : PC D} (h : pc.active = false) : pc = .idle := by
  cases pc <;> first | rfl | cases h

/-- the call of `Insert` of the index. -/
theorem BInv.vec (v : BInv fixed L dim c0 objs0 n b F A B X0 X1 X2 js) (ok : BatchOK L dim c0 objs0) {i k : Nat} {t : Task}
    {o : Object V} {level : Nat} (hl : level < 4294967296) (ht : b.tasks[i]? = some t) (hpc : t.pc = .putVec k)
    (ho : b.objs[k]? = some o) :
    BInv fixed L dim c0 objs0 n
      ({ b with
          c := { b.c with stores :=
            { b.c.stores with vectors := b.c.stores.vectors.set (keyOf o.id) (serializeVector (o.vec.getD [])) } },
          ts := b.ts.set i { job := ⟨o.id, o.vec.getD [], level⟩, pc := .start } }.goto i t (.index k))
      F A (B ++ [(k, o.id)]) X0 X1 X2 (js ++ [⟨o.id, o.vec.getD [], level⟩]) := by
  obtain ⟨hA, hB⟩ := v.atVec ht hpc
  obtain ⟨d, hv, hlo, hnew⟩ := v.dat.putVec ok.inv ho hA hB
  obtain ⟨th, hth⟩ := v.thread ht
  have hact : th.pc.active = false := by
    have := v.thr i t th ht hth
    rw [hpc] at this; exact this
  have hi := PC.idle_of hact
  have g := sched_grow (init_quiet' _ _) v.sched
  have hids : js.map Job.id = B.map Prod.snd := by
    have := congrArg (List.map Prod.fst) v.jobs
    simpa [List.map_map, Function.comp_def] using this
  refine ⟨v.conf, ?_, d, ?_, ?_, ?_, ?_, ?_, ?_, ?_, ?_⟩
  · have hp : ∀ a, at2 a t = if k = a then 1 else 0 := by intro a; unfold at2; rw [hpc]; simp
    have hp1 : ∀ a, at1 a t = 0 := by intro a; unfold at1; rw [hpc]; simp
    have hp0 : ∀ a, pend a t = t.todo.count a := by intro a; unfold pend; rw [hpc]; simp
    refine v.cnt.move ht (queue' := b.queue) (fun a => ?_) (fun a => ?_) (fun a => ?_)
    · rw [hp0]; simp [pend]
    · rw [hp1]; simp [at1]
    · rw [hp, List.map_append, List.count_append]
      simp only [at2, List.map_cons, List.map_nil, List.count_cons, List.count_nil, beq_iff_eq, reduceCtorEq, if_false]
      by_cases e : k = a <;> simp [e] <;> omega
  · refine Sched.call i ⟨o.id, o.vec.getD [], level⟩ v.sched ⟨?_, ?_⟩ ⟨?_, hl⟩ ?_
    · intro hk
      rcases g.only _ hk with h | h
      · exact (fresh_key ok.inv hlo).2.2 h
      · rw [hids] at h; exact hnew h
    · intro u hu hua e
      obtain ⟨a, ha⟩ := List.getElem?_of_mem hu
      have := g.mine a u ha hua
      have h2 : u.job.id ∈ js.map Job.id := List.mem_map.mpr ⟨_, this, rfl⟩
      rw [hids, e] at h2
      exact hnew h2
    · show (o.vec.getD []).length = dim
      rw [hv]
      obtain ⟨p, hp, e⟩ := List.mem_map.mp hA
      obtain ⟨o0, _, h0, _⟩ := v.dat.ser p hp
      rw [e] at h0
      unfold vecAt
      rw [h0]
      exact ok.dim o0 (List.mem_of_getElem? h0)
    · simp only [Mach.step, hth, hi]; rfl
  · rw [List.map_append, List.map_append, v.jobs]
    simp [hv]
  · show (b.tasks.set i _).length = n
    rw [List.length_set]; exact v.lenT
  · show (b.ts.set i _).length = n
    rw [List.length_set]; exact v.lenTs
  · intro a u thu hu hthu
    change (b.tasks.set i _)[a]? = some u at hu
    change (b.ts.set i _)[a]? = some thu at hthu
    rcases set_get hu with ⟨rfl, rfl⟩ | ⟨hne, hu2⟩
    · rcases set_get hthu with ⟨_, rfl⟩ | ⟨hne, _⟩
      · exact ⟨rfl, rfl⟩
      · exact absurd rfl hne
    · rcases set_get hthu with ⟨e, _⟩ | ⟨_, hthu2⟩
      · exact absurd e hne
      · exact v.thr a u thu hu2 hthu2
  · intro h
    apply v.errs
    rcases h with h | h | h | ⟨u, hu, e, he⟩
    · exact Or.inl h
    · exact Or.inr (Or.inl h)
    · exact Or.inr (Or.inr (Or.inl h))
    · rcases List.mem_or_eq_of_mem_set hu with hu | hu
      · exact Or.inr (Or.inr (Or.inr ⟨u, hu, e, he⟩))
      · subst hu; cases he
  · rintro ⟨u, hu, he⟩
    apply v.skip
    rcases List.mem_or_eq_of_mem_set hu with hu | hu
    · exact ⟨u, hu, he⟩
    · subst hu; cases he
  · intro u hu he
    rcases List.mem_or_eq_of_mem_set hu with hu | hu
    · exact v.fin u hu he
    · subst hu; cases he

/-- a step inside the index. -/
theorem BInv.inIndex (v : BInv fixed L dim c0 objs0 n b F A B X0 X1 X2 js) {i k : Nat} {t : Task} {m : Mach D} {th : Thread D}
    (ht : b.tasks[i]? = some t) (hpc : t.pc = .index k)
    (hm : ({ h := b.c.index, ts := b.ts } : Mach D).step fixed L.metric (.run i) = some m) (hth : m.ts[i]? = some th) :
    BInv fixed L dim c0 objs0 n
      (({ b with c := { b.c with index := m.h }, ts := m.ts } : Batch V D).goto i t (afterIndex k th.pc))
      F A B X0 X1 X2 js := by
  obtain ⟨th0, pc, h1, h2, h3⟩ := step_run hm
  dsimp only at h1 h2 h3
  have ha : afterIndex k th.pc = .loop ∨ afterIndex k th.pc = .panicked ∨ afterIndex k th.pc = .index k := by
    cases th.pc <;> simp [afterIndex]
  have hq : ∀ a, (afterIndex k th.pc ≠ .fetch a) ∧ (afterIndex k th.pc ≠ .putObj a) ∧ (afterIndex k th.pc ≠ .putVec a) := by
    intro a; rcases ha with h | h | h <;> rw [h] <;> simp
  refine ⟨v.conf, ?_, v.dat, ?_, v.jobs, ?_, ?_, ?_, ?_, ?_, ?_⟩
  · refine v.cnt.move ht (queue' := b.queue) (fun a => ?_) (fun a => ?_) (fun a => ?_)
    · simp [pend, hpc, (hq a).1]
    · simp [at1, hpc, (hq a).2.1]
    · simp [at2, hpc, (hq a).2.2]
  · exact Sched.run i v.sched hm
  · show (b.tasks.set i _).length = n
    rw [List.length_set]; exact v.lenT
  · show m.ts.length = n
    rw [h3, List.length_set]; exact v.lenTs
  · intro a u thu hu hthu
    change (b.tasks.set i _)[a]? = some u at hu
    change m.ts[a]? = some thu at hthu
    rcases set_get hu with ⟨rfl, rfl⟩ | ⟨hne, hu2⟩
    · rw [hth] at hthu; cases hthu
      dsimp only
      cases th.pc <;> simp [afterIndex, PC.active, PC.panicked]
    · rw [h3] at hthu
      rcases set_get hthu with ⟨e, _⟩ | ⟨_, hthu2⟩
      · exact absurd e hne
      · exact v.thr a u thu hu2 hthu2
  · intro h
    apply v.errs
    rcases h with h | h | h | ⟨u, hu, e, he⟩
    · exact Or.inl h
    · exact Or.inr (Or.inl h)
    · exact Or.inr (Or.inr (Or.inl h))
    · rcases List.mem_or_eq_of_mem_set hu with hu | hu
      · exact Or.inr (Or.inr (Or.inr ⟨u, hu, e, he⟩))
      · subst hu; dsimp only at he; rcases ha with h | h | h <;> rw [h] at he <;> cases he
  · rintro ⟨u, hu, he⟩
    apply v.skip
    rcases List.mem_or_eq_of_mem_set hu with hu | hu
    · exact ⟨u, hu, he⟩
    · subst hu; dsimp only at he; rcases ha with h | h | h <;> rw [h] at he <;> cases he
  · intro u hu he
    rcases List.mem_or_eq_of_mem_set hu with hu | hu
    · exact v.fin u hu he
    · subst hu; dsimp only at he; rcases ha with h | h | h <;> rw [h] at he <;> cases he

theorem orElse_ne {A : Type} (o : Option A) (a : A) : (o <|> some a) ≠ none := by cases o <;> simp

theorem BInv.work (v : BInv fixed L dim c0 objs0 n b F A B X0 X1 X2 js) (ok : BatchOK L dim c0 objs0) {i : Nat} {env : InsEnv}
    (hl : env.level < 4294967296) (h : b.work fixed L i env = some b') :
    ∃ F' A' B' X0' X1' X2' js', BInv fixed L dim c0 objs0 n b' F' A' B' X0' X1' X2' js' ∧
      (js' = js ∨ ∃ j : Job, js' = js ++ [j] ∧ j.level = env.level) := by
  cases ht : b.tasks[i]? with
  | none => simp [Batch.work, ht] at h
  | some t =>
    cases hpc : t.pc with
    | wait =>
      simp only [Batch.work, ht, hpc] at h
      split at h
      · rename_i hc
        cases h
        refine ⟨F, A, B, X0, X1, X2, js, v.build ht (by simp [hpc]) (by simp [hpc]) (t' := { t with pc := .skipped }) (by simp) (by simp)
          rfl rfl rfl ⟨rfl, rfl, rfl⟩ ?_ v.dat rfl (fun h => h) rfl (Or.inl ⟨rfl, rfl, rfl, by simp⟩) ?_ (by simp) (fun h => h), Or.inl rfl⟩
        · exact v.cnt.move ht (queue' := b.queue) (fun a => by simp [pend, hpc]) (fun a => by simp [at1, hpc]) (fun a => by simp [at2, hpc])
        · intro _
          unfold Batch.ctxDone at hc
          rw [Bool.or_eq_true] at hc
          refine hc.imp (fun h => ?_) (fun h => h)
          intro e
          change b.err = none at e
          rw [e] at h; cases h
      · cases h
        refine ⟨F, A, B, X0, X1, X2, js, v.build ht (by simp [hpc]) (by simp [hpc]) (t' := { t with pc := .loop }) (by simp) (by simp)
          rfl rfl rfl ⟨rfl, rfl, rfl⟩ ?_ v.dat rfl (fun h => h) rfl (Or.inl ⟨rfl, rfl, rfl, by simp⟩) (by simp) (by simp) (fun h => h), Or.inl rfl⟩
        exact v.cnt.move ht (queue' := b.queue) (fun a => by simp [pend, hpc]) (fun a => by simp [at1, hpc]) (fun a => by simp [at2, hpc])
    | loop =>
      simp only [Batch.work, ht, hpc] at h
      cases htodo : t.todo with
      | cons k ks =>
        simp only [htodo] at h
        cases h
        refine ⟨F, A, B, X0, X1, X2, js, v.build ht (by simp [hpc]) (by simp [hpc]) (t' := ⟨ks, .fetch k⟩) (by simp) (by simp)
          rfl rfl rfl ⟨rfl, rfl, rfl⟩ ?_ v.dat rfl (fun h => h) rfl (Or.inl ⟨rfl, rfl, rfl, by simp⟩) (by simp) (by simp) (fun h => h), Or.inl rfl⟩
        refine v.cnt.move ht (queue' := b.queue) (fun a => ?_) (fun a => by simp [at1, hpc]) (fun a => by simp [at2, hpc])
        simp only [pend, hpc, htodo, List.count_cons, beq_iff_eq, reduceCtorEq, if_false, TPC.fetch.injEq]
        omega
      | nil =>
        simp only [htodo] at h
        cases hq : b.queue with
        | nil =>
          simp only [hq] at h
          cases h
          refine ⟨F, A, B, X0, X1, X2, js, v.build ht (by simp [hpc]) (by simp [hpc]) (t' := { t with pc := .done }) (by simp) (by simp)
            rfl rfl rfl ⟨rfl, rfl, rfl⟩ ?_ v.dat rfl (fun h => h) rfl (Or.inl ⟨rfl, rfl, rfl, by simp⟩) (by simp)
            (fun _ => ⟨htodo, hq⟩) (fun h => h), Or.inl rfl⟩
          exact v.cnt.move ht (queue' := b.queue) (fun a => by simp [pend, hpc]) (fun a => by simp [at1, hpc]) (fun a => by simp [at2, hpc])
        | cons k q =>
          simp only [hq] at h
          cases h
          refine ⟨F, A, B, X0, X1, X2, js, v.build ht (by simp [hpc]) (by simp [hpc]) (t' := ⟨[], .fetch k⟩) (by simp) (by simp)
            rfl rfl rfl ⟨rfl, rfl, rfl⟩ ?_ v.dat rfl (fun h => h) rfl (Or.inl ⟨rfl, rfl, rfl, by simp⟩) (by simp) (by simp)
            (fun h => by rw [hq] at h; cases h), Or.inl rfl⟩
          refine v.cnt.move ht (queue' := q) (fun a => ?_) (fun a => by simp [at1, hpc]) (fun a => by simp [at2, hpc])
          simp only [pend, hpc, htodo, hq, List.count_cons, List.count_nil, beq_iff_eq, reduceCtorEq, if_false, TPC.fetch.injEq]
          omega
    | fetch k =>
      obtain ⟨hk, hkF, hroom⟩ := v.atFetch ok ht hpc
      simp only [Batch.work, ht, hpc] at h
      rcases fetchAndInc_eq b.c.counter env.counterFails with ⟨e, he, _⟩ | ⟨he, _⟩
      · simp only [he] at h
        cases h
        refine ⟨F, A, B, X0 ++ [k], X1, X2, js, v.build ht (by simp [hpc]) (by simp [hpc]) (t' := { t with pc := .failed e }) (by simp) (by simp)
          rfl rfl rfl ⟨rfl, rfl, rfl⟩ ?_ (v.dat.fetchFail k hroom) rfl (fun _ => orElse_ne _ _) rfl (Or.inr (orElse_ne _ _)) (by simp) (by simp)
            (fun h => h), Or.inl rfl⟩
        refine v.cnt.move ht (queue' := b.queue) (fun a => ?_) (fun a => by simp [at1, hpc]) (fun a => by simp [at2, hpc])
        simp only [pend, hpc, List.count_append, List.count_cons, List.count_nil, beq_iff_eq, reduceCtorEq, if_false, TPC.fetch.injEq]
        omega
      · simp only [he] at h
        cases h
        refine ⟨F ++ [(k, b.c.counter.count)], A, B, X0, X1, X2, js, v.build ht (by simp [hpc]) (by simp [hpc])
          (t' := { t with pc := .putObj k }) (by simp) (by simp)
          rfl rfl rfl ⟨rfl, rfl, rfl⟩ ?_ (v.dat.fetch hkF (by rw [v.lenO]; exact hk) hroom) rfl (fun h => h) rfl
          (Or.inl ⟨rfl, rfl, rfl, by simp⟩) (by simp) (by simp) (fun h => h), Or.inl rfl⟩
        refine v.cnt.move ht (queue' := b.queue) (fun a => ?_) (fun a => ?_) (fun a => by simp [at2, hpc])
        · simp only [pend, hpc, List.map_append, List.map_cons, List.map_nil, List.count_append, List.count_cons, List.count_nil,
            beq_iff_eq, reduceCtorEq, if_false, TPC.fetch.injEq]
          omega
        · simp only [at1, hpc, List.map_append, List.map_cons, List.map_nil, List.count_append, List.count_cons, List.count_nil,
            beq_iff_eq, reduceCtorEq, if_false, TPC.putObj.injEq]
          omega
    | putObj k =>
      obtain ⟨hF, hA⟩ := v.atObj ht hpc
      simp only [Batch.work, ht, hpc] at h
      cases ho : b.objs[k]? with
      | none => simp only [ho] at h; cases h
      | some o =>
        simp only [ho] at h
        have hfail : ∀ e, b' = b.fail i t e → ∃ F' A' B' X0' X1' X2' js', BInv fixed L dim c0 objs0 n b' F' A' B' X0' X1' X2' js' ∧
            (js' = js ∨ ∃ j : Job, js' = js ++ [j] ∧ j.level = env.level) := by
          rintro e rfl
          refine ⟨F, A, B, X0, X1 ++ [k], X2, js, v.build ht (by simp [hpc]) (by simp [hpc]) (t' := { t with pc := .failed e }) (by simp)
            (by simp) rfl rfl rfl ⟨rfl, rfl, rfl⟩ ?_ v.dat rfl (fun _ => orElse_ne _ _) rfl (Or.inr (orElse_ne _ _)) (by simp)
            (by simp) (fun h => h), Or.inl rfl⟩
          refine v.cnt.move ht (queue' := b.queue) (fun a => by simp [pend, hpc]) (fun a => ?_) (fun a => by simp [at2, hpc])
          simp only [at1, hpc, List.count_append, List.count_cons, List.count_nil, beq_iff_eq, reduceCtorEq, if_false, TPC.putObj.injEq]
          omega
        cases hs : serializeProperties L.json o with
        | error e => simp only [hs] at h; cases h; exact hfail e rfl
        | ok bytes =>
          simp only [hs] at h
          split at h
          · cases h; exact hfail .io rfl
          · cases h
            refine ⟨F, A ++ [(k, o.id)], B, X0, X1, X2, js, v.build ht (by simp [hpc]) (by simp [hpc])
              (t' := { t with pc := .putVec k }) (by simp) (by simp)
              rfl rfl rfl ⟨rfl, rfl, rfl⟩ ?_ (v.dat.putObj ok.inv ho hF hA hs) rfl (fun h => h) rfl
              (Or.inl ⟨rfl, rfl, rfl, by simp⟩) (by simp) (by simp) (fun h => h), Or.inl rfl⟩
            refine v.cnt.move ht (queue' := b.queue) (fun a => by simp [pend, hpc]) (fun a => ?_) (fun a => ?_)
            · simp only [at1, hpc, List.map_append, List.map_cons, List.map_nil, List.count_append, List.count_cons, List.count_nil,
                beq_iff_eq, reduceCtorEq, if_false, TPC.putObj.injEq]
              omega
            · simp only [at2, hpc, List.map_append, List.map_cons, List.map_nil, List.count_append, List.count_cons, List.count_nil,
                beq_iff_eq, reduceCtorEq, if_false, TPC.putVec.injEq]
              omega
    | putVec k =>
      simp only [Batch.work, ht, hpc] at h
      cases ho : b.objs[k]? with
      | none => simp only [ho] at h; cases h
      | some o =>
        simp only [ho] at h
        split at h
        · cases h
          refine ⟨F, A, B, X0, X1, X2 ++ [k], js, v.build ht (by simp [hpc]) (by simp [hpc]) (t' := { t with pc := .failed .io }) (by simp)
            (by simp) rfl rfl rfl ⟨rfl, rfl, rfl⟩ ?_ v.dat rfl (fun _ => orElse_ne _ _) rfl (Or.inr (orElse_ne _ _)) (by simp)
            (by simp) (fun h => h), Or.inl rfl⟩
          refine v.cnt.move ht (queue' := b.queue) (fun a => by simp [pend, hpc]) (fun a => by simp [at1, hpc]) (fun a => ?_)
          simp only [at2, hpc, List.count_append, List.count_cons, List.count_nil, beq_iff_eq, reduceCtorEq, if_false, TPC.putVec.injEq]
          omega
        · cases h
          exact ⟨F, A, _, X0, X1, X2, _, v.vec ok hl ht hpc ho, Or.inr ⟨_, rfl, rfl⟩⟩
    | index k =>
      simp only [Batch.work, ht, hpc] at h
      cases hm : ({ h := b.c.index, ts := b.ts } : Mach D).step fixed L.metric (.run i) with
      | none => simp only [hm] at h; cases h
      | some m =>
        simp only [hm] at h
        cases hth : m.ts[i]? with
        | none => simp only [hth] at h; cases h
        | some th =>
          simp only [hth] at h
          cases h
          exact ⟨F, A, B, X0, X1, X2, js, v.inIndex ht hpc hm hth, Or.inl rfl⟩
    | done => simp [Batch.work, ht, hpc] at h
    | failed e => simp [Batch.work, ht, hpc] at h
    | skipped => simp [Batch.work, ht, hpc] at h
    | panicked => simp [Batch.work, ht, hpc] at h

end

end Vectory.Conc
