import Verif.Lemmas.CollRun
import Verif.Lemmas.Weaken
/-! What a batch leaves behind. -/
namespace Vectory.Conc
open Vectory
variable {V D : Type}

theorem get?_append_left {K A : Type} [DecidableEq K] (m m' : AMap K A) (k : K) (h : k ∉ AMap.keys m') :
    AMap.get? (m ++ m') k = AMap.get? m k := by
  induction m with
  | nil => exact (AMap.get?_none_iff m' k).mpr h
  | cons p m ih =>
    obtain ⟨a, v⟩ := p
    simp only [List.cons_append, AMap.get?]
    split
    · rfl
    · exact ih

section
variable {fixed : Bool} {L : Lib V D} {dim : Nat} {c0 : Coll} {objs0 : List (Object V)} {n : Nat} {b : Batch V D}
  {F A B : List (Nat × UInt64)} {X0 X1 X2 : List Nat} {js : List Job}

theorem BInv.nodups (v : BInv fixed L dim c0 objs0 n b F A B X0 X1 X2 js) :
    (F.map Prod.fst).Nodup ∧ (A.map Prod.fst).Nodup ∧ (B.map Prod.fst).Nodup := by
  refine ⟨List.nodup_iff_count.mpr fun k => ?_, List.nodup_iff_count.mpr fun k => ?_, List.nodup_iff_count.mpr fun k => ?_⟩
  all_goals
    have h0 := v.cnt.once k
    have h1 := v.cnt.stA k
    have h2 := v.cnt.stB k
    have h3 := count_range_le objs0.length k
    omega

theorem nodup_keys {l : List (Nat × UInt64)} (hn : (l.map Prod.fst).Nodup)
    (hi : ∀ a b id, (a, id) ∈ l → (b, id) ∈ l → a = b) : (l.map (fun p => keyOf p.2)).Nodup := by
  induction l with
  | nil => simp
  | cons p l ih =>
    rw [List.map_cons, List.nodup_cons] at hn ⊢
    refine ⟨?_, ih hn.2 (fun a b id h1 h2 => hi a b id (List.mem_cons_of_mem _ h1) (List.mem_cons_of_mem _ h2))⟩
    intro h
    obtain ⟨q, hq, e⟩ := List.mem_map.mp h
    have e : q.2 = p.2 := keyOf_inj e
    have := hi q.1 p.1 p.2 (by rw [← e]; exact List.mem_cons_of_mem _ hq) List.mem_cons_self
    exact hn.1 (List.mem_map.mpr ⟨q, hq, this⟩)

/-- the keys of the object store and of the vector store. -/
theorem BInv.keys (v : BInv fixed L dim c0 objs0 n b F A B X0 X1 X2 js) (ok : BatchOK L dim c0 objs0) :
    (∀ id, keyOf id ∈ b.c.stores.objects.keys ↔ keyOf id ∈ c0.stores.objects.keys ∨ id ∈ A.map Prod.snd) ∧
    (∀ id, keyOf id ∈ b.c.stores.vectors.keys ↔ keyOf id ∈ c0.stores.vectors.keys ∨ id ∈ B.map Prod.snd) ∧
    b.c.stores.objects.keys.Nodup ∧ b.c.stores.vectors.keys.Nodup := by
  obtain ⟨_, hA, hB⟩ := v.nodups
  have d := v.dat
  have mem : ∀ (l : List (Nat × UInt64)) (g : Nat × UInt64 → Bytes) (m : AMap Bytes Bytes) (id : UInt64),
      keyOf id ∈ AMap.keys (m ++ l.map (fun p => (keyOf p.2, g p))) ↔ keyOf id ∈ m.keys ∨ id ∈ l.map Prod.snd := by
    intro l g m id
    unfold AMap.keys
    rw [List.map_append, List.mem_append, List.map_map]
    apply or_congr_right
    rw [List.mem_map, List.mem_map]
    exact ⟨fun ⟨p, hp, e⟩ => ⟨p, hp, keyOf_inj e⟩, fun ⟨p, hp, e⟩ => ⟨p, hp, by rw [← e]; rfl⟩⟩
  have nd : ∀ (l : List (Nat × UInt64)) (g : Nat × UInt64 → Bytes) (m : AMap Bytes Bytes), (l.map Prod.fst).Nodup →
      (∀ p ∈ l, p ∈ F) → m.keys.Nodup → (∀ p ∈ l, keyOf p.2 ∉ m.keys) →
      (AMap.keys (m ++ l.map (fun p => (keyOf p.2, g p)))).Nodup := by
    intro l g m hl hF hm hne
    unfold AMap.keys
    rw [List.map_append, List.map_map, List.nodup_append]
    refine ⟨hm, nodup_keys hl (fun a b id h1 h2 => d.inj (hF _ h1) (hF _ h2)), ?_⟩
    intro a ha c hc e
    obtain ⟨p, hp, rfl⟩ := List.mem_map.mp hc
    exact hne p hp (by rw [← show a = keyOf p.2 from e]; exact ha)
  refine ⟨fun id => by rw [d.objects]; exact mem _ _ _ _, fun id => by rw [d.vectors]; exact mem _ _ _ _, ?_, ?_⟩
  · rw [d.objects]
    exact nd A _ _ hA d.subA ok.inv.ond (fun p hp => (fresh_key ok.inv (d.lo p (d.subA p hp))).1)
  · rw [d.vectors]
    exact nd B _ _ hB (fun p hp => d.subA p (d.subB p hp)) ok.inv.vnd (fun p hp => (fresh_key ok.inv (d.lo p (d.subA p (d.subB p hp)))).2.1)

theorem BInv.lookup (v : BInv fixed L dim c0 objs0 n b F A B X0 X1 X2 js) (ok : BatchOK L dim c0 objs0) :
    (∀ p ∈ A, b.c.stores.objects.get? (keyOf p.2) = some (objBytes L objs0 p.1)) ∧
    (∀ p ∈ B, b.c.stores.vectors.get? (keyOf p.2) = some (serializeVector (vecAt objs0 p.1))) ∧
    (∀ id, id ∉ A.map Prod.snd → b.c.stores.objects.get? (keyOf id) = c0.stores.objects.get? (keyOf id)) ∧
    (∀ id, id ∉ B.map Prod.snd → b.c.stores.vectors.get? (keyOf id) = c0.stores.vectors.get? (keyOf id)) := by
  obtain ⟨_, _, k3, k4⟩ := v.keys ok
  have d := v.dat
  refine ⟨fun p hp => AMap.get?_of_mem k3 ?_, fun p hp => AMap.get?_of_mem k4 ?_, fun id h => ?_, fun id h => ?_⟩
  · rw [d.objects]; exact List.mem_append_right _ (List.mem_map.mpr ⟨p, hp, rfl⟩)
  · rw [d.vectors]; exact List.mem_append_right _ (List.mem_map.mpr ⟨p, hp, rfl⟩)
  · rw [d.objects]
    apply get?_append_left
    intro hk
    unfold AMap.keys at hk
    rw [List.map_map] at hk
    obtain ⟨p, hp, e⟩ := List.mem_map.mp hk
    exact h (List.mem_map.mpr ⟨p, hp, keyOf_inj e⟩)
  · rw [d.vectors]
    apply get?_append_left
    intro hk
    unfold AMap.keys at hk
    rw [List.map_map] at hk
    obtain ⟨p, hp, e⟩ := List.mem_map.mp hk
    exact h (List.mem_map.mpr ⟨p, hp, keyOf_inj e⟩)

theorem vecAt_dim (ok : BatchOK L dim c0 objs0) {k : Nat} {o : Object V} (h : objs0[k]? = some o) : (vecAt objs0 k).length = dim := by
  unfold vecAt; rw [h]; exact ok.dim o (List.mem_of_getElem? h)

/-- what is written for an object reads back. -/
theorem objBytes_back (ok : BatchOK L dim c0 objs0) {k : Nat} {o : Object V} {text : Bytes} (h : objs0[k]? = some o)
    (hm : L.json.marshal o.props = some text) :
    ∃ p, L.json.unmarshal text = some p ∧ deserializeProperties L.json (objBytes L objs0 k) = .ok p := by
  obtain ⟨hl, p, hp⟩ := ok.inv.json.back _ _ hm
  refine ⟨p, hp, ?_⟩
  have hs : serializeProperties L.json o = .ok (objBytes L objs0 k) := by
    unfold objBytes
    rw [h]
    dsimp only
    unfold serializeProperties
    rw [hm]
  exact deserialize_serializeProperties L.json o text _ p hm hl hp hs

/-- an id that is not one of the batch's reads as before, at every moment. -/
theorem BInv.keep (v : BInv fixed L dim c0 objs0 n b F A B X0 X1 X2 js) (ok : BatchOK L dim c0 objs0) (id : UInt64)
    (h : id ∉ B.map Prod.snd) :
    getObject L.json b.c.stores id = getObject L.json c0.stores id := by
  obtain ⟨_, _, l3, l4⟩ := v.lookup ok
  have d := v.dat
  unfold getObject
  rw [l4 id h]
  by_cases hA : id ∈ A.map Prod.snd
  · obtain ⟨p, hp, e⟩ := List.mem_map.mp hA
    have hlo := d.lo p (d.subA p hp)
    rw [e] at hlo
    have f := fresh_key ok.inv hlo
    rw [(AMap.get?_none_iff _ _).mpr f.2.1, (AMap.get?_none_iff _ _).mpr f.1]
    cases b.c.stores.objects.get? (keyOf id) <;> rfl
  · rw [l3 id hA]

/-- the object at position `k` whose vector was put reads back, at every moment. -/
theorem BInv.read (v : BInv fixed L dim c0 objs0 n b F A B X0 X1 X2 js) (ok : BatchOK L dim c0 objs0) {k : Nat} {id : UInt64}
    (h : (k, id) ∈ B) : ∃ (o : Object V) (text : Bytes) (p : AMap String V), b.objs[k]? = some o ∧ o.id = id ∧ L.json.marshal o.props = some text ∧
      L.json.unmarshal text = some p ∧
      getObject L.json b.c.stores id = .ok (some { id := id, props := p, vec := some (o.vec.getD []) }) := by
  have d := v.dat
  obtain ⟨l1, l2, _, _⟩ := v.lookup ok
  have hA := d.subB _ h
  have hF := d.subA _ hA
  obtain ⟨o0, text, h0, hm⟩ := d.ser _ hA
  obtain ⟨o, ho, hid⟩ := d.ids _ hF
  dsimp only at h0 ho hid
  obtain ⟨_, o0', h0', hp, hv⟩ := d.at ho (List.mem_map.mpr ⟨_, hF, rfl⟩)
  rw [h0] at h0'; cases h0'
  obtain ⟨p, hu, hd⟩ := objBytes_back ok h0 hm
  refine ⟨o, text, p, ho, hid, by rw [hp]; exact hm, hu, ?_⟩
  unfold getObject
  rw [l1 _ hA, l2 _ h]
  dsimp only
  rw [hd, deserialize_serializeVector _ (by rw [vecAt_dim ok h0]; exact ok.inv.dim32)]
  have : vecAt objs0 k = o.vec.getD [] := by unfold vecAt; rw [h0, hv]
  rw [this]

/-- no call was made: the index is as it was. -/
theorem sched_nil {M : Metric D} {m m' : Mach D} (hq : m.quiet) (hs : Sched fixed M dim m [] m') : m' = m := by
  generalize hj : ([] : List Job) = js at hs
  induction hs with
  | start => rfl
  | run i _ h ih =>
    have := ih hj
    subst this
    obtain ⟨t, pc, h1, h2, _⟩ := step_run h
    have h3 := PC.idle_of (hq t (List.mem_of_getElem? h1))
    rw [h3] at h2
    simp [stepPC] at h2
  | call i j _ _ _ _ _ =>
    exact absurd hj (by simp)

theorem BInv.quiet (v : BInv fixed L dim c0 objs0 n b F A B X0 X1 X2 js) (hover : ∀ t ∈ b.tasks, t.pc.over = true)
    (hp : b.noPanic) : ({ h := b.c.index, ts := b.ts } : Mach D).quiet := by
  intro th hth
  obtain ⟨i, hi⟩ := List.getElem?_of_mem hth
  dsimp only at hi
  have hlt : i < b.tasks.length := by
    have := (List.getElem?_eq_some_iff.mp hi).1
    rw [v.lenT, ← v.lenTs]; exact this
  have ht : b.tasks[i]? = some b.tasks[i] := List.getElem?_eq_getElem hlt
  have h1 := v.thr i _ th ht hi
  have hm : b.tasks[i] ∈ b.tasks := List.mem_of_getElem? ht
  have h2 := hover _ hm
  have h3 := hp _ hm
  revert h1 h2 h3
  cases (b.tasks[i]).pc <;> intro h1 h2 h3 <;> first | exact h1 | (cases h2; done) | exact absurd rfl h3

/-- the invariant of the collection holds again when nobody is inside the index. -/
theorem BInv.settle (v : BInv fixed L dim c0 objs0 n b F A B X0 X1 X2 js) (ok : BatchOK L dim c0 objs0) {X : UInt64 → Prop}
    (i0 : WInv False L dim X c0) (hi : Inv False b.c.index) (g : Grown c0.index js b.c.index) : WInv False L dim X b.c := by
  have d := v.dat
  obtain ⟨k1, k2, k3, k4⟩ := v.keys ok
  obtain ⟨l1, l2, l3, l4⟩ := v.lookup ok
  have hids : js.map Job.id = B.map Prod.snd := by
    have := congrArg (List.map Prod.fst) v.jobs
    simpa [List.map_map, Function.comp_def] using this
  have hjob : ∀ p ∈ B, ∃ w, b.c.index.nodes.get? p.2 = some w ∧ w.vec = vecAt objs0 p.1 := by
    intro p hp
    have h1 : (p.2, vecAt objs0 p.1) ∈ js.map (fun j => (j.id, j.vec)) := by rw [v.jobs]; exact List.mem_map.mpr ⟨p, hp, rfl⟩
    obtain ⟨j, hj, e⟩ := List.mem_map.mp h1
    obtain ⟨w, hw, hv⟩ := g.new j hj
    simp only [Prod.mk.injEq] at e
    exact ⟨w, by rw [← e.1]; exact hw, by rw [hv]; exact e.2⟩
  have hpos : ∀ p ∈ B, ∃ o : Object V, objs0[p.1]? = some o := by
    intro p hp
    obtain ⟨o, _, h, _⟩ := d.ser p (d.subB p hp)
    exact ⟨o, h⟩
  refine ⟨i0.json, i0.dimM, i0.dim32, hi, by rw [g.cfg]; exact i0.cfg, ?_, k3, k4, ?_, ?_, ?_, ?_, ?_, ?_, ?_⟩
  · intro id w hw
    have hk : id ∈ b.c.index.nodes.keys := (AMap.get?_isSome_iff _ _).mp (by rw [hw]; rfl)
    rcases g.only id hk with h | h
    · obtain ⟨w0, hw0⟩ := Option.isSome_iff_exists.mp ((AMap.get?_isSome_iff _ _).mpr h)
      obtain ⟨w', hw', _, e⟩ := g.old id w0 hw0
      rw [hw] at hw'; cases hw'
      rw [e]; exact i0.vecs id w0 hw0
    · rw [hids] at h
      obtain ⟨p, hp, rfl⟩ := List.mem_map.mp h
      obtain ⟨w', hw', e⟩ := hjob p hp
      rw [hw] at hw'; cases hw'
      obtain ⟨o, ho⟩ := hpos p hp
      rw [e]; exact vecAt_dim ok ho
  · intro k hk
    rw [d.vectors] at hk
    unfold AMap.keys at hk
    rw [List.map_append, List.mem_append, List.map_map] at hk
    rcases hk with hk | hk
    · exact i0.vkeys k hk
    · obtain ⟨p, _, e⟩ := List.mem_map.mp hk; exact ⟨p.2, e.symm⟩
  · intro k hk
    rw [d.objects] at hk
    unfold AMap.keys at hk
    rw [List.map_append, List.mem_append, List.map_map] at hk
    rcases hk with hk | hk
    · exact i0.okeys k hk
    · obtain ⟨p, _, e⟩ := List.mem_map.mp hk; exact ⟨p.2, e.symm⟩
  · intro id
    by_cases h : id ∈ B.map Prod.snd
    · obtain ⟨p, hp, rfl⟩ := List.mem_map.mp h
      obtain ⟨w, hw, e⟩ := hjob p hp
      obtain ⟨o, ho⟩ := hpos p hp
      unfold getVector
      rw [l2 p hp]
      dsimp only
      rw [deserialize_serializeVector _ (by rw [vecAt_dim ok ho]; exact i0.dim32)]
      unfold vecOf
      rw [hw, ← e]; rfl
    · have h1 := i0.vstore id
      unfold getVector at h1 ⊢
      rw [l4 id h, h1]
      congr 1
      unfold vecOf
      cases hn : c0.index.nodes.get? id with
      | some w0 =>
        obtain ⟨w', hw', _, e⟩ := g.old id w0 hn
        rw [hw']; simp [e]
      | none =>
        have : b.c.index.nodes.get? id = none := by
          rw [AMap.get?_none_iff]
          intro hk
          rcases g.only id hk with h2 | h2
          · exact (AMap.get?_none_iff _ _).mp hn h2
          · rw [hids] at h2; exact h h2
        rw [this]
  · intro id bs hb
    by_cases h : id ∈ A.map Prod.snd
    · obtain ⟨p, hp, rfl⟩ := List.mem_map.mp h
      rw [l1 p hp] at hb
      cases hb
      obtain ⟨o, text, ho, hm⟩ := d.ser p hp
      obtain ⟨q, _, hq⟩ := objBytes_back ok ho hm
      exact ⟨q, hq⟩
    · rw [l3 id h] at hb; exact i0.dec id bs hb
  · obtain ⟨f0, h0, hu⟩ := i0.ids
    obtain ⟨f, h1, h2, h3⟩ := d.ctrOK f0 h0
    refine ⟨f, h1, fun id h => ?_⟩
    rw [k1, k2, g.deleted] at h
    rcases h with (h | h) | (h | h) | h
    · have := hu id (Or.inl h); omega
    · obtain ⟨p, hp, rfl⟩ := List.mem_map.mp h; exact h3 p (d.subA p hp)
    · have := hu id (Or.inr (Or.inl h)); omega
    · obtain ⟨p, hp, rfl⟩ := List.mem_map.mp h; exact h3 p (d.subA p (d.subB p hp))
    · have := hu id (Or.inr (Or.inr h)); omega
  · intro id hd hk
    rw [g.deleted] at hd
    rw [k1] at hk
    rcases hk with hk | hk
    · exact i0.del id hd hk
    · obtain ⟨p, hp, rfl⟩ := List.mem_map.mp hk
      obtain ⟨f0, h0, hu⟩ := i0.ids
      have h1 := hu _ (Or.inr (Or.inr hd))
      have h2 := d.lo p (d.subA p hp)
      have h3 := h0.2
      omega
  · intro id hv ho hx
    rw [k2] at hv
    rw [k1, not_or] at ho
    rw [g.deleted]
    rcases hv with hv | hv
    · exact i0.live id hv ho.1 hx
    · obtain ⟨p, hp, rfl⟩ := List.mem_map.mp hv
      exact absurd (List.mem_map.mpr ⟨p, d.subB p hp, rfl⟩) ho.2

theorem BInv.settleD (v : BInv fixed L dim c0 objs0 n b F A B X0 X1 X2 js) (ok : BatchOK L dim c0 objs0)
    (d0 : DInv False c0.index) (g : Grown c0.index js b.c.index) : DInv False b.c.index := by
  cases js with
  | nil =>
    have := sched_nil (init_quiet _ _) v.sched
    have : b.c.index = c0.index := congrArg Mach.h this
    rw [this]; exact d0
  | cons j js =>
    obtain ⟨s, h1, h2, h3, _, h5, h6, h7⟩ := d0.ex
    have keep : ∀ x ∈ c0.index.nodes.keys, x ∈ b.c.index.nodes.keys := by
      intro x hx
      obtain ⟨w0, hw0⟩ := Option.isSome_iff_exists.mp ((AMap.get?_isSome_iff _ _).mpr hx)
      obtain ⟨w', hw', _⟩ := g.old x w0 hw0
      exact (AMap.get?_isSome_iff _ _).mp (by rw [hw']; rfl)
    refine ⟨s, by rw [g.cfg, g.disk]; exact h1, fun x hx => keep x (h2 x hx), by rw [g.deleted]; exact h3, ?_,
      by rw [g.cfg]; exact h5, h6, h7⟩
    intro hk
    exfalso
    obtain ⟨w, hw, _⟩ := g.new j List.mem_cons_self
    have hj := h2 _ (hk _ ((AMap.get?_isSome_iff _ _).mp (by rw [hw]; rfl)))
    have : (j.id, j.vec) ∈ B.map (fun p => (p.2, vecAt objs0 p.1)) := by rw [← v.jobs]; simp
    obtain ⟨p, hp, e⟩ := List.mem_map.mp this
    simp only [Prod.mk.injEq] at e
    rw [← e.1] at hj
    exact (fresh_key ok.inv (v.dat.lo p (v.dat.subA p (v.dat.subB p hp)))).2.2 hj

/-- everything is done. -/
theorem BInv.complete (v : BInv fixed L dim c0 objs0 n b F A B X0 X1 X2 js) (hn : 0 < n) (hdone : ∀ t ∈ b.tasks, t.pc = .done)
    (hx : X0 = [] ∧ X1 = [] ∧ X2 = []) : ∀ k, k < objs0.length → ∃ id, (k, id) ∈ B := by
  obtain ⟨rfl, rfl, rfl⟩ := hx
  intro k hk
  have h0 := v.cnt.once k
  have h1 := v.cnt.stA k
  have h2 := v.cnt.stB k
  have hq : b.queue = [] := by
    have hl : 0 < b.tasks.length := by rw [v.lenT]; exact hn
    have := List.getElem_mem hl
    exact (v.fin _ this (hdone _ this)).2
  have p0 : tsum (pend k) b.tasks = 0 := tsum_zero _ _ (fun t ht => by
    unfold pend; rw [(v.fin t ht (hdone t ht)).1, hdone t ht]; rfl)
  have p1 : tsum (at1 k) b.tasks = 0 := tsum_zero _ _ (fun t ht => by unfold at1; rw [hdone t ht]; rfl)
  have p2 : tsum (at2 k) b.tasks = 0 := tsum_zero _ _ (fun t ht => by unfold at2; rw [hdone t ht]; rfl)
  have hr : 1 ≤ (List.range objs0.length).count k := List.count_pos_iff.mpr (List.mem_range.mpr hk)
  rw [hq, p0] at h0
  rw [p1] at h1
  rw [p2] at h2
  simp only [List.count_nil] at h0 h1 h2
  have : 0 < (B.map Prod.fst).count k := by omega
  obtain ⟨p, hp, e⟩ := List.mem_map.mp (List.count_pos_iff.mp this)
  exact ⟨p.2, by rw [← e]; exact hp⟩

end

/-! ### Batches without the race -/

theorem step_serial {M : Metric D} {m m' : Mach D} (h1 : m.ts.length = 1) {i : Nat} (h : m.step false M (.run i) = some m') :
    m.step true M (.run i) = some m' := by
  obtain ⟨t, pc, ht, hs, e⟩ := step_run h
  have hts : m.ts = [t] := by
    match hm : m.ts with
    | [x] =>
      rw [hm] at ht
      cases i with
      | zero => simp at ht; rw [ht]
      | succ i => simp at ht
    | [] => rw [hm] at h1; cases h1
    | _ :: _ :: _ => rw [hm] at h1; simp at h1
  have key : stepPC true M m.h (lockedBy true m.ts) t.job t.pc = stepPC false M m.h (lockedBy false m.ts) t.job t.pc := by
    rw [hts]
    cases hpc : t.pc with
    | pop cur ph s buf =>
      have f : ∀ (fx : Bool) x, lockedBy fx [t] x = false := by
        intro fx x; simp [lockedBy, Thread.held, hpc, PC.held]
      simp only [stepPC, f]
    | logOwn cur l nns ns =>
      have f : ∀ (fx : Bool) x, lockedBy fx [t] x = false := by
        intro fx x; simp [lockedBy, Thread.held, hpc, PC.held]
      simp [stepPC, f]
    | link cur l nns todo =>
      have f : ∀ (fx : Bool) x, lockedBy fx [t] x = false := by
        intro fx x; simp [lockedBy, Thread.held, hpc, PC.held]
      simp only [stepPC, f]
    | _ => simp only [stepPC]
  unfold Mach.step
  simp only [ht, key, hs]
  rw [← e]

theorem step_length {fixed : Bool} {M : Metric D} {m m' : Mach D} {a : Act} (h : m.step fixed M a = some m') :
    m'.ts.length = m.ts.length := by
  cases a with
  | run i => obtain ⟨t, pc, _, _, e⟩ := step_run h; rw [e, List.length_set]
  | call i j => obtain ⟨t, _, _, e⟩ := step_call h; rw [e]; simp

theorem sched_serial {M : Metric D} {dim : Nat} {m m' : Mach D} {js : List Job} (h1 : m.ts.length = 1) (h : Sched false M dim m js m') :
    Sched true M dim m js m' ∧ m'.ts.length = 1 := by
  induction h with
  | start => exact ⟨.start, h1⟩
  | run i _ h ih => exact ⟨.run i ih.1 (step_serial ih.2 h), by rw [step_length h]; exact ih.2⟩
  | call i j _ hf hj h ih => exact ⟨.call i j ih.1 hf hj h, by rw [step_length h]; exact ih.2⟩

theorem tame_sched {fixed : Bool} {L : Lib V D} {dim n : Nat} {X : UInt64 → Prop} {c0 : Coll} (i : WInv False L dim X c0)
    {js : List Job} {m : Mach D} (hs : Sched fixed L.metric dim (Mach.init c0.index n) js m)
    (ht : fixed = true ∨ n = 1 ∨ ∀ j ∈ js, j.level = 0) :
    Sched true L.metric dim (Mach.init c0.index n) js m ∧ ∃ an, MachInv L.metric dim m.h an m.ts := by
  have h0 : ∃ an, MachInv L.metric dim (Mach.init c0.index n : Mach D).h an (Mach.init c0.index n : Mach D).ts :=
    ⟨_, quiet_inv (init_quiet _ _) i.idx i.cfg i.vecs⟩
  have : Sched true L.metric dim (Mach.init c0.index n) js m := by
    cases fixed with
    | true => exact hs
    | false =>
      rcases ht with h | h | h
      · cases h
      · exact (sched_serial (by rw [h]; simp [Mach.init]) hs).1
      · exact (sched_level0 i.dimM (init_quiet _ _) h0 hs h).1
  exact ⟨this, sched_inv i.dimM this h0⟩

theorem inv_noPanic {M : Metric D} {dim : Nat} {h : Hnsw} {an : AMap UInt64 Vertex} {ts : List (Thread D)}
    (i : MachInv M dim h an ts) : ∀ t ∈ ts, t.pc.panicked = false := by
  intro t ht
  obtain ⟨k, hk⟩ := List.getElem?_of_mem ht
  have := i.thr k t hk
  cases hp : t.pc <;> first | rfl | (rw [hp] at this; exact this.elim)

theorem BInv.calm {fixed : Bool} {L : Lib V D} {dim : Nat} {c0 : Coll} {objs0 : List (Object V)} {n : Nat} {b : Batch V D}
    {F A B : List (Nat × UInt64)} {X0 X1 X2 : List Nat} {js : List Job}
    (v : BInv fixed L dim c0 objs0 n b F A B X0 X1 X2 js) (ok : BatchOK L dim c0 objs0)
    (ht : fixed = true ∨ n = 1 ∨ ∀ j ∈ js, j.level = 0) : b.noPanic := by
  obtain ⟨_, an, i⟩ := tame_sched ok.inv v.sched ht
  intro t htm hp
  obtain ⟨k, hk⟩ := List.getElem?_of_mem htm
  obtain ⟨th, hth⟩ := v.thread hk
  have h1 := v.thr k t th hk hth
  rw [hp] at h1
  have h2 := inv_noPanic i th (List.mem_of_getElem? hth)
  rw [show th.pc.panicked = true from h1] at h2
  cases h2

end Vectory.Conc
