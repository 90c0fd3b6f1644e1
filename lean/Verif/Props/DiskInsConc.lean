import Verif.Props.DiskIns
/-! # C71: `DiskAnn.Insert` by many goroutines -/
namespace Vectory
open DiskAnn
variable {D : Type}

namespace DiskAnn

/-- the id a goroutine has taken. -/
def PC.id? : PC → Option UInt64
  | .check | .fetch => none
  | .load id | .call id _ | .inside id _ | .added id _ | .done id _ => some id

/-- the vector of this goroutine is in part `p` under `id`. -/
def PC.stores (id : UInt64) : PC → Prop
  | .added id' _ => id' = id
  | .done id' r => id' = id ∧ r = none
  | _ => False

/-! ## The steps of `insert` -/

theorem connect_link (M : Metric D) (close : D → D → Bool) (mi : MemIndex) (del : List UInt32) (vec : Vec) (ls : Nat) (id : UInt64) :
    mi.connect M close del vec ls id = MemIndex.link M close { mi with graph := mi.graph.set id { id := id, vector := vec } } del vec ls id := rfl

/-- the three steps of `insert`, one after the other, are `insert`. -/
theorem insert_steps (M : Metric D) (close : D → D → Bool) (mi : MemIndex) (hf : mi.once = false → mi.graph = []) (del : List UInt32) (vec : Vec)
    (ls : Nat) (id : UInt64) :
    mi.insert M close del vec ls id =
      match mi.refuses vec with
      | some f => .error f
      | none =>
        match mi.addVertex vec id with
        | .error p => .error (.panic p)
        | .ok (mi', true) => .ok mi'
        | .ok (mi', false) => liftE (mi'.link M close del vec ls id) := by
  unfold MemIndex.insert MemIndex.refuses MemIndex.addVertex
  by_cases h1 : mi.readOnly
  · simp [h1]
  · rw [if_neg h1, if_neg h1]
    by_cases h2 : vec.length ≠ mi.dim.toNat
    · rw [if_pos h2, if_pos h2]
    · rw [if_neg h2, if_neg h2]
      by_cases h3 : mi.wired = false
      · simp [h3]
      · rw [if_neg h3]
        dsimp only
        rw [if_neg h3]
        cases h4 : mi.once with
        | true => simp [connect_link]
        | false => simp [hf h4]

theorem link_readOnly (M : Metric D) (close : D → D → Bool) (mi : MemIndex) (b : Bool) (del : List UInt32) (vec : Vec) (ls : Nat) (id : UInt64)
    {mi' : MemIndex} (h : mi.link M close del vec ls id = .ok mi') :
    MemIndex.link M close { mi with readOnly := b } del vec ls id = .ok { mi' with readOnly := b } := by
  unfold MemIndex.link at h ⊢
  obtain ⟨vis, h1, h⟩ := (bind_ok_iff _ _ _).mp h
  obtain ⟨ns, h2, h⟩ := (bind_ok_iff _ _ _).mp h
  obtain ⟨g, h3, h⟩ := (bind_ok_iff _ _ _).mp h
  cases h
  refine (bind_ok_iff _ _ _).mpr ⟨vis, h1, (bind_ok_iff _ _ _).mpr ⟨ns, h2, (bind_ok_iff _ _ _).mpr ⟨g, h3, rfl⟩⟩⟩

/-- part `mi` in the middle of an insertion of `v` under `id`: what it was before. -/
structure Mid (P : Params D) (mi : MemIndex) (id : UInt64) (v : Vec) : Prop where
  ex : ∃ mi0 first, BInv P.dim P.maxDegree first mi0 ∧ Built P.metric P.close first P.maxDegree P.dim mi0 ∧ mi0.readOnly = false ∧
    mi0.once = true ∧ id ∉ AMap.keys mi0.graph ∧
    mi = { mi0 with graph := mi0.graph.set id { id := id, vector := v }, readOnly := mi.readOnly }
  len : v.length = P.dim.toNat

/-- every part is as `insert` leaves it or in the middle of one. -/
structure WInv (P : Params D) (vs : List Vec) (w : World) : Prop where
  ne : w.da.parts ≠ []
  part : ∀ (p : Nat) (mi : MemIndex), w.da.parts[p]? = some mi → ∃ first, BInv P.dim P.maxDegree first mi
  built : ∀ (p : Nat) (mi : MemIndex), w.da.parts[p]? = some mi → (∀ (i : Nat) (v : Vec) (id : UInt64), w.tasks[i]? ≠ some (v, .added id p)) →
    ∃ first, BInv P.dim P.maxDegree first mi ∧ Built P.metric P.close first P.maxDegree P.dim mi
  mid : ∀ (i : Nat) (v : Vec) (id : UInt64) (p : Nat) (mi : MemIndex), w.tasks[i]? = some (v, .added id p) → w.da.parts[p]? = some mi → Mid P mi id v
  keys : ∀ (p : Nat) (mi : MemIndex), w.da.parts[p]? = some mi → ∀ k ∈ AMap.keys mi.graph, k.toNat < w.da.currId.toNat
  disj : ∀ (p q : Nat) (mi mi' : MemIndex), w.da.parts[p]? = some mi → w.da.parts[q]? = some mi' →
    ∀ k, k ∈ AMap.keys mi.graph → k ∈ AMap.keys mi'.graph → p = q
  last : ∀ mi, w.da.parts[w.da.rw]? = some mi → mi.readOnly = false
  vecs : w.tasks.map Prod.fst = vs
  below : ∀ (i : Nat) (v : Vec) (pc : PC) (id : UInt64), w.tasks[i]? = some (v, pc) → pc.id? = some id → id.toNat < w.da.currId.toNat
  distinct : ∀ (i j : Nat) (v v' : Vec) (pc pc' : PC) (id : UInt64), w.tasks[i]? = some (v, pc) → w.tasks[j]? = some (v', pc') →
    pc.id? = some id → pc'.id? = some id → i = j
  excl : ∀ (i j : Nat) (v v' : Vec) (pc pc' : PC) (p : Nat), w.tasks[i]? = some (v, pc) → w.tasks[j]? = some (v', pc') →
    pc.lock = some p → pc'.lock = some p → i = j
  ptr : ∀ (i : Nat) (v : Vec) (id : UInt64) (p : Nat), w.tasks[i]? = some (v, .call id p) ∨ w.tasks[i]? = some (v, .inside id p) ∨
    w.tasks[i]? = some (v, .added id p) → p < w.da.parts.length
  fits : ∀ (i : Nat) (v : Vec) (id : UInt64) (p : Nat), w.tasks[i]? = some (v, .inside id p) → v.length = P.dim.toNat
  stored : ∀ id v, w.da.Holds id v ↔ ∃ (i : Nat) (pc : PC), w.tasks[i]? = some (v, pc) ∧ pc.stores id
  ok : ∀ (i : Nat) (v : Vec) (id : UInt64) (r : Option Fail), w.tasks[i]? = some (v, .done id r) →
    (r = none ∧ v.length = P.dim.toNat) ∨ (r = some .dimension ∧ v.length ≠ P.dim.toNat) ∨ r = some .readOnly
  alive : w.panicked = false

theorem winv_start (P : Params D) (vs : List Vec) : WInv P vs (World.start P vs) := by
  have ht : ∀ (i : Nat) (v : Vec) (pc : PC), (World.start P vs).tasks[i]? = some (v, pc) → pc = .check := by
    intro i v pc h
    simp only [World.start, List.getElem?_map] at h
    cases hv : vs[i]? with
    | none => rw [hv] at h; cases h
    | some _ => rw [hv] at h; simp at h; exact h.2.symm
  have k := pinv_new P
  refine ⟨k.ne, fun p mi h => (k.part p mi h).imp (fun _ h => h.1), fun p mi h _ => k.part p mi h, ?_, k.below, k.disj, k.last, ?_, ?_, ?_, ?_, ?_, ?_, ?_, ?_, rfl⟩
  · intro i v id p mi h; have := ht i v _ h; cases this
  · simp [World.start, List.map_map, Function.comp_def]
  · intro i v pc id h hid; rw [ht i v pc h] at hid; cases hid
  · intro i j v v' pc pc' id h _ hid; rw [ht i v pc h] at hid; cases hid
  · intro i j v v' pc pc' p h _ hl; rw [ht i v pc h] at hl; cases hl
  · intro i v id p h; rcases h with h | h | h <;> (have := ht i v _ h; cases this)
  · intro i v id p h; have := ht i v _ h; cases this
  · intro id v
    constructor
    · rintro ⟨p, hp⟩
      cases p with
      | zero => cases hp
      | succ p => cases hp
    · rintro ⟨i, pc, hi, hs⟩; have := ht i v _ hi; subst this; cases hs
  · intro i v id r h; have := ht i v _ h; cases this

theorem set_cases {ts : List (Vec × PC)} {i j : Nat} {a : Vec × PC} {x : Vec × PC} (h : (ts.set i a)[j]? = some x) :
    (j = i ∧ x = a ∧ i < ts.length) ∨ (j ≠ i ∧ ts[j]? = some x) := by
  rw [List.getElem?_set] at h
  split at h
  · rename_i e; subst e
    split at h
    · rename_i hl; cases h; exact Or.inl ⟨rfl, rfl, hl⟩
    · cases h
  · rename_i e; exact Or.inr ⟨fun h => e h.symm, h⟩

theorem map_fst_set {ts : List (Vec × PC)} {i : Nat} {v : Vec} {pc : PC} (h : ts[i]? = some (v, pc)) (pc' : PC) :
    (ts.set i (v, pc')).map Prod.fst = ts.map Prod.fst := by
  rw [List.map_set]
  obtain ⟨hlt, he⟩ := List.getElem?_eq_some_iff.mp h
  apply List.ext_getElem?
  intro n
  rw [List.getElem?_set]
  split
  · rename_i e; subst e
    simp [hlt, he]
  · rfl

theorem at_key {da : DA} {p : Nat} {id : UInt64} {v : Vec} (h : da.at p id = some v) :
    ∃ mi, da.parts[p]? = some mi ∧ id ∈ AMap.keys mi.graph := by
  unfold DA.at at h
  cases hp : da.parts[p]? with
  | none => rw [hp] at h; cases h
  | some mi =>
    rw [hp] at h
    simp only [Option.bind_some] at h
    refine ⟨mi, rfl, ?_⟩
    rw [← AMap.get?_isSome_iff]
    cases hg : AMap.get? mi.graph id with
    | none => rw [hg] at h; cases h
    | some _ => rfl

theorem BInv.flag {dim maxDegree : UInt32} {first : UInt64} {mi : MemIndex} (h : BInv dim maxDegree first mi) (b : Bool) :
    BInv dim maxDegree first { mi with readOnly := b } := ⟨h.g, h.wired, h.dim, h.deg, h.first, h.fresh, h.start⟩

theorem insert_readOnly {M : Metric D} {close : D → D → Bool} {mi mi' : MemIndex} {del : List UInt32} {vec : Vec} {ls : Nat} {id : UInt64}
    (h : mi.insert M close del vec ls id = .ok mi') : mi.readOnly = false ∧ mi'.readOnly = false := by
  unfold MemIndex.insert at h
  split at h
  · cases h
  · rename_i hro
    have hro : mi.readOnly = false := by simpa using hro
    have con : ∀ (m m' : MemIndex), m.readOnly = false → liftE (m.connect M close del vec ls id) = .ok m' → m'.readOnly = false := by
      intro m m' hm hc
      unfold MemIndex.connect at hc
      cases hq : (do
          let vertex : Vertex := { id := id, vector := vec }
          let mi := { m with graph := m.graph.set id vertex }
          let visited ← mi.visit M del vec ls
          let ns ← robustPrune M close mi.graph mi.maxDegree vertex visited
          let g := mi.graph.set id { vertex with neighbors := ns }
          let g ← ns.foldlM (linkBack M close mi.maxDegree id) g
          (.ok { mi with graph := g } : Except Panic MemIndex)) with
      | error e => rw [hq] at hc; cases hc
      | ok m1 =>
        rw [hq] at hc; cases hc
        obtain ⟨_, _, hq⟩ := (bind_ok_iff _ _ _).mp hq
        obtain ⟨_, _, hq⟩ := (bind_ok_iff _ _ _).mp hq
        obtain ⟨_, _, hq⟩ := (bind_ok_iff _ _ _).mp hq
        cases hq; exact hm
    refine ⟨hro, ?_⟩
    split at h
    · cases h
    · split at h
      · cases h
      · split at h
        · dsimp only at h
          split at h
          · cases h; exact hro
          · refine con _ mi' ?_ h; exact hro
        · exact con _ _ hro h

theorem built_unlock {M : Metric D} {close : D → D → Bool} {first : UInt64} {maxDegree dim : UInt32} {mi : MemIndex}
    (h : Built M close first maxDegree dim mi) : Built M close first maxDegree dim { mi with readOnly := false } := by
  induction h with
  | new => exact .new
  | @insert mi mi' del vec ls id h1 h2 h3 ih =>
    have := (insert_readOnly h3).2
    have e : ({ mi' with readOnly := false } : MemIndex) = mi' := by rw [← this]
    rw [e]; exact .insert h1 h2 h3
  | readOnly _ ih => exact ih

theorem built_flag {M : Metric D} {close : D → D → Bool} {first : UInt64} {maxDegree dim : UInt32} {mi : MemIndex}
    (h : Built M close first maxDegree dim mi) (b : Bool) : Built M close first maxDegree dim { mi with readOnly := b } := by
  cases b with
  | false => exact built_unlock h
  | true => exact .readOnly h

theorem Mid.flag {P : Params D} {mi : MemIndex} {id : UInt64} {v : Vec} (h : Mid P mi id v) (b : Bool) : Mid P { mi with readOnly := b } id v := by
  obtain ⟨⟨mi0, first, h1, h2, h3, h4, h5, h6⟩, hl⟩ := h
  exact ⟨⟨mi0, first, h1, h2, h3, h4, h5, by rw [h6]⟩, hl⟩

/-- the locked section, without assumptions on the parts. -/
theorem rotate_raw (P : Params D) {da : DA} (hne : da.parts ≠ []) :
    (da.rotate P).parts ≠ [] ∧ (da.rotate P).currId = da.currId ∧ da.parts.length ≤ (da.rotate P).parts.length ∧
    (∀ (p : Nat) (mi : MemIndex), (da.rotate P).parts[p]? = some mi →
      (∃ mi0, da.parts[p]? = some mi0 ∧ (mi = mi0 ∨ mi = { mi0 with readOnly := true })) ∨
        (da.parts.length ≤ p ∧ mi = newMemIndex da.currId P.maxDegree P.dim)) ∧
    (∀ (p : Nat) (mi0 : MemIndex), da.parts[p]? = some mi0 → ∃ mi, (da.rotate P).parts[p]? = some mi ∧ (mi = mi0 ∨ mi = { mi0 with readOnly := true })) ∧
    (∀ mi, (da.rotate P).parts[(da.rotate P).rw]? = some mi → da.parts[da.rw]? = some mi ∨ mi.readOnly = false) := by
  unfold DA.rotate
  cases hf : da.full P with
  | false => exact ⟨hne, rfl, Nat.le_refl _, fun p mi h => Or.inl ⟨mi, h, Or.inl rfl⟩, fun p mi h => ⟨mi, h, Or.inl rfl⟩, fun mi h => Or.inl h⟩
  | true =>
    rw [if_pos rfl]
    have hlt := DA.rw_lt hne
    have hget : ∀ (p : Nat) (mi : MemIndex), (da.parts.modify da.rw (fun mi => { mi with readOnly := true }) ++ [newMemIndex da.currId P.maxDegree P.dim])[p]? = some mi →
        (∃ mi0, da.parts[p]? = some mi0 ∧ (mi = mi0 ∨ mi = { mi0 with readOnly := true })) ∨
          (da.parts.length ≤ p ∧ mi = newMemIndex da.currId P.maxDegree P.dim) := by
      intro p mi h
      rw [List.getElem?_append] at h
      split at h
      · rename_i hp
        simp only [List.length_modify] at hp
        rw [List.getElem?_modify] at h
        left
        rw [List.getElem?_eq_getElem hp] at h ⊢
        refine ⟨_, rfl, ?_⟩
        split at h <;> simp at h <;> subst h
        · exact Or.inr rfl
        · exact Or.inl rfl
      · rename_i hp
        simp only [List.length_modify] at hp h
        right
        have : p - da.parts.length = 0 := by
          rcases Nat.eq_zero_or_pos (p - da.parts.length) with h0 | h0
          · exact h0
          · rw [List.getElem?_eq_none (by simp; omega)] at h; cases h
        rw [this] at h
        simp at h
        exact ⟨by omega, h.symm⟩
    refine ⟨by simp, rfl, by simp, hget, ?_, ?_⟩
    · intro p mi0 h
      have hp : p < da.parts.length := (List.getElem?_eq_some_iff.mp h).1
      rw [List.getElem?_append, if_pos (by simpa using hp), List.getElem?_modify, h]
      split
      · exact ⟨_, rfl, Or.inr rfl⟩
      · exact ⟨_, rfl, Or.inl rfl⟩
    · intro mi h
      have : (DA.rw { da with parts := da.parts.modify da.rw (fun mi => { mi with readOnly := true }) ++ [newMemIndex da.currId P.maxDegree P.dim] }) = da.parts.length := by
        simp [DA.rw]
      rw [this] at h
      rcases hget _ mi h with ⟨mi0, h0, _⟩ | ⟨_, rfl⟩
      · rw [List.getElem?_eq_none (Nat.le_refl _)] at h0; cases h0
      · exact Or.inr rfl

/-- what a step that writes no vertex may do to the parts: read-only flags, new empty parts. -/
structure SameVertices (P : Params D) (w w' : World) : Prop where
  back : ∀ (p : Nat) (mi : MemIndex), w'.da.parts[p]? = some mi →
      (∃ mi0 b, w.da.parts[p]? = some mi0 ∧ mi = { mi0 with readOnly := b }) ∨
        (w.da.parts.length ≤ p ∧ ∃ first, mi = newMemIndex first P.maxDegree P.dim)
  fwd : ∀ (p : Nat) (mi0 : MemIndex), w.da.parts[p]? = some mi0 → ∃ b, w'.da.parts[p]? = some { mi0 with readOnly := b }

theorem SameVertices.rfl' {P : Params D} {w w' : World} (h : w'.da.parts = w.da.parts) : SameVertices P w w' :=
  ⟨fun p mi hp => Or.inl ⟨mi, mi.readOnly, by rw [← h]; exact hp, rfl⟩, fun p mi hp => ⟨mi.readOnly, by rw [h]; exact hp⟩⟩

theorem SameVertices.at {P : Params D} {w w' : World} (h : SameVertices P w w') (p : Nat) (id : UInt64) : w'.da.at p id = w.da.at p id := by
  unfold DA.at
  cases hp : w.da.parts[p]? with
  | some mi0 =>
    obtain ⟨b, hb⟩ := h.fwd p mi0 hp
    rw [hb]; rfl
  | none =>
    cases hp' : w'.da.parts[p]? with
    | none => rfl
    | some mi =>
      rcases h.back p mi hp' with ⟨mi0, b, h0, _⟩ | ⟨_, first, rfl⟩
      · rw [hp] at h0; cases h0
      · rfl

/-- a step that writes no vertex. -/
theorem WInv.quiet {P : Params D} {vs : List Vec} {w w' : World} (k : WInv P vs w) (hv : SameVertices P w w') (hne : w'.da.parts ≠ [])
    (hlen : w.da.parts.length ≤ w'.da.parts.length) (hlast : ∀ mi, w'.da.parts[w'.da.rw]? = some mi → mi.readOnly = false)
    (hc : w.da.currId.toNat ≤ w'.da.currId.toNat) (hal : w'.panicked = false)
    {i : Nat} {v : Vec} {pc pc' : PC} (ht : w.tasks[i]? = some (v, pc)) (htasks : w'.tasks = w.tasks.set i (v, pc'))
    (hid : pc'.id? = pc.id? ∨ (pc'.id? = some w.da.currId ∧ w.da.currId.toNat < w'.da.currId.toNat))
    (hna : ∀ id p, pc ≠ .added id p) (hna' : ∀ id p, pc' ≠ .added id p)
    (hlock : ∀ p, pc'.lock = some p → ∀ (j : Nat) (u : Vec) (q : PC), w.tasks[j]? = some (u, q) → q.lock ≠ some p)
    (hptr : ∀ id p, pc' = .call id p ∨ pc' = .inside id p → p < w'.da.parts.length) (hfit : ∀ id p, pc' = .inside id p → v.length = P.dim.toNat)
    (hnd : ∀ id, ¬ pc.stores id) (hnd' : ∀ id, ¬ pc'.stores id)
    (hok : ∀ id r, pc' = .done id r → (r = none ∧ v.length = P.dim.toNat) ∨ (r = some .dimension ∧ v.length ≠ P.dim.toNat) ∨ r = some .readOnly) :
    WInv P vs w' := by
  have hkey : ∀ (p : Nat) (mi : MemIndex), w'.da.parts[p]? = some mi → ∀ x ∈ AMap.keys mi.graph, ∃ mi0, w.da.parts[p]? = some mi0 ∧ x ∈ AMap.keys mi0.graph := by
    intro p mi h x hx
    rcases hv.back p mi h with ⟨mi0, b, h0, rfl⟩ | ⟨_, first, rfl⟩
    · exact ⟨mi0, h0, hx⟩
    · cases hx
  have hold : ∀ (j : Nat) (u : Vec) (q : PC), w'.tasks[j]? = some (u, q) → (j = i ∧ u = v ∧ q = pc') ∨ (j ≠ i ∧ w.tasks[j]? = some (u, q)) := by
    intro j u q h
    rw [htasks] at h
    rcases set_cases h with ⟨h1, h2, _⟩ | h
    · cases h2; exact Or.inl ⟨h1, rfl, rfl⟩
    · exact Or.inr h
  have hnew : ∀ (j : Nat) (u : Vec) (q : PC), j ≠ i → w.tasks[j]? = some (u, q) → w'.tasks[j]? = some (u, q) := by
    intro j u q hj h
    rw [htasks, List.getElem?_set, if_neg (Ne.symm hj)]; exact h
  have hbel : ∀ (j : Nat) (u : Vec) (q : PC) (x : UInt64), w'.tasks[j]? = some (u, q) → q.id? = some x → x.toNat < w'.da.currId.toNat := by
    intro j u q x hj hq
    rcases hold j u q hj with ⟨rfl, rfl, rfl⟩ | ⟨_, h⟩
    · rcases hid with h | ⟨h, h'⟩
      · rw [h] at hq; have := k.below _ _ _ _ ht hq; omega
      · rw [h] at hq; cases hq; exact h'
    · have := k.below _ _ _ _ h hq; omega
  refine ⟨hne, ?_, ?_, ?_, ?_, ?_, hlast, by rw [htasks, map_fst_set ht]; exact k.vecs, hbel, ?_, ?_, ?_, ?_, ?_, ?_, hal⟩
  · intro p mi h
    rcases hv.back p mi h with ⟨mi0, b, h0, rfl⟩ | ⟨_, first, rfl⟩
    · exact (k.part p mi0 h0).imp (fun _ h => h.flag b)
    · exact ⟨first, binv_new P first⟩
  · intro p mi h hn
    rcases hv.back p mi h with ⟨mi0, b, h0, rfl⟩ | ⟨_, first, rfl⟩
    · obtain ⟨first, h1, h2⟩ := k.built p mi0 h0 (fun j u x hj => by
        by_cases hji : j = i
        · subst hji; rw [ht] at hj; cases hj; exact hna _ _ rfl
        · exact hn j u x (hnew j u _ hji hj))
      exact ⟨first, h1.flag b, built_flag h2 b⟩
    · exact ⟨first, binv_new P first, .new⟩
  · intro j u x p mi hj hp
    rcases hold j u _ hj with ⟨rfl, rfl, h⟩ | ⟨_, h⟩
    · exact absurd h.symm (hna' _ _)
    · rcases hv.back p mi hp with ⟨mi0, b, h0, rfl⟩ | ⟨hge, _⟩
      · exact (k.mid _ _ _ _ _ h h0).flag b
      · have := k.ptr j u x p (Or.inr (Or.inr h)); omega
  · intro p mi h x hx
    obtain ⟨mi0, h0, hx0⟩ := hkey p mi h x hx
    have := k.keys p mi0 h0 x hx0; omega
  · intro p q mi mi' hp hq x hx hx'
    obtain ⟨m, hm, hxm⟩ := hkey p mi hp x hx
    obtain ⟨m', hm', hxm'⟩ := hkey q mi' hq x hx'
    exact k.disj p q m m' hm hm' x hxm hxm'
  · intro a b u u' q q' x ha hb hqa hqb
    rcases hold a u q ha with ⟨rfl, rfl, rfl⟩ | ⟨_, h⟩ <;> rcases hold b u' q' hb with ⟨rfl, rfl, rfl⟩ | ⟨_, h'⟩
    · rfl
    · rcases hid with e | ⟨e, _⟩
      · rw [e] at hqa; exact k.distinct _ _ _ _ _ _ _ ht h' hqa hqb
      · rw [e] at hqa; cases hqa; have := k.below _ _ _ _ h' hqb; omega
    · rcases hid with e | ⟨e, _⟩
      · rw [e] at hqb; exact k.distinct _ _ _ _ _ _ _ h ht hqa hqb
      · rw [e] at hqb; cases hqb; have := k.below _ _ _ _ h hqa; omega
    · exact k.distinct _ _ _ _ _ _ _ h h' hqa hqb
  · intro a b u u' q q' p ha hb hqa hqb
    rcases hold a u q ha with ⟨rfl, rfl, rfl⟩ | ⟨_, h⟩ <;> rcases hold b u' q' hb with ⟨rfl, rfl, rfl⟩ | ⟨_, h'⟩
    · rfl
    · exact absurd hqb (hlock p hqa _ _ _ h')
    · exact absurd hqa (hlock p hqb _ _ _ h)
    · exact k.excl _ _ _ _ _ _ _ h h' hqa hqb
  · intro j u x p hj
    rcases hj with hj | hj | hj <;> rcases hold j u _ hj with ⟨rfl, rfl, h⟩ | ⟨_, h⟩
    · exact hptr x p (Or.inl h.symm)
    · exact Nat.lt_of_lt_of_le (k.ptr j u x p (Or.inl h)) hlen
    · exact hptr x p (Or.inr h.symm)
    · exact Nat.lt_of_lt_of_le (k.ptr j u x p (Or.inr (Or.inl h))) hlen
    · exact absurd h.symm (hna' _ _)
    · exact Nat.lt_of_lt_of_le (k.ptr j u x p (Or.inr (Or.inr h))) hlen
  · intro j u x p hj
    rcases hold j u _ hj with ⟨rfl, rfl, h⟩ | ⟨_, h⟩
    · exact hfit x p h.symm
    · exact k.fits _ _ _ _ h
  · intro x u
    have h1 : w'.da.Holds x u ↔ w.da.Holds x u := by unfold DA.Holds; simp only [hv.at]
    rw [h1, k.stored]
    constructor
    · rintro ⟨j, q, hj, hs⟩
      refine ⟨j, q, hnew j u q ?_ hj, hs⟩
      rintro rfl; rw [ht] at hj; cases hj; exact hnd _ hs
    · rintro ⟨j, q, hj, hs⟩
      rcases hold j u q hj with ⟨rfl, rfl, rfl⟩ | ⟨_, h⟩
      · exact absurd hs (hnd' _)
      · exact ⟨j, q, h, hs⟩
  · intro j u x r hj
    rcases hold j u _ hj with ⟨rfl, rfl, h⟩ | ⟨_, h⟩
    · exact hok x r h.symm
    · exact k.ok _ _ _ _ h

/-- a step of the goroutine that holds the lock of part `p`, which writes its vertex there. -/
theorem WInv.write {P : Params D} {vs : List Vec} {w : World} (k : WInv P vs w) {i : Nat} {v : Vec} {pc pc' : PC} {p : Nat} {id : UInt64}
    {mi mi' : MemIndex} (ht : w.tasks[i]? = some (v, pc)) (hlk : pc.lock = some p) (hpid : pc.id? = some id) (hp : w.da.parts[p]? = some mi)
    {first : UInt64} (hB : BInv P.dim P.maxDegree first mi')
    (hbuilt : pc' = .done id none → Built P.metric P.close first P.maxDegree P.dim mi')
    (hmid : pc' = .added id p → Mid P mi' id v)
    (hkeys : ∀ x ∈ AMap.keys mi'.graph, x ∈ AMap.keys mi.graph ∨ x = id)
    (hvec : ∀ x, (mi'.graph.get? x).map Vertex.vector = if x = id then some v else (mi.graph.get? x).map Vertex.vector)
    (hro : mi'.readOnly = mi.readOnly) (hpc : pc' = .added id p ∨ pc' = .done id none) (hl : v.length = P.dim.toNat)
    (hfr : ∀ (q : Nat) (m : MemIndex), w.da.parts[q]? = some m → id ∈ AMap.keys m.graph → q = p) :
    WInv P vs { w with da := { w.da with parts := w.da.parts.set p mi' }, tasks := w.tasks.set i (v, pc') } := by
  have hlt : p < w.da.parts.length := (List.getElem?_eq_some_iff.mp hp).1
  have hti : i < w.tasks.length := (List.getElem?_eq_some_iff.mp ht).1
  have hg : ∀ (q : Nat) (x : MemIndex), (w.da.parts.set p mi')[q]? = some x → (q = p ∧ x = mi') ∨ (q ≠ p ∧ w.da.parts[q]? = some x) := by
    intro q x h
    rw [List.getElem?_set] at h
    split at h
    · rename_i e; subst e; cases h; exact Or.inl ⟨rfl, rfl⟩
    · rename_i e; exact Or.inr ⟨fun h => e h.symm, h⟩
  have hold : ∀ (j : Nat) (u : Vec) (q : PC), (w.tasks.set i (v, pc'))[j]? = some (u, q) → (j = i ∧ u = v ∧ q = pc') ∨ (j ≠ i ∧ w.tasks[j]? = some (u, q)) := by
    intro j u q h
    rcases set_cases h with ⟨h1, h2, _⟩ | h
    · cases h2; exact Or.inl ⟨h1, rfl, rfl⟩
    · exact Or.inr h
  have hnew : ∀ (j : Nat) (u : Vec) (q : PC), j ≠ i → w.tasks[j]? = some (u, q) → (w.tasks.set i (v, pc'))[j]? = some (u, q) := by
    intro j u q hj h
    rw [List.getElem?_set, if_neg (Ne.symm hj)]; exact h
  have hself : (w.tasks.set i (v, pc'))[i]? = some (v, pc') := by rw [List.getElem?_set, if_pos rfl, if_pos hti]
  have hid' : pc'.id? = some id := by rcases hpc with rfl | rfl <;> rfl
  have hst' : ∀ x, pc'.stores x ↔ x = id := by
    intro x; rcases hpc with rfl | rfl
    · exact eq_comm
    · exact ⟨fun h => h.1.symm, fun h => ⟨h.symm, rfl⟩⟩
  have hlast' : DA.rw { w.da with parts := w.da.parts.set p mi' } = w.da.rw := by simp [DA.rw]
  refine ⟨?_, ?_, ?_, ?_, ?_, ?_, ?_, by dsimp only; rw [map_fst_set ht]; exact k.vecs, ?_, ?_, ?_, ?_, ?_, ?_, ?_, k.alive⟩
  · intro h; have := congrArg List.length h; simp at this; exact k.ne this
  · intro q x h
    rcases hg q x h with ⟨_, rfl⟩ | ⟨_, h⟩
    · exact ⟨first, hB⟩
    · exact k.part q x h
  · intro q x h hn
    rcases hg q x h with ⟨rfl, rfl⟩ | ⟨hq, h⟩
    · rcases hpc with rfl | rfl
      · exact absurd hself (hn i v id)
      · exact ⟨first, hB, hbuilt rfl⟩
    · refine k.built q x h (fun j u y hj => ?_)
      by_cases hji : j = i
      · subst hji; rw [ht] at hj; cases hj; cases hlk; exact hq rfl
      · exact hn j u y (hnew j u _ hji hj)
  · intro j u y q x hj hq
    dsimp only at hj hq
    rcases hold j u _ hj with ⟨rfl, rfl, h⟩ | ⟨hji, h⟩
    · rcases hpc with rfl | rfl
      · cases h
        rcases hg _ x hq with ⟨_, rfl⟩ | ⟨hne, _⟩
        · exact hmid rfl
        · exact absurd rfl hne
      · cases h
    · rcases hg q x hq with ⟨rfl, _⟩ | ⟨_, hq⟩
      · exact absurd (k.excl _ _ _ _ _ _ _ h ht rfl hlk) hji
      · exact k.mid _ _ _ _ _ h hq
  · intro q x h y hy
    rcases hg q x h with ⟨rfl, rfl⟩ | ⟨_, h⟩
    · rcases hkeys y hy with hy | rfl
      · exact k.keys _ mi hp y hy
      · exact k.below _ _ _ _ ht hpid
    · exact k.keys q x h y hy
  · intro q r x y hq hr z hz hz'
    rcases hg q x hq with ⟨rfl, rfl⟩ | ⟨hqp, hq2⟩ <;> rcases hg r y hr with ⟨rfl, rfl⟩ | ⟨hrp, hr2⟩
    · rfl
    · rcases hkeys z hz with hz | rfl
      · exact k.disj _ _ _ _ hp hr2 z hz hz'
      · exact (hfr _ _ hr2 hz').symm
    · rcases hkeys z hz' with hz' | rfl
      · exact k.disj _ _ _ _ hq2 hp z hz hz'
      · exact hfr _ _ hq2 hz
    · exact k.disj _ _ _ _ hq2 hr2 z hz hz'
  · intro x h
    rw [hlast'] at h
    rcases hg _ x h with ⟨e, rfl⟩ | ⟨_, h⟩
    · rw [hro]; exact k.last mi (by rw [e]; exact hp)
    · exact k.last x h
  · intro j u q y hj hq
    rcases hold j u q hj with ⟨rfl, rfl, rfl⟩ | ⟨_, h⟩
    · rw [hid'] at hq; cases hq; exact k.below _ _ _ _ ht hpid
    · exact k.below _ _ _ _ h hq
  · intro a b u u' q q' y ha hb hqa hqb
    rcases hold a u q ha with ⟨rfl, rfl, rfl⟩ | ⟨_, h⟩ <;> rcases hold b u' q' hb with ⟨rfl, rfl, rfl⟩ | ⟨_, h'⟩
    · rfl
    · rw [hid', ← hpid] at hqa; exact k.distinct _ _ _ _ _ _ _ ht h' hqa hqb
    · rw [hid', ← hpid] at hqb; exact k.distinct _ _ _ _ _ _ _ h ht hqa hqb
    · exact k.distinct _ _ _ _ _ _ _ h h' hqa hqb
  · intro a b u u' q q' y ha hb hqa hqb
    have hlk' : ∀ z, pc'.lock = some z → pc.lock = some z := by
      intro z hz; rcases hpc with rfl | rfl
      · rw [hlk]; exact hz
      · cases hz
    rcases hold a u q ha with ⟨rfl, rfl, rfl⟩ | ⟨_, h⟩ <;> rcases hold b u' q' hb with ⟨rfl, rfl, rfl⟩ | ⟨_, h'⟩
    · rfl
    · exact k.excl _ _ _ _ _ _ _ ht h' (hlk' _ hqa) hqb
    · exact k.excl _ _ _ _ _ _ _ h ht hqa (hlk' _ hqb)
    · exact k.excl _ _ _ _ _ _ _ h h' hqa hqb
  · intro j u y q hj
    show q < (w.da.parts.set p mi').length
    rw [List.length_set]
    rcases hj with hj | hj | hj <;> rcases hold j u _ hj with ⟨rfl, rfl, h⟩ | ⟨_, h⟩
    · rcases hpc with rfl | rfl <;> cases h
    · exact k.ptr j u y q (Or.inl h)
    · rcases hpc with rfl | rfl <;> cases h
    · exact k.ptr j u y q (Or.inr (Or.inl h))
    · rcases hpc with rfl | rfl <;> cases h; exact hlt
    · exact k.ptr j u y q (Or.inr (Or.inr h))
  · intro j u y q hj
    rcases hold j u _ hj with ⟨rfl, rfl, h⟩ | ⟨_, h⟩
    · rcases hpc with rfl | rfl <;> cases h
    · exact k.fits _ _ _ _ h
  · intro x u
    have hat : ∀ q, DA.at { w.da with parts := w.da.parts.set p mi' } q x = if q = p ∧ x = id then some v else w.da.at q x := by
      intro q
      unfold DA.at
      dsimp only
      rw [List.getElem?_set]
      by_cases hq : p = q
      · subst hq
        rw [if_pos rfl, if_pos hlt, hp]
        simp only [Option.bind_some, hvec x]
        by_cases hx : x = id
        · simp [hx]
        · simp [hx]
      · rw [if_neg hq, if_neg (fun h => hq h.1.symm)]
    constructor
    · rintro ⟨q, hq⟩
      rw [hat] at hq
      split at hq
      · rename_i e; cases hq
        exact ⟨i, pc', hself, (hst' x).mpr e.2⟩
      · rename_i e
        obtain ⟨j, q', hj, hs⟩ := (k.stored x u).mp ⟨q, hq⟩
        refine ⟨j, q', hnew j u q' ?_ hj, hs⟩
        rintro rfl
        rw [ht] at hj; cases hj
        have hx : x = id := by
          cases pc with
          | added y z => cases hpid; exact hs.symm
          | done y r => cases hlk
          | _ => cases hs
        subst hx
        obtain ⟨m, hm, hmk⟩ := at_key hq
        exact e ⟨hfr q m hm hmk, rfl⟩
    · rintro ⟨j, q', hj, hs⟩
      rcases hold j u q' hj with ⟨rfl, rfl, rfl⟩ | ⟨hji, h⟩
      · exact ⟨p, by rw [hat, if_pos ⟨rfl, (hst' x).mp hs⟩]⟩
      · obtain ⟨q, hq⟩ := (k.stored x u).mpr ⟨j, q', h, hs⟩
        refine ⟨q, ?_⟩
        rw [hat, if_neg]
        · exact hq
        · rintro ⟨_, rfl⟩
          refine hji (k.distinct _ _ _ _ _ _ _ h ht ?_ hpid)
          cases q' with
          | added y z => cases hs; rfl
          | done y r => cases hs.1; rfl
          | _ => cases hs
  · intro j u y r hj
    rcases hold j u _ hj with ⟨rfl, rfl, h⟩ | ⟨_, h⟩
    · rcases hpc with rfl | rfl
      · cases h
      · cases h; exact Or.inl ⟨rfl, hl⟩
    · exact k.ok _ _ _ _ h

theorem not_locked {w : World} {p : Nat} (h : w.locked p = false) (j : Nat) (u : Vec) (q : PC) (hj : w.tasks[j]? = some (u, q)) : q.lock ≠ some p := by
  unfold World.locked at h
  rw [List.any_eq_false] at h
  have := h _ (List.mem_of_getElem? hj)
  simpa using this

/-- which ids are stored where, for a goroutine that has not stored its vector yet. -/
theorem WInv.fresh {P : Params D} {vs : List Vec} {w : World} (k : WInv P vs w) {i : Nat} {v : Vec} {pc : PC} {id : UInt64} (ht : w.tasks[i]? = some (v, pc))
    (hid : pc.id? = some id) (hn : ∀ x, ¬ pc.stores x) : ∀ (q : Nat) (mi : MemIndex), w.da.parts[q]? = some mi → id ∉ AMap.keys mi.graph := by
  intro q mi hq hk
  obtain ⟨u, hu⟩ := DA.Holds.key hq hk
  obtain ⟨j, pc', hj, hs⟩ := (k.stored id u).mp ⟨q, hu⟩
  have hid' : pc'.id? = some id := by
    cases pc' with
    | added y z => cases hs; rfl
    | done y r => cases hs.1; rfl
    | _ => cases hs
  have := k.distinct _ _ _ _ _ _ _ hj ht hid' hid
  subst this
  rw [ht] at hj; cases hj; exact hn _ hs

/-- `addVertex`, then `link`, in an index that became read-only in between or before. -/
theorem add_spec {P : Params D} (o : Ord P.metric.lt) (hd : DimOK P.metric P.dim.toNat) {mi : MemIndex} {first : UInt64} (b : BInv P.dim P.maxDegree first mi)
    (bt : Built P.metric P.close first P.maxDegree P.dim mi) (v : Vec) (hv : v.length = P.dim.toNat) (id : UInt64) (hid : id ∉ AMap.keys mi.graph) :
    ∃ mi' f, mi.addVertex v id = .ok (mi', f) ∧ BInv P.dim P.maxDegree first mi' ∧ mi'.readOnly = mi.readOnly ∧
      AMap.keys mi'.graph = AMap.keys mi.graph ++ [id] ∧
      (∀ x, (mi'.graph.get? x).map Vertex.vector = if x = id then some v else (mi.graph.get? x).map Vertex.vector) ∧
      (f = true → Built P.metric P.close first P.maxDegree P.dim mi') ∧ (f = false → Mid P mi' id v) := by
  obtain ⟨G1, hk1⟩ := b.g.add id hid v hv
  have hvec : ∀ x, ((mi.graph.set id { id := id, vector := v }).get? x).map Vertex.vector = if x = id then some v else (mi.graph.get? x).map Vertex.vector := by
    intro x
    by_cases hx : x = id
    · subst hx; rw [AMap.get?_set_self, if_pos rfl]; rfl
    · rw [AMap.get?_set_ne _ _ _ _ (fun h => hx h.symm), if_neg hx]
  cases ho : mi.once with
  | true =>
    refine ⟨{ mi with graph := mi.graph.set id { id := id, vector := v } }, false, ?_, ⟨G1, b.wired, b.dim, b.deg, b.first, ?_, ?_⟩, rfl, hk1, hvec, (fun h => nomatch h), fun _ => ?_⟩
    · unfold MemIndex.addVertex
      rw [if_neg (by simp [b.wired]), ho]
      simp [ho]
    · intro h; dsimp only at h; rw [ho] at h; cases h
    · intro _; dsimp only; rw [hk1]; exact List.mem_append_left _ (b.start ho)
    · exact ⟨⟨{ mi with readOnly := false }, first, b.flag _, built_flag bt _, rfl, ho, hid, rfl⟩, hv⟩
  | false =>
    obtain ⟨hg, hs⟩ := b.fresh ho
    have e : mi.addVertex v id = .ok ({ mi with once := true, s := id, graph := mi.graph.set id { id := id, vector := v } }, true) := by
      unfold MemIndex.addVertex
      rw [if_neg (by simp [b.wired]), ho]
      simp [hg, hs]
    refine ⟨_, _, e, ⟨G1, b.wired, b.dim, b.deg, b.first, (fun h => nomatch h), fun _ => ?_⟩, rfl, hk1, hvec, fun _ => ?_, (fun h => nomatch h)⟩
    · dsimp only; rw [hk1]; simp
    · have h1 : Built P.metric P.close first P.maxDegree P.dim { mi with readOnly := false } := built_flag bt false
      have h2 : MemIndex.insert P.metric P.close { mi with readOnly := false } [] v P.listSize id =
          .ok { mi with once := true, s := id, graph := mi.graph.set id { id := id, vector := v }, readOnly := false } := by
        rw [insert_steps _ _ { mi with readOnly := false } (fun _ => hg)]
        have e1 : MemIndex.refuses { mi with readOnly := false } v = none := by simp [MemIndex.refuses, b.dim, hv]
        have e2 : MemIndex.addVertex { mi with readOnly := false } v id = .ok ({ mi with once := true, s := id, graph := mi.graph.set id { id := id, vector := v }, readOnly := false }, true) := by
          unfold MemIndex.addVertex
          rw [if_neg (by simp [b.wired])]
          dsimp only
          rw [ho]
          simp [hg, hs]
        rw [e1, e2]
      have h3 := Built.insert h1 hid h2
      exact built_flag h3 mi.readOnly

theorem link_spec {P : Params D} (o : Ord P.metric.lt) (hd : DimOK P.metric P.dim.toNat) {mi : MemIndex} {v : Vec} {id : UInt64} (m : Mid P mi id v) (del : List UInt32) :
    ∃ mi' first, mi.link P.metric P.close del v P.listSize id = .ok mi' ∧ BInv P.dim P.maxDegree first mi' ∧
      Built P.metric P.close first P.maxDegree P.dim mi' ∧ mi'.readOnly = mi.readOnly ∧ AMap.keys mi'.graph = AMap.keys mi.graph ∧
      (∀ x, (mi'.graph.get? x).map Vertex.vector = (mi.graph.get? x).map Vertex.vector) ∧ id ∈ AMap.keys mi.graph := by
  obtain ⟨⟨mi0, first, b, bt, hro, ho, hid, e⟩, hv⟩ := m
  obtain ⟨mi', h1, b', h3, h4, h5⟩ := DiskAnn.insert_spec o P.close hd b hro del v hv P.listSize id hid
  obtain ⟨_, hk1⟩ := b.g.add id hid v hv
  have h1' := h1
  rw [insert_steps _ _ _ (fun h => by rw [ho] at h; cases h)] at h1'
  have e1 : mi0.refuses v = none := by simp [MemIndex.refuses, b.dim, hv, hro]
  have e2 : mi0.addVertex v id = .ok ({ mi0 with graph := mi0.graph.set id { id := id, vector := v } }, false) := by
    unfold MemIndex.addVertex
    rw [if_neg (by simp [b.wired]), ho]
    simp [ho]
  rw [e1, e2] at h1'
  dsimp only at h1'
  have hl : MemIndex.link P.metric P.close { mi0 with graph := mi0.graph.set id { id := id, vector := v } } del v P.listSize id = .ok mi' := by
    cases hq : MemIndex.link P.metric P.close { mi0 with graph := mi0.graph.set id { id := id, vector := v } } del v P.listSize id with
    | error p => rw [hq] at h1'; cases h1'
    | ok x => rw [hq] at h1'; cases h1'; rfl
  have hl' := link_readOnly _ _ _ mi.readOnly del v P.listSize id hl
  have e' : ({ ({ mi0 with graph := mi0.graph.set id { id := id, vector := v } } : MemIndex) with readOnly := mi.readOnly } : MemIndex) = mi := e.symm
  rw [e'] at hl'
  have hgr : mi.graph = mi0.graph.set id { id := id, vector := v } := by rw [e]
  refine ⟨_, first, hl', b'.flag _, built_flag (.insert bt hid h1) _, rfl, ?_, ?_, ?_⟩
  · dsimp only; rw [h4, hgr, hk1]
  · intro x
    dsimp only
    have := h5 x
    unfold vecs at this
    rw [this, hgr]
    by_cases hx : x = id
    · subst hx; rw [if_pos rfl, AMap.get?_set_self]; rfl
    · rw [if_neg hx, AMap.get?_set_ne _ _ _ _ (fun h => hx h.symm)]
  · rw [hgr, hk1]; simp

theorem winv_task {P : Params D} (o : Ord P.metric.lt) (hd : DimOK P.metric P.dim.toNat) {vs : List Vec} {w : World} (k : WInv P vs w)
    (del : List UInt32) (i : Nat) (hb : w.da.currId.toNat + 1 < 18446744073709551616) : WInv P vs (w.stepTask P del i) := by
  unfold World.stepTask
  cases ht : w.tasks[i]? with
  | none => exact k
  | some t =>
    obtain ⟨v, pc⟩ := t
    dsimp only
    cases pc with
    | check =>
      dsimp only
      obtain ⟨r1, r2, r3, r4, r5, r6⟩ := rotate_raw P k.ne
      refine k.quiet (pc' := .fetch) ⟨?_, ?_⟩ r1 r3 ?_ (Nat.le_of_eq (by rw [r2])) k.alive ht rfl (Or.inl rfl) (fun _ _ h => nomatch h) (fun _ _ h => nomatch h)
        (fun _ h => nomatch h) (fun _ _ h => h.elim (fun h => nomatch h) (fun h => nomatch h)) (fun _ _ h => nomatch h) (fun _ h => h) (fun _ h => h) (fun _ _ h => nomatch h)
      · intro p mi h
        rcases r4 p mi h with ⟨mi0, h0, rfl | rfl⟩ | ⟨hge, rfl⟩
        · exact Or.inl ⟨mi, mi.readOnly, h0, rfl⟩
        · exact Or.inl ⟨mi0, true, h0, rfl⟩
        · exact Or.inr ⟨hge, _, rfl⟩
      · intro p mi0 h
        obtain ⟨mi, h1, rfl | rfl⟩ := r5 p mi0 h
        · exact ⟨mi.readOnly, h1⟩
        · exact ⟨true, h1⟩
      · intro mi h
        rcases r6 mi h with h | h
        · exact k.last mi h
        · exact h
    | fetch =>
      dsimp only
      have hcn : (w.da.currId + 1).toNat = w.da.currId.toNat + 1 := by
        rw [UInt64.toNat_add]
        show (w.da.currId.toNat + 1) % 18446744073709551616 = _
        omega
      exact k.quiet (pc' := .load w.da.currId) (.rfl' rfl) k.ne (Nat.le_refl _) k.last (by dsimp only; omega) k.alive ht rfl (Or.inr ⟨rfl, by dsimp only; omega⟩)
        (fun _ _ h => nomatch h) (fun _ _ h => nomatch h) (fun _ h => nomatch h) (fun _ _ h => h.elim (fun h => nomatch h) (fun h => nomatch h))
        (fun _ _ h => nomatch h) (fun _ h => h) (fun _ h => h) (fun _ _ h => nomatch h)
    | load id =>
      dsimp only
      exact k.quiet (pc' := .call id w.da.rw) (.rfl' rfl) k.ne (Nat.le_refl _) k.last (Nat.le_refl _) k.alive ht rfl (Or.inl rfl)
        (fun _ _ h => nomatch h) (fun _ _ h => nomatch h) (fun _ h => nomatch h)
        (fun _ p h => h.elim (fun h => by cases h; exact DA.rw_lt k.ne) (fun h => nomatch h))
        (fun _ _ h => nomatch h) (fun _ h => h) (fun _ h => h) (fun _ _ h => nomatch h)
    | call id p =>
      dsimp only
      cases hlk : w.locked p with
      | true => exact k
      | false =>
        rw [if_neg (by simp)]
        have hpl := k.ptr i v id p (Or.inl ht)
        have hmi : w.da.parts[p]? = some w.da.parts[p] := List.getElem?_eq_getElem hpl
        rw [hmi]
        dsimp only
        obtain ⟨first, b⟩ := k.part p _ hmi
        cases hr : (w.da.parts[p]).refuses v with
        | some f =>
          dsimp only
          refine k.quiet (pc' := .done id (some f)) (.rfl' rfl) k.ne (Nat.le_refl _) k.last (Nat.le_refl _) k.alive ht rfl (Or.inl rfl)
            (fun _ _ h => nomatch h) (fun _ _ h => nomatch h) (fun _ h => nomatch h) (fun _ _ h => h.elim (fun h => nomatch h) (fun h => nomatch h))
            (fun _ _ h => nomatch h) (fun _ h => h) (fun _ h => nomatch h.2) ?_
          intro id' r h
          cases h
          unfold MemIndex.refuses at hr
          split at hr
          · cases hr; exact Or.inr (Or.inr rfl)
          · split at hr
            · rename_i hne; cases hr; rw [b.dim] at hne; exact Or.inr (Or.inl ⟨rfl, hne⟩)
            · cases hr
        | none =>
          dsimp only
          refine k.quiet (pc' := .inside id p) (.rfl' rfl) k.ne (Nat.le_refl _) k.last (Nat.le_refl _) k.alive ht rfl (Or.inl rfl)
            (fun _ _ h => nomatch h) (fun _ _ h => nomatch h) (fun q h j u pc hj => ?_)
            (fun _ _ h => h.elim (fun h => nomatch h) (fun h => by cases h; exact hpl))
            (fun _ _ h => ?_) (fun _ h => h) (fun _ h => h) (fun _ _ h => nomatch h)
          · cases h; exact not_locked hlk j u pc hj
          · unfold MemIndex.refuses at hr
            split at hr
            · cases hr
            · split at hr
              · cases hr
              · rename_i hne; rw [b.dim] at hne; exact Decidable.not_not.mp hne
    | inside id p =>
      dsimp only
      have hpl := k.ptr i v id p (Or.inr (Or.inl ht))
      have hmi : w.da.parts[p]? = some w.da.parts[p] := List.getElem?_eq_getElem hpl
      rw [hmi]
      dsimp only
      have hfr := k.fresh ht rfl (fun _ h => h)
      have hv := k.fits _ _ _ _ ht
      obtain ⟨first, b, bt⟩ := k.built p _ hmi (fun j u x hj => by
        have := k.excl _ _ _ _ _ _ _ hj ht rfl rfl
        subst this; rw [ht] at hj; cases hj)
      obtain ⟨mi', f, h1, h2, h3, h4, h5, h6, h7⟩ := add_spec o hd b bt v hv id (hfr p _ hmi)
      rw [h1]
      dsimp only
      have hks : ∀ x ∈ AMap.keys mi'.graph, x ∈ AMap.keys (w.da.parts[p]).graph ∨ x = id := by
        intro x hx; rw [h4] at hx; simpa using hx
      cases f with
      | true =>
        exact k.write (pc' := .done id none) ht rfl rfl hmi h2 (fun _ => h6 rfl) (fun h => nomatch h) hks h5 h3 (Or.inr rfl) hv (fun q m hq h => absurd h (hfr q m hq))
      | false =>
        exact k.write (pc' := .added id p) ht rfl rfl hmi h2 (fun h => nomatch h) (fun _ => h7 rfl) hks h5 h3 (Or.inl rfl) hv (fun q m hq h => absurd h (hfr q m hq))
    | added id p =>
      dsimp only
      have hpl := k.ptr i v id p (Or.inr (Or.inr ht))
      have hmi : w.da.parts[p]? = some w.da.parts[p] := List.getElem?_eq_getElem hpl
      rw [hmi]
      dsimp only
      have m := k.mid _ _ _ _ _ ht hmi
      obtain ⟨mi', first, h1, h2, h3, h4, h5, h6, h7⟩ := link_spec o hd m del
      rw [h1]
      dsimp only
      refine k.write (pc' := .done id none) ht rfl rfl hmi h2 (fun _ => h3) (fun h => nomatch h) (fun x hx => Or.inl (h5 ▸ hx)) (fun x => ?_) h4 (Or.inr rfl) m.len
        (fun q m' hq hk => k.disj q p _ _ hq hmi id hk h7)
      rw [h6 x]
      split
      · rename_i hx; subst hx
        obtain ⟨⟨mi0, f0, _, _, _, _, _, e⟩, _⟩ := m
        rw [e]
        dsimp only
        rw [AMap.get?_set_self]; rfl
      · rfl
    | done id r => exact k

theorem winv_snap {P : Params D} {vs : List Vec} {w : World} (k : WInv P vs w) (j : Nat) (t : When) : WInv P vs (w.stepSnap j t) := by
  have same : ∀ w' : World, w'.da = w.da → w'.tasks = w.tasks → w'.panicked = w.panicked → WInv P vs w' := by
    intro w' h1 h2 h3
    refine ⟨by rw [h1]; exact k.ne, by rw [h1]; exact k.part, by rw [h1, h2]; exact k.built, by rw [h1, h2]; exact k.mid, by rw [h1]; exact k.keys,
      by rw [h1]; exact k.disj, by rw [h1]; exact k.last, by rw [h2]; exact k.vecs, by rw [h1, h2]; exact k.below, by rw [h2]; exact k.distinct,
      by rw [h2]; exact k.excl, by rw [h1, h2]; exact k.ptr, by rw [h2]; exact k.fits, by rw [h1, h2]; exact k.stored, by rw [h2]; exact k.ok, by rw [h3]; exact k.alive⟩
  unfold World.stepSnap
  split
  · exact same _ rfl rfl rfl
  · split
    · exact same _ rfl rfl rfl
    · exact k
  · exact k

theorem winv_runs {P : Params D} (o : Ord P.metric.lt) (hd : DimOK P.metric P.dim.toNat) {vs : List Vec} {w : World}
    (r : World.Runs P (World.start P vs) w) : WInv P vs w := by
  generalize hs : World.start P vs = s at r
  induction r with
  | refl => subst hs; exact winv_start P vs
  | step _ h ih =>
    subst hs
    cases h with
    | task del i _ hb => exact winv_task o hd ih del i hb
    | snap j t _ => exact winv_snap ih j t

/-- while no insertion is in the middle, the parts are as one goroutine would leave them. -/
theorem WInv.pinv {P : Params D} {vs : List Vec} {w : World} (k : WInv P vs w) (hq : ∀ (i : Nat) (v : Vec) (id : UInt64) (p : Nat), w.tasks[i]? ≠ some (v, .added id p)) :
    PInv P w.da := ⟨k.ne, fun p mi h => k.built p mi h (fun i v id => hq i v id p), k.keys, k.disj, k.last⟩

end DiskAnn

/-- C71, the part that holds: any number of goroutines call `DiskAnn.Insert` at the same time, interleaved in any way, with deletions and
snapshots running. No call panics. At every moment the index holds exactly the vectors whose `Insert` returned nil and those whose `Insert`
has stored them and is about to link them, each in one part, under an id no other call got. A call that returned either stored its vector,
or its vector has the wrong length and was refused for that, or it was refused because the part it had picked became read-only in the
meantime. -/
theorem C71_insert_concurrent (P : Params D) (o : Ord P.metric.lt) (hd : DimOK P.metric P.dim.toNat) (vs : List Vec) (w : World)
    (r : World.Runs P (World.start P vs) w) :
    w.panicked = false ∧ w.tasks.map Prod.fst = vs ∧
    (∀ id v, w.da.Holds id v ↔ ∃ i : Nat, w.tasks[i]? = some (v, .done id none) ∨ ∃ p, w.tasks[i]? = some (v, .added id p)) ∧
    (∀ id p q v v', w.da.at p id = some v → w.da.at q id = some v' → p = q) ∧
    (∀ (i j : Nat) (v v' : Vec) (id : UInt64) (r r' : Option DiskAnn.Fail), w.tasks[i]? = some (v, .done id r) →
      w.tasks[j]? = some (v', .done id r') → i = j) ∧
    (∀ (i : Nat) (v : Vec) (id : UInt64) (r : Option DiskAnn.Fail), w.tasks[i]? = some (v, .done id r) →
      (r = none ∧ v.length = P.dim.toNat) ∨ (r = some .dimension ∧ v.length ≠ P.dim.toNat) ∨ r = some .readOnly) := by
  have k := DiskAnn.winv_runs o hd r
  refine ⟨k.alive, k.vecs, ?_, ?_, fun i j v v' id r r' h h' => k.distinct i j v v' _ _ id h h' rfl rfl, k.ok⟩
  · intro id v
    rw [k.stored]
    constructor
    · rintro ⟨i, pc, hi, hs⟩
      cases pc with
      | added y z => cases hs; exact ⟨i, Or.inr ⟨z, hi⟩⟩
      | done y r => obtain ⟨rfl, rfl⟩ := hs; exact ⟨i, Or.inl hi⟩
      | _ => cases hs
    · rintro ⟨i, h | ⟨p, h⟩⟩
      · exact ⟨i, _, h, rfl, rfl⟩
      · exact ⟨i, _, h, rfl⟩
  · intro id p q v v' hp hq
    obtain ⟨mi, h1, h2⟩ := DiskAnn.at_key hp
    obtain ⟨mi', h3, h4⟩ := DiskAnn.at_key hq
    exact k.disj p q mi mi' h1 h3 id h2 h4

/-- C71, the graphs: at every moment of every schedule every link in every part leads to another vertex stored in that part, and a part in
which no insertion is halfway is one that some sequence of insertions by a single goroutine makes; so everything said of such indexes
(C49, C58, C59, C60, C61, C73–C75) holds of it. -/
theorem C71_parts_sound (P : Params D) (o : Ord P.metric.lt) (hd : DimOK P.metric P.dim.toNat) (vs : List Vec) (w : World)
    (r : World.Runs P (World.start P vs) w) (p : Nat) (mi : MemIndex) (hp : w.da.parts[p]? = some mi) :
    (∀ k v, mi.graph.get? k = some v → ∀ n ∈ v.neighbors, n ∈ AMap.keys mi.graph ∧ n ≠ k) ∧
    ((∀ (i : Nat) (v : Vec) (id : UInt64), w.tasks[i]? ≠ some (v, .added id p)) →
      ∃ first, Built P.metric P.close first P.maxDegree P.dim mi) := by
  have k := DiskAnn.winv_runs o hd r
  refine ⟨?_, fun h => (k.built p mi hp h).imp (fun _ h => h.2)⟩
  obtain ⟨first, b⟩ := k.part p mi hp
  intro x v hx n hn
  exact ⟨b.g.closed x v hx n hn, fun e => b.g.noself x v hx (e ▸ hn)⟩

namespace DiskAnn

/-- how far a goroutine inside `Insert` is. -/
def PC.steps : PC → Nat
  | .check => 0
  | .fetch => 1
  | .load _ => 2
  | .call _ _ => 3
  | .inside _ _ => 4
  | .added _ _ => 5
  | .done _ _ => 6

theorem stepTask_other (P : Params D) (del : List UInt32) (w : World) {i j : Nat} (hj : j ≠ i) : (w.stepTask P del j).tasks[i]? = w.tasks[i]? := by
  unfold World.stepTask
  split
  · rfl
  · rename_i u pc htj
    have hset : ∀ t : Vec × PC, (w.tasks.set j t)[i]? = w.tasks[i]? := fun t => by rw [List.getElem?_set, if_neg hj]
    cases pc with
    | check => exact hset _
    | fetch => exact hset _
    | load id => exact hset _
    | call id p => dsimp only; repeat' split
                   all_goals first | rfl | exact hset _
    | inside id p => dsimp only; repeat' split
                     all_goals first | rfl | exact hset _
    | added id p => dsimp only; repeat' split
                    all_goals first | rfl | exact hset _
    | done id r => rfl

theorem stepSnap_tasks (w : World) (j : Nat) (t : When) : (w.stepSnap j t).tasks = w.tasks := by
  unfold World.stepSnap
  split
  · rfl
  · split <;> rfl
  · rfl

end DiskAnn

/-- C71, calls return: whatever the schedule, a call of `Insert` that has not returned moves on whenever it is given a step, at most six
times in all, unless it waits for the lock of a part while another call is at work in that part; a waiting call changes nothing, and the
call it waits for is not waiting itself. No other goroutine touches the state of a call. -/
theorem C71_insert_returns (P : Params D) (o : Ord P.metric.lt) (hd : DimOK P.metric P.dim.toNat) (vs : List Vec) (w : World)
    (r : World.Runs P (World.start P vs) w) (hb : w.da.currId.toNat + 1 < 18446744073709551616) (i : Nat) (v : Vec) (pc : PC)
    (ht : w.tasks[i]? = some (v, pc)) (hpc : pc.steps < 6) (del : List UInt32) :
    ((∃ pc', (w.stepTask P del i).tasks[i]? = some (v, pc') ∧ pc.steps < pc'.steps ∧ pc'.steps ≤ 6) ∨
      (w.stepTask P del i = w ∧ ∃ id p, pc = .call id p ∧ ∃ (j : Nat) (u : Vec) (id' : UInt64), j ≠ i ∧
        (w.tasks[j]? = some (u, .inside id' p) ∨ w.tasks[j]? = some (u, .added id' p)))) ∧
    (∀ j, j ≠ i → (w.stepTask P del j).tasks[i]? = some (v, pc)) ∧ ∀ j t, (w.stepSnap j t).tasks = w.tasks := by
  have k := DiskAnn.winv_runs o hd r
  have hlt : i < w.tasks.length := (List.getElem?_eq_some_iff.mp ht).1
  refine ⟨?_, fun j hj => by rw [DiskAnn.stepTask_other P del w hj, ht], fun j t => DiskAnn.stepSnap_tasks w j t⟩
  have hself : ∀ t : Vec × PC, (w.tasks.set i t)[i]? = some t := fun t => by simp [hlt]
  have k1 := DiskAnn.winv_task o hd k del i hb
  have hal := k1.alive
  cases hlk : (match pc with | .call _ p => w.locked p | _ => false) with
  | true =>
    right
    cases pc with
    | call id p =>
      dsimp only at hlk
      refine ⟨by unfold World.stepTask; rw [ht]; dsimp only; rw [if_pos hlk], id, p, rfl, ?_⟩
      unfold World.locked at hlk
      rw [List.any_eq_true] at hlk
      obtain ⟨⟨u, q⟩, hm, hq⟩ := hlk
      obtain ⟨j, hj⟩ := List.mem_iff_getElem?.mp hm
      have hq : q.lock = some p := by simpa using hq
      refine ⟨j, u, ?_⟩
      cases q with
      | inside id' p' =>
        cases hq
        exact ⟨id', fun (h : j = i) => (by subst h; rw [ht] at hj; cases hj), Or.inl hj⟩
      | added id' p' =>
        cases hq
        exact ⟨id', fun (h : j = i) => (by subst h; rw [ht] at hj; cases hj), Or.inr hj⟩
      | _ => cases hq
    | _ => cases hlk
  | false =>
    left
    unfold World.stepTask at hal ⊢
    rw [ht] at hal ⊢
    cases pc with
    | check => exact ⟨.fetch, hself _, by decide, by decide⟩
    | fetch => exact ⟨.load w.da.currId, hself _, by simp [PC.steps], by simp [PC.steps]⟩
    | load id => exact ⟨.call id w.da.rw, hself _, by simp [PC.steps], by simp [PC.steps]⟩
    | call id p =>
      dsimp only at hal hlk ⊢
      rw [hlk] at hal ⊢
      rw [if_neg (by simp)] at hal ⊢
      split at hal
      · cases hal
      · rename_i mi hmi
        split
        · exact ⟨_, hself _, by simp [PC.steps], by simp [PC.steps]⟩
        · exact ⟨_, hself _, by simp [PC.steps], by simp [PC.steps]⟩
    | inside id p =>
      dsimp only at hal ⊢
      split at hal
      · cases hal
      · split at hal
        · cases hal
        · rename_i mi' f _
          refine ⟨_, hself _, ?_, ?_⟩ <;> cases f <;> simp [PC.steps]
    | added id p =>
      dsimp only at hal ⊢
      split at hal
      · cases hal
      · split at hal
        · cases hal
        · exact ⟨_, hself _, by simp [PC.steps], by simp [PC.steps]⟩
    | done id r => simp [PC.steps] at hpc

end Vectory
