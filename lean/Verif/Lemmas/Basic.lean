import Verif.Model.Errors
/-! Helper lemmas: little-endian integers, association lists, `Except`. -/
namespace Vectory

theorem bind_ok_iff {ε α β : Type} (x : Except ε α) (f : α → Except ε β) (b : β) :
    (x >>= f) = .ok b ↔ ∃ a, x = .ok a ∧ f a = .ok b := by
  cases x with
  | error e => simp [bind, Except.bind]
  | ok a => simp [bind, Except.bind]

@[simp] theorem ok_bind {ε α β : Type} (a : α) (f : α → Except ε β) :
    ((Except.ok a : Except ε α) >>= f) = f a := rfl

@[simp] theorem error_bind {ε α β : Type} (e : ε) (f : α → Except ε β) :
    ((Except.error e : Except ε α) >>= f) = .error e := rfl

@[simp] theorem pure_ok {ε α : Type} (a : α) : (pure a : Except ε α) = .ok a := rfl

@[simp] theorem throw_error {ε α : Type} (e : ε) : (throw e : Except ε α) = .error e := rfl

theorem uint32_put (x : UInt32) (r : Bytes) : uint32 (putUint32 x ++ r) = .ok x := by
  have hx := x.toNat_lt
  simp only [putUint32, List.cons_append, List.nil_append, uint32, Except.ok.injEq]
  apply UInt32.toNat_inj.mp
  simp only [UInt32.toNat_ofNat', UInt8.toNat_ofNat']
  omega

theorem uint64_put (x : UInt64) (r : Bytes) : uint64 (putUint64 x ++ r) = .ok x := by
  have hx := x.toNat_lt
  simp only [putUint64, List.cons_append, List.nil_append, uint64, Except.ok.injEq]
  apply UInt64.toNat_inj.mp
  simp only [UInt64.toNat_ofNat', UInt8.toNat_ofNat']
  omega

theorem putUint32_length (x : UInt32) : (putUint32 x).length = 4 := rfl
theorem putUint64_length (x : UInt64) : (putUint64 x).length = 8 := rfl

theorem putUint64_inj {x y : UInt64} (h : putUint64 x = putUint64 y) : x = y := by
  have h1 := uint64_put x []
  rw [h, uint64_put] at h1
  cases h1; rfl

theorem drop_put32 (x : UInt32) (r : Bytes) : (putUint32 x ++ r).drop 4 = r := rfl
theorem drop_put64 (x : UInt64) (r : Bytes) : (putUint64 x ++ r).drop 8 = r := rfl

namespace AMap
variable {K V : Type} [DecidableEq K]

@[simp] theorem get?_nil (k : K) : get? ([] : AMap K V) k = none := rfl

theorem get?_set_self (m : AMap K V) (k : K) (v : V) : get? (set m k v) k = some v := by
  induction m with
  | nil => simp [set, get?]
  | cons p m ih =>
    obtain ⟨k', v'⟩ := p
    unfold set
    split
    · rename_i h; simp [get?, h]
    · rename_i h; simp [get?, h, ih]

theorem get?_set_ne (m : AMap K V) (k k2 : K) (v : V) (h : k ≠ k2) : get? (set m k v) k2 = get? m k2 := by
  induction m with
  | nil => simp [set, get?, h]
  | cons p m ih =>
    obtain ⟨k', v'⟩ := p
    unfold set
    split
    · rename_i h'; subst h'; simp [get?, h]
    · rename_i h'; by_cases h2 : k' = k2 <;> simp [get?, h2, ih]

theorem get?_set (m : AMap K V) (k k2 : K) (v : V) :
    get? (set m k v) k2 = if k = k2 then some v else get? m k2 := by
  split
  · rename_i h; subst h; exact get?_set_self _ _ _
  · rename_i h; exact get?_set_ne _ _ _ _ h

theorem get?_erase_self (m : AMap K V) (k : K) : get? (erase m k) k = none := by
  induction m with
  | nil => rfl
  | cons p m ih =>
    obtain ⟨k', v'⟩ := p
    unfold erase
    split
    · exact ih
    · rename_i h; simp [get?, h, ih]

theorem get?_erase_ne (m : AMap K V) (k k2 : K) (h : k ≠ k2) : get? (erase m k) k2 = get? m k2 := by
  induction m with
  | nil => rfl
  | cons p m ih =>
    obtain ⟨k', v'⟩ := p
    unfold erase
    split
    · rename_i h'; subst h'; simp [get?, h, ih]
    · rename_i h'; by_cases h2 : k' = k2 <;> simp [get?, h2, ih]

theorem get?_erase (m : AMap K V) (k k2 : K) :
    get? (erase m k) k2 = if k = k2 then none else get? m k2 := by
  split
  · rename_i h; subst h; exact get?_erase_self _ _
  · rename_i h; exact get?_erase_ne _ _ _ h

theorem get?_isSome_iff (m : AMap K V) (k : K) : (get? m k).isSome ↔ k ∈ keys m := by
  induction m with
  | nil => simp [keys]
  | cons p m ih =>
    obtain ⟨k', v'⟩ := p
    by_cases h : k' = k
    · simp [get?, h, keys]
    · simp [get?, h, keys] at ih ⊢
      rw [ih]
      constructor
      · exact Or.inr
      · rintro (h' | h')
        · exact absurd h'.symm h
        · exact h'

theorem get?_none_iff (m : AMap K V) (k : K) : get? m k = none ↔ k ∉ keys m := by
  rw [← get?_isSome_iff]; cases get? m k <;> simp

theorem has_iff (m : AMap K V) (k : K) : has m k = true ↔ k ∈ keys m := get?_isSome_iff m k

theorem mem_of_get? {m : AMap K V} {k : K} {v : V} (h : get? m k = some v) : (k, v) ∈ m := by
  induction m with
  | nil => simp at h
  | cons p m ih =>
    obtain ⟨k', v'⟩ := p
    by_cases hk : k' = k
    · subst hk
      simp [get?] at h; subst h; simp
    · simp [get?, hk] at h; exact List.mem_cons_of_mem _ (ih h)

theorem keys_set (m : AMap K V) (k : K) (v : V) :
    keys (set m k v) = if k ∈ keys m then keys m else keys m ++ [k] := by
  induction m with
  | nil => simp [set, keys]
  | cons p m ih =>
    obtain ⟨k', v'⟩ := p
    by_cases hk : k' = k
    · simp [set, hk, keys]
    · have hk' : k ≠ k' := fun h => hk h.symm
      simp only [set, hk, if_false]
      have e1 : keys ((k', v') :: set m k v) = k' :: keys (set m k v) := rfl
      have e2 : keys ((k', v') :: m) = k' :: keys m := rfl
      rw [e1, e2, ih]
      by_cases hm : k ∈ keys m
      · simp [hm]
      · simp [hm, hk']

theorem keys_erase (m : AMap K V) (k : K) : keys (erase m k) = (keys m).filter (fun x => decide (x ≠ k)) := by
  induction m with
  | nil => rfl
  | cons p m ih =>
    obtain ⟨k', v'⟩ := p
    have e2 : keys ((k', v') :: m) = k' :: keys m := rfl
    rw [e2]
    by_cases hk : k' = k
    · simp [erase, hk, ih]
    · have e1 : keys ((k', v') :: erase m k) = k' :: keys (erase m k) := rfl
      simp [erase, hk, e1, ih]

theorem keys_set_nodup {m : AMap K V} (h : (keys m).Nodup) (k : K) (v : V) : (keys (set m k v)).Nodup := by
  rw [keys_set]; split
  · exact h
  · rename_i hk
    rw [List.nodup_append]
    refine ⟨h, by simp, ?_⟩
    intro a ha b hb
    simp at hb; subst hb
    intro e; subst e; exact hk ha

theorem keys_erase_nodup {m : AMap K V} (h : (keys m).Nodup) (k : K) : (keys (erase m k)).Nodup := by
  rw [keys_erase]; exact h.sublist List.filter_sublist

theorem length_keys (m : AMap K V) : (keys m).length = m.length := by simp [keys]

theorem set_length (m : AMap K V) (k : K) (v : V) :
    (set m k v).length = if k ∈ keys m then m.length else m.length + 1 := by
  rw [← length_keys, keys_set]; split <;> simp [length_keys]

theorem get?_of_mem {m : AMap K V} (hn : (keys m).Nodup) {k : K} {v : V} (h : (k, v) ∈ m) :
    get? m k = some v := by
  induction m with
  | nil => simp at h
  | cons p m ih =>
    obtain ⟨k', v'⟩ := p
    have e2 : keys ((k', v') :: m) = k' :: keys m := rfl
    rw [e2, List.nodup_cons] at hn
    rcases List.mem_cons.mp h with h | h
    · cases h; simp [get?]
    · have : k' ≠ k := by
        rintro rfl
        exact hn.1 (List.mem_map.mpr ⟨_, h, rfl⟩)
      simp [get?, this]; exact ih hn.2 h

/-- setting an absent key appends. -/
theorem set_absent (m : AMap K V) (k : K) (v : V) (h : k ∉ keys m) : set m k v = m ++ [(k, v)] := by
  induction m with
  | nil => rfl
  | cons p m ih =>
    obtain ⟨k', v'⟩ := p
    have e2 : keys ((k', v') :: m) = k' :: keys m := rfl
    rw [e2, List.mem_cons, not_or] at h
    have : k' ≠ k := fun e => h.1 e.symm
    simp [set, this, ih h.2]

theorem set_set (m : AMap K V) (k : K) (v w : V) : set (set m k v) k w = set m k w := by
  induction m with
  | nil => simp [set]
  | cons p m ih =>
    obtain ⟨k', v'⟩ := p
    by_cases hk : k' = k <;> simp [set, hk, ih]

theorem set_self (m : AMap K V) (k : K) (v : V) (h : get? m k = some v) : set m k v = m := by
  induction m with
  | nil => simp at h
  | cons p m ih =>
    obtain ⟨k', v'⟩ := p
    by_cases hk : k' = k
    · simp [get?, hk] at h; simp [set, hk, h]
    · simp [get?, hk] at h; simp [set, hk, ih h]

/-- mapping the values. -/
def mapVals {W : Type} (f : V → W) (m : AMap K V) : AMap K W := m.map (fun p => (p.1, f p.2))

theorem get?_mapVals {W : Type} (f : V → W) (m : AMap K V) (k : K) :
    get? (mapVals f m) k = (get? m k).map f := by
  induction m with
  | nil => rfl
  | cons p m ih =>
    obtain ⟨k', v'⟩ := p
    unfold mapVals at ih ⊢
    by_cases hk : k' = k <;> simp [get?, hk]; exact ih

theorem mapVals_set {W : Type} (f : V → W) (m : AMap K V) (k : K) (v : V) :
    mapVals f (set m k v) = set (mapVals f m) k (f v) := by
  induction m with
  | nil => rfl
  | cons p m ih =>
    obtain ⟨k', v'⟩ := p
    unfold mapVals at ih ⊢
    by_cases hk : k' = k
    · simp [set, hk]
    · simp [set, hk]; exact ih

end AMap
end Vectory
