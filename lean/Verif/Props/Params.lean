import Verif.Props.Db
/-! # C40: what the index parameters in a JSON object mean, whatever keys it has -/
namespace Vectory

/-- the field `name` of a JSON object, with the value `zero` when it is not there: every entry for it (keys are compared without regard
to case; null entries do not count) has the right type, and `a` is the value of the last of them. -/
def FieldIs {α : Type} (conv : JScalar → Option α) (name : String) (zero : α) (kvs : List (String × JScalar)) (a : α) : Prop :=
  (∀ kv ∈ kvs, kv.1.toLower = name → kv.2 ≠ .null → conv kv.2 ≠ none) ∧
  match (kvs.filter (fun kv => decide (kv.1.toLower = name ∧ kv.2 ≠ .null))).getLast? with
  | none => a = zero
  | some kv => conv kv.2 = some a

theorem decodeField_append {α : Type} (conv : JScalar → Option α) (name : String) (zero : α) (kvs : List (String × JScalar)) (kv : String × JScalar) :
    decodeField conv name zero (kvs ++ [kv]) =
      if kv.1.toLower = name then
        match decodeField conv name zero kvs with
        | none => none
        | some a => if kv.2 = .null then some a else conv kv.2
      else decodeField conv name zero kvs := by
  unfold decodeField
  rw [List.foldl_append]
  rfl

theorem decodeField_iff {α : Type} (conv : JScalar → Option α) (name : String) (zero : α) (n : Nat) : ∀ (kvs : List (String × JScalar)) (a : α),
    kvs.length = n → (decodeField conv name zero kvs = some a ↔ FieldIs conv name zero kvs a) := by
  induction n with
  | zero =>
    intro kvs a h
    rw [List.length_eq_zero_iff] at h; subst h
    simp [decodeField, FieldIs, eq_comm]
  | succ n ih =>
    intro kvs a h
    rcases List.eq_nil_or_concat kvs with rfl | ⟨l, kv, rfl⟩
    · cases h
    rw [List.concat_eq_append] at h ⊢
    have hl : l.length = n := by simpa using h
    rw [decodeField_append]
    unfold FieldIs
    rw [List.filter_append]
    by_cases hk : kv.1.toLower = name
    · rw [if_pos hk]
      by_cases hn : kv.2 = .null
      · have e : List.filter (fun kv : String × JScalar => decide (kv.1.toLower = name ∧ kv.2 ≠ .null)) [kv] = [] := by simp [hn]
        rw [e, List.append_nil]
        have e2 : (match decodeField conv name zero l with | none => none | some a => if kv.2 = .null then some a else conv kv.2) =
            decodeField conv name zero l := by
          cases decodeField conv name zero l <;> simp [hn]
        rw [e2, ih l a hl]
        unfold FieldIs
        refine and_congr_left (fun _ => ⟨fun h x hx => ?_, fun h x hx => h x (List.mem_append_left _ hx)⟩)
        rcases List.mem_append.mp hx with hx | hx
        · exact h x hx
        · rw [List.mem_singleton] at hx; subst hx
          exact fun _ h1 => absurd hn h1
      · have e : List.filter (fun kv : String × JScalar => decide (kv.1.toLower = name ∧ kv.2 ≠ .null)) [kv] = [kv] := by simp [hk, hn]
        rw [e, List.getLast?_concat]
        dsimp only
        constructor
        · intro h1
          cases hd : decodeField conv name zero l with
          | none => rw [hd] at h1; cases h1
          | some b =>
            rw [hd] at h1
            dsimp only at h1
            rw [if_neg hn] at h1
            refine ⟨fun x hx => ?_, h1⟩
            rcases List.mem_append.mp hx with hx | hx
            · exact ((ih l b hl).mp hd).1 x hx
            · rw [List.mem_singleton] at hx; subst hx
              intro _ _ h2; rw [h1] at h2; cases h2
        · intro ⟨h1, h2⟩
          have hd : ∃ b, decodeField conv name zero l = some b := by
            have h1' : ∀ x ∈ l, x.1.toLower = name → x.2 ≠ .null → conv x.2 ≠ none := fun x hx => h1 x (List.mem_append_left _ hx)
            cases hg : (l.filter (fun kv => decide (kv.1.toLower = name ∧ kv.2 ≠ .null))).getLast? with
            | none => exact ⟨zero, (ih l zero hl).mpr ⟨h1', by rw [hg]⟩⟩
            | some x =>
              have hx := List.mem_filter.mp (List.mem_of_getLast? hg)
              have hx2 := hx.2
              simp only [decide_eq_true_eq] at hx2
              cases hc : conv x.2 with
              | none => exact absurd hc (h1' x hx.1 hx2.1 hx2.2)
              | some b => exact ⟨b, (ih l b hl).mpr ⟨h1', by rw [hg]; exact hc⟩⟩
          obtain ⟨b, hd⟩ := hd
          rw [hd]
          dsimp only
          rw [if_neg hn]; exact h2
    · rw [if_neg hk]
      have e : List.filter (fun kv : String × JScalar => decide (kv.1.toLower = name ∧ kv.2 ≠ .null)) [kv] = [] := by simp [hk]
      rw [e, List.append_nil, ih l a hl]
      unfold FieldIs
      refine and_congr_left (fun _ => ⟨fun h x hx => ?_, fun h x hx => h x (List.mem_append_left _ hx)⟩)
      rcases List.mem_append.mp hx with hx | hx
      · exact h x hx
      · rw [List.mem_singleton] at hx; subst hx
        exact fun h1 => absurd h1 hk

/-- **C40, the parameters, in general.** A JSON object is read as the parameters `p` exactly when each of the six fields of `p` is what the
object says: the last non-null entry under that name, upper and lower case being the same, and zero, false or the empty string if there is
none; an entry of another type (or a whole number outside 64 bits) makes the object unreadable, and entries under other names do not
matter. -/
theorem C40_object_meaning (kvs : List (String × JScalar)) (p : HnswParams) :
    decodeHnsw (.obj kvs) = some p ↔
      FieldIs convInt "m" 0 kvs p.m ∧ FieldIs convInt "m_max" 0 kvs p.mMax ∧ FieldIs convInt "ef_construction" 0 kvs p.efConstruction ∧
      FieldIs convInt "ef" 0 kvs p.ef ∧ FieldIs convBool "heuristic" false kvs p.heuristic ∧ FieldIs convStr "distance_type" "" kvs p.distanceType := by
  simp only [← decodeField_iff _ _ _ _ kvs _ rfl]
  simp only [decodeHnsw]
  cases p
  generalize decodeField convInt "m" 0 kvs = a1
  generalize decodeField convInt "m_max" 0 kvs = a2
  generalize decodeField convInt "ef_construction" 0 kvs = a3
  generalize decodeField convInt "ef" 0 kvs = a4
  generalize decodeField convBool "heuristic" false kvs = a5
  generalize decodeField convStr "distance_type" "" kvs = a6
  cases a1 <;> cases a2 <;> cases a3 <;> cases a4 <;> cases a5 <;> cases a6 <;> simp

/-- a field that is not there has its zero value. -/
theorem FieldIs.missing {α : Type} {conv : JScalar → Option α} {name : String} {zero : α} {kvs : List (String × JScalar)} {a : α}
    (h : FieldIs conv name zero kvs a) (hno : ∀ kv ∈ kvs, kv.1.toLower ≠ name) : a = zero := by
  have e : kvs.filter (fun kv => decide (kv.1.toLower = name ∧ kv.2 ≠ .null)) = [] := by
    rw [List.filter_eq_nil_iff]
    intro kv hkv
    simp [hno kv hkv]
  have := h.2
  rw [e] at this
  exact this

/-- **C40, missing parameters.** An HNSW configuration without one of `m`, `m_max`, `ef`, `ef_construction`, `distance_type` is refused; one
without `heuristic` uses the simple selection. -/
theorem C40_missing (kvs : List (String × JScalar)) :
    (∀ name ∈ ["m", "m_max", "ef", "ef_construction", "distance_type"], (∀ kv ∈ kvs, kv.1.toLower ≠ name) →
      ∀ cfg : Config, cfg.indexType = "hnsw" → cfg.indexParams = some (.obj kvs) → ¬ Documented cfg) ∧
    ((∀ kv ∈ kvs, kv.1.toLower ≠ "heuristic") → ∀ p, decodeHnsw (.obj kvs) = some p → p.heuristic = false) := by
  refine ⟨fun name hname hno cfg hi hp hd => ?_, fun hno p hp => (((C40_object_meaning kvs p).mp hp).2.2.2.2.1).missing hno⟩
  obtain ⟨_, h, _⟩ := hd
  rcases h with ⟨_, j, p, hj, hdec, h1, h2, h3, h4, h5⟩ | h
  · rw [hp] at hj; cases hj
    obtain ⟨k1, k2, k3, k4, _, k6⟩ := (C40_object_meaning kvs p).mp hdec
    simp only [List.mem_cons, List.not_mem_nil, or_false] at hname
    rcases hname with rfl | rfl | rfl | rfl | rfl
    · have := k1.missing hno; omega
    · have := k2.missing hno; omega
    · have := k4.missing hno; omega
    · have := k3.missing hno; omega
    · have := k6.missing hno; rw [this] at h5; revert h5; decide
  · rw [hi] at h; revert h; decide

-- a configuration with a key twice, in upper case, a null and an unknown key
example : decodeHnsw (.obj [("M", .int 3), ("m", .int 5), ("m", .null), ("ef", .int 7), ("x", .bool true), ("Distance_Type", .str "dot_product")]) =
    some { m := 5, ef := 7, distanceType := "dot_product" } := by decide +kernel
example : decodeHnsw (.obj [("m", .int 5), ("ef", .str "7")]) = none := by decide +kernel

end Vectory
