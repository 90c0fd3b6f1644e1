import Verif.Props.Ids
/-! # C05: a counter write that is cut short, exactly -/
namespace Vectory
variable {V D : Type}

/-- what eight bytes say when the first `j` are those of `n` and the others those of `f`. -/
theorem torn_value (f n : UInt64) (rest : Bytes) (j : Nat) (hj : j ≤ 8) :
    uint64 (tornCounter (putUint64 f ++ rest) n j) = .ok (UInt64.ofNat (n.toNat % 256 ^ j + f.toNat / 256 ^ j * 256 ^ j)) := by
  have hf := f.toNat_lt
  have hn := n.toNat_lt
  have : j = 0 ∨ j = 1 ∨ j = 2 ∨ j = 3 ∨ j = 4 ∨ j = 5 ∨ j = 6 ∨ j = 7 ∨ j = 8 := by omega
  rcases this with rfl | rfl | rfl | rfl | rfl | rfl | rfl | rfl | rfl <;>
  · simp only [tornCounter, overwrite, putUint64, List.take, List.length, List.drop, List.cons_append, List.nil_append, uint64, Except.ok.injEq]
    apply UInt64.toNat_inj.mp
    simp only [UInt64.toNat_ofNat', UInt8.toNat_ofNat']
    omega

theorem insert_counter {L : Lib V D} {c c1 : Coll} {o o1 : Object V} {embed : Embed V} {env : InsEnv} {ff : Bool}
    (h : c.insert L o embed env ff = .ok (c1, o1, none)) :
    o1.id = c.counter.count ∧ c1.counter.count = c.counter.count + 1 ∧
      c1.counter.file = overwrite c.counter.file (putUint64 (c.counter.count + 1)) := by
  generalize hee : (none : Option Err) = ee at h
  cases insert_res h with
  | closed => cases hee
  | invalid => cases hee
  | embed => cases hee
  | storage _ _ _ x => cases hee
  | done o2 o3 c2 _ _ _ hin =>
    obtain ⟨h1, h2⟩ := insertOne_ids hin
    rcases h2 with ⟨h2, _⟩ | ⟨h2, h3⟩
    · exact absurd rfl h2
    · exact ⟨h2, h1, h3⟩

/-- **C05, the cut write exactly.** `Insert` has just returned the id `x`, in whatever state the collection was. The process (or the
machine) stops inside the next `Insert`, when `j` of the eight bytes of the counter file are written. Then the collection can be opened
again iff it could have been opened without that second `Insert`, and the first id handed out after that is `x + 2` - unless the cut
falls on a carry, that is `x + 2` is a multiple of `256 ^ j`: then it is `x + 2 - 256 ^ j`, so ids are reused. -/
theorem C05_torn_exact (L : Lib V D) (c c1 : Coll) (o o1 : Object V) (embed : Embed V) (env : InsEnv) (ff : Bool)
    (h : c.insert L o embed env ff = .ok (c1, o1, none)) (hb : o1.id.toNat + 2 < 18446744073709551616)
    (o2 : Object V) (level j : Nat) (h0 : 0 < j) (h8 : j < 8) :
    ∃ d, c1.crashInsert L o2 level (.counter j) = .ok d ∧
      ((∃ c2, openColl c1.index.cfg c1.mappings c1.hasEmbedder d = .ok c2) ↔ ∃ c0, c1.reopen = .ok c0) ∧
      ∀ c2, openColl c1.index.cfg c1.mappings c1.hasEmbedder d = .ok c2 →
        c2.counter.count.toNat = (if (o1.id.toNat + 2) % 256 ^ j = 0 then o1.id.toNat + 2 - 256 ^ j else o1.id.toNat + 2) ∧
        (o1.id.toNat < c2.counter.count.toNat ↔ (o1.id.toNat + 2) % 256 ^ j ≠ 0) := by
  obtain ⟨e1, e2, e3⟩ := insert_counter h
  have n1 : (c.counter.count + 1).toNat = o1.id.toNat + 1 := by rw [e1]; exact u64_succ (by rw [← e1]; omega)
  have n2 : (c1.counter.count + 1).toNat = o1.id.toNat + 2 := by rw [e2, u64_succ (by rw [n1]; omega), n1]
  have hv := torn_value (c.counter.count + 1) (c1.counter.count + 1) (c.counter.file.drop 8) j (by omega)
  have hfile : c1.counter.file = putUint64 (c.counter.count + 1) ++ c.counter.file.drop 8 := by rw [e3]; rfl
  have hval : (c1.counter.count + 1).toNat % 256 ^ j + (c.counter.count + 1).toNat / 256 ^ j * 256 ^ j =
      (if (o1.id.toNat + 2) % 256 ^ j = 0 then o1.id.toNat + 2 - 256 ^ j else o1.id.toNat + 2) ∧
      (o1.id.toNat < (if (o1.id.toNat + 2) % 256 ^ j = 0 then o1.id.toNat + 2 - 256 ^ j else o1.id.toNat + 2) ↔
        (o1.id.toNat + 2) % 256 ^ j ≠ 0) := by
    rw [n1, n2]
    have : j = 1 ∨ j = 2 ∨ j = 3 ∨ j = 4 ∨ j = 5 ∨ j = 6 ∨ j = 7 := by omega
    rcases this with rfl | rfl | rfl | rfl | rfl | rfl | rfl <;> (split <;> omega)
  have hne : ¬ (tornCounter c1.counter.file (c1.counter.count + 1) j).length = 0 := by
    intro hl
    rw [← hfile] at hv
    rw [List.length_eq_zero_iff.mp hl] at hv
    cases hv
  have hnew : newIdCounter (tornCounter c1.counter.file (c1.counter.count + 1) j) =
      .ok { count := UInt64.ofNat ((c1.counter.count + 1).toNat % 256 ^ j + (c.counter.count + 1).toNat / 256 ^ j * 256 ^ j),
            file := tornCounter c1.counter.file (c1.counter.count + 1) j } := by
    unfold newIdCounter
    rw [if_neg hne, hfile, hv]
  have hold : newIdCounter c1.counter.file = .ok { count := c.counter.count + 1, file := c1.counter.file } := by
    rw [hfile]; exact newIdCounter_put _ _
  refine ⟨_, rfl, ?_, ?_⟩
  · unfold Coll.reopen openColl Coll.disk
    dsimp only
    rw [hnew, hold]
    simp only [liftErr, ok_bind]
    constructor
    · rintro ⟨c2, h2⟩
      obtain ⟨a, h3, h4⟩ := (bind_ok_iff _ _ _).mp h2
      obtain ⟨b, h5, h6⟩ := (bind_ok_iff _ _ _).mp h4
      rw [h3, ok_bind, h5]
      exact ⟨_, rfl⟩
    · rintro ⟨c2, h2⟩
      obtain ⟨a, h3, h4⟩ := (bind_ok_iff _ _ _).mp h2
      obtain ⟨b, h5, h6⟩ := (bind_ok_iff _ _ _).mp h4
      rw [h3, ok_bind, h5]
      exact ⟨_, rfl⟩
  · intro c2 h2
    have hc := (open_ids h2).1
    have hc : newIdCounter (tornCounter c1.counter.file (c1.counter.count + 1) j) = .ok c2.counter := hc
    rw [hnew] at hc
    cases hc' : c2.counter with
    | mk n f cl =>
      rw [hc'] at hc
      cases hc
      dsimp only
      have hlt : (c1.counter.count + 1).toNat % 256 ^ j + (c.counter.count + 1).toNat / 256 ^ j * 256 ^ j < 18446744073709551616 := by
        rw [hval.1]
        split <;> omega
      rw [UInt64.toNat_ofNat', Nat.mod_eq_of_lt hlt, hval.1]
      exact ⟨rfl, hval.2⟩

/-- the cut after one byte: ids 254, 510, ... are the dangerous ones; here an id that is not. -/
example : ∃ c1 o1, (Coll.new demoCfg ["a"] false).insert demoLib (demoObj 3) noEmbed {} false = .ok (c1, o1, none) ∧
    o1.id.toNat + 2 < 18446744073709551616 ∧ (o1.id.toNat + 2) % 256 ^ 1 ≠ 0 ∧ ∃ c0, c1.reopen = .ok c0 :=
  ⟨_, _, rfl, by decide, by decide, _, rfl⟩

end Vectory
