import Verif.Lemmas.LinSize
import Verif.Props.CollConc
/-!
# Calls that overlap (C52)

`Exec` (Spec/Linear.lean) is any execution of `Insert`, `InsertBatch`, `InsertBatch2`, `Delete`, `Get`, `SemanticSearch` and `GetSize`
on one collection by any number of clients, interleaved step by step, with any failing writes. `Linearization` is the usual definition.
-/
namespace Vectory.Conc
open Vectory
variable {V D : Type}

theorem erase_absent {K A : Type} [DecidableEq K] : ∀ (m : AMap K A) (k : K), k ∉ m.keys → m.erase k = m := by
  intro m k
  induction m with
  | nil => intro _; rfl
  | cons p m ih =>
    intro h
    unfold AMap.keys at h
    simp only [List.map_cons, List.mem_cons, not_or] at h
    have := ih h.2
    simp [AMap.erase, Ne.symm h.1] at this ⊢
    exact this

/-- C52 for executions in which nobody calls `GetSize`: the results the clients saw are those of the same calls made one after the
other, in an order that keeps the order of calls that did not overlap. (`fixed = false` is the program as it is, with batches that do not
pass through the race; `fixed = true` the program with the missing lock, with any batches.) A `Delete` that found its object already deleted when it got
the lock is in that order a `Delete` that does nothing except to log the deletion once more (`Alone.again`, `C52_again`).
`C52_size` is the same for executions with `GetSize`. -/
theorem C52_no_size (fixed : Bool) (L : Lib V D) (dim : Nat) (c : Coll) (hr : ReachAnyConc fixed L dim c) (H : List (LEv V D))
    (s : LState V D) (h : Exec fixed L dim c H s) (hz : ∀ n, LEv.call n .size ∉ H) :
    ∃ S c', Linearization fixed (fun _ => sizeExact) L dim c H S c' := by
  obtain ⟨S, a, d, v⟩ := exec_lin hr.inv.1 h hz
  exact ⟨S, a, v.linearization⟩

/-- C52: the results the clients saw are those of the same calls made one after the other, in an order that keeps the order of calls that
did not overlap, except that a `GetSize` that overlaps with a call that writes or removes `k` objects may return up to `k` more than the
size at its place in that order; never less (`sizeOverlap`, Spec/Linear.lean). -/
theorem C52_size (fixed : Bool) (L : Lib V D) (dim : Nat) (c : Coll) (hr : ReachAnyConc fixed L dim c) (H : List (LEv V D))
    (s : LState V D) (h : Exec fixed L dim c H s) : ∃ S c', Linearization fixed (sizeOverlap H) L dim c H S c' := by
  obtain ⟨S, a, d, v⟩ := exec_lin_size hr.inv.1 h
  exact ⟨S, a, v.linearization⟩

/-- C52, when no `GetSize` overlaps with a call that writes or removes objects: the results are exactly those of the same calls made one
after the other. -/
theorem C52_size_apart (fixed : Bool) (L : Lib V D) (dim : Nat) (c : Coll) (hr : ReachAnyConc fixed L dim c) (H : List (LEv V D))
    (s : LState V D) (h : Exec fixed L dim c H s)
    (ha : ∀ n m op, LEv.call n .size ∈ H → LEv.call m op ∈ H → Overlap H n m → op.weight = 0) :
    ∃ S c', Linearization fixed (fun _ => sizeExact) L dim c H S c' := by
  obtain ⟨S, a, d, v⟩ := exec_lin_size hr.inv.1 h
  have l := v.linearization
  refine ⟨S, a, ?_, l.once, l.all, l.only, l.order⟩
  have key : ∀ (T : List (Nat × LOp V × LOut V D)) (c' : Coll), OneByOne fixed (sizeOverlap H) L dim c T c' →
      (∀ n op out, (n, op, out) ∈ T → LEv.call n op ∈ H) → OneByOne fixed (fun _ => sizeExact) L dim c T c' := by
    intro T c' h
    induction h with
    | nil => intro _; exact .nil _
    | @snoc c1 c2 T n op out _ h2 ih =>
      intro hm
      refine .snoc (ih (fun n op out h => hm n op out (List.mem_append_left _ h))) ?_
      have hn := hm n op out (by simp)
      cases h2 with
      | insert h => exact .insert h
      | refused h => exact .refused h
      | batch h1 h2 h3 h4 => exact .batch h1 h2 h3 h4
      | delete h => exact .delete h
      | again h1 h2 => exact .again h1 h2
      | get => exact .get
      | search => exact .search
      | size h =>
        refine .size ?_
        rcases h with h | ⟨m, op, h1, h2, h3 | ⟨x, y, h3, rfl, h4, h5⟩⟩
        · exact h
        · exact h3
        · have := ha n m op hn h1 h2
          have : x = y := by omega
          subst this
          exact h3.symm
  exact key S a l.seq l.only

/-- `Delete` of an object that is already deleted, when the disk does not fail: it returns nil, as `Delete` of a missing object does,
and every read, every search and the size are as before. -/
theorem C52_again (fixed : Bool) (L : Lib V D) (dim : Nat) (c : Coll) (hr : ReachAnyConc fixed L dim c) (id : UInt64)
    (hk : keyOf id ∉ c.stores.objects.keys) (hd : id ∈ c.index.deleted) :
    (Coll.blindDelete c id false false).2 = none ∧
    (∀ ids, (Coll.blindDelete c id false false).1.get L ids = c.get L ids) ∧
    (∀ o embed k, (Coll.blindDelete c id false false).1.semanticSearch L o embed k = c.semanticSearch L o embed k) ∧
    (Coll.blindDelete c id false false).1.getSize = c.getSize := by
  have i := erased_inv' hr.inv.1 (Or.inr hd)
  have he : deleteObject c.stores id = c.stores := by
    unfold deleteObject
    rw [erase_absent _ _ hk]
  have hc : Coll.blindDelete c id false false =
      ({ c with stores := deleteObject c.stores id, index := c.index.delete id } : Coll).flush false := rfl
  refine ⟨?_, ?_, ?_, ?_⟩
  · rw [hc, flush_err i false]; rfl
  · intro ids
    rw [hc, he]; rfl
  · intro o embed k
    rw [hc, he]
    have hn : ((({ c with stores := c.stores, index := c.index.delete id } : Coll).flush false).1.index) =
        { c.index with wal := (((c.index.delete id).wal).flush false).1 } := by
      show { (c.index.delete id) with wal := ((c.index.delete id).wal.flush false).1 } = _
      unfold Hnsw.delete Hnsw.log
      dsimp only
      rw [if_pos hd]
    unfold Coll.semanticSearch
    have hs : ∀ q, ((({ c with stores := c.stores, index := c.index.delete id } : Coll).flush false).1.index).search L.metric q k =
        c.index.search L.metric q k := by
      intro q; rw [hn]; rfl
    simp only [hs]
    rfl
  · rw [hc, he]; rfl

/-! ### Concrete executions -/

/-- `LAct.Legal`, checked. -/
def llegal (fixed : Bool) (L : Lib V D) (dim : Nat) (s : LState V D) : LAct V → Bool
  | .go n a =>
    (match s.calls[n]? with
      | some (.invoked (.insert o embed env ff)) => legalB dim s.c (.insert o embed env ff)
      | some (.invoked (.batch _ workers os embed)) => decide (0 < workers) &&
        (match embedObjectsIfNeeded s.c embed os with
          | .error _ => false
          | .ok (.error _) => true
          | .ok (.ok os) => os.all (fun o => (o.vec.getD []).length == dim)) &&
        decide (s.c.counter.count.toNat + os.length < 18446744073709551616)
      | _ => true) &&
    (match s.writer, a with
      | some (_, .batch _ b), .work i env => decide (env.level < 4294967296) &&
        (match b.step fixed L (.work i env) with
          | some b' => !raceAny b'.ts
          | none => true)
      | _, _ => true)
  | _ => true

theorem llegal_sound {fixed : Bool} {L : Lib V D} {dim : Nat} {s : LState V D} {a : LAct V} (h : llegal fixed L dim s a = true) :
    a.Legal fixed L dim s := by
  cases a with
  | call op => trivial
  | ret n => trivial
  | go n a =>
    simp only [llegal, Bool.and_eq_true] at h
    obtain ⟨h1, h2⟩ := h
    refine ⟨?_, ?_, ?_⟩
    · intro o embed env ff hc
      rw [hc] at h1
      exact legalB_sound h1
    · intro two workers os embed hc
      rw [hc] at h1
      simp only [Bool.and_eq_true, decide_eq_true_eq] at h1
      obtain ⟨⟨h3, h4⟩, h5⟩ := h1
      refine ⟨h3, ?_, h5⟩
      cases he : embedObjectsIfNeeded s.c embed os with
      | error p => rw [he] at h4; cases h4
      | ok r =>
        refine ⟨r, he, ?_⟩
        intro os' e
        subst e
        rw [he] at h4
        intro o ho
        simpa using (List.all_eq_true.mp h4) o ho
    · intro workers b i env hw ha
      subst ha
      rw [hw] at h2
      simp only [Bool.and_eq_true, decide_eq_true_eq] at h2
      refine ⟨h2.1, fun b' hb => ?_⟩
      have h3 := h2.2
      rw [hb] at h3
      exact raceAny_sound (by simpa using h3)

def lplay (fixed : Bool) (L : Lib V D) (dim : Nat) : LState V D → List (LAct V) → Option (LState V D × List (LEv V D))
  | s, [] => some (s, [])
  | s, a :: as =>
    if llegal fixed L dim s a then
      match s.step fixed L a with
      | none => none
      | some (s1, evs) =>
        match lplay fixed L dim s1 as with
        | none => none
        | some (s2, H) => some (s2, evs ++ H)
    else none

theorem lplay_exec {fixed : Bool} {L : Lib V D} {dim : Nat} {c : Coll} : ∀ (as : List (LAct V)) (s s' : LState V D) (H H' : List (LEv V D)),
    Exec fixed L dim c H s → lplay fixed L dim s as = some (s', H') → Exec fixed L dim c (H ++ H') s' := by
  intro as
  induction as with
  | nil => intro s s' H H' he h; cases h; rw [List.append_nil]; exact he
  | cons a as ih =>
    intro s s' H H' he h
    simp only [lplay] at h
    split at h
    · rename_i hl
      cases hs : s.step fixed L a with
      | none => simp only [hs] at h; cases h
      | some r =>
        obtain ⟨s1, evs⟩ := r
        simp only [hs] at h
        cases hp : lplay fixed L dim s1 as with
        | none => simp only [hp] at h; cases h
        | some r2 =>
          obtain ⟨s2, H2⟩ := r2
          simp only [hp] at h
          cases h
          rw [← List.append_assoc]
          exact ih s1 _ _ _ (.step he (llegal_sound hl) hs) hp
    · cases h

/-- the next step of the call `n`. -/
def lgo (n : Nat) (k : Nat := 1) : List (LAct UInt8) := List.replicate k (.go n .giveUp)

/-- `Insert` is stopped between its two writes; `GetSize` counts its object; `Delete` does not find it; then `Insert` ends and `Get`
reads it. -/
def c52Acts : List (LAct UInt8) :=
  [.call (.insert (demoObj 5) noEmbed {} false)] ++ lgo 0 3 ++ [.call .size] ++ lgo 1 ++ [.ret 1, .call (.delete 0 false false)] ++ lgo 2 2 ++
  [.ret 2] ++ lgo 0 2 ++ [.ret 0, .call (.get [0])] ++ lgo 3 ++ [.ret 3]

def c52H : List (LEv UInt8 Nat) :=
  [.call 0 (.insert (demoObj 5) noEmbed {} false), .call 1 .size, .ret 1 (.size (.ok 1)), .call 2 (.delete 0 false false),
    .ret 2 (.deleted none), .ret 0 (.inserted (demoObj 5) none), .call 3 (.get [0]), .ret 3 (.objects (.ok [demoObj 5]))]

def demoNew : Coll := Coll.new demoCfg ["a"] false

theorem c52_run : (lplay false demoLib 1 { c := demoNew } c52Acts).map Prod.snd = some c52H := by rfl

theorem OneByOne.inv {fixed : Bool} {L : Lib V D} {dim : Nat} {c c2 : Coll} {S : List (Nat × LOp V × LOut V D)} {p : Nat × LOp V × LOut V D}
    (h : OneByOne fixed (fun _ => sizeExact) L dim c (S ++ [p]) c2) : ∃ c1, OneByOne fixed (fun _ => sizeExact) L dim c S c1 ∧ Alone fixed sizeExact L dim c1 p.2.1 p.2.2 c2 := by
  generalize hT : S ++ [p] = T at h
  cases h with
  | nil => simp at hT
  | snoc h1 h2 =>
    have := List.append_inj' hT rfl
    simp only [List.cons.injEq, and_true] at this
    obtain ⟨rfl, rfl⟩ := this
    exact ⟨_, h1, h2⟩

theorem Alone.insert_inv {fixed : Bool} {L : Lib V D} {dim : Nat} {c c' : Coll} {o o' : Object V} {embed : Embed V} {env : InsEnv} {ff : Bool}
    {e : Option Err} (h : Alone fixed sizeExact L dim c (.insert o embed env ff) (.inserted o' e) c') : c.insert L o embed env ff = .ok (c', o', e) := by
  cases h; assumption

theorem Alone.size_inv {fixed : Bool} {L : Lib V D} {dim : Nat} {c c' : Coll} {r : Except Err Nat}
    (h : Alone fixed sizeExact L dim c .size (.size r) c') : c.getSize = r ∧ c = c' := by
  cases h with
  | size hz => exact ⟨hz.symm, rfl⟩

theorem Alone.get_inv {fixed : Bool} {L : Lib V D} {dim : Nat} {c c' : Coll} {ids : List UInt64} {r : Except Abort (List (Object V))}
    (h : Alone fixed sizeExact L dim c (.get ids) (.objects r) c') : c.get L ids = r := by
  cases h; rfl

theorem Alone.delete_inv {fixed : Bool} {L : Lib V D} {dim : Nat} {c c' : Coll} {id : UInt64} {df ff : Bool} {e : Option Err}
    (h : Alone fixed sizeExact L dim c (.delete id df ff) (.deleted e) c') : c.delete L id df ff = .ok (c', e) ∨ keyOf id ∉ c.stores.objects.keys := by
  cases h with
  | delete h => exact Or.inl h
  | again h _ => exact Or.inr h

theorem len4 {A : Type} {l : List A} (h : l.length = 4) : ∃ a b c d, l = [a, b, c, d] := by
  match l, h with
  | [a, b, c, d], _ => exact ⟨a, b, c, d, rfl⟩

set_option synthInstance.maxSize 2000 in
set_option synthInstance.maxHeartbeats 200000 in
theorem c52_orders : ∀ a b c d : Fin 4, a ≠ b → a ≠ c → a ≠ d → b ≠ c → b ≠ d → c ≠ d →
    (a ≠ 2 ∧ (b = 2 → a = 1) ∧ (c = 2 → a = 1 ∨ b = 1) ∧ (d = 2 → a = 1 ∨ b = 1 ∨ c = 1)) →
    (a ≠ 3 ∧ (b = 3 → a = 2) ∧ (c = 3 → a = 2 ∨ b = 2)) → (a ≠ 3 ∧ (b = 3 → a = 0) ∧ (c = 3 → a = 0 ∨ b = 0)) →
    d = 3 ∧ ((a = 0 ∧ b = 1 ∧ c = 2) ∨ a = 1) := by decide +kernel

theorem c52_lt {n : Nat} {op : LOp UInt8} (h : LEv.call n op ∈ c52H) : n < 4 := by
  simp only [c52H, List.mem_cons, LEv.call.injEq, reduceCtorEq, List.not_mem_nil, or_false, false_or] at h
  omega

/-- C52 fails for the program as it is when `GetSize` is called too: from a new collection, one client inserts an object, the second
sees the size 1, after which the third deletes the object and is told nil; but then a fourth one still reads it. -/
theorem C52_fails : ∃ (c : Coll) (H : List (LEv UInt8 Nat)) (s : LState UInt8 Nat), ReachAnyConc false demoLib 1 c ∧
    Exec false demoLib 1 c H s ∧ ¬ ∃ S c', Linearization false (fun _ => sizeExact) demoLib 1 c H S c' := by
  refine ⟨demoNew, c52H, ?_⟩
  have hrun := c52_run
  cases hp : lplay false demoLib 1 { c := demoNew } c52Acts with
  | none => rw [hp] at hrun; cases hrun
  | some r =>
    obtain ⟨s, H'⟩ := r
    rw [hp] at hrun
    simp only [Option.map_some, Option.some.injEq] at hrun
    subst hrun
    refine ⟨s, demo_reachAny demoCfg (by constructor <;> decide) _ _, ?_, ?_⟩
    · have := lplay_exec _ _ _ [] _ Exec.start hp
      exact this
    rintro ⟨S, c', l⟩
    have hop : ∀ n op out, (n, op, out) ∈ S → n < 4 := fun n op out h => c52_lt (l.only n op out h)
    have len : S.length = 4 := by
      apply Nat.le_antisymm
      · have := nodup_length_le (l₂ := List.range 4) l.once (by
          intro x hx
          obtain ⟨⟨n, op, out⟩, hm, rfl⟩ := List.mem_map.mp hx
          exact List.mem_range.mpr (hop n op out hm))
        simpa using this
      · have := nodup_length_le (l₁ := List.range 4) (l₂ := S.map Prod.fst) List.nodup_range (by
          intro x hx
          have key : ∀ n out, LEv.ret n out ∈ c52H → n ∈ S.map Prod.fst := by
            intro n out h
            obtain ⟨op, h⟩ := l.all n out h
            exact List.mem_map.mpr ⟨_, h, rfl⟩
          have hx := List.mem_range.mp hx
          match x, hx with
          | 0, _ => exact key 0 (.inserted (demoObj 5) none) (by simp [c52H])
          | 1, _ => exact key 1 (.size (.ok 1)) (by simp [c52H])
          | 2, _ => exact key 2 (.deleted none) (by simp [c52H])
          | 3, _ => exact key 3 (.objects (.ok [demoObj 5])) (by simp [c52H]))
        simpa using this
    obtain ⟨⟨n0, x0⟩, ⟨n1, x1⟩, ⟨n2, x2⟩, ⟨n3, x3⟩, rfl⟩ := len4 len
    have nd := l.once
    simp only [List.map_cons, List.map_nil, List.nodup_cons, List.mem_cons, List.not_mem_nil, or_false, not_or, not_false_eq_true,
      List.nodup_nil, and_true] at nd
    have b0 := hop n0 x0.1 x0.2 (by simp)
    have b1 := hop n1 x1.1 x1.2 (by simp)
    have b2 := hop n2 x2.1 x2.2 (by simp)
    have b3 := hop n3 x3.1 x3.2 (by simp)
    have before : ∀ a b op out H1 H2, c52H = H1 ++ LEv.call b op :: H2 → LEv.ret a out ∈ H1 →
        n0 ≠ b ∧ (n1 = b → n0 = a) ∧ (n2 = b → n0 = a ∨ n1 = a) ∧ (n3 = b → n0 = a ∨ n1 = a ∨ n2 = a) := by
      intro a b op out H1 H2 e hm
      have o := l.order H1 H2 a b op out e hm
      refine ⟨?_, ?_, ?_, ?_⟩
      · rintro rfl; simpa using o [] _ x0 rfl
      · rintro rfl; simpa [eq_comm] using o [(n0, x0)] _ x1 rfl
      · rintro rfl; simpa [eq_comm] using o [(n0, x0), (n1, x1)] _ x2 rfl
      · rintro rfl; simpa [eq_comm] using o [(n0, x0), (n1, x1), (n2, x2)] _ x3 rfl
    have o12 := before 1 2 (.delete 0 false false) (.size (.ok 1)) (c52H.take 3) (c52H.drop 4) rfl (by simp [c52H])
    have o23 := before 2 3 (.get [0]) (.deleted none) (c52H.take 6) (c52H.drop 7) rfl (by simp [c52H])
    have o03 := before 0 3 (.get [0]) (.inserted (demoObj 5) none) (c52H.take 6) (c52H.drop 7) rfl (by simp [c52H])
    have ord : n3 = 3 ∧ ((n0 = 0 ∧ n1 = 1 ∧ n2 = 2) ∨ n0 = 1) := by
      have := c52_orders ⟨n0, b0⟩ ⟨n1, b1⟩ ⟨n2, b2⟩ ⟨n3, b3⟩
      simp only [Fin.ext_iff, ne_eq] at this
      exact this nd.1.1 nd.1.2.1 nd.1.2.2 nd.2.1.1 nd.2.1.2 nd.2.2 o12 ⟨o23.1, o23.2.1, o23.2.2.1⟩ ⟨o03.1, o03.2.1, o03.2.2.1⟩
    clear o12 o23 o03 before
    have val : ∀ n op out, LEv.call n op ∈ c52H → (∀ op', LEv.call n op' ∈ c52H → op' = op) → LEv.ret n out ∈ c52H →
        (n, op, out) ∈ [(n0, x0), (n1, x1), (n2, x2), (n3, x3)] := by
      intro n op out h1 h2 h3
      obtain ⟨op', h⟩ := l.all n out h3
      rw [← h2 op' (l.only n op' out h)]; exact h
    obtain ⟨c3, q3, a3⟩ := OneByOne.inv (S := [(n0, x0), (n1, x1), (n2, x2)]) (p := (n3, x3)) l.seq
    obtain ⟨c2, q2, a2⟩ := OneByOne.inv (S := [(n0, x0), (n1, x1)]) (p := (n2, x2)) q3
    obtain ⟨c1, q1, a1⟩ := OneByOne.inv (S := [(n0, x0)]) (p := (n1, x1)) q2
    obtain ⟨d0, q0, a0⟩ := OneByOne.inv (S := []) (p := (n0, x0)) q1
    have hd : d0 = demoNew := by
      generalize hT : ([] : List (Nat × LOp UInt8 × LOut UInt8 Nat)) = T at q0
      cases q0 with
      | nil => rfl
      | snoc _ _ => simp at hT
    subst hd
    have v0 := val 0 (.insert (demoObj 5) noEmbed {} false) (.inserted (demoObj 5) none) (by simp [c52H]) (by simp [c52H]) (by simp [c52H])
    have v1 := val 1 .size (.size (.ok 1)) (by simp [c52H]) (by simp [c52H]) (by simp [c52H])
    have v2 := val 2 (.delete 0 false false) (.deleted none) (by simp [c52H]) (by simp [c52H]) (by simp [c52H])
    have v3 := val 3 (.get [0]) (.objects (.ok [demoObj 5])) (by simp [c52H]) (by simp [c52H]) (by simp [c52H])
    simp only [List.mem_cons, List.not_mem_nil, or_false, Prod.mk.injEq] at v0 v1 v2 v3
    rcases ord with ⟨rfl, ⟨rfl, rfl, rfl⟩ | rfl⟩
    · simp at v0 v1 v2 v3
      subst v0 v1 v2 v3
      have e0 := a0.insert_inv
      have e1 := a1.size_inv
      have e3 := a3.get_inv
      rw [← e1.2] at a2
      have f0 : c1 = demoState demoCfg [demoInsert 5] := by
        have : demoNew.insert demoLib (demoObj 5) noEmbed {} false = .ok (demoState demoCfg [demoInsert 5], demoObj 5, none) := by rfl
        rw [this] at e0
        cases e0; rfl
      rw [f0] at a2
      rcases a2.delete_inv with h | h
      · have : (demoState demoCfg [demoInsert 5]).delete demoLib 0 false false =
            .ok (demoState demoCfg [demoInsert 5, .delete 0 false false], none) := by rfl
        rw [this] at h
        cases h
        have : (demoState demoCfg [demoInsert 5, .delete 0 false false]).get demoLib [0] = .ok [] := by rfl
        rw [this] at e3
        cases e3
      · exact h (by decide +kernel)
    · have : x0 = (LOp.size, LOut.size (.ok 1)) := by
        rcases v1 with h | h | h | h
        · exact h.2.symm
        · omega
        · omega
        · omega
      subst this
      have := a0.size_inv.1
      have h2 : demoNew.getSize = .ok 0 := rfl
      rw [h2] at this
      cases this

/-- the steps of the batch of the call 3, two workers in turn, until it has returned and released the lock. -/
def c52Batch : Nat → Nat → LState UInt8 Nat → List (LAct UInt8)
  | 0, _, _ => []
  | n + 1, i, s =>
    match s.writer with
    | some (_, .batch _ b) =>
      if b.tasks.all (fun t => t.pc.over) then [.go 3 (.finish false), .go 3 .giveUp]
      else
        match s.step false demoLib (.go 3 (.work (i % 2) {})) with
        | none => c52Batch n (i + 1) s
        | some (s', _) => .go 3 (.work (i % 2) {}) :: c52Batch n (i + 1) s'
    | _ => []

/-- an object is inserted; two clients delete it, and both find it before either of them has the lock; a batch of two objects begins. -/
def c52First : List (LAct UInt8) :=
  [.call (.insert (demoObj 5) noEmbed {} false)] ++ lgo 0 5 ++ [.ret 0, .call (.delete 0 false false), .call (.delete 0 false false)] ++
  lgo 1 2 ++ lgo 2 2 ++ lgo 1 3 ++ [.call (.batch true 2 [demoObj 7, demoObj 9] noEmbed)] ++ lgo 2 3 ++ [.ret 2, .ret 1] ++ lgo 3

def c52Mid : List (LAct UInt8) :=
  match lplay false demoLib 1 { c := demoNew } c52First with
  | some (s, _) => c52Batch 400 0 s
  | none => []

/-- while the batch runs another `Delete` finds one of its objects, and has the lock after it; then everything is read. -/
def c52Calm : List (LAct UInt8) :=
  c52First ++ c52Mid.take 12 ++ [.call (.delete 1 false false)] ++ lgo 4 2 ++ c52Mid.drop 12 ++ lgo 4 2 ++
  [.ret 3, .call (.get [0, 1, 2])] ++ lgo 4 ++ lgo 5 ++ [.ret 5, .ret 4]

/-- the hypotheses of `C52_no_size`, with six calls that overlap and have all returned. -/
example : ∃ (H : List (LEv UInt8 Nat)) (s : LState UInt8 Nat), ReachAnyConc false demoLib 1 demoNew ∧ Exec false demoLib 1 demoNew H s ∧
    (∀ n, LEv.call n .size ∉ H) ∧ H.length = 12 := by
  have hd : (match lplay false demoLib 1 { c := demoNew } c52Calm with
      | some (_, H) => H.all (fun e => match e with | .call _ .size => false | _ => true) && decide (H.length = 12)
      | none => false) = true := by decide +kernel
  split at hd
  · rename_i s H hp
    simp only [Bool.and_eq_true, decide_eq_true_eq] at hd
    refine ⟨H, s, demo_reachAny demoCfg (by constructor <;> decide) _ _, ?_, ?_, hd.2⟩
    · have := lplay_exec _ _ _ [] _ Exec.start hp
      exact this
    · intro n hm
      have := List.all_eq_true.mp hd.1 _ hm
      cases this
  · cases hd

/-- the hypotheses of `C52_size`: the execution of `C52_fails`, where `GetSize` overlaps with `Insert`. -/
example : ∃ (H : List (LEv UInt8 Nat)) (s : LState UInt8 Nat), ReachAnyConc false demoLib 1 demoNew ∧ Exec false demoLib 1 demoNew H s ∧
    Overlap H 1 0 ∧ LEv.ret 1 (.size (.ok 1)) ∈ H := by
  have hrun := c52_run
  cases hp : lplay false demoLib 1 { c := demoNew } c52Acts with
  | none => rw [hp] at hrun; cases hrun
  | some r =>
    obtain ⟨s, H'⟩ := r
    rw [hp] at hrun
    simp only [Option.map_some, Option.some.injEq] at hrun
    subst hrun
    refine ⟨c52H, s, demo_reachAny demoCfg (by constructor <;> decide) _ _, ?_, ?_, by simp [c52H]⟩
    · have := lplay_exec _ _ _ [] _ Exec.start hp
      exact this
    · exact ⟨c52H.take 2, c52H.drop 2, .size, .insert (demoObj 5) noEmbed {} false, rfl, by simp [c52H], by simp [c52H], by simp [c52H],
        by simp [c52H]⟩

/-- `GetSize` after an `Insert`. -/
def c52Apart : List (LAct UInt8) :=
  [.call (.insert (demoObj 5) noEmbed {} false)] ++ lgo 0 5 ++ [.ret 0, .call .size] ++ lgo 1 ++ [.ret 1]

/-- the hypotheses of `C52_size_apart`. -/
example : ∃ (H : List (LEv UInt8 Nat)) (s : LState UInt8 Nat), ReachAnyConc false demoLib 1 demoNew ∧ Exec false demoLib 1 demoNew H s ∧
    (∀ n m op, LEv.call n .size ∈ H → LEv.call m op ∈ H → Overlap H n m → op.weight = 0) ∧ LEv.ret 1 (.size (.ok 1)) ∈ H := by
  have hrun : (lplay false demoLib 1 { c := demoNew } c52Apart).map Prod.snd =
    some [.call 0 (.insert (demoObj 5) noEmbed {} false), .ret 0 (.inserted (demoObj 5) none), .call 1 .size, .ret 1 (.size (.ok 1))] := by rfl
  cases hp : lplay false demoLib 1 { c := demoNew } c52Apart with
  | none => rw [hp] at hrun; cases hrun
  | some r =>
    obtain ⟨s, H'⟩ := r
    rw [hp] at hrun
    simp only [Option.map_some, Option.some.injEq] at hrun
    refine ⟨H', s, demo_reachAny demoCfg (by constructor <;> decide) _ _, ?_, ?_, by rw [hrun]; simp⟩
    · have := lplay_exec _ _ _ [] _ Exec.start hp
      exact this
    · intro n m op h1 h2 ⟨H1, H2, o1, o2, he, h3, h4, h5, h6⟩
      subst hrun
      simp only [List.mem_cons, LEv.call.injEq, reduceCtorEq, List.not_mem_nil, or_false, false_or] at h1 h2
      rcases h2 with ⟨rfl, rfl⟩ | ⟨rfl, rfl⟩
      · obtain ⟨rfl, _⟩ | ⟨rfl, _⟩ := h1
        · rename_i h; cases h
        · exfalso
          match H1, he with
          | [], _ => simp at h3
          | [_], he => simp at he; rw [← he.1] at h3; simp at h3
          | x :: y :: H1, he =>
            simp at he
            exact h6 (.inserted (demoObj 5) none) (by rw [← he.2.1]; simp)
      · rfl

end Vectory.Conc
