import Verif.Lemmas.Linear
/-! What `GetSize`, which takes no lock, can return while another call is writing. -/
namespace Vectory.Conc
open Vectory
variable {V D : Type}

theorem length_set_bounds {K A : Type} [DecidableEq K] (m : AMap K A) (k : K) (b : A) :
    m.length ≤ (m.set k b).length ∧ (m.set k b).length ≤ m.length + 1 := by
  have h := congrArg List.length (AMap.keys_set m k b)
  unfold AMap.keys at h
  split at h <;> simp at h <;> omega

theorem length_set_fresh {K A : Type} [DecidableEq K] (m : AMap K A) (k : K) (b : A) (hf : k ∉ m.keys) :
    (m.set k b).length = m.length + 1 := by
  have h := congrArg List.length (AMap.keys_set m k b)
  rw [if_neg hf] at h
  unfold AMap.keys at h
  simpa using h

theorem filter_ne_bounds {K : Type} [DecidableEq K] (k : K) : ∀ l : List K, l.Nodup →
    (l.filter (fun x => decide (x ≠ k))).length ≤ l.length ∧ l.length ≤ (l.filter (fun x => decide (x ≠ k))).length + 1 := by
  intro l
  induction l with
  | nil => intro _; simp
  | cons x l ih =>
    intro hn
    rw [List.nodup_cons] at hn
    have := ih hn.2
    by_cases hx : x = k
    · subst hx
      have he : (x :: l).filter (fun y => decide (y ≠ x)) = l := by
        rw [List.filter_cons_of_neg (by simp)]
        refine List.filter_eq_self.mpr fun y hy => ?_
        simp only [ne_eq, decide_eq_true_eq]
        rintro rfl
        exact hn.1 hy
      rw [he]
      simp
    · rw [List.filter_cons_of_pos (by simpa using hx)]
      simp only [List.length_cons]
      omega

theorem length_erase_bounds {K A : Type} [DecidableEq K] (m : AMap K A) (k : K) (hn : m.keys.Nodup) :
    (m.erase k).length ≤ m.length ∧ m.length ≤ (m.erase k).length + 1 := by
  have h := congrArg List.length (AMap.keys_erase m k)
  have hb := filter_ne_bounds k m.keys hn
  unfold AMap.keys at h hb
  simp only [List.length_map] at h hb
  omega

theorem nodup_pigeon (n : Nat) : ∀ l : List Nat, l.Nodup → (∀ x ∈ l, x < n) → l.length ≤ n := by
  intro l hn hl
  have := nodup_length_le (l₂ := List.range n) hn (fun x hx => List.mem_range.mpr (hl x hx))
  simpa using this

section
variable {fixed : Bool} {L : Lib V D} {dim : Nat}

/-- during a batch of `os`, at most `os.length` objects more. -/
theorem BatchAt.size {two : Bool} {workers : Nat} {a : Coll} {os : List (Object V)} {embed : Embed V} {acts : List BAct} {b : Batch V D}
    (i : WInv False L dim (fun _ => True) a) (h : BatchAt fixed two L dim workers a os embed acts b) :
    a.stores.size ≤ b.c.stores.size ∧ b.c.stores.size ≤ a.stores.size + os.length := by
  obtain ⟨objs, _, _, he, _, ok, ⟨F, A, B, X0, X1, X2, js, hj, s⟩, _⟩ := h.state i
  have hlen : objs.length = os.length := embed_length he
  have key : ∀ b : Batch V D, BInv fixed L dim a objs workers b F A B X0 X1 X2 js →
      a.stores.size ≤ b.c.stores.size ∧ b.c.stores.size ≤ a.stores.size + os.length := by
    intro b v
    have hA := v.nodups.2.1
    have hb := nodup_pigeon objs.length _ hA (by
      intro x hx
      obtain ⟨p, hp, rfl⟩ := List.mem_map.mp hx
      obtain ⟨o, text, h1, _⟩ := v.dat.ser p hp
      exact (List.getElem?_eq_some_iff.mp h1).1)
    have := congrArg List.length v.dat.objects
    unfold Stores.size
    simp only [List.length_append, List.length_map] at this hb
    omega
  rcases s with ⟨v, _⟩ | ⟨c1, ff, v, _, _, hc, _⟩
  · exact key b v
  · have := key _ v
    rw [hc]
    exact this

theorem Held.size {a : Coll} {S : List (Nat × LOp V × LOut V D)} {d : Option Nat} {n : Nat} {op : LOp V} {c : Coll} {body : Body V D}
    (i : WInv False L dim (fun _ => True) a) (h : Held fixed L dim a S d n op c body) :
    a.stores.size ≤ c.stores.size ∧ c.stores.size ≤ a.stores.size + op.weight := by
  cases body with
  | fetch o1 env ff =>
    obtain ⟨_, rfl, o, embed, rfl, hp, _⟩ := h
    exact ⟨Nat.le_refl _, Nat.le_add_right _ _⟩
  | putObj o2 env ff =>
    obtain ⟨_, o, embed, o1, ctr, id, rfl, hp, _, _, _, rfl⟩ := h
    exact ⟨Nat.le_refl _, Nat.le_add_right _ _⟩
  | putVec o2 env ff =>
    obtain ⟨_, o, embed, o1, ctr, id, bytes, rfl, hp, _, _, _, hs, _, rfl⟩ := h
    exact length_set_bounds _ _ _
  | index o2 env ff =>
    obtain ⟨_, o, embed, o1, ctr, id, bytes, rfl, hp, hl, _, _, hs, _, _, rfl⟩ := h
    exact length_set_bounds _ _ _
  | batch workers b =>
    obtain ⟨_, rfl, two, os, embed, acts, rfl, hb, _⟩ := h
    exact hb.size i
  | erase id ff =>
    obtain ⟨_, rfl, ho, j, rfl, _⟩ := h
    exact length_erase_bounds _ _ j.ond
  | mark id ff =>
    obtain ⟨_, rfl, ho, p, j, rfl, rfl, _⟩ := h
    exact ⟨Nat.le_refl _, Nat.le_add_right _ _⟩

theorem LinInv.size {Z : Nat → Coll → Except Err Nat → Prop} {c0 : Coll} {H : List (LEv V D)} {s : LState V D}
    {S : List (Nat × LOp V × LOut V D)} {a : Coll} {d : Option Nat} (v : LinInv fixed Z L dim c0 H s S a d) {n : Nat}
    (hn : s.calls[n]? = some (.invoked .size)) : sizeOverlap H n a s.c.getSize := by
  cases hwr : s.writer with
  | none => exact Or.inl (by rw [(v.idle hwr).1])
  | some p =>
    obtain ⟨m, body⟩ := p
    obtain ⟨op, h1, h2⟩ := v.held m body hwr
    obtain ⟨vw, ho⟩ := h2.view v.inv
    obtain ⟨h3, h4⟩ := h2.size v.inv
    have hm : LEv.call m op ∈ H := (v.book.began m op).mpr ⟨_, h1, rfl⟩
    have hb : LEv.call n .size ∈ H := (v.book.began n .size).mpr ⟨_, hn, rfl⟩
    right
    refine ⟨m, op, hm, ⟨H, [], _, _, by simp, hb, hm, ?_, ?_⟩, Or.inr ⟨a.stores.size, s.c.stores.size, ?_, ?_, h3, h4⟩⟩
    · intro out h
      obtain ⟨x, hx, hk, _⟩ := (v.book.ended n out).mp h
      rw [hn] at hx; cases hx
      exact hk
    · intro out h
      obtain ⟨x, hx, hk, _⟩ := (v.book.ended m out).mp h
      rw [h1] at hx; cases hx
      exact hk
    · unfold Coll.getSize; rw [ho]; rfl
    · unfold Coll.getSize; rw [vw.closed, ho]; rfl

theorem sizeOverlap.more {H : List (LEv V D)} {n : Nat} {c : Coll} {r : Except Err Nat} (h : sizeOverlap H n c r) (evs : List (LEv V D)) :
    sizeOverlap (H ++ evs) n c r := by
  rcases h with h | ⟨m, op, h1, ⟨H1, H2, o1, o2, rfl, h2⟩, h3⟩
  · exact Or.inl h
  · exact Or.inr ⟨m, op, List.mem_append_left _ h1, ⟨H1, H2 ++ evs, o1, o2, by rw [List.append_assoc], h2⟩, h3⟩

theorem Alone.weaken {Z Z' : Coll → Except Err Nat → Prop} (hz : ∀ c r, Z c r → Z' c r) {c c' : Coll} {op : LOp V} {out : LOut V D}
    (h : Alone fixed Z L dim c op out c') : Alone fixed Z' L dim c op out c' := by
  cases h with
  | insert h => exact .insert h
  | refused h => exact .refused h
  | batch h1 h2 h3 h4 => exact .batch h1 h2 h3 h4
  | delete h => exact .delete h
  | again h1 h2 => exact .again h1 h2
  | get => exact .get
  | search => exact .search
  | size h => exact .size (hz _ _ h)

theorem OneByOne.weaken {Z Z' : Nat → Coll → Except Err Nat → Prop} (hz : ∀ n c r, Z n c r → Z' n c r) {c c' : Coll}
    {S : List (Nat × LOp V × LOut V D)} (h : OneByOne fixed Z L dim c S c') : OneByOne fixed Z' L dim c S c' := by
  induction h with
  | nil => exact .nil _
  | snoc _ h2 ih => exact .snoc ih (h2.weaken (hz _))

theorem LinInv.weaken {Z Z' : Nat → Coll → Except Err Nat → Prop} (hz : ∀ n c r, Z n c r → Z' n c r) {c0 : Coll} {H : List (LEv V D)}
    {s : LState V D} {S : List (Nat × LOp V × LOut V D)} {a : Coll} {d : Option Nat} (v : LinInv fixed Z L dim c0 H s S a d) :
    LinInv fixed Z' L dim c0 H s S a d :=
  ⟨v.seq.weaken hz, v.inv, v.book, v.idle, v.held, v.thr⟩

theorem exec_lin_size {c : Coll} {H : List (LEv V D)} {s : LState V D} (i : WInv False L dim (fun _ => True) c)
    (h : Exec fixed L dim c H s) : ∃ S a d, LinInv fixed (sizeOverlap H) L dim c H s S a d := by
  induction h with
  | start => exact ⟨[], c, none, .start i⟩
  | @step H evs s s' act _ hl hs ih =>
    obtain ⟨S, a, d, v⟩ := ih
    have v := v.weaken (Z' := sizeOverlap (H ++ evs)) (fun n c r h => h.more _)
    exact v.step hl hs (fun n hn => (v.size hn).more _)

end
end Vectory.Conc
