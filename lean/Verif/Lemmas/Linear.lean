import Verif.Lemmas.LinHeld
/-! Every execution without `GetSize` has a linearization; with it too, with what `GetSize` may return weakened to `Z`. -/
namespace Vectory.Conc
open Vectory
variable {V D : Type}

/-- the object `id` has been stored: it is there, or is being deleted, or is marked as deleted. -/
def Seen (c : Coll) (w : Option (Nat × Body V D)) (id : UInt64) : Prop :=
  keyOf id ∈ c.stores.objects.keys ∨ id ∈ c.index.deleted ∨ ∃ n ff, w = some (n, Body.mark id ff)

/-- what is known about a `Delete` between its reads and the lock. -/
def CallOK (L : Lib V D) (c : Coll) (w : Option (Nat × Body V D)) : Call V D → Prop
  | .sawObj id _ _ bytes => (∃ p, deserializeProperties L.json bytes = .ok p) ∧ c.closed = false ∧ Seen c w id
  | .waiting id _ _ => c.closed = false ∧ keyOf id ∈ c.stores.vectors.keys ∧ Seen c w id
  | _ => True

def CallsOK (L : Lib V D) (c : Coll) (w : Option (Nat × Body V D)) (calls : List (Call V D)) : Prop :=
  ∀ (n : Nat) (x : Call V D), calls[n]? = some x → CallOK L c w x

/-- the collection went from `c` to `c'`, and the writer from `w` to `w'`. -/
structure Fwd (c : Coll) (w : Option (Nat × Body V D)) (c' : Coll) (w' : Option (Nat × Body V D)) : Prop where
  closed : c'.closed = c.closed
  vecs : ∀ k, k ∈ c.stores.vectors.keys → k ∈ c'.stores.vectors.keys
  seen : ∀ id, Seen c w id → Seen c' w' id

theorem CallsOK.fwd {L : Lib V D} {c c' : Coll} {w w' : Option (Nat × Body V D)} {calls : List (Call V D)} (h : CallsOK L c w calls)
    (f : Fwd c w c' w') : CallsOK L c' w' calls := by
  intro n x hx
  have := h n x hx
  cases x with
  | sawObj id df ff bytes => exact ⟨this.1, f.closed.trans this.2.1, f.seen id this.2.2⟩
  | waiting id df ff => exact ⟨f.closed.trans this.1, f.vecs _ this.2.1, f.seen id this.2.2⟩
  | invoked op => trivial
  | running op => trivial
  | finished op out => trivial
  | returned op out => trivial

theorem CallsOK.set {L : Lib V D} {c : Coll} {w : Option (Nat × Body V D)} {calls : List (Call V D)} (h : CallsOK L c w calls) {n : Nat}
    {x x' : Call V D} (hn : calls[n]? = some x) (hx : CallOK L c w x') : CallsOK L c w (calls.set n x') := by
  intro m y hy
  rcases (set_get' hn).mp hy with ⟨rfl, rfl⟩ | ⟨_, h2⟩
  · exact hx
  · exact h m y h2

/-- keys grow, the marks stay. -/
theorem Fwd.grow {c c' : Coll} {w w' : Option (Nat × Body V D)} (h1 : c'.closed = c.closed)
    (h2 : ∀ k, k ∈ c.stores.vectors.keys → k ∈ c'.stores.vectors.keys) (h3 : ∀ k, k ∈ c.stores.objects.keys → k ∈ c'.stores.objects.keys)
    (h4 : ∀ x, x ∈ c.index.deleted → x ∈ c'.index.deleted) (h5 : ∀ n id ff, w ≠ some (n, .mark id ff)) : Fwd c w c' w' := by
  refine ⟨h1, h2, ?_⟩
  rintro id (h | h | ⟨n, ff, h⟩)
  · exact Or.inl (h3 _ h)
  · exact Or.inr (Or.inl (h4 _ h))
  · exact absurd h (h5 _ _ _)

structure LinInv (fixed : Bool) (Z : Nat → Coll → Except Err Nat → Prop) (L : Lib V D) (dim : Nat) (c0 : Coll) (H : List (LEv V D)) (s : LState V D)
    (S : List (Nat × LOp V × LOut V D)) (a : Coll) (d : Option Nat) : Prop where
  seq : OneByOne fixed Z L dim c0 S a
  inv : WInv False L dim (fun _ => True) a
  book : Book H s.calls S d
  idle : s.writer = none → a = s.c ∧ d = none
  held : ∀ n body, s.writer = some (n, body) → ∃ op, s.calls[n]? = some (.running op) ∧ Held fixed L dim a S d n op s.c body
  thr : CallsOK L s.c s.writer s.calls

section
variable {fixed : Bool} {Z : Nat → Coll → Except Err Nat → Prop} {L : Lib V D} {dim : Nat} {c0 : Coll} {H : List (LEv V D)} {s : LState V D}
  {S : List (Nat × LOp V × LOut V D)} {a : Coll} {d : Option Nat}

theorem Held.mono {n : Nat} {op : LOp V} {c : Coll} {body : Body V D} (h : Held fixed L dim a S d n op c body)
    {S' : List (Nat × LOp V × LOut V D)} (hs : ∀ p ∈ S, p ∈ S') : Held fixed L dim a S' d n op c body := by
  cases body with
  | fetch => exact h
  | putObj => exact h
  | putVec => exact h
  | index => exact h
  | batch => exact h
  | erase id ff => obtain ⟨h1, h2, h3, h4, h5, h6⟩ := h; exact ⟨h1, h2, h3, h4, h5, hs _ h6⟩
  | mark id ff => obtain ⟨h1, h2, h3, p, h4, h5, h6, h7⟩ := h; exact ⟨h1, h2, h3, p, h4, h5, h6, hs _ h7⟩

theorem Held.dEq {n : Nat} {op : LOp V} {c : Coll} {body : Body V D} (h : Held fixed L dim a S d n op c body) : d = none ∨ d = some n := by
  cases body with
  | fetch => exact Or.inl h.1
  | putObj => exact Or.inl h.1
  | putVec => exact Or.inl h.1
  | index => exact Or.inl h.1
  | batch => exact Or.inl h.1
  | erase => exact Or.inr h.1
  | mark => exact Or.inr h.1

theorem LinInv.dNe (v : LinInv fixed Z L dim c0 H s S a d) {n : Nat} {x : Call V D} (hx : s.calls[n]? = some x)
    (hr : ∀ op, x ≠ .running op) : d ≠ some n := by
  intro hd
  cases hw : s.writer with
  | none => rw [(v.idle hw).2] at hd; cases hd
  | some p =>
    obtain ⟨m, body⟩ := p
    obtain ⟨op, h1, h2⟩ := v.held m body hw
    rcases Held.dEq h2 with h | h
    · rw [h] at hd; cases hd
    · rw [h] at hd; cases hd
      rw [hx] at h1; cases h1
      exact hr op rfl

theorem LinInv.view (v : LinInv fixed Z L dim c0 H s S a d) : View L a s.c := by
  cases hw : s.writer with
  | none => rw [← (v.idle hw).1]; exact View.refl v.inv
  | some p =>
    obtain ⟨m, body⟩ := p
    obtain ⟨op, h1, h2⟩ := v.held m body hw
    exact (h2.view v.inv).1

theorem held_set {n : Nat} {calls : List (Call V D)} {x x' : Call V D} (hx : calls[n]? = some x) (hr : ∀ op, x ≠ .running op) {m : Nat}
    {op : LOp V} (h : calls[m]? = some (.running op)) : (calls.set n x')[m]? = some (.running op) := by
  refine (set_get' hx).mpr (Or.inr ⟨?_, h⟩)
  rintro rfl
  rw [hx] at h; cases h
  exact hr op rfl

/-- a call that holds no lock moves on without a result. -/
theorem LinInv.move (v : LinInv fixed Z L dim c0 H s S a d) {n : Nat} {x x' : Call V D} (hx : s.calls[n]? = some x) (hop : x'.op = x.op)
    (ho : x.out? = none) (ho' : x'.out? = none) (hb : ¬ x.back) (hb' : ¬ x'.back) (hr : ∀ op, x ≠ .running op)
    (hok : CallOK L s.c s.writer x') : LinInv fixed Z L dim c0 H (s.put n x') S a d := by
  refine ⟨v.seq, v.inv, v.book.quiet hx hop ho ho' hb hb', v.idle, ?_, v.thr.set hx hok⟩
  intro m body hw
  obtain ⟨op, h1, h2⟩ := v.held m body hw
  exact ⟨op, held_set hx hr h1, h2⟩

/-- a call that holds no lock gets its result, and has its place now. -/
theorem LinInv.done (v : LinInv fixed Z L dim c0 H s S a d) {n : Nat} {x : Call V D} {op : LOp V} {out : LOut V D}
    (hx : s.calls[n]? = some x) (hop : x.op = op) (ho : x.out? = none) (hb : ¬ x.back) (hr : ∀ op, x ≠ .running op)
    (al : Alone fixed (Z n) L dim a op out a) :
    LinInv fixed Z L dim c0 H (s.put n (.finished op out)) (S ++ [(n, op, out)]) a d := by
  subst hop
  refine ⟨.snoc v.seq al, v.inv, v.book.lin hx rfl ho (v.dNe hx hr) hb (fun h => h) (Or.inl ⟨rfl, rfl⟩), v.idle, ?_, v.thr.set hx trivial⟩
  intro m body hw
  obtain ⟨op, h1, h2⟩ := v.held m body hw
  exact ⟨op, held_set hx hr h1, h2.mono (fun p hp => List.mem_append_left _ hp)⟩

/-- a call takes the lock; it will have its place later. -/
theorem LinInv.lock (v : LinInv fixed Z L dim c0 H s S a d) (hw : s.writer = none) {n : Nat} {x : Call V D} {op : LOp V} {body : Body V D}
    (hx : s.calls[n]? = some x) (hop : x.op = op) (ho : x.out? = none) (hb : ¬ x.back)
    (hh : Held fixed L dim a S none n op s.c body) :
    LinInv fixed Z L dim c0 H ((s.put n (.running op)).next n s.c body) S a none := by
  subst hop
  obtain ⟨rfl, rfl⟩ := v.idle hw
  refine ⟨v.seq, v.inv, v.book.quiet hx rfl ho rfl hb (fun h => h), (fun h => nomatch h), ?_, ?_⟩
  · intro m b' h
    cases h
    exact ⟨_, (set_get' hx).mpr (Or.inl ⟨rfl, rfl⟩), hh⟩
  · refine (v.thr.set hx (x' := .running x.op) trivial).fwd (Fwd.grow rfl (fun _ h => h) (fun _ h => h) (fun _ h => h) ?_)
    intro m id ff h
    rw [hw] at h; cases h

/-- the writer goes on. -/
theorem LinInv.next (v : LinInv fixed Z L dim c0 H s S a d) {n : Nat} {op : LOp V} {body' : Body V D} {c' : Coll}
    (hx : s.calls[n]? = some (.running op)) (hh : Held fixed L dim a S d n op c' body')
    (f : Fwd s.c s.writer c' (some (n, body'))) : LinInv fixed Z L dim c0 H (s.next n c' body') S a d := by
  refine ⟨v.seq, v.inv, v.book, (fun h => nomatch h), ?_, v.thr.fwd f⟩
  intro m b' h
  cases h
  exact ⟨op, hx, hh⟩

/-- the writer ends, and has its place now. -/
theorem LinInv.finish (v : LinInv fixed Z L dim c0 H s S a none) {n : Nat} {op : LOp V} {out : LOut V D} {c' : Coll}
    (hx : s.calls[n]? = some (.running op)) (al : Alone fixed (Z n) L dim a op out c') (i' : WInv False L dim (fun _ => True) c')
    (f : Fwd s.c s.writer c' none) : LinInv fixed Z L dim c0 H (s.finish n op c' out) (S ++ [(n, op, out)]) c' none := by
  refine ⟨.snoc v.seq al, i', v.book.lin hx rfl rfl (by simp) (fun h => h) (fun h => h) (Or.inl ⟨rfl, rfl⟩), fun _ => ⟨rfl, rfl⟩,
    (fun _ _ h => nomatch h), (v.thr.set hx (x' := .finished op out) trivial).fwd f⟩

/-- the writer, which had its place, ends. -/
theorem LinInv.unlock (v : LinInv fixed Z L dim c0 H s S a d) {n : Nat} {op : LOp V} {out : LOut V D} (hd : d = some n)
    (hx : s.calls[n]? = some (.running op)) (hm : (n, op, out) ∈ S) (f : Fwd s.c s.writer a none) :
    LinInv fixed Z L dim c0 H (s.finish n op a out) S a none := by
  exact ⟨v.seq, v.inv, v.book.unlock hx rfl (fun h => h) (fun h => h) rfl hm hd, fun _ => ⟨rfl, rfl⟩,
    (fun _ _ h => nomatch h), (v.thr.set hx (x' := .finished op out) trivial).fwd f⟩

/-! ### Calls that hold no lock -/

theorem absent_alone (v : LinInv fixed Z L dim c0 H s S a d) {id : UInt64} (df ff : Bool)
    (h : s.c.stores.objects.get? (keyOf id) = none ∨ (s.c.stores.vectors.get? (keyOf id) = none ∧ s.c.closed = false)) :
    Alone fixed (Z n) L dim a (.delete id df ff) (.deleted none : LOut V D) a := by
  apply Alone.delete
  have w := v.view
  obtain ⟨r, hr, hs, _⟩ := getObject_eq v.inv id
  have hn : (a.closed && a.stores.objects.has (keyOf id)) = false := by
    rcases h with h | h
    · have : keyOf id ∉ a.stores.objects.keys := fun hk => (AMap.get?_none_iff _ _).mp h (w.objs _ hk)
      cases hh : a.stores.objects.has (keyOf id) with
      | false => cases a.closed <;> rfl
      | true => exact absurd ((AMap.has_iff _ _).mp hh) this
    · rw [← w.closed, h.2]; rfl
  have hrn : r = none := by
    cases r with
    | none => rfl
    | some o =>
      exfalso
      obtain ⟨h1, h2⟩ := hs.mp rfl
      rcases h with h | h
      · exact (AMap.get?_none_iff _ _).mp h (w.objs _ h1)
      · exact (AMap.get?_none_iff _ _).mp h.1 (w.vecs _ h2)
  unfold Coll.delete
  rw [hn, hr, hrn]
  rfl

theorem closed_idle (v : LinInv fixed Z L dim c0 H s S a d) (h : s.c.closed = true) : s.writer = none := by
  cases hw : s.writer with
  | none => rfl
  | some p =>
    obtain ⟨m, body⟩ := p
    obtain ⟨op, h1, h2⟩ := v.held m body hw
    have h3 := h2.view v.inv
    rw [h3.1.closed, h3.2] at h; cases h

theorem writer_none {s : LState V D} (h : ¬ s.writer.isSome = true) : s.writer = none := by
  cases hw : s.writer with
  | none => rfl
  | some p => rw [hw] at h; exact absurd rfl h

theorem insert_refused {c : Coll} {o : Object V} {embed : Embed V} {env : InsEnv} {ff : Bool} {e : Err}
    (h : prepare c [o] embed = .ok (.error e)) : c.insert L o embed env ff = .ok (c, o, some e) := by
  unfold prepare at h
  unfold Coll.insert
  split
  · rename_i hc
    rw [if_pos hc] at h; cases h; rfl
  · rename_i hc
    rw [if_neg hc] at h
    split at h
    · rename_i e' he
      cases h; rw [he]
    · rename_i he
      rw [he]; dsimp only; rw [h]; rfl

theorem LinInv.begin (v : LinInv fixed Z L dim c0 H s S a d) {n : Nat} {x : Call V D} {act : BAct} {s' : LState V D}
    (hx : s.calls[n]? = some x) (hl : (LAct.go n act : LAct V).Legal fixed L dim s) (hz : x = .invoked .size → Z n a s.c.getSize)
    (h : s.begin L n x = some s') : ∃ S' a' d', LinInv fixed Z L dim c0 H s' S' a' d' := by
  have w := v.view
  cases x with
  | running op => cases h
  | finished op out => cases h
  | returned op out => cases h
  | sawObj id df ff bytes =>
    have ok : CallOK L s.c s.writer (.sawObj id df ff bytes) := v.thr n _ hx
    obtain ⟨⟨p, hp⟩, hc, hseen⟩ := ok
    simp only [LState.begin] at h
    cases hv : s.c.stores.vectors.get? (keyOf id) with
    | none =>
      rw [hv] at h; cases h
      exact ⟨_, _, _, v.done hx rfl rfl (fun h => h) (fun _ => nofun) (absent_alone v df ff (Or.inr ⟨hv, hc⟩))⟩
    | some vb =>
      obtain ⟨vec, hvec⟩ := w.vdec id vb hv
      rw [hv] at h
      dsimp only at h
      rw [hp, hvec] at h
      cases h
      exact ⟨_, _, _, v.move hx rfl rfl rfl (fun h => h) (fun h => h) (fun _ => nofun)
        ⟨hc, (AMap.get?_isSome_iff _ _).mp (by rw [hv]; rfl), hseen⟩⟩
  | waiting id df ff =>
    have ok : CallOK L s.c s.writer (.waiting id df ff) := v.thr n _ hx
    obtain ⟨hc, hvk, hseen⟩ := ok
    simp only [LState.begin] at h
    split at h
    · cases h
    rename_i hw
    have hw := writer_none hw
    obtain ⟨ha, hdn⟩ := v.idle hw
    have hs2 : keyOf id ∈ a.stores.objects.keys ∨ id ∈ a.index.deleted := by
      rw [ha]
      rcases hseen with h | h | ⟨m, f, h⟩
      · exact Or.inl h
      · exact Or.inr h
      · rw [hw] at h; cases h
    have al : Alone fixed (Z n) L dim a (.delete id df ff) (.deleted (Coll.blindDelete a id df ff).2 : LOut V D) (Coll.blindDelete a id df ff).1 :=
      blind_alone v.inv df ff (by rw [ha]; exact hc) (by rw [ha]; exact hvk) hs2
    cases df with
    | true =>
      cases h
      exact ⟨_, _, _, v.done hx rfl rfl (fun h => h) (fun _ => nofun) al⟩
    | false =>
      cases h
      refine ⟨S ++ [(n, .delete id false ff, .deleted (Coll.blindDelete a id false ff).2)], (Coll.blindDelete a id false ff).1, some n, ?_⟩
      have i' := blind_inv v.inv false ff hs2
      subst ha
      refine ⟨.snoc v.seq al, i', v.book.lin hx rfl rfl (v.dNe hx (fun _ => nofun)) (fun h => h) (fun h => h) (Or.inr ⟨rfl, hdn, rfl⟩),
        (fun h => nomatch h), ?_, ?_⟩
      · intro m b' h
        cases h
        exact ⟨_, (set_get' hx).mpr (Or.inl ⟨rfl, rfl⟩), rfl, rfl, hc, v.inv, rfl, List.mem_append_right _ (List.mem_singleton.mpr rfl)⟩
      · refine (v.thr.set hx (x' := .running (.delete id false ff)) trivial).fwd (Fwd.grow rfl (fun _ h => h) (fun _ h => h) (fun _ h => h) ?_)
        intro m id ff h
        rw [hw] at h; cases h
  | invoked op =>
    cases op with
    | size =>
      have hz := hz rfl
      cases h
      exact ⟨_, _, _, v.done hx rfl rfl (fun h => h) (fun _ => nofun) (.size hz)⟩
    | get ids =>
      simp only [LState.begin] at h
      split at h
      · cases h
      rename_i hw
      have hw := writer_none hw
      obtain ⟨ha, hdn⟩ := v.idle hw
      cases h
      exact ⟨_, _, _, v.done hx rfl rfl (fun h => h) (fun _ => nofun) (by rw [← ha]; exact Alone.get)⟩
    | search o embed k =>
      simp only [LState.begin] at h
      split at h
      · cases h
      rename_i hw
      have hw := writer_none hw
      obtain ⟨ha, hdn⟩ := v.idle hw
      cases h
      exact ⟨_, _, _, v.done hx rfl rfl (fun h => h) (fun _ => nofun) (by rw [← ha]; exact Alone.search)⟩
    | delete id df ff =>
      simp only [LState.begin] at h
      cases ho : s.c.stores.objects.get? (keyOf id) with
      | none =>
        rw [ho] at h; cases h
        exact ⟨_, _, _, v.done hx rfl rfl (fun h => h) (fun _ => nofun) (absent_alone v df ff (Or.inl ho))⟩
      | some bytes =>
        rw [ho] at h
        dsimp only at h
        have hk : keyOf id ∈ s.c.stores.objects.keys := (AMap.get?_isSome_iff _ _).mp (by rw [ho]; rfl)
        split at h
        · rename_i hc
          cases h
          obtain ⟨ha, _⟩ := v.idle (closed_idle v hc)
          refine ⟨_, _, _, v.done hx rfl rfl (fun h => h) (fun _ => nofun) ?_⟩
          apply Alone.delete
          unfold Coll.delete
          have : (a.closed && a.stores.objects.has (keyOf id)) = true := by
            rw [ha, hc, (AMap.has_iff _ _).mpr hk]; rfl
          rw [this]; rfl
        · rename_i hc
          cases h
          exact ⟨_, _, _, v.move hx rfl rfl rfl (fun h => h) (fun h => h) (fun _ => nofun)
            ⟨w.dec id bytes ho, by simpa using hc, Or.inl hk⟩⟩
    | insert o embed env ff =>
      simp only [LState.begin] at h
      split at h
      · cases h
      rename_i hw
      have hw := writer_none hw
      obtain ⟨ha, hdn⟩ := v.idle hw
      have hleg := hl.1 o embed env ff hx
      split at h
      · rename_i e hp
        cases h
        refine ⟨_, _, _, v.done hx rfl rfl (fun h => h) (fun _ => nofun) (Alone.insert ?_)⟩
        rw [← ha] at hp
        exact insert_refused hp
      · rename_i o1 hp
        cases h
        refine ⟨_, _, _, v.lock hw hx rfl rfl (fun h => h) ⟨rfl, ha.symm, o, embed, rfl, ?_, ?_⟩⟩
        · rw [ha]; exact hp
        · rw [ha]; exact hleg
      · cases h
    | batch two workers os embed =>
      simp only [LState.begin] at h
      split at h
      · cases h
      rename_i hw
      have hw := writer_none hw
      obtain ⟨ha, hdn⟩ := v.idle hw
      have hleg := hl.2.1 two workers os embed hx
      split at h
      · rename_i e hp
        cases h
        refine ⟨_, _, _, v.done hx rfl rfl (fun h => h) (fun _ => nofun) (Alone.refused ?_)⟩
        rw [ha]; exact hp
      · rename_i objs hp
        split at h
        · rename_i b hb
          cases h
          have hbc : b.c = s.c := by
            cases two with
            | true => simp only [if_true, Option.some.injEq] at hb; rw [← hb]; rfl
            | false =>
              simp only [Bool.false_eq_true, if_false] at hb
              unfold startBatch at hb
              split at hb
              · cases hb
              · cases hb; rfl
          refine ⟨_, _, _, v.lock hw hx rfl rfl (fun h => h) ⟨rfl, hbc.symm, two, os, embed, [], rfl, ?_, NoRace.nil⟩⟩
          rw [ha]
          exact ⟨hleg.1, hleg.2.1, hleg.2.2, nofun, objs, b, hp, hb, rfl⟩
        · cases h
      · cases h

/-! ### The writer -/

/-- an accepted `Insert`. -/
theorem insert_body {c : Coll} {o o1 : Object V} {embed : Embed V} {env : InsEnv} {ff : Bool}
    (h : prepare c [o] embed = .ok (.ok [o1])) : c.insert L o embed env ff =
      (c.insertOne L o1 env).bind (fun r => match r with
        | (c, o, some e) => .ok (c, o, some e)
        | (c, o, none) => .ok ((c.flush ff).1, o, (c.flush ff).2)) := by
  obtain ⟨h1, h2, h3⟩ := prepare_open h
  unfold Coll.insert
  rw [if_neg (by rw [h1]; simp), h2]
  dsimp only
  rw [h3]
  show (c.insertOne L o1 env >>= _) = _
  cases c.insertOne L o1 env with
  | error p => rfl
  | ok r =>
    obtain ⟨c1, o2, e⟩ := r
    cases e <;> rfl

theorem LinInv.write (v : LinInv fixed Z L dim c0 H s S a d) {n : Nat} {op : LOp V} {act : BAct} {body : Body V D} {s' : LState V D}
    (hw : s.writer = some (n, body)) (hl : (LAct.go n act : LAct V).Legal fixed L dim s)
    (h : s.write fixed L n op act body = some s') (hx : s.calls[n]? = some (.running op)) :
    ∃ S' a' d', LinInv fixed Z L dim c0 H s' S' a' d' := by
  obtain ⟨op', hx', hh⟩ := v.held n body hw
  rw [hx] at hx'; cases hx'
  have hb := hh.view v.inv
  cases body with
  | fetch o1 env ff =>
    obtain ⟨rfl, hc, o, embed, rfl, hp, hleg⟩ := hh
    have nomark : ∀ m id ff, s.writer ≠ some (m, .mark id ff) := by intro m id ff e; rw [hw] at e; cases e
    have ins := insert_body (L := L) (env := env) (ff := ff) hp
    simp only [LState.write] at h
    rw [hc] at h
    split at h
    · rename_i ctr e hf
      cases h
      have : a.insert L o embed env ff = .ok ({ a with counter := ctr }, o1, some e) := by
        rw [ins]; unfold Coll.insertOne; rw [hf]; rfl
      exact ⟨_, _, _, v.finish hx (.insert this) (insert_inv v.inv hleg this (fun _ => False)).1
        (by rw [hc]; exact Fwd.grow rfl (fun _ h => h) (fun _ h => h) (fun _ h => h) nomark)⟩
    · rename_i ctr id hf
      cases h
      exact ⟨_, _, _, v.next hx ⟨rfl, o, embed, o1, ctr, id, rfl, hp, hleg, hf, rfl, rfl⟩
        (by rw [hc]; exact Fwd.grow rfl (fun _ h => h) (fun _ h => h) (fun _ h => h) nomark)⟩
  | putObj o2 env ff =>
    obtain ⟨rfl, o, embed, o1, ctr, id, rfl, hp, hleg, hf, rfl, hc⟩ := hh
    have nomark : ∀ m id ff, s.writer ≠ some (m, .mark id ff) := by intro m id ff e; rw [hw] at e; cases e
    have ins := insert_body (L := L) (env := env) (ff := ff) hp
    simp only [LState.write] at h
    split at h
    · rename_i e hs
      cases h
      have : a.insert L o embed env ff = .ok (s.c, { o1 with id := id }, some e) := by
        rw [ins]; unfold Coll.insertOne putObject; rw [hf]; dsimp only; rw [hs, hc]; rfl
      exact ⟨_, _, _, v.finish hx (.insert this) (insert_inv v.inv hleg this (fun _ => False)).1
        (Fwd.grow rfl (fun _ h => h) (fun _ h => h) (fun _ h => h) nomark)⟩
    · rename_i bytes hs
      split at h
      · rename_i hpo
        cases h
        have : a.insert L o embed env ff = .ok (s.c, { o1 with id := id }, some .io) := by
          rw [ins]; unfold Coll.insertOne putObject; rw [hf]; dsimp only; rw [hs, hc]; dsimp only; rw [if_pos hpo]; rfl
        exact ⟨_, _, _, v.finish hx (.insert this) (insert_inv v.inv hleg this (fun _ => False)).1
          (Fwd.grow rfl (fun _ h => h) (fun _ h => h) (fun _ h => h) nomark)⟩
      · rename_i hpo
        cases h
        exact ⟨_, _, _, v.next hx ⟨rfl, o, embed, o1, ctr, id, bytes, rfl, hp, hleg, hf, rfl, hs, hpo, by rw [hc]⟩
          (Fwd.grow rfl (fun _ h => h) (fun _ h => mem_set_keys _ _ _ _ h) (fun _ h => h) nomark)⟩
  | putVec o2 env ff =>
    obtain ⟨rfl, o, embed, o1, ctr, id, bytes, rfl, hp, hleg, hf, rfl, hs, hpo, hc⟩ := hh
    have nomark : ∀ m id ff, s.writer ≠ some (m, .mark id ff) := by intro m id ff e; rw [hw] at e; cases e
    have ins := insert_body (L := L) (env := env) (ff := ff) hp
    simp only [LState.write] at h
    split at h
    · rename_i hpv
      cases h
      have : a.insert L o embed env ff = .ok (s.c, { o1 with id := id }, some .io) := by
        rw [ins]; unfold Coll.insertOne putObject; rw [hf]; dsimp only; rw [hs, hc]; dsimp only; rw [if_neg hpo, if_pos hpv]; rfl
      exact ⟨_, _, _, v.finish hx (.insert this) (insert_inv v.inv hleg this (fun _ => False)).1
        (Fwd.grow rfl (fun _ h => h) (fun _ h => h) (fun _ h => h) nomark)⟩
    · rename_i hpv
      cases h
      exact ⟨_, _, _, v.next hx ⟨rfl, o, embed, o1, ctr, id, bytes, rfl, hp, hleg, hf, rfl, hs, hpo, hpv, by rw [hc]⟩
        (Fwd.grow rfl (fun _ h => mem_set_keys _ _ _ _ h) (fun _ h => h) (fun _ h => h) nomark)⟩
  | index o2 env ff =>
    obtain ⟨rfl, o, embed, o1, ctr, id, bytes, rfl, hp, hleg, hf, rfl, hs, hpo, hpv, hc⟩ := hh
    have nomark : ∀ m id ff, s.writer ≠ some (m, .mark id ff) := by intro m id ff e; rw [hw] at e; cases e
    have ins := insert_body (L := L) (env := env) (ff := ff) hp
    simp only [LState.write] at h
    split at h
    · cases h
    · rename_i idx hi
      cases h
      have hi' : a.index.insert L.metric (o1.vec.getD []) id env.level = .ok idx := by
        rw [hc] at hi; exact hi
      have hone : a.insertOne L o1 env = .ok ({ s.c with index := idx }, { o1 with id := id }, none) := by
        unfold Coll.insertOne putObject; rw [hf]; dsimp only; rw [hs]; dsimp only; rw [if_neg hpo, if_neg hpv]; dsimp only
        rw [hi', ok_bind, hc]
      have : a.insert L o embed env ff = .ok ((({ s.c with index := idx } : Coll).flush ff).1, { o1 with id := id },
          (({ s.c with index := idx } : Coll).flush ff).2) := by
        rw [ins, hone]; rfl
      have hdel : idx.deleted = s.c.index.deleted := by
        obtain ⟨⟨r, hr, hd⟩, hlev, hcnt⟩ := hleg
        rw [(prepare_open hp).2.2] at hr; cases hr
        obtain ⟨c1, o3, e1, h1, _, f1⟩ := insertOne_spec v.inv (env := env) (hd [o1] rfl o1 (by simp)) hlev hcnt
        rw [hone] at h1; cases h1
        rw [hc]; exact f1.deleted
      exact ⟨_, _, _, v.finish hx (.insert this) (insert_inv v.inv hleg this (fun _ => False)).1
        (Fwd.grow rfl (fun _ h => h) (fun _ h => h) (fun x h => by
          show x ∈ idx.deleted
          rw [hdel]; exact h) nomark)⟩
  | batch workers b =>
    obtain ⟨rfl, hc, two, os, embed, acts, rfl, hat, ht⟩ := hh
    have nomark : ∀ m id ff, s.writer ≠ some (m, .mark id ff) := by intro m id ff e; rw [hw] at e; cases e
    have go : ∀ b', b.step fixed L act = some b' →
        LinInv fixed Z L dim c0 H (s.next n b'.c (.batch workers b')) S a none := by
      intro b' hb'
      have hat' := hat.snoc hb' (fun i env e => (hl.2.2 workers b i env hw e).1)
      have ht' := NoRace.snoc ht hat hb' (fun i env e => (hl.2.2 workers b i env hw e).2 b' (e ▸ hb'))
      obtain ⟨k1, k2⟩ := Batch.step_keys hb'
      have d1 := (hat.view v.inv).2.1
      have d2 := hat'.view v.inv
      refine v.next hx ⟨rfl, rfl, two, os, embed, acts ++ [act], rfl, hat', ht'⟩ ?_
      refine Fwd.grow ?_ ?_ ?_ ?_ nomark
      · rw [d2.1.closed, v.view.closed]
      · rw [hc]; exact k2
      · rw [hc]; exact k1
      · intro x hx; rw [hc, d1] at hx; rw [d2.2.1]; exact hx
    simp only [LState.write] at h
    split at h
    · rename_i r hr
      split at h
      · rename_i hall
        cases h
        have hover : ∀ t ∈ b.tasks, t.pc.over = true := List.all_eq_true.mp hall
        exact ⟨_, _, _, v.finish hx (.batch hat ht hr hover) (batch_weak v.inv hat ht hover).1
          (by rw [hc]; exact Fwd.grow rfl (fun _ h => h) (fun _ h => h) (fun _ h => h) nomark)⟩
      · cases hs : b.step fixed L act with
        | none => rw [hs] at h; cases h
        | some b' => rw [hs] at h; cases h; exact ⟨_, _, _, go b' hs⟩
    · cases hs : b.step fixed L act with
      | none => rw [hs] at h; cases h
      | some b' => rw [hs] at h; cases h; exact ⟨_, _, _, go b' hs⟩
  | erase id ff =>
    obtain ⟨rfl, rfl, hcl, j, ha, hm⟩ := hh
    cases h
    refine ⟨S, a, some n, v.next hx ⟨rfl, rfl, hcl, s.c, j, rfl, ha, hm⟩ ⟨rfl, fun _ h => h, ?_⟩⟩
    rintro x (hk | hk | ⟨m, f, hk⟩)
    · by_cases e : x = id
      · subst e; exact Or.inr (Or.inr ⟨_, _, rfl⟩)
      · left
        show keyOf x ∈ (s.c.stores.objects.erase (keyOf id)).keys
        rw [← AMap.get?_isSome_iff, AMap.get?_erase_ne _ _ _ (fun e' => e (keyOf_inj e').symm), AMap.get?_isSome_iff]
        exact hk
    · exact Or.inr (Or.inl hk)
    · rw [hw] at hk; cases hk
  | mark id ff =>
    obtain ⟨rfl, rfl, hcl, p, j, hc, ha, hm⟩ := hh
    have e1 : ({ s.c with index := s.c.index.delete id } : Coll).flush ff = Coll.blindDelete p id false ff := by
      rw [hc]; rfl
    simp only [LState.write] at h
    rw [e1] at h
    cases h
    rw [← ha]
    refine ⟨S, a, none, v.unlock rfl hx hm ⟨by rw [hcl, hb.2], ?_, ?_⟩⟩
    · rw [ha, hc]; exact fun _ h => h
    · have hd : ∀ x, x ∈ a.index.deleted ↔ x = id ∨ x ∈ s.c.index.deleted := by
        intro x
        rw [ha, hc]
        exact delete_deleted p.index id x
      rintro x (hk | hk | ⟨m, f, hk⟩)
      · left
        rw [ha]
        rw [hc] at hk; exact hk
      · exact Or.inr (Or.inl ((hd x).mpr (Or.inr hk)))
      · rw [hw] at hk; cases hk
        exact Or.inr (Or.inl ((hd _).mpr (Or.inl rfl)))

theorem LinInv.step (v : LinInv fixed Z L dim c0 H s S a d) {act : LAct V} {s' : LState V D} {evs : List (LEv V D)}
    (hl : act.Legal fixed L dim s) (h : s.step fixed L act = some (s', evs)) (hz : ∀ n, s.calls[n]? = some (.invoked .size) → Z n a s.c.getSize) :
    ∃ S' a' d', LinInv fixed Z L dim c0 (H ++ evs) s' S' a' d' := by
  cases act with
  | call op =>
    cases h
    refine ⟨S, a, d, v.seq, v.inv, v.book.call op, v.idle, ?_, ?_⟩
    · intro m body hw
      obtain ⟨op', h1, h2⟩ := v.held m body hw
      exact ⟨op', by rw [List.getElem?_append_left (List.getElem?_eq_some_iff.mp h1).1]; exact h1, h2⟩
    · intro m x hx
      by_cases hm : m < s.calls.length
      · rw [List.getElem?_append_left hm] at hx
        exact v.thr m x hx
      · rw [List.getElem?_append_right (by omega)] at hx
        cases hk : m - s.calls.length with
        | zero => rw [hk] at hx; cases hx; trivial
        | succ k => rw [hk] at hx; cases hx
  | ret n =>
    simp only [LState.step] at h
    split at h
    · rename_i op out hn
      cases h
      refine ⟨S, a, d, v.seq, v.inv, v.book.ret hn, v.idle, ?_, v.thr.set hn trivial⟩
      intro m body hw
      obtain ⟨op', h1, h2⟩ := v.held m body hw
      exact ⟨op', held_set hn (fun _ => nofun) h1, h2⟩
    · cases h
  | go n act =>
    simp only [LState.step] at h
    split at h
    · cases h
    · rename_i op hn
      split at h
      · rename_i m body hw
        split at h
        · rename_i e
          subst e
          cases hs : s.write fixed L m op act body with
          | none => rw [hs] at h; cases h
          | some s1 =>
            rw [hs] at h; cases h
            rw [List.append_nil]
            exact v.write hw hl hs hn
        · cases h
      · cases h
    · rename_i x _ hn
      cases hs : s.begin L n x with
      | none => rw [hs] at h; cases h
      | some s1 =>
        rw [hs] at h; cases h
        rw [List.append_nil]
        refine v.begin hn hl ?_ hs
        rintro rfl
        exact hz n hn

end

theorem LinInv.start {fixed : Bool} {Z : Nat → Coll → Except Err Nat → Prop} {L : Lib V D} {dim : Nat} {c : Coll}
    (i : WInv False L dim (fun _ => True) c) : LinInv fixed Z L dim c [] { c := c } [] c none :=
  ⟨.nil c, i, Book.start, fun _ => ⟨rfl, rfl⟩, (fun _ _ h => nomatch h), fun n x hx => by simp at hx⟩

theorem exec_lin {fixed : Bool} {Z : Nat → Coll → Except Err Nat → Prop} {L : Lib V D} {dim : Nat} {c : Coll} {H : List (LEv V D)} {s : LState V D}
    (i : WInv False L dim (fun _ => True) c) (h : Exec fixed L dim c H s) (hz : ∀ n, LEv.call n .size ∉ H) :
    ∃ S a d, LinInv fixed Z L dim c H s S a d := by
  induction h with
  | start => exact ⟨[], c, none, .start i⟩
  | step _ hl hs ih =>
    have hz' := fun n hm => hz n (List.mem_append_left _ hm)
    obtain ⟨S, a, d, v⟩ := ih hz'
    exact v.step hl hs (fun n hn => absurd ((v.book.began n .size).mpr ⟨_, hn, rfl⟩) (hz' n))

theorem LinInv.linearization {fixed : Bool} {Z : Nat → Coll → Except Err Nat → Prop} {L : Lib V D} {dim : Nat} {c : Coll} {H : List (LEv V D)} {s : LState V D}
    {S : List (Nat × LOp V × LOut V D)} {a : Coll} {d : Option Nat} (v : LinInv fixed Z L dim c H s S a d) :
    Linearization fixed Z L dim c H S a := by
  refine ⟨v.seq, v.book.once, ?_, ?_, v.book.order⟩
  · intro n out h
    obtain ⟨x, h1, h2, h3⟩ := (v.book.ended n out).mp h
    exact ⟨_, v.book.fin n x out h1 h3⟩
  · intro n op out h
    obtain ⟨x, h1, h2, _⟩ := v.book.mem n op out h
    exact (v.book.began n op).mpr ⟨x, h1, h2⟩

end Vectory.Conc
