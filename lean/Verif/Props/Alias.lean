import Verif.Lemmas.Alias
import Verif.Props.Search
import Verif.Props.Panics
import Verif.Spec.Demo
/-!
# C80: callers that go on using their slices

`Insert` keeps the caller's slice. A caller that writes into `obj.Vector` after the call changes what searches compute with until the
collection is opened again, and nothing else: `Get`, `GetSize`, ids, errors and what is on disk are as if it had not.
-/
namespace Vectory
variable {V D : Type}

theorem lastWrite_call {id : UInt64} {h : List (SEv V D)} {op : Op V} {out : Out V D} (hr : op ≠ .reopen) :
    lastWrite id (h ++ [.call op out]) = lastWrite id h := by
  unfold lastWrite
  rw [List.foldl_append]
  cases op <;> first | rfl | exact absurd rfl hr

theorem lastWrite_reopen {id : UInt64} {h : List (SEv V D)} {out : Out V D} : lastWrite id (h ++ [.call .reopen out]) = none := by
  unfold lastWrite
  rw [List.foldl_append]; rfl

theorem lastWrite_write {id x : UInt64} {h : List (SEv V D)} {vec : Vec} :
    lastWrite id (h ++ [.write x vec]) = if x = id then some vec else lastWrite id h := by
  unfold lastWrite
  rw [List.foldl_append]; rfl

/-- what holds after calls and writes. -/
structure AInv (L : Lib V D) (dim : Nat) (h : List (SEv V D)) (c : Coll) (vs : AMap Bytes Bytes) : Prop where
  inv : HInv L dim (fun _ => False) c vs
  disk : DInv True c.index
  clean : ∀ id, lastWrite id h = none → vs.get? (keyOf id) = c.stores.vectors.get? (keyOf id)
  wrote : ∀ id w, lastWrite id h = some w → vecOf c.index.nodes id = some w

theorem shared_inv {L : Lib V D} {dim : Nat} {cfg : Cfg} {ms : List String} {he : Bool} (hs : Setup L dim cfg) {h : List (SEv V D)}
    {c : Coll} (r : Shared L dim (Coll.new cfg ms he) h c) : ∃ vs, AInv L dim h c vs := by
  induction r with
  | nil =>
    have i := HInv.of_new L dim cfg ms he hs
    exact ⟨[], i, DInv.synced i.inv.idx rfl, fun _ _ => rfl, fun _ _ h => by cases h⟩
  | @call h c c' op out _ hl ha ih =>
    obtain ⟨vs, i⟩ := ih
    by_cases hr : op = .reopen
    · subst hr
      obtain ⟨f, c1, h1, h2, h3, h4⟩ := i.inv.reopen hl
      simp only [Coll.apply, h2, ok_bind] at ha
      cases ha
      refine ⟨c'.stores.vectors, h4.self, DInv.synced h4.idx (by rw [h3]; rfl), fun _ _ => rfl, fun id w hw => ?_⟩
      rw [lastWrite_reopen] at hw; cases hw
    · obtain ⟨c1, out1, vs', h1, h2, h3, h4, h5⟩ := i.inv.apply op hl hr
      rw [ha] at h1
      cases h1
      refine ⟨vs', h2, h5 i.disk, fun id hw => ?_, fun id w hw => ?_⟩
      · rw [lastWrite_call hr] at hw
        rcases h3.get (keyOf id) with ⟨e1, e2⟩ | e
        · rw [e1, e2]; exact i.clean id hw
        · exact e.symm
      · rw [lastWrite_call hr] at hw
        exact h4 id w (i.wrote id w hw)
  | @write h c id v vec _ hv hl ih =>
    obtain ⟨vs, i⟩ := ih
    refine ⟨_, i.inv.write hv hl, i.disk.write hv vec, fun x hw => ?_, fun x w hw => ?_⟩
    · rw [lastWrite_write] at hw
      split at hw
      · cases hw
      · rename_i hne
        rw [AMap.get?_set_ne _ _ _ _ (fun h => hne (keyOf_inj h))]
        exact i.clean x hw
    · rw [lastWrite_write] at hw
      show vecOf (c.index.write id vec).nodes x = some w
      rw [vecOf_write hv]
      split at hw
      · rename_i he; subst he; rw [if_pos rfl]; exact hw
      · rename_i hne
        rw [if_neg (fun h => hne h.symm)]; exact i.wrote x w hw

/-- what the twin holds is what the index uses. -/
theorem AInv.current {L : Lib V D} {dim : Nat} {h : List (SEv V D)} {c : Coll} {vs : AMap Bytes Bytes} (i : AInv L dim h c vs)
    {id : UInt64} {v : Vec} (hv : getVector (c.withVecs vs).stores id = .ok (some v)) : Current h c id v := by
  have hst : getVector (c.withVecs vs).stores id = .ok (vecOf c.index.nodes id) := i.inv.inv.vstore id
  rw [hv] at hst
  cases hw : lastWrite id h with
  | none =>
    refine ⟨v, ?_, by rw [hw]; rfl⟩
    rw [← hv]
    unfold getVector
    show (match c.stores.vectors.get? (keyOf id) with | none => _ | some b => _) = (match vs.get? (keyOf id) with | none => _ | some b => _)
    rw [i.clean id hw]
  | some w =>
    have h1 := i.wrote id w hw
    rw [h1] at hst
    cases hst
    have hk : keyOf id ∈ vs.keys := by
      rw [← AMap.get?_isSome_iff]
      unfold getVector at hv
      have e : AMap.get? (c.withVecs vs).stores.vectors (keyOf id) = vs.get? (keyOf id) := rfl
      rw [e] at hv
      cases hb : vs.get? (keyOf id) with
      | none => rw [hb] at hv; cases hv
      | some b => rfl
    rw [i.inv.keys, ← AMap.get?_isSome_iff] at hk
    obtain ⟨b, hb⟩ := Option.isSome_iff_exists.mp hk
    obtain ⟨v0, d1, d2⟩ := i.inv.dec id b hb
    refine ⟨v0, ?_, by rw [hw]; rfl⟩
    unfold getVector
    rw [hb]
    dsimp only
    rw [d1]

/-- **C80, searches.** After any legal calls and any writes of callers into their slices, a search that succeeds returns at most `k` and at
most `ef` hits, no id twice, and each hit has the id and properties that `Get` returns; its distance is that of what the caller last wrote
into the slice of that object since the collection was opened, or, if nothing was written, that of the vector `Get` returns. -/
theorem C80_search (L : Lib V D) (dim : Nat) (cfg : Cfg) (ms : List String) (he : Bool) (hs : Setup L dim cfg) (h : List (SEv V D))
    (c : Coll) (r : Shared L dim (Coll.new cfg ms he) h c) (o : Object V) (embed : Embed V) (k : Int) (hq : EmbedOK c embed dim [o])
    (res : SearchResult V D) (hres : c.semanticSearch L o embed k = .ok res) :
    (res.objects.length : Int) ≤ k ∧ res.objects.length ≤ c.index.cfg.ef ∧ (res.objects.map Hit.id).Nodup ∧
    res.hits = res.objects.length ∧
    ∃ q, queryVector embed o = some q ∧ ∀ hit ∈ res.objects, ∃ x v, c.get L [hit.id] = .ok [x] ∧ x.id = hit.id ∧ x.props = hit.props ∧
      x.vec = some v ∧ L.metric.dist ((lastWrite hit.id h).getD v) q = .ok hit.dist := by
  obtain ⟨vs, i⟩ := shared_inv hs r
  rw [search_vs i.inv] at hres
  obtain ⟨a1, a2, a3, a4⟩ := w16_without_order L dim (c.withVecs vs) i.inv.inv o embed k hq res hres
  obtain ⟨_, q, b1, b2⟩ := w18_hits_live L dim (c.withVecs vs) i.inv.inv o embed k hq res hres
  refine ⟨a1, a2, a3, a4, q, b1, fun hit hh => ?_⟩
  obtain ⟨x, v, g1, g2, g3, g4, g5⟩ := b2 hit hh
  have hc : c.closed = false := by
    cases hcc : c.closed with
    | false => rfl
    | true => unfold Coll.get at g1; rw [if_pos (show (c.withVecs vs).closed = true from hcc)] at g1; cases g1
  have g1' := (get_single_some (c := c.withVecs vs) hc).mp g1
  rcases i.inv.getObject hit.id with ⟨m1, _⟩ | ⟨p, v1, w, m1, m2, m3, _, m5, _, m7⟩
  · rw [m1] at g1'; cases g1'
  · rw [m1] at g1'
    cases g1'
    cases g4
    refine ⟨⟨hit.id, p, some w⟩, w, (get_single_some hc).mpr m2, rfl, g3, rfl, ?_⟩
    cases hw : lastWrite hit.id h with
    | none => rw [m7 (i.clean _ hw)] at g5; exact g5
    | some u =>
      have := i.wrote _ _ hw
      rw [m3] at this
      cases this
      exact g5

/-- **C80, order of the hits.** They are sorted by these distances, if the distances of the vectors in use can be compared. -/
theorem C80_sorted (L : Lib V D) (dim : Nat) (cfg : Cfg) (ms : List String) (he : Bool) (hs : Setup L dim cfg) (h : List (SEv V D))
    (c : Coll) (r : Shared L dim (Coll.new cfg ms he) h c) (o : Object V) (embed : Embed V) (k : Int) (hq : EmbedOK c embed dim [o])
    (w : ∀ q, queryVector embed o = some q → OrdOn (fun d => ∃ id v, Current h c id v ∧ L.metric.dist v q = .ok d) L.metric.lt)
    (res : SearchResult V D) (hres : c.semanticSearch L o embed k = .ok res) :
    res.objects.Pairwise (fun a b => Le L.metric.lt a.dist b.dist) := by
  obtain ⟨vs, i⟩ := shared_inv hs r
  rw [search_vs i.inv] at hres
  refine (w16_well_formed L dim (c.withVecs vs) i.inv.inv o embed (fun q hq' => ?_) k hq res hres).2.2.2.1
  exact OrdOn.mono (w q hq') (fun d ⟨v, ⟨id, hv⟩, hd⟩ => ⟨id, v, i.current hv, hd⟩)

/-- **C80, nothing else breaks.** After any legal calls and writes every legal call returns, a search with `k ≥ 0` on a collection that ever
indexed a vector does not panic, nor does `Get`. -/
theorem C80_no_panic (L : Lib V D) (dim : Nat) (cfg : Cfg) (ms : List String) (he : Bool) (hs : Setup L dim cfg) (h : List (SEv V D))
    (c : Coll) (r : Shared L dim (Coll.new cfg ms he) h c) :
    (∀ op : Op V, Legal dim c op → ∃ c' out, c.apply L op = .ok (c', out)) ∧
    (∀ (o : Object V) (embed : Embed V) (k : Int) (p : Panic), EmbedOK c embed dim [o] → 0 ≤ k → c.index.nodes ≠ [] →
      c.semanticSearch L o embed k ≠ .error (.panic p)) ∧
    (∀ (ids : List UInt64) (p : Panic), c.get L ids ≠ .error (.panic p)) := by
  obtain ⟨vs, i⟩ := shared_inv hs r
  refine ⟨fun op hl => ?_, fun o embed k p hq hk hne => ?_, fun ids p => get_vs i.inv ids p⟩
  · by_cases hr : op = .reopen
    · subst hr
      obtain ⟨f, c1, _, h2, _⟩ := i.inv.reopen hl
      exact ⟨c1, .done none, by simp only [Coll.apply, h2, ok_bind]⟩
    · obtain ⟨c1, out1, _, h1, _⟩ := i.inv.apply op hl hr
      exact ⟨c1, out1, h1⟩
  · rw [search_vs i.inv]
    exact (w19_no_panic_partial L dim (c.withVecs vs) i.inv.inv).2.1 o embed k p hq hk hne

theorem Runs.snoc {L : Lib V D} {dim : Nat} {c c1 c2 : Coll} {g : List (Op V × Out V D)} {op : Op V} {out : Out V D}
    (h : Runs L dim c g c1) (hl : Legal dim c1 op) (ha : c1.apply L op = .ok (c2, out)) : Runs L dim c (g ++ [(op, out)]) c2 := by
  induction h with
  | nil c => exact .cons hl ha (.nil _)
  | cons h1 h2 _ ih => exact .cons h1 h2 (ih hl ha)

/-- **C80, everything but searches.** For any history of legal calls and writes of callers there is a history of the same calls without
the writes, in which every call but the searches has the same result, and which ends in a collection with the same stores and the
same counter: `Get` and `GetSize` answer the same. -/
theorem C80_erasure (L : Lib V D) (dim : Nat) (cfg : Cfg) (ms : List String) (he : Bool) (hs : Setup L dim cfg) (h : List (SEv V D))
    (c : Coll) (r : Shared L dim (Coll.new cfg ms he) h c) :
    ∃ g d, Runs L dim (Coll.new cfg ms he) g d ∧ SameCalls h g ∧ d.stores = c.stores ∧ d.counter = c.counter ∧ d.closed = c.closed ∧
      (∀ ids, d.get L ids = c.get L ids) ∧ d.getSize = c.getSize := by
  have key : ∃ g d, Runs L dim (Coll.new cfg ms he) g d ∧ SameCalls h g ∧ WInv True L dim (fun _ => False) d ∧ Core c d ∧ Pend c d := by
    induction r with
    | nil => exact ⟨[], _, .nil _, .nil, new_inv L dim cfg ms he hs.json hs.metric hs.dim32 hs.cfg, ⟨rfl, rfl, rfl, rfl, rfl⟩, fun h => h⟩
    | @call h c c' op out r' hl ha ih =>
      obtain ⟨vs, i⟩ := shared_inv hs r'
      obtain ⟨g, d, h1, h2, h3, h4, h5⟩ := ih
      obtain ⟨d', out', a1, a2, a3, a4, a5, a6⟩ := apply_tw i.inv i.disk h3 h4 h5 hl ha
      refine ⟨_, d', h1.snoc a1 a2, ?_, a3, a4, a5⟩
      rcases a6 with e | ⟨o, embed, n, x, x', e1, e2, e3⟩
      · subst e; exact .same h2
      · subst e1 e2 e3; exact .search h2
    | @write h c id v vec r' hv hl ih =>
      obtain ⟨g, d, h1, h2, h3, h4, h5⟩ := ih
      have hw : (c.write id vec).index.wal = c.index.wal := by
        show (c.index.write id vec).wal = _
        unfold Hnsw.write; rw [hv]
      refine ⟨g, d, h1, .write h2, h3, ⟨h4.stores, h4.counter, h4.mappings, h4.embedder, h4.closed⟩, fun hb => h5 ?_⟩
      rw [hw] at hb; exact hb
  obtain ⟨g, d, h1, h2, _, h4, _⟩ := key
  refine ⟨g, d, h1, h2, h4.stores, h4.counter, h4.closed, fun ids => ?_, ?_⟩
  · unfold Coll.get; rw [h4.closed, h4.stores]
  · unfold Coll.getSize; rw [h4.closed, h4.stores]

/-! ### Concrete histories -/

/-- calls and writes, one after the other. -/
def playShared (L : Lib V D) (dim : Nat) : List (Op V ⊕ UInt64 × Vec) → List (SEv V D) → Coll → Option (List (SEv V D) × Coll)
  | [], h, c => some (h, c)
  | .inl op :: as, h, c =>
    if legalB dim c op then
      match c.apply L op with
      | .error _ => none
      | .ok (c1, out) => playShared L dim as (h ++ [.call op out]) c1
    else none
  | .inr (id, vec) :: as, h, c =>
    match c.index.nodes.get? id with
    | none => none
    | some v => if vec.length = v.vec.length then playShared L dim as (h ++ [.write id vec]) (c.write id vec) else none

theorem playShared_sound {L : Lib V D} {dim : Nat} {c0 : Coll} : ∀ (as : List (Op V ⊕ UInt64 × Vec)) (h : List (SEv V D)) (c : Coll)
    (h' : List (SEv V D)) (c' : Coll), Shared L dim c0 h c → playShared L dim as h c = some (h', c') → Shared L dim c0 h' c' := by
  intro as
  induction as with
  | nil => intro h c h' c' r e; cases e; exact r
  | cons a as ih =>
    intro h c h' c' r e
    cases a with
    | inl op =>
      unfold playShared at e
      split at e
      · rename_i hl
        cases ha : c.apply L op with
        | error x => rw [ha] at e; cases e
        | ok p =>
          obtain ⟨c1, out⟩ := p
          rw [ha] at e
          exact ih _ _ _ _ (.call r (legalB_sound hl) ha) e
      · cases e
    | inr p =>
      obtain ⟨id, vec⟩ := p
      unfold playShared at e
      cases hv : c.index.nodes.get? id with
      | none => rw [hv] at e; cases e
      | some v =>
        rw [hv] at e
        dsimp only at e
        split at e
        · rename_i hl
          exact ih _ _ _ _ (.write r hv hl) e
        · cases e

/-- three objects; then the caller reuses the slice of the first. -/
def reuseActs : List (Op UInt8 ⊕ UInt64 × Vec) :=
  [.inl (demoInsert 1), .inl (demoInsert 5 1), .inl (demoInsert 9), .inr (0, [8]), .inl (.search (demoObj 1) noEmbed 3), .inl (demoInsert 8)]

def reused (as : List (Op UInt8 ⊕ UInt64 × Vec)) : List (SEv UInt8 Nat) × Coll :=
  (playShared demoLib 1 as [] (Coll.new demoCfg ["a"] false)).getD ([], Coll.new demoCfg ["a"] false)

theorem reused_shared (as : List (Op UInt8 ⊕ UInt64 × Vec)) :
    Shared demoLib 1 (Coll.new demoCfg ["a"] false) (reused as).1 (reused as).2 := by
  unfold reused
  cases h : playShared demoLib 1 as [] (Coll.new demoCfg ["a"] false) with
  | none => exact .nil
  | some p => exact playShared_sound as _ _ _ _ .nil h

/-- the vector of the first object that `Get` returns. -/
def gotVec (r : Except Abort (List (Object V))) : Option Vec :=
  match r with
  | .ok (o :: _) => o.vec
  | _ => none

/-- **C80: without the caller's restraint C17 is false.** The caller inserts three objects and then uses the slice of the first again: `Get`
still returns `[1]` for it, but the search for `[1]` finds it at distance 7, behind an object at distance 4 - until the collection is
opened again, when it is found at distance 0. -/
theorem C80_fails :
    ∃ (h : List (SEv UInt8 Nat)) (c c' : Coll), Shared demoLib 1 (Coll.new demoCfg ["a"] false) h c ∧
      gotVec (c.get demoLib [0]) = some [1] ∧
      hitList (c.semanticSearch demoLib (demoObj 1) noEmbed 4) = some [(1, 4), (3, 7), (0, 7), (2, 8)] ∧
      c.reopen = .ok c' ∧ gotVec (c'.get demoLib [0]) = some [1] ∧
      hitList (c'.semanticSearch demoLib (demoObj 1) noEmbed 4) = some [(0, 0), (1, 4), (3, 7), (2, 8)] := by
  have hb : Legal 1 (reused reuseActs).2 (.reopen : Op UInt8) := by
    show (reused reuseActs).2.index.wal.batch = []
    decide +kernel
  obtain ⟨vs, i⟩ := shared_inv (demo_setup 1 (by decide)) (reused_shared reuseActs)
  obtain ⟨f, c', _, h2, _⟩ := i.inv.reopen hb
  refine ⟨(reused reuseActs).1, (reused reuseActs).2, c', reused_shared _, by decide +kernel, by decide +kernel, h2, ?_⟩
  have e : (match (reused reuseActs).2.reopen with | .ok c => c | .error _ => Coll.new demoCfg [] false) = c' := by rw [h2]
  rw [← e]
  exact ⟨by decide +kernel, by decide +kernel⟩

-- the hypotheses of C80 are met: the history of `C80_fails` has six events, one of them a write
example : Setup demoLib 1 demoCfg ∧ Shared demoLib 1 (Coll.new demoCfg ["a"] false) (reused reuseActs).1 (reused reuseActs).2 ∧
    (reused reuseActs).1.length = 6 ∧ lastWrite 0 (reused reuseActs).1 = some [8] ∧ lastWrite 1 (reused reuseActs).1 = none ∧
    EmbedOK (reused reuseActs).2 (noEmbed (V := UInt8)) 1 [demoObj 1] ∧ (reused reuseActs).2.index.nodes ≠ [] ∧
    (∀ q, OrdOn (fun d => ∃ id v, Current (reused reuseActs).1 (reused reuseActs).2 id v ∧ demoLib.metric.dist v q = .ok d)
      demoLib.metric.lt) :=
  ⟨demo_setup 1 (by decide), reused_shared _, by decide +kernel, by decide +kernel, by decide +kernel,
    demo_embedOK _ (by decide +kernel) 1, by decide +kernel, fun _ => demo_ord.on _⟩

end Vectory
