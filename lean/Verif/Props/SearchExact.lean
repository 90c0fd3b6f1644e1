import Verif.Props.CrashExact
import Verif.Props.Panics
/-! # C19: exactly when a search panics -/
namespace Vectory
variable {V D : Type}

/-- the query vector was found: the object brings it or the embedding service gave it. -/
def HasQuery (c : Coll) (embed : Embed V) (o : Object V) (q : Vec) : Prop :=
  ∃ o1, embedObjectsIfNeeded c embed [o] = .ok (.ok [o1]) ∧ q = o1.vec.getD []

theorem w19_search_exact (L : Lib V D) (dim : Nat) (c : Coll) {S : Prop} (i : WInv S L dim (fun _ => True) c) (o : Object V) (embed : Embed V) (k : Int)
    (he : EmbedOK c embed dim [o]) :
    (∃ p, c.semanticSearch L o embed k = .error (.panic p)) ↔
      c.closed = false ∧ ∃ q, HasQuery c embed o q ∧
        (k < 0 ∨ c.index.nodes = [] ∨
          ∃ es, c.index.search L.metric q k = .ok es ∧ ∃ e ∈ es, c.get L [e.id] = .ok []) := by
  have hobj : ∀ e : UInt64, c.closed = false → e ∈ c.index.nodes.keys → (c.get L [e] = .ok [] ↔ c.hasObject e = false) := by
    intro e hc hn
    rw [get_single_none hc]
    obtain ⟨r, hr', hs, _⟩ := getObject_eq i e
    rw [hr']
    have hv := (vkey_iff i e).mpr hn
    unfold Coll.hasObject
    cases hh : c.stores.objects.has (keyOf e) with
    | true =>
      have := hs.mpr ⟨(AMap.has_iff _ _).mp hh, hv⟩
      cases r with
      | none => cases this
      | some x => simp
    | false =>
      cases r with
      | none => simp
      | some x =>
        have := (AMap.has_iff _ _).mpr (hs.mp rfl).1
        rw [hh] at this; cases this
  cases hc : c.closed with
  | true =>
    simp only [Bool.true_eq_false, false_and, iff_false]
    rintro ⟨p, h⟩
    unfold Coll.semanticSearch at h
    rw [if_pos hc] at h
    cases h
  | false =>
    obtain ⟨r, h1, h2⟩ := he
    have hrun : c.semanticSearch L o embed k = (do
        let r ← liftPanic (embedObjectsIfNeeded c embed [o])
        match r with
        | .error e => .error (.error e)
        | .ok [] => .error (.error .io)
        | .ok (o :: _) => do
          let results ← liftPanic (c.index.search L.metric (o.vec.getD []) k)
          let objs ← getObjects L.json c.stores (results.map Elem.id)
          let hits ← liftPanic (pairHits results objs)
          .ok { hits := results.length, objects := hits }) := by
      unfold Coll.semanticSearch
      rw [if_neg (by simp [hc])]
      rfl
    cases r with
    | error x =>
      constructor
      · rintro ⟨p, h⟩
        rw [hrun, h1] at h
        cases h
      · rintro ⟨_, q, ⟨o1, ho1, _⟩, _⟩
        rw [h1] at ho1; cases ho1
    | ok os =>
      have hlen := embed_length h1
      match os, hlen with
      | [o1], _ =>
        have hd := h2 _ rfl o1 (by simp)
        have hq : ∀ q, HasQuery c embed o q ↔ q = o1.vec.getD [] := by
          intro q
          constructor
          · rintro ⟨o2, h3, rfl⟩
            rw [h1] at h3; cases h3; rfl
          · rintro rfl; exact ⟨o1, h1, rfl⟩
        rw [h1] at hrun
        simp only [liftPanic, ok_bind] at hrun
        rcases Int.lt_or_le k 0 with hk | hk
        · refine ⟨fun _ => ⟨rfl, _, (hq _).mpr rfl, Or.inl hk⟩, fun _ => ⟨.makeLen, ?_⟩⟩
          rw [hrun]
          unfold Hnsw.search
          rw [if_pos hk]
          rfl
        · by_cases hn : c.index.nodes = []
          · refine ⟨fun _ => ⟨rfl, _, (hq _).mpr rfl, Or.inr (Or.inl hn)⟩, fun _ => ⟨.nilDeref, ?_⟩⟩
            rw [hrun]
            unfold Hnsw.search
            rw [if_neg (by omega), hn]
            rfl
          · obtain ⟨es, h3, hbad, hgood⟩ := coll_search_weak i hc hn h1 hd hk
            obtain ⟨_, h3', _, _, _, h5⟩ := search_spec i.dimM i.idx i.cfg i.vecs hn hd hk
            rw [h3] at h3'; cases h3'
            have hkeys : ∀ e ∈ es, e.id ∈ c.index.nodes.keys := by
              intro e hee
              obtain ⟨_, v, hv, _⟩ := h5 e hee
              rw [← AMap.get?_isSome_iff, hv]; rfl
            constructor
            · rintro ⟨p, hp⟩
              refine ⟨rfl, _, (hq _).mpr rfl, Or.inr (Or.inr ⟨es, h3, ?_⟩)⟩
              by_cases hall : ∀ e ∈ es, c.hasObject e.id = true
              · obtain ⟨r, hr2, _⟩ := hgood hall
                rw [hr2] at hp; cases hp
              · apply Classical.byContradiction
                intro hno
                refine hall (fun e hee => ?_)
                cases hh : c.hasObject e.id with
                | true => rfl
                | false => exact absurd ⟨e, hee, (hobj _ hc (hkeys e hee)).mpr hh⟩ hno
            · rintro ⟨_, q, hqq, h⟩
              cases (hq q).mp hqq
              rcases h with h | h | ⟨es', h6, e, hee, hget⟩
              · omega
              · exact absurd h hn
              · rw [h3] at h6; cases h6
                exact ⟨_, hbad ⟨e, hee, (hobj _ hc (hkeys e hee)).mp hget⟩⟩

/-- **C19, searches exactly.** On a collection in any state reached by calls, failing writes, crashes and reopens (parameters in range,
vectors and query of the collection's dimension) a search panics iff the collection is open, the query vector was found, and `k` is
negative, or no vector was ever indexed, or the index lists a vector whose object is gone. In all other cases it returns a result or an
error. -/
theorem C19_search_exact (L : Lib V D) (dim : Nat) (c : Coll) (hr : ReachAny L dim c) (o : Object V) (embed : Embed V) (k : Int)
    (he : EmbedOK c embed dim [o]) :
    (∃ p, c.semanticSearch L o embed k = .error (.panic p)) ↔
      c.closed = false ∧ ∃ q, HasQuery c embed o q ∧
        (k < 0 ∨ c.index.nodes = [] ∨
          ∃ es, c.index.search L.metric q k = .ok es ∧ ∃ e ∈ es, c.get L [e.id] = .ok []) :=
  w19_search_exact L dim c hr.weak.1 o embed k he

/-- **C19, searches without crashes in the history.** Then the last case does not occur: a search panics iff the collection is open, the
query vector was found, and `k` is negative or no vector was ever indexed. -/
theorem C19_search_exact_uncrashed (L : Lib V D) (dim : Nat) (c : Coll) (hr : Reach L dim c) (o : Object V) (embed : Embed V) (k : Int)
    (he : EmbedOK c embed dim [o]) :
    (∃ p, c.semanticSearch L o embed k = .error (.panic p)) ↔
      c.closed = false ∧ (∃ q, HasQuery c embed o q) ∧ (k < 0 ∨ c.index.nodes = []) := by
  rw [C19_search_exact L dim c hr.any o embed k he]
  constructor
  · rintro ⟨h1, q, h2, h | h | ⟨es, h3, e, hee, hget⟩⟩
    · exact ⟨h1, ⟨q, h2⟩, Or.inl h⟩
    · exact ⟨h1, ⟨q, h2⟩, Or.inr h⟩
    · rcases Int.lt_or_le k 0 with hk | hk
      · exact ⟨h1, ⟨q, h2⟩, Or.inl hk⟩
      by_cases hn : c.index.nodes = []
      · exact ⟨h1, ⟨q, h2⟩, Or.inr hn⟩
      exfalso
      have := (C19_no_panic L dim c hr).2.1 o embed k
      obtain ⟨o1, ho1, rfl⟩ := h2
      obtain ⟨r0, hr0, hd0⟩ := he
      have he' : EmbedOK c embed dim [o] := ⟨r0, hr0, hd0⟩
      rw [ho1] at hr0; cases hr0
      have h9 := (C19_search_exact L dim c hr.any o embed k he').mpr
        ⟨h1, _, ⟨o1, ho1, rfl⟩, Or.inr (Or.inr ⟨es, h3, e, hee, hget⟩)⟩
      obtain ⟨p, hp⟩ := h9
      exact this p he' hk hn hp
  · rintro ⟨h1, ⟨q, h2⟩, h⟩
    refine ⟨h1, q, h2, ?_⟩
    rcases h with h | h
    · exact Or.inl h
    · exact Or.inr (Or.inl h)

/-- both outcomes occur after the demo history: `k = 2` returns, `k = -1` panics; so does a search of a new collection. -/
example : ∃ c : Coll, Reach demoLib 1 c ∧ EmbedOK c noEmbed 1 [demoObj 5] ∧ c.closed = false ∧ c.index.nodes ≠ [] ∧
    HasQuery c noEmbed (demoObj 5) [5] :=
  ⟨demoState demoCfg c16Ops, demo_reach _, demo_embedOK _ (by decide +kernel) 5, by decide +kernel, by decide +kernel, demoObj 5,
    by unfold embedObjectsIfNeeded; rw [show (demoState demoCfg c16Ops).hasEmbedder = false by decide +kernel]; rfl, rfl⟩

end Vectory
