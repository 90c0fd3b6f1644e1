import Verif.Lemmas.CollMore
/-! Inversion of a successful `SemanticSearch`. -/
namespace Vectory
variable {V D : Type} {S : Prop} {X : UInt64 → Prop}

/-- what a successful search says about its inputs. -/
theorem search_ok {L : Lib V D} {dim : Nat} {c : Coll} (i : WInv S L dim X c) {o : Object V} {embed : Embed V} {k : Int}
    {r : SearchResult V D} (he : EmbedOK c embed dim [o]) (h : c.semanticSearch L o embed k = .ok r) :
    ∃ o1, c.closed = false ∧ embedObjectsIfNeeded c embed [o] = .ok (.ok [o1]) ∧ (o1.vec.getD []).length = dim ∧ 0 ≤ k ∧
      c.index.nodes ≠ [] := by
  unfold Coll.semanticSearch at h
  split at h
  · cases h
  · rename_i hc
    obtain ⟨r1, h1, h2⟩ := (bind_ok_iff _ _ _).mp h
    obtain ⟨r0, h3, h4⟩ := he
    rw [h3] at h1
    cases h1
    cases r1 with
    | error e => cases h2
    | ok os =>
      have hlen := embed_length h3
      match os, hlen with
      | [o1], _ =>
        dsimp only at h2
        obtain ⟨es, h5, _⟩ := (bind_ok_iff _ _ _).mp h2
        refine ⟨o1, by simpa using hc, h3, h4 _ rfl o1 (by simp), ?_, ?_⟩
        · rcases Int.lt_or_le k 0 with hk | hk
          · unfold Hnsw.search at h5
            rw [if_pos hk] at h5
            cases h5
          · exact hk
        · intro hn
          unfold Hnsw.search at h5
          split at h5
          · cases h5
          · rw [hn] at h5
            cases h5

/-- is an object stored under this id? -/
def Coll.hasObject (c : Coll) (id : UInt64) : Bool := c.stores.objects.has (keyOf id)

theorem getObjects_weak {L : Lib V D} {dim : Nat} {c : Coll} (i : WInv S L dim X c) : ∀ (ids : List UInt64),
    (∀ id ∈ ids, id ∈ c.index.nodes.keys) →
    ∃ os, getObjects L.json c.stores ids = .ok os ∧ os.map Object.id = ids.filter (fun id => c.hasObject id) ∧
      ∀ o ∈ os, getObject L.json c.stores o.id = .ok (some o) ∧ vecOf c.index.nodes o.id = o.vec ∧ o.vec.isSome := by
  intro ids
  induction ids with
  | nil => intro _; exact ⟨[], rfl, rfl, by simp⟩
  | cons id ids ih =>
    intro h
    obtain ⟨os, h1, h2, h3⟩ := ih (fun x hx => h x (List.mem_cons_of_mem _ hx))
    obtain ⟨r, hr, hs, ho⟩ := getObject_eq i id
    have hv := (vkey_iff i id).mpr (h id (by simp))
    by_cases hob : keyOf id ∈ c.stores.objects.keys
    · obtain ⟨o, rfl⟩ := Option.isSome_iff_exists.mp (hs.mpr ⟨hob, hv⟩)
      obtain ⟨ho1, ho2, ho3⟩ := ho o rfl
      refine ⟨o :: os, ?_, ?_, ?_⟩
      · unfold getObjects; rw [hr, h1]
      · rw [List.filter_cons_of_pos (by unfold Coll.hasObject; exact (AMap.has_iff _ _).mpr hob)]
        simp [ho1, h2]
      · intro x hx
        rcases List.mem_cons.mp hx with rfl | hx
        · rw [ho1]; exact ⟨hr, ho2, ho3⟩
        · exact h3 x hx
    · refine ⟨os, ?_, ?_, h3⟩
      · have : r = none := by
          cases r with
          | none => rfl
          | some o => exact absurd (hs.mp rfl).1 hob
        subst this
        unfold getObjects; rw [hr, h1]
      · rw [List.filter_cons_of_neg (by unfold Coll.hasObject; rw [AMap.has_iff]; exact hob), h2]

theorem pairHits_short : ∀ (es : List (Elem D)) (os : List (Object V)), os.length < es.length →
    pairHits es os = .error .indexOutOfRange := by
  intro es
  induction es with
  | nil => intro os h; simp at h
  | cons e es ih =>
    intro os h
    cases os with
    | nil => rfl
    | cons o os =>
      unfold pairHits
      rw [ih os (by simpa using h)]
      rfl

/-- a search on any collection satisfying the weak invariant: it pairs every result of the index with its own object, or
panics when a result has no stored object. -/
theorem coll_search_weak {L : Lib V D} {dim : Nat} {c : Coll} (i : WInv S L dim X c) (hc : c.closed = false)
    (hne : c.index.nodes ≠ []) {o o1 : Object V} {embed : Embed V} (he : embedObjectsIfNeeded c embed [o] = .ok (.ok [o1]))
    (hd : (o1.vec.getD []).length = dim) {k : Int} (hk : 0 ≤ k) :
    ∃ es, c.index.search L.metric (o1.vec.getD []) k = .ok es ∧
      ((∃ e ∈ es, c.hasObject e.id = false) → c.semanticSearch L o embed k = .error (.panic .indexOutOfRange)) ∧
      ((∀ e ∈ es, c.hasObject e.id = true) → ∃ r, c.semanticSearch L o embed k = .ok r ∧
      r.hits = es.length ∧ r.objects.map Hit.id = es.map Elem.id ∧ r.objects.map Hit.dist = es.map Elem.dist ∧
      ∀ h ∈ r.objects, ∃ x v, getObject L.json c.stores h.id = .ok (some x) ∧ x.id = h.id ∧ h.props = x.props ∧ x.vec = some v ∧
        L.metric.dist v (o1.vec.getD []) = .ok h.dist ∧ h.id ∉ c.index.deleted) := by
  obtain ⟨es, h1, _, _, _, h5⟩ := search_spec i.dimM i.idx i.cfg i.vecs hne hd hk
  obtain ⟨os, h6, h7, h8⟩ := getObjects_weak i (es.map Elem.id) (by
    intro id hid
    obtain ⟨e, hee, rfl⟩ := List.mem_map.mp hid
    obtain ⟨hdl, v, hv, _⟩ := h5 e hee
    rw [← AMap.get?_isSome_iff, hv]; rfl)
  have hrun : ∀ p, pairHits es os = p → c.semanticSearch L o embed k = (do
      let hits ← liftPanic p
      .ok { hits := es.length, objects := hits }) := by
    intro p hp
    unfold Coll.semanticSearch
    rw [hc, he]
    simp only [Bool.false_eq_true, if_false, liftPanic, ok_bind]
    rw [h1]
    dsimp only
    rw [ok_bind, h6, ok_bind, hp]
  refine ⟨es, h1, ?_, ?_⟩
  · rintro ⟨e, hee, hf⟩
    have : os.length < es.length := by
      have hl := congrArg List.length h7
      rw [List.length_map] at hl
      rw [hl]
      have : ((es.map Elem.id).filter (fun id => c.hasObject id)).length < (es.map Elem.id).length := by
        apply List.length_filter_lt_length_iff_exists.mpr
        exact ⟨e.id, List.mem_map_of_mem hee, by simp [hf]⟩
      simpa using this
    rw [hrun _ (pairHits_short es os this)]
    rfl
  · intro hall
    have h7' : os.map Object.id = es.map Elem.id := by
      rw [h7]
      apply List.filter_eq_self.mpr
      intro x hx
      obtain ⟨e, hee, rfl⟩ := List.mem_map.mp hx
      exact hall e hee
    obtain ⟨hs, p1, p2, p3, p4⟩ := pairHits_all es os h7'
    refine ⟨⟨es.length, hs⟩, ?_, rfl, p2, p3, ?_⟩
    · rw [hrun _ p1]; rfl
    · intro h hh
      obtain ⟨e, hee, x, hx, q1, q2, q3, q4⟩ := p4 h hh
      obtain ⟨g1, g2, g3⟩ := h8 x hx
      obtain ⟨hdl, v, hv, hdist⟩ := h5 e hee
      refine ⟨x, v.vec, by rw [q2]; exact g1, q2.symm, q3, ?_, by rw [q4]; exact hdist, by rw [q1]; exact hdl⟩
      rw [← g2, ← q2, q1]
      unfold vecOf; rw [hv]; rfl

/-- everything about a successful search. -/
theorem coll_search_ok {L : Lib V D} {dim : Nat} {c : Coll} (i : WInv S L dim X c) {o : Object V} {embed : Embed V} {k : Int}
    {r : SearchResult V D} (he : EmbedOK c embed dim [o]) (h : c.semanticSearch L o embed k = .ok r) :
    ∃ o1 es, c.closed = false ∧ embedObjectsIfNeeded c embed [o] = .ok (.ok [o1]) ∧ (o1.vec.getD []).length = dim ∧ 0 ≤ k ∧
      c.index.nodes ≠ [] ∧ c.index.search L.metric (o1.vec.getD []) k = .ok es ∧
      r.hits = es.length ∧ r.objects.map Hit.id = es.map Elem.id ∧ r.objects.map Hit.dist = es.map Elem.dist ∧
      ∀ h ∈ r.objects, ∃ x v, getObject L.json c.stores h.id = .ok (some x) ∧ x.id = h.id ∧ h.props = x.props ∧ x.vec = some v ∧
        L.metric.dist v (o1.vec.getD []) = .ok h.dist ∧ h.id ∉ c.index.deleted := by
  obtain ⟨o1, hc, h1, hd, hk, hne⟩ := search_ok i he h
  obtain ⟨es, h2, hbad, hgood⟩ := coll_search_weak i hc hne h1 hd hk
  refine ⟨o1, es, hc, h1, hd, hk, hne, h2, ?_⟩
  by_cases hall : ∀ e ∈ es, c.hasObject e.id = true
  · obtain ⟨r', g1, g2⟩ := hgood hall
    rw [h] at g1; cases g1; exact g2
  · have : ∃ e ∈ es, c.hasObject e.id = false := by
      apply Classical.byContradiction
      intro hn
      refine hall (fun e hee => ?_)
      cases hb : c.hasObject e.id with
      | true => rfl
      | false => exact absurd ⟨e, hee, hb⟩ hn
    rw [hbad this] at h; cases h

end Vectory
