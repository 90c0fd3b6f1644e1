import Verif.Props.Accept
/-! # C55: objects that bring their vectors and the embedding service

The full property fails: the service is called with an empty list even when no object needs a vector, and its error is
returned. What holds: as long as it answers that empty request, the answer is ignored. -/
namespace Vectory
variable {V D : Type}

/-- every object brings a vector. -/
def AllVectors (os : List (Object V)) : Prop := ∀ o ∈ os, o.vec ≠ none

theorem filter_none {os : List (Object V)} (h : AllVectors os) : os.filter (fun o => o.vec.isNone) = [] := by
  rw [List.filter_eq_nil_iff]
  intro o ho
  cases hv : o.vec with
  | none => exact absurd hv (h o ho)
  | some _ => simp

theorem assign_all {resp : List (Option Vec)} : ∀ {os : List (Object V)}, AllVectors os → assignVectors os resp = .ok os := by
  intro os
  induction os with
  | nil => intro _; rfl
  | cons o os ih =>
    intro h
    have h1 := h o (List.mem_cons_self ..)
    have h2 := ih (fun x hx => h x (List.mem_cons_of_mem _ hx))
    unfold assignVectors
    cases hv : o.vec with
    | none => exact absurd hv h1
    | some v => simp only [h2]; rfl

/-- with vectors everywhere, the only thing that matters is whether the service refuses the empty request. -/
theorem embed_all {c : Coll} {embed : Embed V} {os : List (Object V)} (h : AllVectors os) :
    embedObjectsIfNeeded c embed os =
      match c.hasEmbedder, embed [] with
      | true, .error e => .ok (.error e)
      | _, _ => .ok (.ok os) := by
  unfold embedObjectsIfNeeded
  cases he : c.hasEmbedder with
  | false =>
    rw [if_pos rfl]
    have : (os.any (fun o => o.vec.isNone)) = false := by
      rw [List.any_eq_false]
      intro o ho
      cases hv : o.vec with
      | none => exact absurd hv (h o ho)
      | some _ => simp
    rw [this]
    rfl
  | true =>
    rw [if_neg (by simp), filter_none h]
    cases embed [] with
    | error e => rfl
    | ok resp =>
      simp only [assign_all h]
      rfl

/-- C55: objects that all carry a vector: Insert, InsertBatch and SemanticSearch give the same results, and the
same next state, with any two embedding services that do not refuse an empty request; and on a collection without a
configured embedder, with any two services at all. Excluded: services that refuse the empty request
(`C55_failing_service_blocks`). -/
theorem C55_service_irrelevant (L : Lib V D) (c : Coll) (embed embed' : Embed V)
    (h : c.hasEmbedder = false ∨ ((∃ r, embed [] = .ok r) ∧ ∃ r, embed' [] = .ok r)) :
    (∀ o env ff, o.vec ≠ none → c.insert L o embed env ff = c.insert L o embed' env ff) ∧
    (∀ os envs ff, AllVectors os → c.insertBatch L os embed envs ff = c.insertBatch L os embed' envs ff) ∧
    (∀ o k, o.vec ≠ none → c.semanticSearch L o embed k = c.semanticSearch L o embed' k) := by
  have key : ∀ os : List (Object V), AllVectors os → embedObjectsIfNeeded c embed os = embedObjectsIfNeeded c embed' os := by
    intro os ho
    rw [embed_all ho, embed_all ho]
    rcases h with h | ⟨⟨r, h1⟩, r', h2⟩
    · rw [h]
    · rw [h1, h2]; cases c.hasEmbedder <;> rfl
  have one : ∀ o : Object V, o.vec ≠ none → AllVectors [o] := by
    intro o ho x hx
    rw [List.mem_singleton] at hx
    rw [hx]; exact ho
  refine ⟨fun o env ff ho => ?_, fun os envs ff ho => ?_, fun o k ho => ?_⟩
  · unfold Coll.insert; rw [key _ (one o ho)]
  · unfold Coll.insertBatch; rw [key _ ho]
  · unfold Coll.semanticSearch; rw [key _ (one o ho)]

/-- C55: and then the vectors the objects carry are the ones stored: the call goes past the embedding step with
the objects unchanged. -/
theorem C55_vectors_kept (c : Coll) (embed : Embed V) (os : List (Object V)) (ha : AllVectors os)
    (h : c.hasEmbedder = false ∨ ∃ r, embed [] = .ok r) : embedObjectsIfNeeded c embed os = .ok (.ok os) := by
  rw [embed_all ha]
  rcases h with h | ⟨r, h⟩
  · rw [h]
  · rw [h]; cases c.hasEmbedder <;> rfl

/-- **C55 fails**: with a configured embedder that cannot be reached, every valid insert and every search is refused with
the service's error, although the object carries its vector. -/
theorem C55_failing_service_blocks (L : Lib V D) (c : Coll) (embed : Embed V) (e : Err) (hc : c.closed = false)
    (he : c.hasEmbedder = true) (hf : embed [] = .error e) :
    (∀ o env ff, o.vec ≠ none → validateObjects c.mappings 0 [o] = none → c.insert L o embed env ff = .ok (c, o, some e)) ∧
    (∀ os envs ff, AllVectors os → validateObjects c.mappings 0 os = none →
      c.insertBatch L os embed envs ff = .ok (c, os, some e)) ∧
    (∀ o k, o.vec ≠ none → c.semanticSearch L o embed k = .error (.error e)) := by
  have key : ∀ os : List (Object V), AllVectors os → embedObjectsIfNeeded c embed os = .ok (.error e) := by
    intro os ho
    rw [embed_all ho, he, hf]
  have one : ∀ o : Object V, o.vec ≠ none → AllVectors [o] := by
    intro o ho x hx
    rw [List.mem_singleton] at hx
    rw [hx]; exact ho
  refine ⟨fun o env ff ho hv => ?_, fun os envs ff ho hv => ?_, fun o k ho => ?_⟩
  · unfold Coll.insert
    rw [hc, hv, key _ (one o ho)]
    rfl
  · unfold Coll.insertBatch
    rw [hc, hv, key _ ho]
    rfl
  · unfold Coll.semanticSearch
    rw [hc, key _ (one o ho)]
    rfl

/-- a service that is down. -/
def downEmbed : Embed UInt8 := fun _ => .error .embed
/-- a service that answers every request with as many vectors as there are objects. -/
def upEmbed : Embed UInt8 := fun os => .ok (os.map (fun _ => some [7]))

example : (Coll.new demoCfg ["a"] true).closed = false ∧ (Coll.new demoCfg ["a"] true).hasEmbedder = true ∧
    downEmbed [] = .error .embed ∧ (∃ r, upEmbed [] = .ok r) ∧
    (demoObj 5).vec ≠ none ∧ validateObjects ["a"] 0 [demoObj 5] = none := by
  refine ⟨rfl, rfl, rfl, ⟨_, rfl⟩, by decide, by decide⟩

end Vectory
