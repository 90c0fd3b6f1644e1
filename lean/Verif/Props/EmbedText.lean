import Verif.Model.Embed
import Verif.Props.Embed
import Verif.Props.Dimension
import Verif.Props.Ieee
/-!
# What the embedding service is asked and what its answers do: C79
-/
namespace Vectory
variable {V D : Type}

/-- the piece of text for one property. -/
def piece (F : Fmt V) (p : String × V) : String := p.1 ++ ": " ++ F.render p.2 ++ ","

/-- the properties with a value. -/
def present (F : Fmt V) (l : List (String × V)) : List (String × V) := l.filter (fun p => !F.isNil p.2)

theorem flat_toList (F : Fmt V) (l : List (String × V)) :
    (flatProperties F l).toList = (present F l).flatMap (fun p => (piece F p).toList) := by
  unfold flatProperties present
  have key : ∀ acc : String, (l.foldl (fun res p => if F.isNil p.2 then res else res ++ (p.1 ++ ": " ++ F.render p.2 ++ ",")) acc).toList =
      acc.toList ++ (l.filter (fun p => !F.isNil p.2)).flatMap (fun p => (piece F p).toList) := by
    induction l with
    | nil => intro acc; simp
    | cons p l ih =>
      intro acc
      rw [List.foldl_cons, ih]
      by_cases h : F.isNil p.2 = true
      · rw [if_pos h, List.filter_cons_of_neg (by simp [h])]
      · rw [if_neg h, List.filter_cons_of_pos (by simpa using h), List.flatMap_cons, String.toList_append, List.append_assoc]
        rfl
  rw [key]
  simp

theorem piece_toList (F : Fmt V) (p : String × V) : (piece F p).toList = p.1.toList ++ ':' :: ' ' :: ((F.render p.2).toList ++ [',']) := by
  unfold piece
  rw [String.toList_append, String.toList_append, String.toList_append]
  show p.1.toList ++ [':', ' '] ++ (F.render p.2).toList ++ [','] = _
  simp

/-- the part of a list up to a separator is determined. -/
theorem until_sep {α : Type} {x : α} : ∀ {a b r s : List α}, x ∉ a → x ∉ b → a ++ x :: r = b ++ x :: s → a = b ∧ r = s := by
  intro a
  induction a with
  | nil =>
    intro b r s _ hb h
    cases b with
    | nil => simpa using h
    | cons y b =>
      rw [List.nil_append, List.cons_append] at h
      injection h with h1 _
      exact absurd (h1 ▸ List.mem_cons_self) hb
  | cons y a ih =>
    intro b r s ha hb h
    cases b with
    | nil =>
      rw [List.nil_append, List.cons_append] at h
      injection h with h1 _
      exact absurd (h1 ▸ List.mem_cons_self) ha
    | cons z b =>
      rw [List.cons_append, List.cons_append] at h
      injection h with h1 h2
      obtain ⟨h3, h4⟩ := ih (fun m => ha (List.mem_cons_of_mem _ m)) (fun m => hb (List.mem_cons_of_mem _ m)) h2
      exact ⟨by rw [h1, h3], h4⟩

/-- C79: the text of an object with two properties depends on the order in which Go's map yields them (keys without a colon): there are two
orders with different texts. So the same object may get different vectors from one and the same service. -/
theorem C79_text_depends_on_order (F : Fmt V) (props : AMap String V) (p q : String × V) (hp : p ∈ props) (hq : q ∈ props)
    (hpn : F.isNil p.2 = false) (hqn : F.isNil q.2 = false) (hpq : p.1 ≠ q.1) (hp1 : ':' ∉ p.1.toList) (hq1 : ':' ∉ q.1.toList) :
    ∃ o1 o2 : List (String × V), o1.Perm props ∧ o2.Perm props ∧ flatProperties F o1 ≠ flatProperties F o2 := by
  obtain ⟨a, b, e1⟩ := List.append_of_mem hp
  obtain ⟨a', b', e2⟩ := List.append_of_mem hq
  refine ⟨p :: (a ++ b), q :: (a' ++ b'), ?_, ?_, ?_⟩
  · rw [e1]; exact List.perm_middle.symm
  · rw [e2]; exact List.perm_middle.symm
  · intro h
    have h := congrArg String.toList h
    rw [flat_toList, flat_toList] at h
    unfold present at h
    rw [List.filter_cons_of_pos (by simp [hpn]), List.filter_cons_of_pos (by simp [hqn]), List.flatMap_cons, List.flatMap_cons,
      piece_toList, piece_toList, List.append_assoc, List.append_assoc, List.cons_append, List.cons_append] at h
    have := (until_sep hp1 hq1 h).1
    exact hpq (String.toList_inj.mp this)

/-- C79: with at most one property that has a value, the text does not depend on the order. -/
theorem C79_one_property (F : Fmt V) (props : AMap String V) (h1 : (present F props).length ≤ 1) (o1 o2 : List (String × V))
    (p1 : o1.Perm props) (p2 : o2.Perm props) : flatProperties F o1 = flatProperties F o2 := by
  have e : ∀ o : List (String × V), o.Perm props → present F o = present F props := by
    intro o p
    have hp : (present F o).Perm (present F props) := p.filter _
    rcases hl : present F props with _ | ⟨x, _ | ⟨y, l⟩⟩
    · rw [hl] at hp; exact List.perm_nil.mp hp
    · rw [hl] at hp; exact List.perm_singleton.mp hp
    · rw [hl] at h1; simp at h1
  apply String.toList_inj.mp
  rw [flat_toList, flat_toList, e o1 p1, e o2 p2]

/-- C79: if keys contain no colon and printed values no comma, the text determines the properties that have a value, as they are printed,
and the order in which they came. -/
theorem C79_text_determines (F : Fmt V) : ∀ (o1 o2 : List (String × V)),
    (∀ p ∈ o1 ++ o2, ':' ∉ p.1.toList ∧ ',' ∉ (F.render p.2).toList) → flatProperties F o1 = flatProperties F o2 →
    (present F o1).map (fun p => (p.1, F.render p.2)) = (present F o2).map (fun p => (p.1, F.render p.2)) := by
  intro o1 o2 hok h
  have h := congrArg String.toList h
  rw [flat_toList, flat_toList] at h
  have h1 : ∀ p ∈ present F o1, ':' ∉ p.1.toList ∧ ',' ∉ (F.render p.2).toList := fun p hp =>
    hok p (List.mem_append_left _ (List.mem_filter.mp hp).1)
  have h2 : ∀ p ∈ present F o2, ':' ∉ p.1.toList ∧ ',' ∉ (F.render p.2).toList := fun p hp =>
    hok p (List.mem_append_right _ (List.mem_filter.mp hp).1)
  generalize present F o1 = l1 at *
  generalize present F o2 = l2 at *
  clear hok
  induction l1 generalizing l2 with
  | nil =>
    cases l2 with
    | nil => rfl
    | cons q l2 => rw [List.flatMap_cons, piece_toList] at h; simp at h
  | cons p l1 ih =>
    cases l2 with
    | nil => rw [List.flatMap_cons, piece_toList] at h; simp at h
    | cons q l2 =>
      rw [List.flatMap_cons, List.flatMap_cons, piece_toList, piece_toList, List.append_assoc, List.append_assoc, List.cons_append,
        List.cons_append] at h
      obtain ⟨k1, k2⟩ := until_sep (h1 p (by simp)).1 (h2 q (by simp)).1 h
      have k3 : (F.render p.2).toList ++ ',' :: l1.flatMap (fun p => (piece F p).toList) =
          (F.render q.2).toList ++ ',' :: l2.flatMap (fun p => (piece F p).toList) := by
        simpa using k2
      obtain ⟨k4, k5⟩ := until_sep (h1 p (by simp)).2 (h2 q (by simp)).2 k3
      rw [List.map_cons, List.map_cons, ih (fun p hp => h1 p (by simp [hp])) l2 (fun p hp => h2 p (by simp [hp])) k5,
        String.toList_inj.mp k1, String.toList_inj.mp k4]

/-- C79: without that, different properties have the same text: here `{"a": "1,b: 2"}` and `{"a": "1", "b": "2"}`; and a property whose value
is nil is not mentioned at all. -/
theorem C79_same_text (F : Fmt V) (v1 v2 v12 vn : V) (h1 : F.isNil v1 = false ∧ F.render v1 = "1") (h2 : F.isNil v2 = false ∧ F.render v2 = "2")
    (h12 : F.isNil v12 = false ∧ F.render v12 = "1,b: 2") (hn : F.isNil vn = true) :
    flatProperties F [("a", v12)] = flatProperties F [("a", v1), ("b", v2)] ∧ flatProperties F [("a", v1), ("c", vn)] = flatProperties F [("a", v1)] := by
  simp [flatProperties, h1, h2, h12, hn]

/-! ## Answers of the service -/

/-- a service that accepts everything and says nothing. -/
def noService : Embed V := fun _ => .ok []

/-- the objects, those without a vector taking one after the other from `vs`. -/
def filled : List (Object V) → List Vec → List (Object V)
  | [], _ => []
  | o :: os, vs =>
    match o.vec, vs with
    | none, v :: vs => { o with vec := some v } :: filled os vs
    | _, vs => o :: filled os vs

/-- the number of objects without a vector. -/
def missing (os : List (Object V)) : Nat := (os.filter (fun o => o.vec.isNone)).length

theorem assign_filled : ∀ (os : List (Object V)) (vs : List Vec), missing os ≤ vs.length →
    assignVectors os (vs.map some) = .ok (filled os vs) ∧ AllVectors (filled os vs) := by
  intro os
  induction os with
  | nil => intro vs _; exact ⟨rfl, fun o ho => nomatch ho⟩
  | cons o os ih =>
    intro vs h
    unfold missing at h ih
    cases ho : o.vec with
    | some v =>
      rw [List.filter_cons_of_neg (by simp [ho])] at h
      obtain ⟨i1, i2⟩ := ih vs h
      have e : filled (o :: os) vs = o :: filled os vs := by simp only [filled, ho]
      rw [e]
      refine ⟨?_, ?_⟩
      · simp only [assignVectors, ho, i1]; rfl
      · intro x hx
        rcases List.mem_cons.mp hx with rfl | hx
        · rw [ho]; simp
        · exact i2 x hx
    | none =>
      rw [List.filter_cons_of_pos (by simp [ho]), List.length_cons] at h
      cases vs with
      | nil => simp at h
      | cons v vs =>
        obtain ⟨i1, i2⟩ := ih vs (by simpa using h)
        have e : filled (o :: os) (v :: vs) = { o with vec := some v } :: filled os vs := by simp only [filled, ho]
        rw [e]
        refine ⟨?_, ?_⟩
        · simp only [List.map_cons, assignVectors, ho, i1]; rfl
        · intro x hx
          rcases List.mem_cons.mp hx with rfl | hx
          · simp
          · exact i2 x hx

theorem assign_short : ∀ (os : List (Object V)) (resp : List (Option Vec)), resp.length < missing os →
    assignVectors os resp = .error .indexOutOfRange := by
  intro os
  induction os with
  | nil => intro resp h; simp [missing] at h
  | cons o os ih =>
    intro resp h
    unfold missing at h ih
    cases ho : o.vec with
    | some v =>
      rw [List.filter_cons_of_neg (by simp [ho])] at h
      simp only [assignVectors, ho, ih resp h]
      rfl
    | none =>
      rw [List.filter_cons_of_pos (by simp [ho]), List.length_cons] at h
      cases resp with
      | nil => simp only [assignVectors, ho]
      | cons v resp =>
        simp only [assignVectors, ho, ih resp (by simpa using h)]
        rfl

theorem validate_filled (ms : List String) : ∀ (os : List (Object V)) (vs : List Vec) (i : Nat),
    validateObjects ms i (filled os vs) = validateObjects ms i os := by
  intro os
  induction os with
  | nil => intro vs i; rfl
  | cons o os ih =>
    intro vs i
    have e : ∃ w vs', filled (o :: os) vs = { o with vec := w } :: filled os vs' := by
      cases ho : o.vec with
      | some v => exact ⟨some v, vs, by simp only [filled, ho]; rw [← ho]⟩
      | none =>
        cases vs with
        | nil => exact ⟨none, [], by simp only [filled, ho]; rw [← ho]⟩
        | cons v vs => exact ⟨some v, vs, by simp only [filled, ho]⟩
    obtain ⟨w, vs', e⟩ := e
    rw [e]
    simp only [validateObjects, ih]
    rfl

theorem embed_filled {c : Coll} {embed : Embed V} {os : List (Object V)} {vs : List Vec} (hem : c.hasEmbedder = true)
    (h : embed (os.filter (fun o => o.vec.isNone)) = .ok (vs.map some)) (hl : missing os ≤ vs.length) :
    embedObjectsIfNeeded c embed os = .ok (.ok (filled os vs)) ∧ embedObjectsIfNeeded c noService (filled os vs) = .ok (.ok (filled os vs)) := by
  obtain ⟨h1, h2⟩ := assign_filled os vs hl
  constructor
  · unfold embedObjectsIfNeeded
    rw [hem, if_neg (by simp), h]
    simp only [h1]
    rfl
  · exact C55_vectors_kept c noService _ h2 (Or.inr ⟨[], rfl⟩)

/-- C79: an answer with at least as many vectors as were asked for makes a call exactly what it would be if the caller had supplied these
vectors, one after the other to the objects that had none; further vectors in the answer are ignored. -/
theorem C79_as_if_supplied (L : Lib V D) (c : Coll) (hc : c.closed = false) (hem : c.hasEmbedder = true) (embed : Embed V) :
    (∀ (os : List (Object V)) (vs : List Vec) envs ff, validateObjects c.mappings 0 os = none →
      embed (os.filter (fun o => o.vec.isNone)) = .ok (vs.map some) → missing os ≤ vs.length →
      c.insertBatch L os embed envs ff = c.insertBatch L (filled os vs) noService envs ff) ∧
    (∀ (o : Object V) v vs env ff, validateObjects c.mappings 0 [o] = none → o.vec = none → embed [o] = .ok ((v :: vs).map some) →
      c.insert L o embed env ff = c.insert L { o with vec := some v } noService env ff) ∧
    (∀ (o : Object V) v vs k, o.vec = none → embed [o] = .ok ((v :: vs).map some) →
      c.semanticSearch L o embed k = c.semanticSearch L { o with vec := some v } noService k) := by
  have one : ∀ (o : Object V) v vs, o.vec = none → embed [o] = .ok ((v :: vs).map some) →
      embedObjectsIfNeeded c embed [o] = .ok (.ok [{ o with vec := some v }]) ∧
      embedObjectsIfNeeded c noService [{ o with vec := some v }] = .ok (.ok [{ o with vec := some v }]) := by
    intro o v vs ho h
    have e : [o].filter (fun o => o.vec.isNone) = [o] := by simp [ho]
    have := embed_filled (c := c) (embed := embed) (os := [o]) (vs := v :: vs) hem (by rw [e]; exact h)
      (by unfold missing; rw [e]; simp)
    simpa only [filled, ho] using this
  refine ⟨?_, ?_, ?_⟩
  · intro os vs envs ff hval h hl
    obtain ⟨h1, h2⟩ := embed_filled hem h hl
    unfold Coll.insertBatch
    rw [validate_filled, hval, h1, h2]
    rw [if_neg (by simp [hc]), if_neg (by simp [hc])]
    rfl
  · intro o v vs env ff hval ho h
    obtain ⟨h1, h2⟩ := one o v vs ho h
    have hval' : validateObjects c.mappings 0 [{ o with vec := some v }] = none := by
      have := validate_filled c.mappings [o] [v] 0
      simp only [filled, ho] at this
      rw [this]; exact hval
    unfold Coll.insert
    rw [hval, hval', h1, h2]
    rw [if_neg (by simp [hc]), if_neg (by simp [hc])]
    rfl
  · intro o v vs k ho h
    obtain ⟨h1, h2⟩ := one o v vs ho h
    unfold Coll.semanticSearch
    rw [h1, h2]

/-- C79: an answer with too few vectors makes the call panic, whatever else is in it. -/
theorem C79_short_answer (L : Lib V D) (c : Coll) (hc : c.closed = false) (hem : c.hasEmbedder = true) (embed : Embed V) :
    (∀ (os : List (Object V)) resp envs ff, validateObjects c.mappings 0 os = none → embed (os.filter (fun o => o.vec.isNone)) = .ok resp →
      resp.length < missing os → c.insertBatch L os embed envs ff = .error .indexOutOfRange) ∧
    (∀ (o : Object V) env ff, validateObjects c.mappings 0 [o] = none → o.vec = none → embed [o] = .ok [] →
      c.insert L o embed env ff = .error .indexOutOfRange) ∧
    (∀ (o : Object V) k, o.vec = none → embed [o] = .ok [] → c.semanticSearch L o embed k = .error (.panic .indexOutOfRange)) := by
  have one : ∀ (os : List (Object V)) resp, embed (os.filter (fun o => o.vec.isNone)) = .ok resp → resp.length < missing os →
      embedObjectsIfNeeded c embed os = .error .indexOutOfRange := by
    intro os resp h hl
    unfold embedObjectsIfNeeded
    rw [hem, if_neg (by simp), h]
    simp only [assign_short os resp hl]
    rfl
  have e : ∀ o : Object V, o.vec = none → [o].filter (fun o => o.vec.isNone) = [o] := fun o ho => by simp [ho]
  refine ⟨?_, ?_, ?_⟩
  · intro os resp envs ff hval h hl
    unfold Coll.insertBatch
    rw [hval, one os resp h hl, if_neg (by simp [hc])]
    rfl
  · intro o env ff hval ho h
    unfold Coll.insert
    rw [hval, one [o] [] (by rw [e o ho]; exact h) (by unfold missing; rw [e o ho]; simp), if_neg (by simp [hc])]
    rfl
  · intro o k ho h
    unfold Coll.semanticSearch
    rw [one [o] [] (by rw [e o ho]; exact h) (by unfold missing; rw [e o ho]; simp), if_neg (by simp [hc])]
    rfl

theorem embed_null {c : Coll} {embed : Embed V} {o : Object V} (hem : c.hasEmbedder = true) (ho : o.vec = none) {rest : List (Option Vec)}
    (h : embed [o] = .ok (none :: rest)) : embedObjectsIfNeeded c embed [o] = .ok (.ok [o]) := by
  have e : [o].filter (fun o => o.vec.isNone) = [o] := by simp [ho]
  unfold embedObjectsIfNeeded
  rw [hem, if_neg (by simp), e, h]
  have : ({ o with vec := none } : Object V) = o := by rw [← ho]
  simp only [assignVectors, ho]
  rw [this]
  rfl

/-- C79: a null in the answer is an empty vector: `Insert` does to the collection what it does for an object whose vector is empty. -/
theorem C79_null_is_empty (L : Lib V D) (c : Coll) (hc : c.closed = false) (hem : c.hasEmbedder = true) (embed : Embed V) (o : Object V)
    (ho : o.vec = none) (rest : List (Option Vec)) (h : embed [o] = .ok (none :: rest)) (hval : validateObjects c.mappings 0 [o] = none)
    (env : InsEnv) (ff : Bool) :
    c.insert L o embed env ff =
      (c.insert L { o with vec := some [] } noService env ff).map (fun r => (r.1, { r.2.1 with vec := none }, r.2.2)) := by
  have hval' : validateObjects c.mappings 0 [{ o with vec := some [] }] = none := by
    have := validate_filled c.mappings [o] [[]] 0
    simp only [filled, ho] at this
    rw [this]; exact hval
  have h2 : embedObjectsIfNeeded c noService [{ o with vec := some [] }] = .ok (.ok [{ o with vec := some [] }]) :=
    C55_vectors_kept c noService _ (fun x hx => by rcases List.mem_singleton.mp hx with rfl; simp) (Or.inr ⟨[], rfl⟩)
  unfold Coll.insert
  rw [hval, hval', embed_null hem ho h, h2, if_neg (by simp [hc]), if_neg (by simp [hc])]
  simp only [ok_bind]
  have one : c.insertOne L o env = (c.insertOne L { o with vec := some [] } env).map (fun r => (r.1, { r.2.1 with vec := none }, r.2.2)) := by
    unfold Coll.insertOne
    obtain ⟨i, pr, vv⟩ := o
    cases ho
    dsimp only
    cases (fetchAndInc c.counter env.counterFails).2 with
    | error e => rfl
    | ok id =>
      dsimp only
      have e : putObject L.json c.stores { id := id, props := pr, vec := none } env.put =
          putObject L.json c.stores { id := id, props := pr, vec := some [] } env.put := by
        unfold putObject serializeProperties
        rfl
      rw [e]
      cases (putObject L.json c.stores { id := id, props := pr, vec := some [] } env.put).2 with
      | some e => rfl
      | none =>
        dsimp only [Option.getD]
        cases c.index.insert L.metric [] id env.level with
        | error p => rfl
        | ok idx => rfl
  rw [one]
  cases c.insertOne L { o with vec := some [] } env with
  | error p => rfl
  | ok r =>
    obtain ⟨c1, o1, e⟩ := r
    cases e <;> rfl

theorem w79_null_destroys (L : Lib V D) (dim : Nat) (hdim : 0 < dim) (c : Coll) {S : Prop} (i : WInv S L dim (fun _ => True) c) (dv : DInv S c.index) (hm : ReadsSecond L.metric)
    (hc : c.closed = false) (hcc : c.counter.closed = false) (hem : c.hasEmbedder = true) (id : UInt64) (x : Object V)
    (hx : c.get L [id] = .ok [x]) (embed : Embed V) (o : Object V) (ho : o.vec = none) (rest : List (Option Vec))
    (h : embed [o] = .ok (none :: rest)) (hval : validateObjects c.mappings 0 [o] = none) (hj : (L.json.marshal o.props).isSome)
    (level : Nat) (ff : Bool) :
    c.insert L o embed { level := level } ff = .error .indexOutOfRange ∧
    ∃ d, c.crashInsert L o level .vector = .ok d ∧ openColl c.index.cfg c.mappings c.hasEmbedder d = .error (.panic .nilDeref) := by
  have h2 : embedObjectsIfNeeded c noService [{ o with vec := some [] }] = .ok (.ok [{ o with vec := some [] }]) :=
    C55_vectors_kept c noService _ (fun x hx => by rcases List.mem_singleton.mp hx with rfl; simp) (Or.inr ⟨[], rfl⟩)
  have hval' : validateObjects c.mappings 0 [{ o with vec := some [] }] = none := by
    have := validate_filled c.mappings [o] [[]] 0
    simp only [filled, ho] at this
    rw [this]; exact hval
  obtain ⟨h3, d, h4, h5⟩ := w69_short_vector_destroys L dim c i dv hm hc hcc id x hx { o with vec := some [] } [] rfl (by simpa using hdim) hval' hj
    noService h2 level ff
  refine ⟨?_, d, ?_, h5⟩
  · rw [C79_null_is_empty L c hc hem embed o ho rest h hval, h3]
    rfl
  · rw [← h4]
    unfold Coll.crashInsert putObject serializeProperties
    rw [ho]
    rfl

/-- C79: so in a collection that holds a readable object, one null in an answer of the service makes `Insert` panic after its writes, and
what is on disk then can never be opened again. -/
theorem C79_null_destroys (L : Lib V D) (dim : Nat) (hdim : 0 < dim) (c : Coll) (hr : ReachAny L dim c) (hm : ReadsSecond L.metric)
    (hc : c.closed = false) (hcc : c.counter.closed = false) (hem : c.hasEmbedder = true) (id : UInt64) (x : Object V)
    (hx : c.get L [id] = .ok [x]) (embed : Embed V) (o : Object V) (ho : o.vec = none) (rest : List (Option Vec))
    (h : embed [o] = .ok (none :: rest)) (hval : validateObjects c.mappings 0 [o] = none) (hj : (L.json.marshal o.props).isSome)
    (level : Nat) (ff : Bool) :
    c.insert L o embed { level := level } ff = .error .indexOutOfRange ∧
    ∃ d, c.crashInsert L o level .vector = .ok d ∧ openColl c.index.cfg c.mappings c.hasEmbedder d = .error (.panic .nilDeref) :=
  w79_null_destroys L dim hdim c hr.weak.1 hr.weak.2 hm hc hcc hem id x hx embed o ho rest h hval hj level ff

/-! ## A service that always gives the same vector for the same text -/

/-- the service computes a function of the text. -/
def pureService (f : String → Vec) : Service := fun texts => .ok (texts.map (fun t => some (f t)))

/-- Go may yield the properties in any order, and in a different one each time. -/
def Orders (ord : Nat → Object V → List (String × V)) : Prop := ∀ i o, (ord i o).Perm o.props

theorem text2vec_one (F : Fmt V) (f : String → Vec) (ord : Nat → Object V → List (String × V)) (o : Object V) :
    text2vec F (pureService f) ord [o] = .ok [some (f (flatProperties F (ord 0 o)))] := rfl

/-- C79: an object without a vector is stored with the vector of its text, for one of the orders of its properties. -/
theorem C79_stored_vector (L : Lib V D) (c c1 : Coll) (F : Fmt V) (f : String → Vec) (ord : Nat → Object V → List (String × V)) (ho : Orders ord)
    (o o1 : Object V) (hov : o.vec = none) (env : InsEnv) (ff : Bool)
    (h : c.insert L o (text2vec F (pureService f) ord) env ff = .ok (c1, o1, none)) :
    ∃ order : List (String × V), order.Perm o.props ∧ o1.vec = some (f (flatProperties F order)) := by
  obtain ⟨_, v, rest, h1, h2⟩ := (C12_insert_vector L c c1 o o1 _ env ff h).2 hov
  rw [text2vec_one] at h1
  injection h1 with h1
  injection h1 with h1 _
  exact ⟨ord 0 o, ho 0 o, by rw [h2, h1]⟩

/-- C79: if the object has at most one property with a value, a search for an object with the same properties is a search for the stored
vector, whatever the orders. -/
theorem C79_found_by_properties (L : Lib V D) (c c1 : Coll) (F : Fmt V) (f : String → Vec) (ord ord' : Nat → Object V → List (String × V))
    (ho : Orders ord) (ho' : Orders ord') (o o1 o2 : Object V) (hov : o.vec = none) (hov2 : o2.vec = none) (hsame : o2.props = o.props)
    (hone : (present F o.props).length ≤ 1) (env : InsEnv) (ff : Bool)
    (h : c.insert L o (text2vec F (pureService f) ord) env ff = .ok (c1, o1, none)) :
    queryVector (text2vec F (pureService f) ord') o2 = o1.vec := by
  obtain ⟨order, hp, e⟩ := C79_stored_vector L c c1 F f ord ho o o1 hov env ff h
  have h2 : queryVector (text2vec F (pureService f) ord') o2 = some (f (flatProperties F (ord' 0 o2))) := by
    unfold queryVector
    rw [hov2, text2vec_one]
    rfl
  have hp2 : (ord' 0 o2).Perm o.props := by rw [← hsame]; exact ho' 0 o2
  rw [h2, e, C79_one_property F o.props hone _ _ hp2 hp]

/-- values print as one digit; none is nil. -/
def demoFmt : Fmt UInt8 := { isNil := fun _ => false, render := fun v => if v = 1 then "1" else "2" }

/-- an object without a vector: `{"a": 1, "b": 2}`. -/
def twoProps : Object UInt8 := { id := 0, props := [("a", 1), ("b", 2)], vec := none }

/-- the vector `(1)` for one text, `(4)` for the others. -/
def textVec (t : String) : Vec := if t = "a: 1,b: 2," then [f1] else [f4]

def ordAB : Nat → Object UInt8 → List (String × UInt8) := fun _ o => o.props
def ordBA : Nat → Object UInt8 → List (String × UInt8) := fun _ o => o.props.reverse

/-- C79: with two properties it is not: the object is inserted, the search for the same object finds it at a distance of 3, although the
service computes a function of the text. -/
theorem C79_other_vector : Orders ordAB ∧ Orders ordBA ∧
    ∃ c1 o1, (Coll.new demoCfg ["a", "b"] true).insert eucLib32 twoProps (text2vec demoFmt (pureService textVec) ordAB) {} false = .ok (c1, o1, none) ∧
      hitList (c1.semanticSearch eucLib32 twoProps (text2vec demoFmt (pureService textVec) ordBA) 1) = some [(0, 0x40400000)] := by
  refine ⟨fun _ o => List.Perm.refl _, fun _ o => List.reverse_perm _, ?_⟩
  have h : (match (Coll.new demoCfg ["a", "b"] true).insert eucLib32 twoProps (text2vec demoFmt (pureService textVec) ordAB) {} false with
      | .ok (c1, _, none) => hitList (c1.semanticSearch eucLib32 twoProps (text2vec demoFmt (pureService textVec) ordBA) 1) == some [(0, 0x40400000)]
      | _ => false) = true := by decide +kernel
  split at h
  · rename_i c1 o1 e
    exact ⟨c1, o1, e, by simpa using h⟩
  · cases h

/-- the hypotheses are met: a reachable collection with an embedder that holds an object, a null answer and a short one. -/
example : ∃ c x, ReachAny eucLib32 1 c ∧ ReadsSecond eucLib32.metric ∧ c.closed = false ∧ c.counter.closed = false ∧ c.hasEmbedder = true ∧
    c.get eucLib32 [0] = .ok [x] ∧ validateObjects c.mappings 0 [twoProps] = none ∧ (eucLib32.json.marshal twoProps.props).isSome ∧
    (present demoFmt [("a", 1)]).length ≤ 1 ∧ missing [twoProps] = 1 := by
  have hr : Reach eucLib32 1 ((playLegal eucLib32 1 (Coll.new demoCfg ["a", "b"] true)
      [.insert twoProps (text2vec demoFmt (pureService textVec) ordAB) {} false]).getD (Coll.new demoCfg ["a", "b"] true, [])).1 := by
    refine ⟨demoCfg, ["a", "b"], true, ((playLegal eucLib32 1 (Coll.new demoCfg ["a", "b"] true)
        [.insert twoProps (text2vec demoFmt (pureService textVec) ordAB) {} false]).getD (Coll.new demoCfg ["a", "b"] true, [])).2,
      setup_euc32 1 (by decide), ?_⟩
    · cases h : playLegal eucLib32 1 (Coll.new demoCfg ["a", "b"] true) [.insert twoProps (text2vec demoFmt (pureService textVec) ordAB) {} false] with
      | none => exact .nil _
      | some r => exact playLegal_runs _ _ _ _ h
  have hg : (((playLegal eucLib32 1 (Coll.new demoCfg ["a", "b"] true)
      [.insert twoProps (text2vec demoFmt (pureService textVec) ordAB) {} false]).getD (Coll.new demoCfg ["a", "b"] true, [])).1.get eucLib32 [0]).toOption.map
      (List.map Object.vec) = some [some [f1]] := by decide +kernel
  cases e : ((playLegal eucLib32 1 (Coll.new demoCfg ["a", "b"] true)
      [.insert twoProps (text2vec demoFmt (pureService textVec) ordAB) {} false]).getD (Coll.new demoCfg ["a", "b"] true, [])).1.get eucLib32 [0] with
  | error _ => rw [e] at hg; cases hg
  | ok xs =>
    rw [e] at hg
    rcases xs with _ | ⟨x, _ | ⟨y, ys⟩⟩
    · exact absurd hg (by simp [Except.toOption])
    · exact ⟨_, x, hr.any, reads_second (o := ieee) (t := "euclidean_distance") rfl, by decide +kernel, by decide +kernel, by decide +kernel, e,
        by decide +kernel, by decide +kernel, by decide, by decide⟩
    · exact absurd hg (by simp [Except.toOption])

end Vectory
