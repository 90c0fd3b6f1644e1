import Verif.Props.Search
/-! # Distance functions and ranking: C44, C45 -/
namespace Vectory
variable {V : Type}

/-- `f(a₀,b₀) + f(a₁,b₁) + …`, added from left to right starting with zero (spec). -/
def sumOver (o : FloatOps) (f : F32 → F32 → F32) (v1 v2 : Vec) : F32 := (List.zipWith f v1 v2).foldl o.add o.zero

/-- the squared difference. -/
def sqDiff (o : FloatOps) (a b : F32) : F32 := o.mul (o.sub a b) (o.sub a b)

theorem euclidLoop_sum (o : FloatOps) : ∀ (v1 v2 : Vec) (acc : F32), v1.length ≤ v2.length →
    euclidLoop o acc v1 v2 = .ok ((List.zipWith (sqDiff o) v1 v2).foldl o.add acc) := by
  intro v1
  induction v1 with
  | nil => intro v2 acc _; simp [euclidLoop]
  | cons a v1 ih =>
    intro v2 acc h
    cases v2 with
    | nil => simp at h
    | cons b v2 =>
      simp only [euclidLoop, List.zipWith_cons_cons, List.foldl_cons]
      exact ih v2 _ (by simpa using h)

theorem euclidLoop_short (o : FloatOps) : ∀ (v1 v2 : Vec) (acc : F32), v2.length < v1.length →
    euclidLoop o acc v1 v2 = .error .indexOutOfRange := by
  intro v1
  induction v1 with
  | nil => intro v2 acc h; simp at h
  | cons a v1 ih =>
    intro v2 acc h
    cases v2 with
    | nil => rfl
    | cons b v2 => simp only [euclidLoop]; exact ih v2 _ (by simpa using h)

theorem dotLoop_sum (o : FloatOps) : ∀ (n : Nat) (v1 v2 : Vec) (acc : F32), v1.length = 8 * n → v1.length ≤ v2.length →
    dotLoop o acc v1 v2 = .ok ((List.zipWith o.mul v1 v2).foldl o.add acc) := by
  intro n
  induction n with
  | zero =>
    intro v1 v2 acc h _
    have : v1 = [] := List.eq_nil_of_length_eq_zero h
    subst this
    simp [dotLoop]
  | succ n ih =>
    intro v1 v2 acc h hl
    rcases v1 with _ | ⟨a0, _ | ⟨a1, _ | ⟨a2, _ | ⟨a3, _ | ⟨a4, _ | ⟨a5, _ | ⟨a6, _ | ⟨a7, v1⟩⟩⟩⟩⟩⟩⟩⟩ <;>
      simp only [List.length_cons, List.length_nil] at h <;> try omega
    rcases v2 with _ | ⟨b0, _ | ⟨b1, _ | ⟨b2, _ | ⟨b3, _ | ⟨b4, _ | ⟨b5, _ | ⟨b6, _ | ⟨b7, v2⟩⟩⟩⟩⟩⟩⟩⟩ <;>
      simp only [List.length_cons, List.length_nil] at hl <;> try omega
    simp only [dotLoop, List.zipWith_cons_cons, List.foldl_cons]
    exact ih v1 v2 _ (by omega) (by omega)

theorem dotLoop_panic (o : FloatOps) : ∀ (n : Nat) (v1 v2 : Vec) (acc : F32), v1.length ≤ n → v1.length % 8 ≠ 0 →
    dotLoop o acc v1 v2 = .error .indexOutOfRange := by
  intro n
  induction n using Nat.strongRecOn with
  | _ n ih =>
    intro v1 v2 acc h hm
    rcases v1 with _ | ⟨a0, _ | ⟨a1, _ | ⟨a2, _ | ⟨a3, _ | ⟨a4, _ | ⟨a5, _ | ⟨a6, _ | ⟨a7, v1⟩⟩⟩⟩⟩⟩⟩⟩
    all_goals try rfl
    · simp at hm
    · rcases v2 with _ | ⟨b0, _ | ⟨b1, _ | ⟨b2, _ | ⟨b3, _ | ⟨b4, _ | ⟨b5, _ | ⟨b6, _ | ⟨b7, v2⟩⟩⟩⟩⟩⟩⟩⟩
      all_goals try rfl
      simp only [dotLoop]
      simp only [List.length_cons] at h hm
      exact ih v1.length (by omega) v1 v2 _ (by omega) (by omega)

/-- C44, Euclidean distance: for vectors of the same length the result is the root of the sum of all squared differences. -/
theorem C44_euclidean (o : FloatOps) (v1 v2 : Vec) (h : v1.length = v2.length) :
    euclideanDistance o v1 v2 = .ok (o.sqrt (sumOver o (sqDiff o) v1 v2)) := by
  unfold euclideanDistance
  rw [euclidLoop_sum o v1 v2 _ (by omega)]
  rfl

/-- C44, inner product, for lengths divisible by eight: the result is the sum of all products. Full statement: for every pair
of equal lengths. Excluded: the other lengths, for which it is false (`C44_dot_panics`). -/
theorem C44_dot (o : FloatOps) (v1 v2 : Vec) (h : v1.length = v2.length) (h8 : v1.length % 8 = 0) :
    dot o v1 v2 = .ok (sumOver o o.mul v1 v2) :=
  dotLoop_sum o (v1.length / 8) v1 v2 _ (by omega) (by omega)

/-- C44 is false of `Dot`: for every length not divisible by eight it panics. -/
theorem C44_dot_panics (o : FloatOps) (v1 v2 : Vec) (h8 : v1.length % 8 ≠ 0) :
    dot o v1 v2 = .error .indexOutOfRange := dotLoop_panic o _ v1 v2 _ (Nat.le_refl _) h8

example : ([1, 2, 3] : Vec).length = ([4, 5, 6] : Vec).length ∧ ([1, 2, 3] : Vec).length % 8 ≠ 0 ∧
    ([1, 2, 3, 4, 5, 6, 7, 8] : Vec).length % 8 = 0 := by decide

/-- the positions of a pairwise statement carry membership. -/
theorem pairwise_mem {α : Type} {R : α → α → Prop} {l : List α} (h : l.Pairwise R) :
    l.Pairwise (fun a b => a ∈ l ∧ b ∈ l ∧ R a b) := by
  induction l with
  | nil => exact .nil
  | cons x l ih =>
    obtain ⟨h1, h2⟩ := List.pairwise_cons.mp h
    refine List.pairwise_cons.mpr ⟨fun y hy => ⟨by simp, by simp [hy], h1 y hy⟩, ?_⟩
    exact (ih h2).imp (fun ⟨a, b, c⟩ => ⟨List.mem_cons_of_mem _ a, List.mem_cons_of_mem _ b, c⟩)

/-- hits in order of the distance function, in terms of the stored vectors. -/
theorem ranked (L : Lib V F32) (dim : Nat) (c : Coll) {S : Prop} {X : UInt64 → Prop} (i : WInv S L dim X c)
    (ob : Object V) (embed : Embed V) (w : ∀ q, queryVector embed ob = some q → Ranks L c q) (k : Int) (he : EmbedOK c embed dim [ob]) (r : SearchResult V F32)
    (h : c.semanticSearch L ob embed k = .ok r) :
    ∃ q, queryVector embed ob = some q ∧
      r.objects.Pairwise (fun a b => ∃ xa xb va vb da db, c.get L [a.id] = .ok [xa] ∧ c.get L [b.id] = .ok [xb] ∧
        xa.vec = some va ∧ xb.vec = some vb ∧ L.metric.dist va q = .ok da ∧ L.metric.dist vb q = .ok db ∧ L.metric.lt db da = false) := by
  obtain ⟨q, hq, hd⟩ := w17_true_distance L dim c i ob embed k he r h
  refine ⟨q, hq, (pairwise_mem (w16_well_formed L dim c i ob embed w k he r h).2.2.2.1).imp ?_⟩
  intro a b ⟨ha, hb, hab⟩
  obtain ⟨xa, va, a1, a2, a3⟩ := hd a ha
  obtain ⟨xb, vb, b1, b2, b3⟩ := hd b hb
  exact ⟨xa, xb, va, vb, _, _, a1, b1, a2, b2, a3, b3, hab⟩

theorem w45_euclidean (o : FloatOps) (L : Lib V F32) (hm : metricOf o "euclidean_distance" = some L.metric)
    (dim : Nat) (c : Coll) {S : Prop} (i : WInv S L dim (fun _ => True) c)
    (ob : Object V) (embed : Embed V) (w : ∀ q, queryVector embed ob = some q → Ranks L c q) (k : Int) (he : EmbedOK c embed dim [ob]) (r : SearchResult V F32)
    (h : c.semanticSearch L ob embed k = .ok r) :
    ∃ q, queryVector embed ob = some q ∧
      r.objects.Pairwise (fun a b => ∃ xa xb va vb da db, c.get L [a.id] = .ok [xa] ∧ c.get L [b.id] = .ok [xb] ∧
        xa.vec = some va ∧ xb.vec = some vb ∧ euclideanDistance o va q = .ok da ∧ euclideanDistance o vb q = .ok db ∧
        o.lt db da = false) := by
  have hM : L.metric = { lt := o.lt, dist := euclideanDistance o } := by
    have : metricOf o "euclidean_distance" = some { lt := o.lt, dist := euclideanDistance o } := by
      unfold metricOf; rw [if_neg (by decide), if_pos rfl]
    rw [this] at hm; exact (Option.some.inj hm).symm
  have := ranked L dim c i ob embed w k he r h
  rw [hM] at this
  exact this

/-- C45, Euclidean collections: hits are ranked by the Euclidean distance of their stored vectors to the query, nearest
first. Full statement: also for `dot_product`, most similar first; that is false (`C45_dot_ranks_backwards`). -/
theorem C45_euclidean (o : FloatOps) (L : Lib V F32) (hm : metricOf o "euclidean_distance" = some L.metric)
    (dim : Nat) (c : Coll) (hr : ReachAny L dim c)
    (ob : Object V) (embed : Embed V) (w : ∀ q, queryVector embed ob = some q → Ranks L c q) (k : Int) (he : EmbedOK c embed dim [ob]) (r : SearchResult V F32)
    (h : c.semanticSearch L ob embed k = .ok r) :
    ∃ q, queryVector embed ob = some q ∧
      r.objects.Pairwise (fun a b => ∃ xa xb va vb da db, c.get L [a.id] = .ok [xa] ∧ c.get L [b.id] = .ok [xb] ∧
        xa.vec = some va ∧ xb.vec = some vb ∧ euclideanDistance o va q = .ok da ∧ euclideanDistance o vb q = .ok db ∧
        o.lt db da = false) :=
  w45_euclidean o L hm dim c hr.weak.1 ob embed w k he r h

/-- C45 is false of `dot_product` collections: hits come with the smallest inner product (the least similar vector) first. -/
theorem C45_dot_ranks_backwards (o : FloatOps) (L : Lib V F32) (hm : metricOf o "dot_product" = some L.metric)
    (dim : Nat) (c : Coll) (hr : ReachAny L dim c)
    (ob : Object V) (embed : Embed V) (w : ∀ q, queryVector embed ob = some q → Ranks L c q) (k : Int) (he : EmbedOK c embed dim [ob]) (r : SearchResult V F32)
    (h : c.semanticSearch L ob embed k = .ok r) :
    ∃ q, queryVector embed ob = some q ∧
      r.objects.Pairwise (fun a b => ∃ xa xb va vb da db, c.get L [a.id] = .ok [xa] ∧ c.get L [b.id] = .ok [xb] ∧
        xa.vec = some va ∧ xb.vec = some vb ∧ dot o va q = .ok da ∧ dot o vb q = .ok db ∧ o.lt db da = false) := by
  have hM : L.metric = { lt := o.lt, dist := dot o } := by
    have : metricOf o "dot_product" = some { lt := o.lt, dist := dot o } := by
      unfold metricOf; rw [if_pos rfl]
    rw [this] at hm; exact (Option.some.inj hm).symm
  have := ranked L dim c hr.weak.1 ob embed w k he r h
  rw [hM] at this
  exact this

/-! A concrete collection: integers in place of floats, three vectors of dimension eight. -/

/-- integer arithmetic in place of `float32` (the theorems hold for any operations). -/
def intOps : FloatOps :=
  { zero := 0, add := (· + ·), sub := (· - ·), mul := (· * ·), sqrt := id, lt := fun a b => decide (a < b) }

theorem intOps_ord : Ord intOps.lt :=
  ⟨fun a b h => by simp [intOps, UInt32.lt_iff_toNat_lt, UInt32.le_iff_toNat_le] at *; omega,
   fun a b c h1 h2 => by simp [intOps, UInt32.lt_iff_toNat_lt, UInt32.le_iff_toNat_le] at *; omega⟩

/-- a collection using the inner product. -/
def dotLib : Lib UInt8 F32 := { json := demoJson, metric := { lt := intOps.lt, dist := dot intOps } }

def obj8 (x : UInt32) : Object UInt8 := { id := 0, props := [("a", 7)], vec := some [x, 0, 0, 0, 0, 0, 0, 0] }

def c45Ops : List (Op UInt8) := [5, 1, 9].map (fun x => .insert (obj8 x) noEmbed {} false)

/-- the state after three inserts of vectors with first component 5, 1 and 9. -/
def c45State : Coll :=
  match playLegal dotLib 8 (Coll.new demoCfg ["a"] false) c45Ops with
  | some (c, _) => c
  | none => Coll.new demoCfg ["a"] false

theorem c45_reach : Reach dotLib 8 c45State := by
  have hs : Setup dotLib 8 demoCfg := by
    refine ⟨demoJson_ok, fun a b ha hb => ?_, by decide, by constructor <;> decide⟩
    exact ⟨_, C44_dot intOps a b (by omega) (by omega)⟩
  unfold c45State
  cases h : playLegal dotLib 8 (Coll.new demoCfg ["a"] false) c45Ops with
  | none => exact ⟨demoCfg, ["a"], false, [], hs, .nil _⟩
  | some r => exact ⟨demoCfg, ["a"], false, r.2, hs, playLegal_runs _ _ _ _ h⟩

/-- C45 fails on a reachable collection: the query `(1,0,…)` has inner products 5, 1, 9 with the three stored vectors; a
search for one neighbour returns the least similar, and a search for three lists them least similar first. -/
theorem C45_dot_returns_least_similar :
    Reach dotLib 8 c45State ∧ metricOf intOps "dot_product" = some dotLib.metric ∧
    hitList (c45State.semanticSearch dotLib (obj8 1) noEmbed 1) = some [(1, 1)] ∧
    hitList (c45State.semanticSearch dotLib (obj8 1) noEmbed 3) = some [(1, 1), (0, 5), (2, 9)] :=
  ⟨c45_reach, rfl, by decide +kernel, by decide +kernel⟩

example : ReachAny dotLib 8 c45State ∧ (∀ q, Ranks dotLib c45State q) ∧ EmbedOK c45State (noEmbed (V := UInt8)) 8 [obj8 1] := by
  refine ⟨c45_reach.any, fun _ => intOps_ord.on _, .ok [obj8 1], ?_, ?_⟩
  · unfold embedObjectsIfNeeded; rw [show c45State.hasEmbedder = false by decide +kernel]; rfl
  · intro os h o ho; cases h; simp at ho; subst ho; rfl

/-- the same collection with the Euclidean distance. -/
def eucLib : Lib UInt8 F32 := { json := demoJson, metric := { lt := intOps.lt, dist := euclideanDistance intOps } }

example : ∃ c, Reach eucLib 8 c ∧ metricOf intOps "euclidean_distance" = some eucLib.metric ∧
    hitList (c.semanticSearch eucLib (obj8 1) noEmbed 3) = some [(1, 0), (0, 16), (2, 64)] := by
  have hs : Setup eucLib 8 demoCfg := by
    refine ⟨demoJson_ok, fun a b ha hb => ?_, by decide, by constructor <;> decide⟩
    exact ⟨_, C44_euclidean intOps a b (by omega)⟩
  cases h : playLegal eucLib 8 (Coll.new demoCfg ["a"] false) c45Ops with
  | none => exact absurd h (by intro hh; exact absurd (congrArg Option.isSome hh) (by decide +kernel))
  | some r =>
    refine ⟨r.1, ⟨demoCfg, ["a"], false, r.2, hs, playLegal_runs _ _ _ _ h⟩, rfl, ?_⟩
    have : (playLegal eucLib 8 (Coll.new demoCfg ["a"] false) c45Ops).map
      (fun r => hitList (r.1.semanticSearch eucLib (obj8 1) noEmbed 3)) = some (some [(1, 0), (0, 16), (2, 64)]) := by decide +kernel
    rw [h] at this
    simpa using this

end Vectory
