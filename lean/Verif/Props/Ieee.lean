import Verif.Lemmas.Ieee
import Verif.Lemmas.Given
import Verif.Props.Exact
import Verif.Props.LocalOpt
/-!
# Searches with `float32` as it is: C77

The ranking theorems ask that the distances which occur can be compared. Here the operations are those of Go's `float32`
(`Model/Ieee.lean`, IEEE 754 binary32), and the condition becomes one about the vectors that callers hand in.
-/
namespace Vectory
open Ieee
variable {V D : Type}

/-- `a ≤ b` for two `float32`: both are numbers or infinities, and the value of `a` is not above that of `b`. -/
def LE32 (a b : F32) : Prop := ¬ IsNaN a ∧ ¬ IsNaN b ∧ (decode a).key ≤ (decode b).key

/-- every vector that callers have handed in satisfies `P`. -/
def AllGiven (P : Vec → Prop) (h : List (Op V × Out V D)) : Prop := ∀ v ∈ h.flatMap given, P v

theorem le_of_not_lt {a b : F32} (ha : ¬ IsNaN a) (hb : ¬ IsNaN b) (h : ieee.lt b a = false) : LE32 a b := by
  refine ⟨ha, hb, ?_⟩
  have ha' : decode a ≠ .nan := fun e => ha ((isNaN_iff a).mpr e)
  have hb' : decode b ≠ .nan := fun e => hb ((isNaN_iff b).mpr e)
  have h' : (decode b).lt (decode a) = false := h
  simp only [Val.lt, ne_eq, ha', hb', not_false_eq_true, decide_true, Bool.true_and, decide_eq_false_iff_not] at h'
  omega

theorem euclid_metric {L : Lib V F32} {o : FloatOps} (hm : metricOf o "euclidean_distance" = some L.metric) :
    L.metric = { lt := o.lt, dist := euclideanDistance o } := by
  have : metricOf o "euclidean_distance" = some { lt := o.lt, dist := euclideanDistance o } := by
    unfold metricOf; rw [if_neg (by decide), if_pos rfl]
  rw [this] at hm; exact (Option.some.inj hm).symm

theorem dot_metric {L : Lib V F32} {o : FloatOps} (hm : metricOf o "dot_product" = some L.metric) :
    L.metric = { lt := o.lt, dist := dot o } := by
  have : metricOf o "dot_product" = some { lt := o.lt, dist := dot o } := by
    unfold metricOf; rw [if_pos rfl]
  rw [this] at hm; exact (Option.some.inj hm).symm

theorem zero_not_nan : ¬ IsNaN 0 := by intro h; exact absurd h.1 (by decide)

/-- C77: finite vectors have comparable Euclidean distances. -/
theorem C77_euclidean_ranks (L : Lib V F32) (hm : metricOf ieee "euclidean_distance" = some L.metric) (c : Coll) (q : Vec)
    (hv : ∀ v, c.Holds v → FiniteVec v) (hq : FiniteVec q) : RanksAll L c q := by
  unfold RanksAll
  rw [euclid_metric hm]
  refine ieee_lt_ord.mono ?_
  rintro d ⟨v, w, h1, h2, h3⟩
  refine euclid_not_nan (hv v h1) ?_ h3
  rcases h2 with h2 | h2
  · exact hv w h2
  · rw [h2]; exact hq

/-- C77: vectors with components of at most `2^51` have comparable inner products (in fewer than `2^24` dimensions). -/
theorem C77_dot_ranks (L : Lib V F32) (hm : metricOf ieee "dot_product" = some L.metric) (c : Coll) (q : Vec)
    (hv : ∀ v, c.Holds v → ModestVec v ∧ v.length < 2 ^ 24) (hq : ModestVec q) : RanksAll L c q := by
  unfold RanksAll
  rw [dot_metric hm]
  refine ieee_lt_ord.mono ?_
  rintro d ⟨v, w, h1, h2, h3⟩ hn
  have hw : ModestVec w := by
    rcases h2 with h2 | h2
    · exact (hv w h2).1
    · rw [h2]; exact hq
  obtain ⟨B, hB⟩ := dot_within (hv v h1).1 hw (hv v h1).2 h3
  exact hB.not_nan ((isNaN_iff d).mp hn)

/-- C77: in a Euclidean collection into which only finite vectors were inserted, the answer to every finite query is sorted: the
distances are numbers or `+Inf`, none is negative, and none is greater than the one after it. -/
theorem C77_euclidean_sorted (L : Lib V F32) (hm : metricOf ieee "euclidean_distance" = some L.metric) (dim : Nat) (cfg : Cfg)
    (ms : List String) (he : Bool) (hs : Setup L dim cfg) (h : List (Op V × Out V F32)) (c : Coll)
    (hr : Runs L dim (Coll.new cfg ms he) h c) (hfin : AllGiven FiniteVec h) (o : Object V) (embed : Embed V)
    (hq : ∀ q, queryVector embed o = some q → FiniteVec q) (k : Int) (hE : EmbedOK c embed dim [o]) (r : SearchResult V F32)
    (hres : c.semanticSearch L o embed k = .ok r) :
    r.objects.Pairwise (fun a b => LE32 a.dist b.dist) ∧ ∀ hit ∈ r.objects, LE32 0 hit.dist := by
  have hR : ReachAny L dim c := Reach.any ⟨cfg, ms, he, h, hs, hr⟩
  have hv : ∀ v, c.Holds v → FiniteVec v := fun v hv => hfin v (holds_given hs hr hv)
  have w : ∀ q, queryVector embed o = some q → Ranks L c q := fun q e => (C77_euclidean_ranks L hm c q hv (hq q e)).ranks
  have hsort := (C16_well_formed L dim c hR o embed w k hE r hres).2.2.2.1
  obtain ⟨q, eq, hd⟩ := C17_true_distance L dim c hR o embed k hE r hres
  have hM := euclid_metric hm
  have hdist : ∀ hit ∈ r.objects, ¬ IsNaN hit.dist ∧ ieee.lt hit.dist 0 = false := by
    intro hit hh
    obtain ⟨x, v, h1, h2, h3⟩ := hd hit hh
    rw [hM] at h3
    have hf := hv v (holds_of_get hR.weak.1 h1 h2)
    exact ⟨euclid_not_nan hf (hq q eq) h3, euclid_not_neg hf (hq q eq) h3⟩
  rw [hM] at hsort
  refine ⟨(pairwise_mem hsort).imp ?_, fun hit hh => le_of_not_lt zero_not_nan (hdist hit hh).1 (hdist hit hh).2⟩
  intro a b ⟨ha, hb, hab⟩
  exact le_of_not_lt (hdist a ha).1 (hdist b hb).1 hab

/-- C77: the same for inner products, when no component is greater than `2^51` in absolute value. (Smallest inner product first; see C45.) -/
theorem C77_dot_sorted (L : Lib V F32) (hm : metricOf ieee "dot_product" = some L.metric) (dim : Nat) (cfg : Cfg)
    (ms : List String) (he : Bool) (hs : Setup L dim cfg) (hdim : dim < 2 ^ 24) (h : List (Op V × Out V F32)) (c : Coll)
    (hr : Runs L dim (Coll.new cfg ms he) h c) (hfin : AllGiven ModestVec h) (o : Object V) (embed : Embed V)
    (hq : ∀ q, queryVector embed o = some q → ModestVec q) (k : Int) (hE : EmbedOK c embed dim [o]) (r : SearchResult V F32)
    (hres : c.semanticSearch L o embed k = .ok r) :
    r.objects.Pairwise (fun a b => LE32 a.dist b.dist) ∧ ∀ hit ∈ r.objects, Finite32 hit.dist := by
  have hR : ReachAny L dim c := Reach.any ⟨cfg, ms, he, h, hs, hr⟩
  have hv : ∀ v, c.Holds v → ModestVec v ∧ v.length < 2 ^ 24 := fun v hv =>
    ⟨hfin v (holds_given hs hr hv), by have := hR.weak.1.holds_length hv; omega⟩
  have w : ∀ q, queryVector embed o = some q → Ranks L c q := fun q e => (C77_dot_ranks L hm c q hv (hq q e)).ranks
  have hsort := (C16_well_formed L dim c hR o embed w k hE r hres).2.2.2.1
  obtain ⟨q, eq, hd⟩ := C17_true_distance L dim c hR o embed k hE r hres
  have hM := dot_metric hm
  have hdist : ∀ hit ∈ r.objects, Finite32 hit.dist := by
    intro hit hh
    obtain ⟨x, v, h1, h2, h3⟩ := hd hit hh
    rw [hM] at h3
    have hf := hv v (holds_of_get hR.weak.1 h1 h2)
    obtain ⟨B, hB⟩ := dot_within hf.1 (hq q eq) hf.2 h3
    exact within_finite hB
  rw [hM] at hsort
  refine ⟨(pairwise_mem hsort).imp ?_, hdist⟩
  intro a b ⟨ha, hb, hab⟩
  exact le_of_not_lt (fun n => hdist a ha n.1) (fun n => hdist b hb n.1) hab

/-- C77: the collections in which C22 promises exact answers give exact answers to finite queries, if all inserted vectors are finite. -/
theorem C77_euclidean_exact (L : Lib V F32) (hm : metricOf ieee "euclidean_distance" = some L.metric) (dim : Nat) (cfg : Cfg)
    (ms : List String) (he : Bool) (hs : Setup L dim cfg) (h : List (Op V × Out V F32)) (c : Coll)
    (hr : Runs L dim (Coll.new cfg ms he) h c) (hfin : AllGiven FiniteVec h)
    (hsimple : c.index.cfg.heuristic = false) (hsmall : c.index.nodes.length ≤ min c.index.cfg.m c.index.cfg.efC + 1)
    (hef : c.index.nodes.length ≤ c.index.cfg.ef) (o : Object V) (embed : Embed V)
    (hq : ∀ q, queryVector embed o = some q → FiniteVec q) (k : Int) (hE : EmbedOK c embed dim [o]) (r : SearchResult V F32)
    (hres : c.semanticSearch L o embed k = .ok r) : ∃ q, queryVector embed o = some q ∧ ExactAnswer L c q k r :=
  C22_small_exact L dim c ⟨cfg, ms, he, h, hs, hr⟩ hsimple hsmall hef o embed
    (fun q e => C77_euclidean_ranks L hm c q (fun v hv => hfin v (holds_given hs hr hv)) (hq q e)) k hE r hres

/-- C77: the Euclidean distance of a finite vector to itself is `+0`; distances of finite vectors are symmetric, never NaN and never
negative. -/
theorem C77_distance (v w : Vec) (hv : FiniteVec v) (hw : FiniteVec w) (hl : v.length = w.length) :
    euclideanDistance ieee v v = .ok 0 ∧
    ∃ d, euclideanDistance ieee v w = .ok d ∧ euclideanDistance ieee w v = .ok d ∧ LE32 0 d := by
  refine ⟨euclid_self hv, _, C44_euclidean ieee v w hl, ?_, ?_⟩
  · rw [← euclid_comm hv hw hl, C44_euclidean ieee v w hl]
  · have h := C44_euclidean ieee v w hl
    exact le_of_not_lt zero_not_nan (euclid_not_nan hv hw h) (euclid_not_neg hv hw h)

/-- C77: a search for a vector that some object carries returns first an object at distance exactly `+0` (Euclidean collection of finite
vectors, simple neighbour selection, at most `min(m, efConstruction) + 1` objects, nothing deleted; any `ef`, any `k ≥ 1`). -/
theorem C77_self_query (L : Lib V F32) (hm : metricOf ieee "euclidean_distance" = some L.metric) (dim : Nat) (cfg : Cfg)
    (ms : List String) (he : Bool) (hs : Setup L dim cfg) (h : List (Op V × Out V F32)) (c : Coll)
    (hr : Runs L dim (Coll.new cfg ms he) h c) (hfin : AllGiven FiniteVec h)
    (hsimple : c.index.cfg.heuristic = false) (hsmall : c.index.nodes.length ≤ min c.index.cfg.m c.index.cfg.efC + 1)
    (hdel : c.index.deleted = []) (id : UInt64) (x : Object V) (q : Vec) (hg : c.get L [id] = .ok [x]) (hx : x.vec = some q)
    (o : Object V) (embed : Embed V) (hq : queryVector embed o = some q) (k : Int) (hk : 0 < k) (hE : EmbedOK c embed dim [o])
    (r : SearchResult V F32) (hres : c.semanticSearch L o embed k = .ok r) :
    ∃ hit rest, r.objects = hit :: rest ∧ hit.dist = 0 := by
  have hR : Reach L dim c := ⟨cfg, ms, he, h, hs, hr⟩
  have hv : ∀ v, c.Holds v → FiniteVec v := fun v hv => hfin v (holds_given hs hr hv)
  have hqf : FiniteVec q := hv q (holds_of_get hR.any.weak.1 hg hx)
  have w : ∀ q', queryVector embed o = some q' → RanksAll L c q' := by
    intro q' e
    rw [hq] at e; cases e
    exact C77_euclidean_ranks L hm c q hv hqf
  obtain ⟨hit, rest, h1, h2⟩ := C73_small_nearest L dim c hR hsimple hsmall hdel o embed w k hk hE r hres q hq
  refine ⟨hit, rest, h1, ?_⟩
  have hM := euclid_metric hm
  have hle := h2 id x q 0 hg hx (by rw [hM]; exact euclid_self hqf)
  rw [hM] at hle
  obtain ⟨q', eq, hd⟩ := C17_true_distance L dim c hR.any o embed k hE r hres
  rw [hq] at eq; cases eq
  obtain ⟨y, v, g1, g2, g3⟩ := hd hit (by rw [h1]; simp)
  rw [hM] at g3
  have hp := euclid_pos (hv v (holds_of_get hR.any.weak.1 g1 g2)) hqf g3
  have hle0 := (le_of_not_lt (fun n => hp.not_nan ((isNaN_iff _).mp n)) zero_not_nan hle).2.2
  exact zero_of_key hp hle0

/-! ## What goes wrong with NaN, and with finite vectors -/

/-- a Euclidean collection with Go's `float32`. -/
def eucLib32 : Lib UInt8 F32 := { json := demoJson, metric := { lt := ieee.lt, dist := euclideanDistance ieee } }

/-- a `dot_product` collection with Go's `float32`. -/
def dotLib32 : Lib UInt8 F32 := { json := demoJson, metric := { lt := ieee.lt, dist := dot ieee } }

def obj32 (v : Vec) : Object UInt8 := { id := 0, props := [("a", 7)], vec := some v }

/-- inserts of these vectors, one after the other. -/
def ops32 (vs : List Vec) : List (Op UInt8) := vs.map (fun v => .insert (obj32 v) noEmbed {} false)

/-- the collection after the inserts, and the history. -/
def state32 (L : Lib UInt8 F32) (dim : Nat) (vs : List Vec) : Coll × List (Op UInt8 × Out UInt8 F32) :=
  (playLegal L dim (Coll.new demoCfg ["a"] false) (ops32 vs)).getD (Coll.new demoCfg ["a"] false, [])

theorem runs32 (L : Lib UInt8 F32) (dim : Nat) (vs : List Vec) :
    Runs L dim (Coll.new demoCfg ["a"] false) (state32 L dim vs).2 (state32 L dim vs).1 := by
  unfold state32
  cases h : playLegal L dim (Coll.new demoCfg ["a"] false) (ops32 vs) with
  | none => exact .nil _
  | some r => exact playLegal_runs _ _ _ _ h

theorem setup_euc32 (dim : Nat) (h : dim < 4294967296) : Setup eucLib32 dim demoCfg :=
  ⟨demoJson_ok, fun a b _ _ => ⟨_, C44_euclidean ieee a b (by omega)⟩, h, by constructor <;> decide⟩

theorem setup_dot32 : Setup dotLib32 8 demoCfg :=
  ⟨demoJson_ok, fun a b _ _ => ⟨_, C44_dot ieee a b (by omega) (by omega)⟩, by decide, by constructor <;> decide⟩

theorem reach_euc32 (vs : List Vec) : Reach eucLib32 1 (state32 eucLib32 1 vs).1 :=
  ⟨demoCfg, ["a"], false, _, setup_euc32 1 (by decide), runs32 _ _ _⟩

theorem reach_dot32 (vs : List Vec) : Reach dotLib32 8 (state32 dotLib32 8 vs).1 :=
  ⟨demoCfg, ["a"], false, _, setup_dot32, runs32 _ _ _⟩

/-- `1.0`, `2.0`, `4.0`, a NaN, `2^127`, `-2^127`. -/
def f1 : F32 := 0x3F800000
def f2 : F32 := 0x40000000
def f4 : F32 := 0x40800000
def fNaN : F32 := 0x7FC00000
def fBig : F32 := 0x7F000000
def fNegBig : F32 := 0xFF000000

/-- C77, NaN spoils the answers about other vectors: `(4)`, `(NaN)` and `(2)` are accepted (the collection meets all conditions of C22 on
sizes and parameters); the search for one neighbour of `(2)` returns the object `(4)` at distance 2 although the object `(2)` itself is stored.
A search for all three after inserting `(1)`, `(NaN)`, `(2)` lists distance 1 before distance 0. -/
theorem C77_nan_spoils :
    (∃ c : Coll, Reach eucLib32 1 c ∧ c.index.cfg.heuristic = false ∧ c.index.nodes.length ≤ min c.index.cfg.m c.index.cfg.efC + 1 ∧
      c.index.nodes.length ≤ c.index.cfg.ef ∧ c.index.deleted = [] ∧ (∃ x, c.get eucLib32 [2] = .ok [x] ∧ x.vec = some [f2]) ∧
      hitList (c.semanticSearch eucLib32 (obj32 [f2]) noEmbed 1) = some [(0, f2)]) ∧
    (∃ c : Coll, Reach eucLib32 1 c ∧ hitList (c.semanticSearch eucLib32 (obj32 [f1]) noEmbed 3) = some [(2, f1), (0, 0), (1, fNaN)]) := by
  refine ⟨⟨_, reach_euc32 [[f4], [fNaN], [f2]], ?_, ?_, ?_, ?_, ?_, ?_⟩, ⟨_, reach_euc32 [[f1], [fNaN], [f2]], ?_⟩⟩
  · decide +kernel
  · decide +kernel
  · decide +kernel
  · decide +kernel
  · have h : (((state32 eucLib32 1 [[f4], [fNaN], [f2]]).1.get eucLib32 [2]).toOption.map (List.map Object.vec)) = some [some [f2]] := by
      decide +kernel
    cases hg : (state32 eucLib32 1 [[f4], [fNaN], [f2]]).1.get eucLib32 [2] with
    | error e => rw [hg] at h; cases h
    | ok xs =>
      rw [hg] at h
      rcases xs with _ | ⟨x, _ | ⟨y, ys⟩⟩
      · exact absurd h (by simp [Except.toOption])
      · exact ⟨x, rfl, by simpa [Except.toOption] using h⟩
      · exact absurd h (by simp [Except.toOption])
  · decide +kernel
  · decide +kernel

/-- the eight components `a, b, 0, …, 0`. -/
def pair8 (a b : F32) : Vec := [a, b, 0, 0, 0, 0, 0, 0]

/-- C77, inner products overflow: all vectors and the query are finite, but an inner product is NaN (`+Inf - Inf`), and the answer is not
sorted: `+Inf` comes before `0`. -/
theorem C77_dot_overflow : ∃ c : Coll, Reach dotLib32 8 c ∧ (∀ v ∈ [pair8 f2 0, pair8 fBig fBig, pair8 f1 f1, pair8 fBig fNegBig], FiniteVec v) ∧
    hitList (c.semanticSearch dotLib32 (obj32 (pair8 fBig fNegBig)) noEmbed 3) = some [(0, 0x7F800000), (2, 0), (1, fNaN)] ∧
    ieee.lt 0 0x7F800000 = true := by
  refine ⟨_, reach_dot32 [pair8 f2 0, pair8 fBig fBig, pair8 f1 f1], ?_, ?_, ?_⟩
  · unfold FiniteVec Finite32
    decide +kernel
  · decide +kernel
  · decide +kernel

/-- C77, distance zero does not mean equal, and the distance of finite vectors may be `+Inf`: squares underflow and overflow. -/
theorem C77_underflow_overflow :
    euclideanDistance ieee [0x00000001] [0x00000002] = .ok 0 ∧ euclideanDistance ieee [0x1A000000] [0] = .ok 0 ∧
    euclideanDistance ieee [fBig] [fNegBig] = .ok 0x7F800000 ∧ euclideanDistance ieee [0x60000000] [0] = .ok 0x7F800000 := by
  refine ⟨(C44_euclidean ieee _ _ (by rfl)).trans (congrArg _ ?_), (C44_euclidean ieee _ _ (by rfl)).trans (congrArg _ ?_),
    (C44_euclidean ieee _ _ (by rfl)).trans (congrArg _ ?_), (C44_euclidean ieee _ _ (by rfl)).trans (congrArg _ ?_)⟩ <;> decide +kernel

/-- the hypotheses of the positive theorems are met: three finite vectors, a finite query. -/
example : (∃ c h, Setup eucLib32 1 demoCfg ∧ Runs eucLib32 1 (Coll.new demoCfg ["a"] false) h c ∧ AllGiven FiniteVec h ∧
      h.flatMap given = [[f4], [f1], [f2]] ∧ c.index.cfg.heuristic = false ∧ c.index.nodes.length ≤ min c.index.cfg.m c.index.cfg.efC + 1 ∧
      c.index.nodes.length ≤ c.index.cfg.ef ∧ c.index.deleted = [] ∧
      hitList (c.semanticSearch eucLib32 (obj32 [f2]) noEmbed 3) = some [(2, 0), (1, f1), (0, f2)]) ∧
    metricOf ieee "euclidean_distance" = some eucLib32.metric ∧ metricOf ieee "dot_product" = some dotLib32.metric ∧ FiniteVec [f2] ∧
    ModestVec (pair8 f1 f4) := by
  refine ⟨⟨_, _, setup_euc32 1 (by decide), runs32 eucLib32 1 [[f4], [f1], [f2]], ?_, ?_, ?_, ?_, ?_, ?_, ?_⟩, rfl, rfl, ?_, ?_⟩
  · unfold AllGiven FiniteVec Finite32; decide +kernel
  · decide +kernel
  · decide +kernel
  · decide +kernel
  · decide +kernel
  · decide +kernel
  · decide +kernel
  · unfold FiniteVec Finite32; decide +kernel
  · unfold ModestVec Modest; decide +kernel

end Vectory
