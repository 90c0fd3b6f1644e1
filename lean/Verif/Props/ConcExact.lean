import Verif.Props.ConcReopen
import Verif.Props.ConcLater
import Verif.Props.CrashExact
import Verif.Props.SearchExact
import Verif.Props.SearchFixed
import Verif.Props.LocalOpt
import Verif.Props.LongVec
import Verif.Props.Dimension
import Verif.Props.Distance
import Verif.Props.EmbedText
import Verif.Props.Accept
/-!
# More of the sequential theorems, for histories in which several workers ran the batches

Each theorem here is the one of the same name without `_concurrent`, for collections whose history also contains batches that several
workers ran under any schedule without the race (`ReachAnyConc`, `ReachConc`; `fixed = false` is the program as it is).
-/
namespace Vectory.Conc
open Vectory
variable {V D : Type}

/-- `C19_search_exact` after concurrent batches. -/
theorem C19_search_exact_concurrent (fixed : Bool) (L : Lib V D) (dim : Nat) (c : Coll) (hr : ReachAnyConc fixed L dim c) (o : Object V) (embed : Embed V) (k : Int)
    (he : EmbedOK c embed dim [o]) :
    (∃ p, c.semanticSearch L o embed k = .error (.panic p)) ↔
      c.closed = false ∧ ∃ q, HasQuery c embed o q ∧
        (k < 0 ∨ c.index.nodes = [] ∨
          ∃ es, c.index.search L.metric q k = .ok es ∧ ∃ e ∈ es, c.get L [e.id] = .ok []) :=
  w19_search_exact L dim c hr.inv.1 o embed k he

/-- `C69_never_refused` after concurrent batches. -/
theorem C69_never_refused_concurrent (fixed : Bool) (L : Lib V D) (dim : Nat) (c : Coll) (hr : ReachAnyConc fixed L dim c) (hcl : c.closed = false)
    (hcc : c.counter.closed = false) (o : Object V) (v : Vec) (hov : o.vec = some v) (hv32 : v.length < 4294967296)
    (hval : validateObjects c.mappings 0 [o] = none) (text : Bytes) (hj : L.json.marshal o.props = some text)
    (embed : Embed V) (hemb : embedObjectsIfNeeded c embed [o] = .ok (.ok [o])) (level : Nat) :
    (∃ p, c.insert L o embed { level := level } false = .error p) ∨
    ∃ c' props, c.insert L o embed { level := level } false = .ok (c', { o with id := c.counter.count }, none) ∧
      L.json.unmarshal text = some props ∧
      c'.get L [c.counter.count] = .ok [{ id := c.counter.count, props := props, vec := some v }] :=
  w69_never_refused L dim c hr.inv.1 hcl hcc o v hov hv32 hval text hj embed hemb level

/-- `C69_long_query_truncated` after concurrent batches. -/
theorem C69_long_query_truncated_concurrent (fixed : Bool) (L : Lib V D) (dim : Nat) (c : Coll) (hr : ReachAnyConc fixed L dim c) (hm : IgnoresRest L.metric)
    (o : Object V) (v : Vec) (hov : o.vec = some v) (hlong : dim < v.length) (embed : Embed V)
    (hemb : ∀ w : Vec, embedObjectsIfNeeded c embed [{ o with vec := some w }] = .ok (.ok [{ o with vec := some w }])) (k : Int) :
    c.semanticSearch L o embed k = c.semanticSearch L { o with vec := some (v.take dim) } embed k :=
  w69_long_query_truncated L dim c hr.inv.1 hm o v hov hlong embed hemb k

/-- `C73_best_hit` after concurrent batches. -/
theorem C73_best_hit_concurrent (fixed : Bool) (L : Lib V D) (dim : Nat) (c : Coll) (hr : ReachAnyConc fixed L dim c)
    (o : Object V) (embed : Embed V) (w : ∀ q, queryVector embed o = some q → Ranks L c q) (k : Int) (he : EmbedOK c embed dim [o]) (r : SearchResult V D)
    (h : c.semanticSearch L o embed k = .ok r) (q : Vec) (hq : queryVector embed o = some q) (hit : Hit V D) (rest : List (Hit V D))
    (hh : r.objects = hit :: rest)
    (hdel : ∀ id ∈ c.index.deleted, ∀ v d, c.index.nodes.get? id = some v → L.metric.dist v.vec q = .ok d → Le L.metric.lt hit.dist d)
    (y : UInt64) (hy : Vectory.Linked c.index.nodes hit.id y) (x : Object V) (v : Vec) (d : D) (hg : c.get L [y] = .ok [x])
    (hv : x.vec = some v) (hd : L.metric.dist v q = .ok d) : Le L.metric.lt hit.dist d :=
  w73_best_hit L dim c hr.inv.1 o embed w k he r h q hq hit rest hh hdel y hy x v d hg hv hd

/-- `C22_with_peek` after concurrent batches. -/
theorem C22_with_peek_concurrent (fixed : Bool) (L : Lib V D) (dim : Nat) (c : Coll) (hr : ReachAnyConc fixed L dim c)
    (hfull : ∀ x ∈ c.index.nodes.keys, ∀ (id : UInt64) (o : Object V), c.get L [id] = .ok [o] → Reaches c.index.nodes x id)
    (hef : c.index.nodes.length ≤ c.index.cfg.ef) (o : Object V) (embed : Embed V) (w : ∀ q, queryVector embed o = some q → Ranks L c q) (k : Int)
    (he : EmbedOK c embed dim [o]) (r : SearchResult V D) (h : c.semanticSearchR L o embed k = .ok r) :
    ∃ q, queryVector embed o = some q ∧ ExactAnswer L c q k r :=
  w22_with_peek L dim c hr.inv.1 hfull hef o embed w k he r h

/-- `C05_torn_any` after concurrent batches. -/
theorem C05_torn_any_concurrent (fixed : Bool) (L : Lib V D) (dim : Nat) (c : Coll) (hr : ReachAnyConc fixed L dim c) (hfile : c.counter.file ≠ [])
    (hb : c.counter.count.toNat + 1 < 18446744073709551616) (o : Object V) (level j : Nat) (h0 : 0 < j) (h8 : j < 8) :
    ∃ (f : UInt64) (d : Disk), c.counter.file = putUint64 f ∧ f.toNat ≤ c.counter.count.toNat ∧
      (∀ id x, c.get L [id] = .ok [x] → id.toNat < f.toNat) ∧ c.crashInsert L o level (.counter j) = .ok d ∧
      ((∃ c', openColl c.index.cfg c.mappings c.hasEmbedder d = .ok c') ↔ c.Opens) ∧
      ∀ c', openColl c.index.cfg c.mappings c.hasEmbedder d = .ok c' →
        (f.toNat ≤ c'.counter.count.toNat ↔ f.toNat % 256 ^ j ≤ (c.counter.count.toNat + 1) % 256 ^ j) ∧
        (f.toNat % 256 ^ j ≤ (c.counter.count.toNat + 1) % 256 ^ j → (c.counter.count.toNat + 1) / 256 ^ j = f.toNat / 256 ^ j →
          c'.counter.count.toNat = c.counter.count.toNat + 1) :=
  w05_torn_any L dim c hr.inv.1 hr.inv.2 hfile hb o level j h0 h8

/-- `C45_euclidean` after concurrent batches. -/
theorem C45_euclidean_concurrent (fixed : Bool) (o : FloatOps) (L : Lib V F32) (hm : metricOf o "euclidean_distance" = some L.metric)
    (dim : Nat) (c : Coll) (hr : ReachAnyConc fixed L dim c)
    (ob : Object V) (embed : Embed V) (w : ∀ q, queryVector embed ob = some q → Ranks L c q) (k : Int) (he : EmbedOK c embed dim [ob]) (r : SearchResult V F32)
    (h : c.semanticSearch L ob embed k = .ok r) :
    ∃ q, queryVector embed ob = some q ∧
      r.objects.Pairwise (fun a b => ∃ xa xb va vb da db, c.get L [a.id] = .ok [xa] ∧ c.get L [b.id] = .ok [xb] ∧
        xa.vec = some va ∧ xb.vec = some vb ∧ euclideanDistance o va q = .ok da ∧ euclideanDistance o vb q = .ok db ∧
        o.lt db da = false) :=
  w45_euclidean o L hm dim c hr.inv.1 ob embed w k he r h

/-- `C69_short_vector_destroys` after concurrent batches. -/
theorem C69_short_vector_destroys_concurrent (fixed : Bool) (L : Lib V D) (dim : Nat) (c : Coll) (hr : ReachAnyConc fixed L dim c) (hm : ReadsSecond L.metric)
    (hcl : c.closed = false) (hcc : c.counter.closed = false) (id : UInt64) (x : Object V) (hx : c.get L [id] = .ok [x])
    (o : Object V) (v : Vec) (hov : o.vec = some v) (hshort : v.length < dim)
    (hval : validateObjects c.mappings 0 [o] = none) (hj : (L.json.marshal o.props).isSome)
    (embed : Embed V) (hemb : embedObjectsIfNeeded c embed [o] = .ok (.ok [o])) (level : Nat) (flushFails : Bool) :
    c.insert L o embed { level := level } flushFails = .error .indexOutOfRange ∧
    ∃ d, c.crashInsert L o level .vector = .ok d ∧
      openColl c.index.cfg c.mappings c.hasEmbedder d = .error (.panic .nilDeref) :=
  w69_short_vector_destroys L dim c hr.inv.1 hr.inv.2 hm hcl hcc id x hx o v hov hshort hval hj embed hemb level flushFails

/-- `C69_short_query_panics` after concurrent batches. -/
theorem C69_short_query_panics_concurrent (fixed : Bool) (L : Lib V D) (dim : Nat) (c : Coll) (hr : ReachAnyConc fixed L dim c) (hm : ReadsSecond L.metric)
    (hcl : c.closed = false) (id : UInt64) (x : Object V) (hx : c.get L [id] = .ok [x])
    (o : Object V) (v : Vec) (hov : o.vec = some v) (hshort : v.length < dim)
    (embed : Embed V) (hemb : embedObjectsIfNeeded c embed [o] = .ok (.ok [o])) (k : Int) (hk : 0 ≤ k) :
    c.semanticSearch L o embed k = .error (.panic .indexOutOfRange) :=
  w69_short_query_panics L dim c hr.inv.1 hm hcl id x hx o v hov hshort embed hemb k hk

/-- `C53_failed_insert` after concurrent batches. -/
theorem C53_failed_insert_concurrent (fixed : Bool) (L : Lib V D) (dim : Nat) (c c1 : Coll) (hr : ReachAnyConc fixed L dim c) (hop : ∃ c0, c.reopen = .ok c0)
    (o o1 : Object V) (embed : Embed V) (env : InsEnv) (e : Err) (hl : Legal dim c (.insert o embed env false))
    (h : c.insert L o embed env false = .ok (c1, o1, some e)) :
    ∃ c2, c1.reopen = .ok c2 ∧ ∀ id x, getObject L.json c.stores id = .ok (some x) → c2.get L [id] = .ok [x] :=
  w53_failed_insert L dim c c1 hr.inv.1 hr.inv.2 hop o o1 embed env e hl h

/-- `C53_unopenable_after_failed_flush` after concurrent batches. -/
theorem C53_unopenable_after_failed_flush_concurrent (fixed : Bool) (L : Lib V D) (dim : Nat) (c c0 : Coll) (hr : ReachAnyConc fixed L dim c)
    (o o0 : Object V) (embed : Embed V) (env : InsEnv) (hl : Legal dim c (.insert o embed env false))
    (h : c.insert L o embed env false = .ok (c0, o0, none)) :
    ∃ c1, c.insert L o embed env true = .ok (c1, o0, some .io) ∧ c1.reopen = .error (.panic .nilDeref) ∧
      (c1.close false).1.reopen = .error (.panic .nilDeref) :=
  w53_unopenable_after_failed_flush L dim c c0 hr.inv.1 hr.inv.2 o o0 embed env hl h

/-- `C79_null_destroys` after concurrent batches. -/
theorem C79_null_destroys_concurrent (fixed : Bool) (L : Lib V D) (dim : Nat) (hdim : 0 < dim) (c : Coll) (hr : ReachAnyConc fixed L dim c) (hm : ReadsSecond L.metric)
    (hc : c.closed = false) (hcc : c.counter.closed = false) (hem : c.hasEmbedder = true) (id : UInt64) (x : Object V)
    (hx : c.get L [id] = .ok [x]) (embed : Embed V) (o : Object V) (ho : o.vec = none) (rest : List (Option Vec))
    (h : embed [o] = .ok (none :: rest)) (hval : validateObjects c.mappings 0 [o] = none) (hj : (L.json.marshal o.props).isSome)
    (level : Nat) (ff : Bool) :
    c.insert L o embed { level := level } ff = .error .indexOutOfRange ∧
    ∃ d, c.crashInsert L o level .vector = .ok d ∧ openColl c.index.cfg c.mappings c.hasEmbedder d = .error (.panic .nilDeref) :=
  w79_null_destroys L dim hdim c hr.inv.1 hr.inv.2 hm hc hcc hem id x hx embed o ho rest h hval hj level ff

/-- `C53_exact` after concurrent batches: exactly which calls leave a collection that can be opened again. -/
theorem C53_exact_concurrent (fixed : Bool) (L : Lib V D) (dim : Nat) (c c' : Coll) (hr : ReachAnyConc fixed L dim c) (op : Op V) (out : Out V D)
    (hl : (Ev.call op out : Ev V D).Legal L dim c) (h : c.apply L op = .ok (c', out)) :
    (Settles L c op out → c'.Opens) ∧
    (¬ Settles L c op out → Exposes L c c' → c'.reopen = .error (.panic .nilDeref)) ∧
    (¬ Settles L c op out → ¬ Exposes L c c' → (c'.Opens ↔ c.Opens)) :=
  w53_exact hr.inv.1 hr.inv.2 op out hl h

/-- `C53_next_flush_repairs` after concurrent batches: once a later call flushes successfully, the collection can be opened again, and
reads and searches answer on it what they answer now. -/
theorem C53_next_flush_repairs_concurrent (fixed : Bool) (L : Lib V D) (dim : Nat) (c : Coll) (hr : ReachAnyConc fixed L dim c)
    (hc : c.closed = false) :
    ∃ c2, (c.flush false).1.reopen = .ok c2 ∧ (c.flush false).2 = none ∧ (∀ ids, c2.get L ids = c.get L ids) ∧
      ∀ (o : Object V) embed k, c2.semanticSearch L o embed k = c.semanticSearch L o embed k := by
  obtain ⟨i, _⟩ := hr.inv
  have hidx : (c.flush false).1 = { c with index := { c.index with wal := (c.index.flush false).1.wal } } := by
    show ({ c with index := (c.index.flush false).1 } : Coll) = _
    rw [flush_ok i.idx]
  obtain ⟨f, c2, _, h1, h2, _, _⟩ := coll_reopen (i.flush false) (flush_batch i) (fun _ => False)
  obtain ⟨c3, h3, h4⟩ := reopen_search (i.flush false) (flush_batch i)
  rw [h1] at h3; cases h3
  refine ⟨c2, h1, flush_err i false, fun ids => ?_, fun o embed k => ?_⟩
  · have e1 : c2.closed = false := by rw [h2]; rfl
    have e2 : c2.stores = c.stores := by rw [h2]; rfl
    unfold Coll.get; rw [e1, e2, hc]
  · rw [h4, hidx]
    unfold Coll.semanticSearch
    rw [hc]
    rfl

/-- `C31_exact` after concurrent batches: exactly which crash points inside `Insert` leave a collection that can be opened. -/
theorem C31_exact_concurrent (fixed : Bool) (L : Lib V D) (dim : Nat) (c : Coll) (hr : ReachAnyConc fixed L dim c) (pre : List (Object V × InsEnv)) (c1 : Coll)
    (os : List (Object V)) (hins : c.insertAll L pre = .ok (c1, os, none)) (o : Object V) (level : Nat) (p : InsertCrash)
    (hl : (Ev.crashInsert pre o level .start : Ev V D).Legal L dim c) :
    ∃ d, c1.crashInsert L o level p = .ok d ∧
      ((∃ c', openColl c.index.cfg c.mappings c.hasEmbedder d = .ok c') ↔
        p = .flushed ∨ (p ≠ .vector ∧ pre = [] ∧ c.Opens ∧ ¬ (p.torn ∧ c.counter.file = []))) ∧
      ∀ c', openColl c.index.cfg c.mappings c.hasEmbedder d = .ok c' →
        (∀ id x, c.get L [id] = .ok [x] → c'.get L [id] = .ok [x]) ∧ (p ≠ .flushed → ∀ id, c'.get L [id] = c.get L [id]) :=
  w31_exact L dim c hr.inv.1 hr.inv.2 pre c1 os hins o level p hl

/-- `C32_exact` after concurrent batches: what searches answer after a crash inside `Delete`. -/
theorem C32_exact_concurrent (fixed : Bool) (L : Lib V D) (dim : Nat) (c : Coll) (hr : ReachAnyConc fixed L dim c) (hb : c.index.wal.batch = [])
    (id : UInt64) (p : DeleteCrash) (hl : (Ev.crashDelete id p : Ev V D).Legal L dim c) :
    ∃ c' c2, openColl c.index.cfg c.mappings c.hasEmbedder (c.crashDelete id p) = .ok c' ∧ c.delete L id false false = .ok (c2, none) ∧
      (p = .start → ∀ o embed k, c'.semanticSearch L o embed k = c.semanticSearch L o embed k) ∧
      (p = .flushed → ∀ o embed k, c'.semanticSearch L o embed k = c2.semanticSearch L o embed k) ∧
      (p = .erased → ∀ o embed k, EmbedOK c embed dim [o] →
        (∀ r, c.semanticSearch L o embed k = .ok r → id ∈ r.objects.map Hit.id →
          c'.semanticSearch L o embed k = .error (.panic .indexOutOfRange)) ∧
        (∀ r, c.semanticSearch L o embed k = .ok r → id ∉ r.objects.map Hit.id → c'.semanticSearch L o embed k = .ok r) ∧
        (∀ a, c.semanticSearch L o embed k = .error a → c'.semanticSearch L o embed k = .error a)) :=
  w32_exact L dim c hr.inv.1 hb id p hl

/-- `C07_delete_twice` after concurrent batches. -/
theorem C07_delete_twice_concurrent (fixed : Bool) (L : Lib V D) (dim : Nat) (c c1 : Coll) (hr : ReachAnyConc fixed L dim c) (ho : c.closed = false) (id : UInt64)
    (df ff df' ff' : Bool) (h : c.delete L id df ff = .ok (c1, none)) : c1.delete L id df' ff' = .ok (c1, none) :=
  w07_delete_twice L dim c c1 hr.inv.1 ho id df ff df' ff' h

/-- `C07_delete_search` after concurrent batches. -/
theorem C07_delete_search_concurrent (fixed : Bool) (L : Lib V D) (dim : Nat) (c c1 : Coll) (hr : ReachConc fixed L dim c) (ho : c.closed = false) (id : UInt64)
    (h : c.delete L id false false = .ok (c1, none)) (q q1 : Object V) (embed : Embed V)
    (he : embedObjectsIfNeeded c embed [q] = .ok (.ok [q1])) (hd : (q1.vec.getD []).length = dim)
    (hne : c.index.nodes ≠ []) (k : Int) (hk : c.index.cfg.ef ≤ k) :
    ∃ r r1, c.semanticSearch L q embed k = .ok r ∧ c1.semanticSearch L q embed k = .ok r1 ∧
      r1.objects = r.objects.filter (fun hit => decide (hit.id ≠ id)) :=
  w07_delete_search L dim c c1 hr.inv ho id h q q1 embed he hd hne k hk

/-- `C08_size_lower` after concurrent batches. -/
theorem C08_size_lower_concurrent (fixed : Bool) (L : Lib V D) (dim : Nat) (c : Coll) (hr : ReachAnyConc fixed L dim c) (ho : c.closed = false) (ids : List UInt64)
    (hn : ids.Nodup) (hg : ∀ id ∈ ids, ∃ o, c.get L [id] = .ok [o]) : ∃ n, c.getSize = .ok n ∧ ids.length ≤ n :=
  w08_size_lower L dim c hr.inv.1 ho ids hn hg

/-- `C16_without_order` after concurrent batches. -/
theorem C16_without_order_concurrent (fixed : Bool) (L : Lib V D) (dim : Nat) (c : Coll) (hr : ReachAnyConc fixed L dim c) (o : Object V) (embed : Embed V) (k : Int)
    (he : EmbedOK c embed dim [o]) (r : SearchResult V D) (h : c.semanticSearch L o embed k = .ok r) :
    (r.objects.length : Int) ≤ k ∧ r.objects.length ≤ c.index.cfg.ef ∧ (r.objects.map Hit.id).Nodup ∧ r.hits = r.objects.length :=
  w16_without_order L dim c hr.inv.1 o embed k he r h

/-- `C24_with_peek` after concurrent batches. -/
theorem C24_with_peek_concurrent (fixed : Bool) (L : Lib V D) (dim : Nat) (c : Coll) (hr : ReachAnyConc fixed L dim c)
    (hfull : ∀ x ∈ c.index.nodes.keys, ∀ (id : UInt64) (o : Object V), c.get L [id] = .ok [o] → Reaches c.index.nodes x id)
    (hef : c.index.nodes.length ≤ c.index.cfg.ef) (o : Object V) (embed : Embed V) (w : ∀ q, queryVector embed o = some q → Ranks L c q)
    (ids : List UInt64) (hnd : ids.Nodup)
    (hlive : ∀ id ∈ ids, ∃ x, c.get L [id] = .ok [x]) (he : EmbedOK c embed dim [o]) (r : SearchResult V D)
    (h : c.semanticSearchR L o embed ids.length = .ok r) : r.objects.length = ids.length := by
  obtain ⟨q, hq, ex⟩ := C22_with_peek_concurrent fixed L dim c hr hfull hef o embed w ids.length he r h
  obtain ⟨o1, es, hc, h1, hd, _⟩ := coll_search_okR hr.inv.1 he h
  have hqd : q.length = dim := by have := queryVector_of h1; rw [hq] at this; cases this; exact hd
  exact exact_count hr.inv.1 hc hqd hnd hlive ex

/-- the state after the interleaved batch of `c14Acts` (two workers, four objects): objects, a search that lists object 2 and one that
does not, a legal insert and a legal delete on it. -/
example : ∃ c, ReachAnyConc false demoLib 1 c ∧ ReachConc false demoLib 1 c ∧ c.closed = false ∧ c.index.nodes ≠ [] ∧
    c.index.wal.batch = [] ∧ c.counter.file ≠ [] ∧ Legal 1 c (demoInsert 8) ∧
    (Ev.crashDelete 2 .erased : Ev UInt8 Nat).Legal demoLib 1 c ∧
    (Ev.crashInsert [] (demoObj 8) 0 .start : Ev UInt8 Nat).Legal demoLib 1 c := by
  obtain ⟨b, h, hp⟩ := bleads_sound (cfg := demoCfg) (two := false) (fixed := false) (workers := 2) (os := c14Objs)
    (acts := c14Acts false) (P := fun b => decide (b.ret ≠ none) && (b.tasks.all (fun t => t.pc.over) && (decide (b.c.index.nodes.length = 4) &&
      (!b.c.closed && (!b.c.counter.closed && (decide (b.c.index.wal.batch = []) && (decide (b.c.counter.file ≠ []) && (legalB 1 b.c (demoInsert 8) &&
        (decide (b.c.counter.count.toNat = 4) &&
        match b.c.get demoLib [2] with | .ok [_] => true | _ => false))))))))) (by decide +kernel)
  simp only [Bool.and_eq_true, decide_eq_true_eq, Bool.not_eq_true'] at hp
  obtain ⟨h1, h0, h2, h3, h4, h5, h6, h7, h8, h9⟩ := hp
  have hr : ReachConc false demoLib 1 b.c :=
    .batch (.new demo_setup') h c14_calm h1 (List.all_eq_true.mp h0)
  refine ⟨b.c, hr.any, hr, h3, (fun h => by rw [h] at h2; cases h2), h5, h6, legalB_sound h7, ⟨h3, ?_⟩, ?_⟩
  · split at h9
    · rename_i x hx; exact ⟨x, hx⟩
    · cases h9
  · exact ⟨h3, h4, (fun p hp => by cases hp), rfl, by decide, by decide, by simp; omega, trivial⟩

end Vectory.Conc
