import Verif.Lemmas.ConcGrow
import Verif.Lemmas.Terminate
/-! Progress and termination of concurrent inserts, for every index (sound or not) and both programs. -/
namespace Vectory.Conc
open Vectory
variable {D : Type} {M : Metric D}

/-! ### Progress -/

theorem stepPC_holder {fixed : Bool} {h : Hnsw} {locked : UInt64 → Bool} {j : Job} {pc : PC D} {x : UInt64}
    (hh : pc.held fixed j.id = some x) (hp : pc.panicked = false) : ∃ r, stepPC fixed M h locked j pc = some r := by
  cases pc <;> first
    | (cases hp; done)
    | (cases hh; done)
    | (exact ⟨_, rfl⟩)
    | (simp only [stepPC]; split <;> exact ⟨_, rfl⟩)

theorem stepPC_free {fixed : Bool} {h : Hnsw} {locked : UInt64 → Bool} {j : Job} {pc : PC D}
    (hl : ∀ x, locked x = false) (ha : pc.active = true) (hp : pc.panicked = false) :
    ∃ r, stepPC fixed M h locked j pc = some r := by
  cases pc with
  | idle => cases ha
  | dead _ _ => cases hp
  | start => simp only [stepPC]; split <;> exact ⟨_, rfl⟩
  | create => simp only [stepPC]; split <;> exact ⟨_, rfl⟩
  | layer _ _ _ => simp only [stepPC]; split <;> exact ⟨_, rfl⟩
  | pop _ _ _ _ =>
    simp only [stepPC]
    split
    · exact ⟨_, rfl⟩
    · split
      · exact ⟨_, rfl⟩
      · split
        · exact ⟨_, rfl⟩
        · split
          · exact ⟨_, rfl⟩
          · rw [hl]; exact ⟨_, rfl⟩
  | visit _ _ _ _ todo => cases todo <;> exact ⟨_, rfl⟩
  | logOwn _ _ _ _ => simp only [stepPC, hl, Bool.and_false]; exact ⟨_, rfl⟩
  | setOwn _ _ _ _ => simp only [stepPC]; split <;> exact ⟨_, rfl⟩
  | link _ l _ todo =>
    cases todo with
    | nil => cases l <;> exact ⟨_, rfl⟩
    | cons n rest =>
      simp only [stepPC]
      split
      · exact ⟨_, rfl⟩
      · rw [hl]; exact ⟨_, rfl⟩
  | addWrite _ _ _ _ _ _ => simp only [stepPC]; split <;> exact ⟨_, rfl⟩
  | pruneSet _ _ _ _ _ _ => simp only [stepPC]; split <;> exact ⟨_, rfl⟩
  | finish _ => simp only [stepPC]; split <;> exact ⟨_, rfl⟩
  | publish => exact ⟨_, rfl⟩
  | enter => exact ⟨_, rfl⟩
  | copy _ _ _ _ _ _ => exact ⟨_, rfl⟩
  | addLog _ _ _ _ _ => exact ⟨_, rfl⟩
  | addRead _ _ _ _ _ => exact ⟨_, rfl⟩
  | pruneLog _ _ _ _ _ _ => exact ⟨_, rfl⟩

theorem step_of {fixed : Bool} {m : Mach D} {i : Nat} {t : Thread D} (hi : m.ts[i]? = some t)
    (h : ∃ r, stepPC fixed M m.h (lockedBy fixed m.ts) t.job t.pc = some r) : ∃ m', m.step fixed M (.run i) = some m' := by
  obtain ⟨⟨h', pc'⟩, hr⟩ := h
  exact ⟨{ h := h', ts := m.ts.set i { t with pc := pc' } }, by simp only [Mach.step, hi, hr]⟩

/-- as long as a call has not returned and nobody has panicked, some goroutine can move. -/
theorem progress {fixed : Bool} {m : Mach D} (hp : ∀ t ∈ m.ts, t.pc.panicked = false)
    (ha : ∃ t ∈ m.ts, t.pc.active = true) : ∃ i m', m.step fixed M (.run i) = some m' := by
  by_cases hh : ∃ t ∈ m.ts, ∃ x, t.held fixed = some x
  · obtain ⟨t, ht, x, hx⟩ := hh
    obtain ⟨i, hi⟩ := List.getElem?_of_mem ht
    exact ⟨i, step_of hi (stepPC_holder hx (hp t ht))⟩
  · obtain ⟨t, ht, hta⟩ := ha
    obtain ⟨i, hi⟩ := List.getElem?_of_mem ht
    refine ⟨i, step_of hi (stepPC_free ?_ hta (hp t ht))⟩
    intro x
    rw [Bool.eq_false_iff]
    intro hl
    obtain ⟨t', ht', h'⟩ := List.any_eq_true.mp hl
    exact hh ⟨t', ht', x, by simpa using h'⟩

/-! ### Termination -/

theorem popN_length (lt : Elem D → Elem D → Bool) : ∀ (n : Nat) (q : List (Elem D)) (r : List UInt64),
    popN lt n q = .ok r → r.length ≤ n := by
  intro n
  induction n with
  | zero => intro q r h; cases h; simp
  | succ n ih =>
    intro q r h
    simp only [popN] at h
    split at h
    · cases h
    · obtain ⟨es, h1, h2⟩ := (bind_ok_iff _ _ _).mp h
      cases h2
      have := ih _ _ h1
      simp only [List.length_cons]; omega

theorem heuristicLoop_length (nodes : AMap UInt64 Vertex) (m : Nat) : ∀ (fuel : Nat) (q : List (Elem D)) (res r : List UInt64),
    res.length ≤ m → heuristicLoop M nodes m fuel q res = .ok r → r.length ≤ m := by
  intro fuel
  induction fuel with
  | zero => intro q res r hl h; cases h; exact hl
  | succ fuel ih =>
    intro q res r hl h
    simp only [heuristicLoop] at h
    split at h
    · cases h; exact hl
    · split at h
      · cases h; exact hl
      · obtain ⟨dom, _, h2⟩ := (bind_ok_iff _ _ _).mp h
        refine ih _ _ _ ?_ h2
        cases dom
        · simp only [Bool.false_eq_true, if_false, List.length_append, List.length_cons, List.length_nil]; omega
        · exact hl

theorem selectNeighbors_length {cfg : Cfg} {nodes : AMap UInt64 Vertex} {cands : List (Elem D)} {m : Nat} {r : List UInt64}
    (h : selectNeighbors M cfg nodes cands m = .ok r) : r.length ≤ m := by
  unfold selectNeighbors at h
  split at h
  · exact heuristicLoop_length _ _ _ _ _ _ (Nat.zero_le _) h
  · exact Nat.le_trans (popN_length _ _ _ _ h) (Nat.min_le_left _ _)

/-- bounds that hold for a whole run. -/
structure Dims where
  N : Nat
  top : Nat
  cfg : Cfg

def Dims.K (d : Dims) : Nat := d.cfg.mMax0 + 4
def Dims.E (d : Dims) : Nat := max 1 d.cfg.efC
/-- more than a search of one layer can take -/
def Dims.lc (d : Dims) : Nat := (d.N + d.E + 1) * d.K + 3
/-- more than the work on one layer can take -/
def Dims.lay (d : Dims) : Nat := d.lc + 4 * d.cfg.m + 5

/-- the work after a search. -/
def Dims.tail (d : Dims) (cur level : Nat) : Phase → Nat
  | .construct l => 4 * d.cfg.m + 4 + l * d.lay + 1
  | .lookup n => n * d.lay + d.lay + (min cur level) * d.lay + 2

/-- the work left, with `u vis` vertices that a search which has visited `vis` may still visit. -/
def weight (d : Dims) (u : List UInt64 → Nat) (level : Nat) : PC D → Nat
  | .idle => 0
  | .dead _ _ => 0
  | .start => (2 * d.top + 4) * d.lay + 3
  | .create => (2 * d.top + 4) * d.lay + 2
  | .publish => (2 * d.top + 4) * d.lay + 1
  | .enter => (2 * d.top + 4) * d.lay
  | .layer cur ph _ => d.lc + d.tail cur level ph
  | .pop cur ph s _ => (s.cands.length + u s.visited) * d.K + d.tail cur level ph + 1
  | .copy cur ph s _ _ n => (s.cands.length + u s.visited) * d.K + n + 3 + d.tail cur level ph
  | .visit cur ph s _ todo => (s.cands.length + u s.visited) * d.K + todo.length + 2 + d.tail cur level ph
  | .logOwn _ l _ ns => 4 * ns.length + 3 + l * d.lay + 1
  | .setOwn _ l _ ns => 4 * ns.length + 2 + l * d.lay + 1
  | .link _ l _ todo => 4 * todo.length + 1 + l * d.lay + 1
  | .addLog _ l _ _ rest => 4 * rest.length + 4 + l * d.lay + 1
  | .addRead _ l _ _ rest => 4 * rest.length + 3 + l * d.lay + 1
  | .addWrite _ l _ _ rest _ => 4 * rest.length + 2 + l * d.lay + 1
  | .pruneLog _ l _ _ rest _ => 4 * rest.length + 3 + l * d.lay + 1
  | .pruneSet _ l _ _ rest _ => 4 * rest.length + 2 + l * d.lay + 1
  | .finish _ => 1

theorem weight_mono (d : Dims) {u u' : List UInt64 → Nat} (h : ∀ v, u v ≤ u' v) (level : Nat) (pc : PC D) :
    weight d u level pc ≤ weight d u' level pc := by
  have key : ∀ (s : SL D), (s.cands.length + u s.visited) * d.K ≤ (s.cands.length + u' s.visited) * d.K := fun s =>
    Nat.mul_le_mul_right _ (Nat.add_le_add_left (h _) _)
  cases pc with
  | pop _ _ s _ => simp only [weight]; have := key s; omega
  | copy _ _ s _ _ _ => simp only [weight]; have := key s; omega
  | visit _ _ s _ _ => simp only [weight]; have := key s; omega
  | _ => simp only [weight, Nat.le_refl]

theorem tail_pos (d : Dims) (cur level : Nat) (ph : Phase) : 1 ≤ d.tail cur level ph := by
  cases ph <;> simp only [Dims.tail] <;> omega

theorem orDie_weight {A : Type} {d : Dims} {u : List UInt64 → Nat} {level : Nat} {held : Option UInt64} {r : Except Panic A}
    {k : A → PC D} {w : Nat} (hw : 0 < w) (hk : ∀ a, r = .ok a → weight d u level (k a) < w) :
    weight d u level (orDie held r k) < w := by
  unfold orDie
  split
  · exact hk _ rfl
  · exact hw

theorem afterSearch_weight {d : Dims} {h : Hnsw} (hc : h.cfg = d.cfg) {u : List UInt64 → Nat} {j : Job} {cur : Nat} {ph : Phase}
    {nns : List (Elem D)} : weight d u j.level (afterSearch M h j cur ph nns) < d.tail cur j.level ph + 1 := by
  have hl : d.lay = d.lc + 4 * d.cfg.m + 5 := rfl
  unfold afterSearch
  split
  · rename_i n
    split
    · exact Nat.succ_pos _
    · split
      · simp only [weight, Dims.tail]; omega
      · rename_i n
        simp only [weight, Dims.tail, Nat.succ_mul]
        omega
  · refine orDie_weight (Nat.succ_pos _) (fun ns h1 => ?_)
    have := selectNeighbors_length h1
    rw [hc] at this
    simp only [weight, Dims.tail]
    omega

theorem stepPC_weight {fixed : Bool} {h h' : Hnsw} {locked : UInt64 → Bool} {j : Job} {pc pc' : PC D} {d : Dims} {e e' : Nat}
    (hs : stepPC fixed M h locked j pc = some (h', pc')) (hc : h.cfg = d.cfg) (hN : h.nodes.length + e ≤ d.N)
    (htop : h.maxLayer ≤ d.top) (hlev : j.level ≤ d.top) (he : pc.early = false → e' = e) :
    weight d (fun v => unvisited h'.nodes v + e') j.level pc' < weight d (fun v => unvisited h.nodes v + e) j.level pc := by
  have hl : d.lay = d.lc + 4 * d.cfg.m + 5 := rfl
  have hK : d.K = d.cfg.mMax0 + 4 := rfl
  cases pc with
  | idle => cases hs
  | dead _ _ => cases hs
  | start =>
    simp only [stepPC] at hs
    split at hs <;> cases hs <;> simp only [weight] <;> omega
  | create =>
    simp only [stepPC] at hs
    split at hs <;> cases hs <;> simp only [weight] <;> omega
  | publish => cases hs; simp only [weight]; omega
  | enter =>
    cases hs
    have hpos : 0 < (2 * d.top + 4) * d.lay := Nat.mul_pos (by omega) (by omega)
    refine orDie_weight hpos (fun a _ => ?_)
    split
    · simp only [weight, Dims.tail]
      have h1 : (h.maxLayer - j.level - 1) * d.lay ≤ d.top * d.lay := Nat.mul_le_mul_right _ (by omega)
      have h2 : (min h.maxLayer j.level) * d.lay ≤ d.top * d.lay := Nat.mul_le_mul_right _ (by omega)
      have h3 : (2 * d.top + 4) * d.lay = d.top * d.lay + d.top * d.lay + 4 * d.lay := by
        rw [Nat.add_mul, Nat.mul_assoc, Nat.two_mul]
      omega
    · simp only [weight, Dims.tail]
      have h2 : (min h.maxLayer j.level) * d.lay ≤ d.top * d.lay := Nat.mul_le_mul_right _ (by omega)
      have h3 : (2 * d.top + 4) * d.lay = d.top * d.lay + d.top * d.lay + 4 * d.lay := by
        rw [Nat.add_mul, Nat.mul_assoc, Nat.two_mul]
      omega
  | layer cur ph eps =>
    have he' := he rfl
    subst he'
    simp only [stepPC] at hs
    split at hs
    · cases hs; simp only [weight, Dims.lc]; omega
    · rename_i hlen
      cases hs
      simp only [weight]
      have h1 : unvisited h.nodes (eps.map Elem.id) ≤ h.nodes.length := unvisited_le _ _
      have h2 : (newMinHeap M.lt eps).length = eps.length := (Heap.init_perm _ _).length_eq
      have h3 : ph.ef h.cfg ≤ d.E := by
        unfold Dims.E
        cases ph <;> simp only [Phase.ef, hc] <;> omega
      have h4 : ((newMinHeap M.lt eps).length + (unvisited h.nodes (eps.map Elem.id) + e')) * d.K ≤ (d.N + d.E + 1) * d.K :=
        Nat.mul_le_mul_right _ (by omega)
      have h5 : d.lc = (d.N + d.E + 1) * d.K + 3 := rfl
      omega
  | pop cur ph s buf =>
    have he' := he rfl
    subst he'
    have hw : 0 < (s.cands.length + (unvisited h.nodes s.visited + e')) * d.K + d.tail cur j.level ph + 1 := Nat.succ_pos _
    have ha : weight d (fun v => unvisited h.nodes v + e') j.level (afterSearch M h j cur ph s.nn) <
        (s.cands.length + (unvisited h.nodes s.visited + e')) * d.K + d.tail cur j.level ph + 1 :=
      Nat.lt_of_lt_of_le (afterSearch_weight hc) (by omega)
    simp only [stepPC] at hs
    split at hs
    · cases hs; exact ha
    · rename_i c rest hp
      split at hs
      · cases hs; exact hw
      · split at hs
        · cases hs; exact ha
        · split at hs
          · cases hs; exact hw
          · split at hs
            · cases hs
            · cases hs
              refine orDie_weight hw (fun conns _ => ?_)
              split
              · exact hw
              · rename_i hlen
                have hpl := Heap.pop_length _ _ _ _ hp
                simp only [weight]
                rw [hc] at hlen
                have : (s.cands.length + (unvisited h.nodes s.visited + e')) * d.K =
                    (rest.length + (unvisited h.nodes s.visited + e')) * d.K + d.K := by
                  rw [hpl, ← Nat.succ_mul]; congr 1; omega
                omega
  | copy cur ph s buf c n =>
    have he' := he rfl
    subst he'
    cases hs
    refine orDie_weight (by simp only [weight]; omega) (fun conns _ => ?_)
    simp only [weight, List.length_take]
    omega
  | visit cur ph s buf todo =>
    have he' := he rfl
    subst he'
    cases todo with
    | nil => cases hs; simp only [weight, List.length_nil]; omega
    | cons n todo =>
      cases hs
      refine orDie_weight (by simp only [weight]; omega) (fun s' h1 => ?_)
      have := visitOne_dec M h.nodes j.vec (ph.ef h.cfg) s s' n h1
      simp only [SL.work] at this
      have h2 : (s'.cands.length + (unvisited h.nodes s'.visited + e')) * d.K ≤
          (s.cands.length + (unvisited h.nodes s.visited + e')) * d.K := Nat.mul_le_mul_right _ (by omega)
      simp only [weight, List.length_cons]
      omega
  | logOwn _ _ _ _ =>
    simp only [stepPC] at hs
    split at hs
    · cases hs
    · cases hs; simp only [weight]; omega
  | setOwn _ _ _ _ =>
    simp only [stepPC] at hs
    split at hs <;> cases hs <;> simp only [weight] <;> omega
  | link _ l _ todo =>
    cases todo with
    | nil =>
      cases l with
      | zero => cases hs; simp only [weight]; omega
      | succ l => cases hs; simp only [weight, Dims.tail, Nat.add_mul]; omega
    | cons n rest =>
      simp only [stepPC] at hs
      split at hs
      · cases hs; simp only [weight]; omega
      · split at hs
        · cases hs
        · cases hs
          refine orDie_weight (by simp only [weight]; omega) (fun conns _ => ?_)
          split
          · simp only [weight, List.length_cons]; omega
          · refine orDie_weight (by simp only [weight]; omega) (fun new _ => ?_)
            simp only [weight, List.length_cons]; omega
  | addLog _ _ _ _ _ => cases hs; simp only [weight]; omega
  | addRead _ _ _ _ _ =>
    cases hs
    refine orDie_weight (by simp only [weight]; omega) (fun conns _ => ?_)
    simp only [weight]; omega
  | addWrite _ _ _ _ _ _ =>
    simp only [stepPC] at hs
    split at hs <;> cases hs <;> simp only [weight] <;> omega
  | pruneLog _ _ _ _ _ _ => cases hs; simp only [weight]; omega
  | pruneSet _ _ _ _ _ _ =>
    simp only [stepPC] at hs
    split at hs <;> cases hs <;> simp only [weight] <;> omega
  | finish _ =>
    simp only [stepPC] at hs
    split at hs <;> cases hs <;> simp only [weight] <;> omega

theorem stepPC_maxLayer {fixed : Bool} {h h' : Hnsw} {locked : UInt64 → Bool} {j : Job} {pc pc' : PC D} {top : Nat}
    (hs : stepPC fixed M h locked j pc = some (h', pc')) (ht : h.maxLayer ≤ top) (hj : j.level ≤ top) : h'.maxLayer ≤ top := by
  cases pc <;> simp only [stepPC] at hs <;> (repeat' split at hs) <;>
    first
      | (cases hs; done)
      | (cases hs; exact ht)
      | (cases hs; exact hj)
      | (cases hs; exact Nat.zero_le _)

/-! ### The whole machine -/

theorem sum_set_le {A : Type} (f g : A → Nat) : ∀ (l : List A) (i : Nat) (a b : A), l[i]? = some a → g b ≤ f a → (∀ x, g x ≤ f x) →
    ((l.set i b).map g).sum + f a ≤ (l.map f).sum + g b := by
  intro l
  induction l with
  | nil => intro i a b h; simp at h
  | cons x l ih =>
    intro i a b h hb hx
    cases i with
    | zero =>
      simp only [List.getElem?_cons_zero, Option.some.injEq] at h
      subst h
      have : (l.map g).sum ≤ (l.map f).sum := by
        clear ih
        induction l with
        | nil => simp
        | cons y l ih => simp only [List.map_cons, List.sum_cons]; have := hx y; omega
      simp only [List.set_cons_zero, List.map_cons, List.sum_cons]
      omega
    | succ i =>
      simp only [List.getElem?_cons_succ] at h
      have := ih i a b h hb hx
      have := hx x
      simp only [List.set_cons_succ, List.map_cons, List.sum_cons]
      omega

/-- how many goroutines have not added their vertex to the map. -/
def earlies (ts : List (Thread D)) : Nat := (ts.map (fun t => if t.pc.early then 1 else 0)).sum

def total (d : Dims) (m : Mach D) : Nat :=
  (m.ts.map (fun t => weight d (fun v => unvisited m.h.nodes v + earlies m.ts) t.job.level t.pc)).sum

structure Fits (d : Dims) (m : Mach D) : Prop where
  cfg : m.h.cfg = d.cfg
  n : m.h.nodes.length + earlies m.ts ≤ d.N
  top : m.h.maxLayer ≤ d.top
  lev : ∀ t ∈ m.ts, t.job.level ≤ d.top

theorem unvisited_keys {a b : AMap UInt64 Vertex} (h : b.keys = a.keys) (v : List UInt64) : unvisited b v = unvisited a v := by
  unfold unvisited; rw [h]

theorem unvisited_set (a : AMap UInt64 Vertex) (x : UInt64) (w : Vertex) (v : List UInt64) :
    unvisited (a.set x w) v ≤ unvisited a v + 1 := by
  unfold unvisited
  rw [AMap.keys_set]
  split
  · omega
  · rw [List.filter_append, List.length_append]
    have := List.length_filter_le (fun x => decide (x ∉ v)) [x]
    simp only [List.length_cons, List.length_nil] at this
    omega

theorem earlies_set {ts : List (Thread D)} {i : Nat} {t t' : Thread D} (hi : ts[i]? = some t) :
    (t'.pc.early = t.pc.early → earlies (ts.set i t') = earlies ts) ∧
    (t.pc.early = true → t'.pc.early = false → earlies (ts.set i t') + 1 = earlies ts) := by
  unfold earlies
  induction ts generalizing i with
  | nil => simp at hi
  | cons x l ih =>
    cases i with
    | zero =>
      simp only [List.getElem?_cons_zero, Option.some.injEq] at hi
      subst hi
      simp only [List.set_cons_zero, List.map_cons, List.sum_cons]
      refine ⟨fun h => by rw [h], fun h1 h2 => ?_⟩
      rw [h1, h2]; simp only [if_true, Bool.false_eq_true, if_false]; omega
    | succ i =>
      simp only [List.getElem?_cons_succ] at hi
      obtain ⟨a, b⟩ := ih hi
      simp only [List.set_cons_succ, List.map_cons, List.sum_cons]
      exact ⟨fun h => by rw [a h], fun h1 h2 => by have := b h1 h2; omega⟩

theorem total_step {fixed : Bool} {d : Dims} {m m' : Mach D} {i : Nat} (f : Fits d m)
    (h : m.step fixed M (.run i) = some m') : Fits d m' ∧ total d m' < total d m := by
  simp only [Mach.step] at h
  cases hi : m.ts[i]? with
  | none => rw [hi] at h; cases h
  | some t =>
    rw [hi] at h
    dsimp only at h
    cases hs : stepPC fixed M m.h (lockedBy fixed m.ts) t.job t.pc with
    | none => rw [hs] at h; cases h
    | some r =>
      obtain ⟨h', pc'⟩ := r
      rw [hs] at h
      cases h
      have eff := stepPC_eff hs
      have ht := List.mem_of_getElem? hi
      obtain ⟨es1, es2⟩ := earlies_set (t' := { t with pc := pc' }) hi
      dsimp only at es1 es2
      have hcount : (∀ v, unvisited h'.nodes v + earlies (m.ts.set i { t with pc := pc' }) ≤ unvisited m.h.nodes v + earlies m.ts) ∧
          h'.nodes.length + earlies (m.ts.set i { t with pc := pc' }) ≤ m.h.nodes.length + earlies m.ts := by
        rcases eff.nodes with ⟨hsh, hE⟩ | ⟨h1, h2, cs, h3⟩
        · have hle : earlies (m.ts.set i { t with pc := pc' }) ≤ earlies m.ts := by
            cases hb : t.pc.early <;> cases hb' : pc'.early
            · exact Nat.le_of_eq (es1 (by rw [hb, hb']))
            · have := eff.early hb'; rw [hb] at this; cases this
            · have := es2 hb hb'; omega
            · exact Nat.le_of_eq (es1 (by rw [hb, hb']))
          refine ⟨fun v => ?_, ?_⟩
          · rw [unvisited_keys hsh.keys]; omega
          · rw [← AMap.length_keys, hsh.keys, AMap.length_keys]; omega
        · have := es2 h1 h2
          refine ⟨fun v => ?_, ?_⟩
          · have hu := unvisited_set m.h.nodes t.job.id ⟨t.job.id, cs, t.job.vec⟩ v
            rw [h3]; omega
          · have hu := AMap.set_length m.h.nodes t.job.id ⟨t.job.id, cs, t.job.vec⟩
            rw [h3]
            split at hu <;> omega
      refine ⟨⟨by rw [← f.cfg]; exact eff.cfg, ?_, ?_, ?_⟩, ?_⟩
      · exact Nat.le_trans hcount.2 f.n
      · exact stepPC_maxLayer hs f.top (f.lev t ht)
      · intro x hx
        rcases List.mem_or_eq_of_mem_set hx with hx | hx
        · exact f.lev x hx
        · subst hx; exact f.lev t ht
      · have hw := stepPC_weight (e' := earlies (m.ts.set i { t with pc := pc' })) hs f.cfg f.n f.top (f.lev t ht)
          (fun he => es1 (by
            cases hb' : pc'.early
            · rw [he]
            · have := eff.early hb'; rw [he] at this; cases this))
        have := sum_set_le
          (fun t => weight d (fun v => unvisited m.h.nodes v + earlies m.ts) t.job.level t.pc)
          (fun x => weight d (fun v => unvisited h'.nodes v + earlies (m.ts.set i { t with pc := pc' })) x.job.level x.pc)
          m.ts i t { t with pc := pc' } hi (Nat.le_of_lt hw) (fun x => weight_mono d hcount.1 _ _)
        unfold total
        dsimp only at this ⊢
        omega

def dimsOf (m : Mach D) : Dims :=
  { N := m.h.nodes.length + earlies m.ts, top := m.ts.foldr (fun t a => max t.job.level a) m.h.maxLayer, cfg := m.h.cfg }

theorem fits_dims (m : Mach D) : Fits (dimsOf m) m := by
  have key : ∀ (ts : List (Thread D)) (a : Nat), a ≤ ts.foldr (fun t a => max t.job.level a) a ∧
      ∀ t ∈ ts, t.job.level ≤ ts.foldr (fun t a => max t.job.level a) a := by
    intro ts a
    induction ts with
    | nil => simp
    | cons x ts ih =>
      simp only [List.foldr_cons]
      refine ⟨by omega, fun t ht => ?_⟩
      rcases List.mem_cons.mp ht with rfl | ht
      · omega
      · have := ih.2 t ht; omega
  exact ⟨rfl, Nat.le_refl _, (key _ _).1, (key _ _).2⟩

theorem run_length {fixed : Bool} {d : Dims} : ∀ (is : List Nat) (m m' : Mach D), Fits d m →
    m.run fixed M (is.map Act.run) = some m' → is.length + total d m' ≤ total d m := by
  intro is
  induction is with
  | nil => intro m m' _ h; cases h; simp
  | cons i is ih =>
    intro m m' f h
    simp only [List.map_cons, Mach.run] at h
    cases hs : m.step fixed M (.run i) with
    | none => rw [hs] at h; cases h
    | some m1 =>
      rw [hs] at h
      obtain ⟨f1, hlt⟩ := total_step f hs
      have := ih m1 m' f1 h
      simp only [List.length_cons]
      omega

end Vectory.Conc
