import Verif.Model.Conc
import Verif.Lemmas.Basic
import Verif.Lemmas.Terminate
/-!
# One goroutine alone does what the sequential model says

`stepPC` with no lock taken, iterated, is `Hnsw.insert`.
-/
namespace Vectory.Conc
open Vectory
variable {D : Type}

/-- steps of the goroutine running `j` while nobody else holds a lock. -/
inductive Solo (fixed : Bool) (M : Metric D) (j : Job) : Hnsw × PC D → Hnsw × PC D → Prop where
  | refl (x : Hnsw × PC D) : Solo fixed M j x x
  | step {x y z : Hnsw × PC D} : stepPC fixed M x.1 (fun _ => false) j x.2 = some y → Solo fixed M j y z → Solo fixed M j x z

variable {fixed : Bool} {M : Metric D} {j : Job}

theorem Solo.trans {x y z : Hnsw × PC D} (h : Solo fixed M j x y) (h2 : Solo fixed M j y z) : Solo fixed M j x z := by
  induction h with
  | refl => exact h2
  | step h _ ih => exact .step h (ih h2)

/-- a computation `r` of the sequential model as a run from `x`: it arrives at `k a` for the result `a`, at a dead goroutine for a
panic. -/
def Ends (fixed : Bool) (M : Metric D) (j : Job) {A : Type} (x : Hnsw × PC D) (r : Except Panic A) (k : A → Hnsw × PC D) : Prop :=
  match r with
  | .ok a => Solo fixed M j x (k a)
  | .error p => p = .outOfFuel ∨ ∃ h held, Solo fixed M j x (h, .dead p held)

theorem Ends.bind {A B : Type} {x : Hnsw × PC D} {r : Except Panic A} {k : A → Hnsw × PC D} {f : A → Except Panic B} {k' : B → Hnsw × PC D}
    (h : Ends fixed M j x r k) (h2 : ∀ a, r = .ok a → Ends fixed M j (k a) (f a) k') : Ends fixed M j x (r >>= f) k' := by
  cases r with
  | error p => exact h
  | ok a =>
    have h2 := h2 a rfl
    show Ends fixed M j x (f a) k'
    cases hf : f a with
    | error p =>
      rw [hf] at h2
      rcases h2 with h2 | ⟨h', held, h2⟩
      · exact Or.inl h2
      · exact Or.inr ⟨h', held, Solo.trans h h2⟩
    | ok b => rw [hf] at h2; exact Solo.trans h h2

theorem Ends.pre {A : Type} {x y : Hnsw × PC D} {r : Except Panic A} {k : A → Hnsw × PC D} (h : Solo fixed M j x y)
    (h2 : Ends fixed M j y r k) : Ends fixed M j x r k := by
  cases r with
  | ok a => exact Solo.trans h h2
  | error p =>
    rcases h2 with h2 | ⟨h', held, h2⟩
    · exact Or.inl h2
    · exact Or.inr ⟨h', held, Solo.trans h h2⟩

theorem Ends.ok {A : Type} {x : Hnsw × PC D} {a : A} {k : A → Hnsw × PC D} (h : Solo fixed M j x (k a)) :
    Ends fixed M j x (.ok a) k := h

theorem one {x y : Hnsw × PC D} (h : stepPC fixed M x.1 (fun _ => false) j x.2 = some y) : Solo fixed M j x y := .step h (.refl _)

theorem Ends.die {A : Type} {x : Hnsw × PC D} {h : Hnsw} {p : Panic} {held : Option UInt64} {k : A → Hnsw × PC D}
    (hs : stepPC fixed M x.1 (fun _ => false) j x.2 = some (h, .dead p held)) : Ends fixed M j x (.error p) k :=
  Or.inr ⟨h, held, one hs⟩

/-- a step that computes `r` and dies if `r` panics. -/
theorem Ends.orDie {A : Type} {x : Hnsw × PC D} {h : Hnsw} {held : Option UInt64} {r : Except Panic A} {f : A → PC D}
    (hs : stepPC fixed M x.1 (fun _ => false) j x.2 = some (h, orDie held r f)) : Ends fixed M j x r (fun a => (h, f a)) := by
  cases r with
  | ok a => exact one hs
  | error p => exact Ends.die hs

/-! ### searching one layer -/

theorem visits_ends (h : Hnsw) (cur : Nat) (ph : Phase) (buf : List UInt64) : ∀ (todo : List UInt64) (s : SL D),
    Ends fixed M j (h, .visit cur ph s buf todo) (todo.foldlM (visitOne M h.nodes j.vec (ph.ef h.cfg)) s)
      (fun s' => (h, .pop cur ph s' buf)) := by
  intro todo
  induction todo with
  | nil => exact fun s => one rfl
  | cons a todo ih =>
    intro s
    rw [List.foldlM_cons]
    exact Ends.bind (k := fun s' => (h, .visit cur ph s' buf todo)) (Ends.orDie (held := none) rfl) (fun s' _ => ih s')

theorem searchLoop_ends (h : Hnsw) (cur : Nat) (ph : Phase) : ∀ (fuel : Nat) (s : SL D) (buf : List UInt64),
    Ends fixed M j (h, .pop cur ph s buf) (searchLoop M h.nodes h.cfg.mMax0 j.vec (ph.ef h.cfg) (ph.layer j.level) fuel s)
      (fun s' => (h, afterSearch M h j cur ph s'.nn)) := by
  intro fuel
  induction fuel with
  | zero => exact fun s buf => Or.inl rfl
  | succ fuel ih =>
    intro s buf
    unfold searchLoop
    cases hp : Heap.pop (minLess M.lt) s.cands with
    | none => exact one (by simp only [stepPC, hp])
    | some r =>
      obtain ⟨c, rest⟩ := r
      dsimp only
      cases hk : Heap.peek s.nn with
      | none => exact Ends.die (h := h) (held := none) (by simp only [stepPC, hp, hk])
      | some f =>
        dsimp only
        by_cases hlt : M.lt f.dist c.dist = true
        · rw [if_pos hlt]
          exact one (by simp only [stepPC, hp, hk, hlt, if_true])
        · rw [if_neg hlt]
          cases hn : h.nodes.get? c.id with
          | none =>
            have : nodeAt h.nodes c.id = .error .nilDeref := by unfold nodeAt; rw [hn]
            rw [this]
            exact Ends.die (h := h) (held := none) (by simp only [stepPC, hp, hk, hn]; rw [if_neg hlt])
          | some cv =>
            have hnode : nodeAt h.nodes c.id = .ok cv := by unfold nodeAt; rw [hn]
            rw [hnode]
            show Ends fixed M j _ ((cv.connsAt (ph.layer j.level)) >>= _) _
            cases hc : cv.connsAt (ph.layer j.level) with
            | error p =>
              exact Ends.die (h := h) (held := some c.id) (by
                simp only [stepPC, hp, hk, hn]; rw [if_neg hlt]; simp [hc, orDie])
            | ok conns =>
              show Ends fixed M j _ (if h.cfg.mMax0 < conns.length then _ else _) _
              by_cases hl : h.cfg.mMax0 < conns.length
              · rw [if_pos hl]
                exact Ends.die (h := h) (held := some c.id) (by
                  simp only [stepPC, hp, hk, hn]; rw [if_neg hlt]; simp [hc, orDie, hl])
              · rw [if_neg hl]
                have s1 : stepPC fixed M h (fun _ => false) j (.pop cur ph s buf) =
                    some (h, .copy cur ph { s with cands := rest } buf c.id conns.length) := by
                  simp only [stepPC, hp, hk, hn]; rw [if_neg hlt]; simp [hc, orDie, hl]
                have s2 : stepPC fixed M h (fun _ => false) j (.copy cur ph { s with cands := rest } buf c.id conns.length) =
                    some (h, .visit cur ph { s with cands := rest } (conns ++ buf.drop conns.length) conns) := by
                  simp only [stepPC, hnode, ok_bind, hc, orDie, List.take_length]
                  rw [List.take_left']
                  rfl
                refine Ends.pre (.step s1 (one s2)) (Ends.bind (visits_ends h cur ph _ conns _) (fun s' _ => ih s' _))

theorem searchLayer_ends (h : Hnsw) (cur : Nat) (ph : Phase) (eps : List (Elem D)) :
    Ends fixed M j (h, .layer cur ph eps) (searchLayer M h.nodes h.cfg.mMax0 j.vec eps (ph.ef h.cfg) (ph.layer j.level))
      (fun nns => (h, afterSearch M h j cur ph nns)) := by
  unfold searchLayer
  by_cases hl : ph.ef h.cfg + 1 < eps.length
  · rw [if_pos hl]
    exact Ends.die (h := h) (held := none) (by simp only [stepPC]; rw [if_pos hl])
  · rw [if_neg hl]
    refine Ends.pre (one (y := (h, _)) (by simp only [stepPC]; rw [if_neg hl])) (Ends.bind (searchLoop_ends h cur ph _ _ _) (fun s' _ => .refl _))

theorem descend_ends (h : Hnsw) (cur : Nat) : ∀ (n : Nat) (eps : List (Elem D)),
    Ends fixed M j (h, .layer cur (.lookup n) eps) (descend M h.nodes h.cfg.mMax0 j.vec j.level (n + 1) eps)
      (fun eps' => (h, .layer cur (.construct (min cur j.level)) eps')) := by
  intro n
  induction n with
  | zero =>
    intro eps
    unfold descend
    refine Ends.bind (searchLayer_ends h cur (.lookup 0) eps) (fun nns _ => ?_)
    cases nns with
    | nil => exact Or.inr ⟨_, _, .refl _⟩
    | cons e t => exact .refl _
  | succ n ih =>
    intro eps
    unfold descend
    refine Ends.bind (searchLayer_ends h cur (.lookup (n + 1)) eps) (fun nns _ => ?_)
    cases nns with
    | nil => exact Or.inr ⟨_, _, .refl _⟩
    | cons e t => exact ih [e]

/-! ### connecting -/

theorem linkBack_ends (h : Hnsw) (cur l : Nat) (nns : List (Elem D)) (n : UInt64) (rest : List UInt64) :
    Ends fixed M j (h, .link cur l nns (n :: rest)) (h.linkBack M j.id j.vec l (maxConn h.cfg l) n)
      (fun h' => (h', .link cur l nns rest)) := by
  unfold Hnsw.linkBack
  cases hn : h.nodes.get? n with
  | none =>
    have : nodeAt h.nodes n = .error .nilDeref := by unfold nodeAt; rw [hn]
    rw [this]
    exact Ends.die (h := h) (held := none) (by simp only [stepPC, hn])
  | some nv =>
    have hnode : nodeAt h.nodes n = .ok nv := by unfold nodeAt; rw [hn]
    rw [hnode]
    show Ends fixed M j _ ((nv.connsAt l) >>= _) _
    cases hc : nv.connsAt l with
    | error p => exact Ends.die (h := h) (held := some n) (by simp only [stepPC, hn]; simp [hc, orDie])
    | ok conns =>
      show Ends fixed M j _ (if conns.length < maxConn h.cfg l then _ else _) _
      by_cases hl : conns.length < maxConn h.cfg l
      · rw [if_pos hl]
        have s1 : stepPC fixed M h (fun _ => false) j (.link cur l nns (n :: rest)) = some (h, .addLog cur l nns n rest) := by
          simp only [stepPC, hn]; simp [hc, orDie, hl]
        have s2 : stepPC fixed M h (fun _ => false) j (.addLog cur l nns n rest) =
            some (h.log (recAddConnection n (UInt32.ofNat l) j.id), .addRead cur l nns n rest) := rfl
        have s3 : stepPC fixed M (h.log (recAddConnection n (UInt32.ofNat l) j.id)) (fun _ => false) j (.addRead cur l nns n rest) =
            some (h.log (recAddConnection n (UInt32.ofNat l) j.id), .addWrite cur l nns n rest conns) := by
          simp only [stepPC, show (h.log (recAddConnection n (UInt32.ofNat l) j.id)).nodes = h.nodes from rfl, hnode, ok_bind, hc, orDie]
        refine Ends.pre (.step s1 (.step s2 (one s3))) ?_
        unfold Hnsw.addConnection addConn
        dsimp only
        rw [show (h.log (recAddConnection n (UInt32.ofNat l) j.id)).nodes = h.nodes from rfl, hnode]
        simp only [ok_bind, hc]
        refine one ?_
        have hlt : l < nv.conns.length := by
          unfold Vertex.connsAt at hc
          split at hc
          · rename_i c hcc; exact (List.getElem?_eq_some_iff.mp hcc).1
          · cases hc
        simp only [stepPC, setConns, show (h.log (recAddConnection n (UInt32.ofNat l) j.id)).nodes = h.nodes from rfl, hnode, ok_bind, hlt, if_true]
      · rw [if_neg hl]
        have hpr : ∀ {B : Type} (f : List UInt64 → Except Panic B),
            (do let d ← M.dist nv.vec j.vec
                let es ← elemsOf M h.nodes nv conns
                let new ← selectNeighbors M h.cfg h.nodes ({ id := j.id, dist := d } :: es) (maxConn h.cfg l)
                f new) = prune M h j l nv conns >>= f := by
          intro B f
          unfold prune
          cases M.dist nv.vec j.vec with
          | error p => rfl
          | ok d =>
            simp only [ok_bind]
            cases elemsOf M h.nodes nv conns with
            | error p => rfl
            | ok es => rfl
        rw [hpr]
        refine Ends.bind (k := fun new => (h, .pruneLog cur l nns n rest new)) (Ends.orDie (held := some n) ?_) (fun new _ => ?_)
        · simp only [stepPC, hn]
          rw [hc]
          simp only [Conc.orDie, if_neg hl]
          rfl
        · unfold Hnsw.setConnections
          dsimp only
          refine Ends.pre (one (y := (h.log (recSetConnections n (UInt32.ofNat l) new), .pruneSet cur l nns n rest new)) rfl) ?_
          cases hs : setConns (h.log (recSetConnections n (UInt32.ofNat l) new)).nodes n l new with
          | error p => exact Ends.die (h := _) (held := some n) (by simp only [stepPC, hs]; rfl)
          | ok nodes => exact one (by simp only [stepPC, hs])

theorem linkBack_cfg {h h' : Hnsw} {l mc : Nat} {n : UInt64} {v : UInt64} {vvec : Vec} (e : h.linkBack M v vvec l mc n = .ok h') :
    h'.cfg = h.cfg := by
  unfold Hnsw.linkBack at e
  obtain ⟨nv, _, e⟩ := (bind_ok_iff _ _ _).mp e
  obtain ⟨conns, _, e⟩ := (bind_ok_iff _ _ _).mp e
  split at e
  · unfold Hnsw.addConnection at e
    dsimp only at e
    obtain ⟨nodes, _, e⟩ := (bind_ok_iff _ _ _).mp e
    cases e; rfl
  · obtain ⟨_, _, e⟩ := (bind_ok_iff _ _ _).mp e
    obtain ⟨_, _, e⟩ := (bind_ok_iff _ _ _).mp e
    obtain ⟨_, _, e⟩ := (bind_ok_iff _ _ _).mp e
    unfold Hnsw.setConnections at e
    dsimp only at e
    obtain ⟨nodes, _, e⟩ := (bind_ok_iff _ _ _).mp e
    cases e; rfl

theorem links_ends (cur l : Nat) (nns : List (Elem D)) (cfg : Cfg) : ∀ (ns : List UInt64) (h : Hnsw), h.cfg = cfg →
    Ends fixed M j (h, .link cur l nns ns) (ns.foldlM (Hnsw.linkBack M j.id j.vec l (maxConn cfg l)) h)
      (fun h' => (h', .link cur l nns [])) := by
  intro ns
  induction ns with
  | nil => exact fun h _ => .refl _
  | cons n ns ih =>
    intro h hc
    rw [List.foldlM_cons]
    subst hc
    exact Ends.bind (linkBack_ends h cur l nns n ns) (fun h' e => ih h' (linkBack_cfg e))

theorem connectLayer_ends (h : Hnsw) (cur l : Nat) (eps : List (Elem D)) :
    Ends fixed M j (h, .layer cur (.construct l) eps) (h.connectLayer M j.id j.vec eps l)
      (fun r => (r.1, .link cur l r.2 [])) := by
  unfold Hnsw.connectLayer
  refine Ends.bind (searchLayer_ends h cur (.construct l) eps) (fun nns _ => ?_)
  refine Ends.bind (k := fun ns => (h, .logOwn cur l nns ns)) ?_ (fun ns _ => ?_)
  · show Ends fixed M j (h, orDie none (selectNeighbors M h.cfg h.nodes nns h.cfg.m) (.logOwn cur l nns)) _ _
    cases selectNeighbors M h.cfg h.nodes nns h.cfg.m with
    | ok ns => exact .refl _
    | error p => exact Or.inr ⟨_, _, .refl _⟩
  · refine Ends.bind (k := fun h' => (h', .link cur l nns ns)) ?_ (fun h' e => ?_)
    · unfold Hnsw.setConnections
      dsimp only
      refine Ends.pre (one (y := (h.log (recSetConnections j.id (UInt32.ofNat l) ns), .setOwn cur l nns ns)) (by simp [stepPC])) ?_
      cases hs : setConns (h.log (recSetConnections j.id (UInt32.ofNat l) ns)).nodes j.id l ns with
      | error p => exact Ends.die (h := _) (held := none) (by simp only [stepPC, hs]; rfl)
      | ok nodes => exact one (by simp only [stepPC, hs])
    · exact Ends.bind (links_ends cur l nns h'.cfg ns h' rfl) (fun h'' _ => .refl _)

theorem construct_ends (cur : Nat) : ∀ (l : Nat) (h : Hnsw) (eps : List (Elem D)),
    Ends fixed M j (h, .layer cur (.construct l) eps) (Hnsw.construct M j.id j.vec (l + 1) h eps) (fun h' => (h', .finish cur)) := by
  intro l
  induction l with
  | zero =>
    intro h eps
    unfold Hnsw.construct
    refine Ends.bind (connectLayer_ends h cur 0 eps) (fun r _ => ?_)
    exact one rfl
  | succ l ih =>
    intro h eps
    unfold Hnsw.construct
    refine Ends.bind (connectLayer_ends h cur (l + 1) eps) (fun r _ => ?_)
    exact Ends.pre (one rfl) (ih r.1 r.2)

/-! ### the whole call -/

/-- from the read of the entry point on. -/
theorem enter_ends (g : Hnsw) :
    Ends fixed M j (g, .enter) (do
      let epv ← nodeAt g.nodes g.entry
      let curMax := g.maxLayer
      let d ← M.dist epv.vec j.vec
      let eps ← descend M g.nodes g.cfg.mMax0 j.vec j.level (curMax - j.level) [{ id := g.entry, dist := d }]
      let h ← g.construct M j.id j.vec (min curMax j.level + 1) eps
      if curMax < j.level then
        let h := h.log (recSetEntryPoint j.id (UInt32.ofNat j.level))
        Except.ok { h with entry := j.id, maxLayer := j.level }
      else Except.ok h) (fun h' => (h', .idle)) := by
  have hd : ∀ {B : Type} (f : D → Except Panic B), (do let epv ← nodeAt g.nodes g.entry; let d ← M.dist epv.vec j.vec; f d) =
      (do let epv ← nodeAt g.nodes g.entry; M.dist epv.vec j.vec) >>= f := by
    intro B f
    cases nodeAt g.nodes g.entry <;> rfl
  dsimp only
  rw [hd]
  refine Ends.bind (Ends.orDie (held := none) (x := (g, .enter)) rfl) (fun d _ => ?_)
  refine Ends.bind (k := fun eps => (g, .layer g.maxLayer (.construct (min g.maxLayer j.level)) eps)) ?_ (fun eps _ => ?_)
  · by_cases hlt : j.level < g.maxLayer
    · rw [if_pos hlt]
      have : g.maxLayer - j.level = (g.maxLayer - j.level - 1) + 1 := by omega
      rw [this]
      exact descend_ends g _ _ _
    · rw [if_neg hlt]
      have : g.maxLayer - j.level = 0 := by omega
      rw [this]
      exact .refl _
  · refine Ends.bind (construct_ends _ _ _ _) (fun h' _ => ?_)
    by_cases hlt : g.maxLayer < j.level
    · rw [if_pos hlt]; exact one (by simp only [stepPC]; rw [if_pos hlt])
    · rw [if_neg hlt]; exact one (by simp only [stepPC]; rw [if_neg hlt])

theorem insert_ends (h : Hnsw) :
    Ends fixed M j (h, .start) (h.insert M j.vec j.id j.level) (fun h' => (h', .idle)) := by
  unfold Hnsw.insert
  by_cases h0 : h.once = false ∧ h.nodes = []
  · rw [if_pos h0]
    exact one (by simp only [stepPC]; rw [if_pos h0])
  · rw [if_neg h0]
    refine Ends.pre (one (y := ({ h with once := true }, .create)) (by simp only [stepPC]; rw [if_neg h0])) ?_
    generalize ({ h with once := true } : Hnsw) = h
    unfold Hnsw.insertNext
    by_cases hm : h.cfg.m = 1
    · rw [if_pos hm]
      exact Ends.die (h := h) (held := none) (by simp only [stepPC]; rw [if_pos hm])
    · rw [if_neg hm]
      refine Ends.pre (.step (y := (h.log (recAddVertex j.id (UInt32.ofNat j.level)), .publish)) (by simp only [stepPC]; rw [if_neg hm]) (one rfl)) ?_
      exact enter_ends _

end Vectory.Conc
