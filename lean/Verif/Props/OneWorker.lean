import Verif.Lemmas.OneBack
import Verif.Props.ConcLater
import Verif.Props.Loop
/-!
# C64: a batch run by one worker has the outcomes of the sequential batch, and no others
-/
namespace Vectory.Conc
open Vectory
variable {V D : Type}

theorem prepare_batch {c : Coll} {os objs : List (Object V)} {embed : Embed V} (h : prepare c os embed = .ok (.ok objs)) (L : Lib V D)
    (envs : Nat → InsEnv) (ff : Bool) : c.insertBatch L os embed envs ff = (do
      let (c, os, e) ← c.insertAll L (objs.zipIdx.map (fun p => (p.1, envs p.2)))
      match e with
      | some e => .ok (c, os, some e)
      | none =>
        let (c, e) := c.flush ff
        .ok (c, os, e)) := by
  unfold prepare at h
  unfold Coll.insertBatch
  split at h
  · cases h
  · rename_i hc
    rw [if_neg hc]
    split at h
    · cases h
    · rename_i hv
      rw [hv]
      dsimp only
      rw [h]
      rfl

/-- the choices of the environment as a function of the position. -/
theorem envs_of (l : List (Object V × InsEnv)) (objs : List (Object V)) (P : Nat → Prop) (hP0 : P 0) (hl : ∀ p ∈ l, P p.2.level)
    (h : l.map Prod.fst = objs.take l.length) :
    ∃ envs : Nat → InsEnv, (∀ i, P (envs i).level) ∧
      objs.zipIdx.map (fun p => (p.1, envs p.2)) = l ++ (objs.drop l.length).map (fun o => (o, ({} : InsEnv))) := by
  refine ⟨fun i => (l[i]?.map Prod.snd).getD ({} : InsEnv), ?_, ?_⟩
  · intro i
    dsimp only
    cases hi : l[i]? with
    | none => exact hP0
    | some p => exact hl p (List.mem_of_getElem? hi)
  · apply List.ext_getElem?
    intro i
    simp only [List.getElem?_map, List.getElem?_zipIdx, Nat.zero_add]
    by_cases hi : i < l.length
    · rw [List.getElem?_append_left hi]
      have h1 : (l.map Prod.fst)[i]? = objs[i]? := by rw [h, List.getElem?_take_of_lt hi]
      rw [List.getElem?_map, List.getElem?_eq_getElem hi] at h1
      rw [List.getElem?_eq_getElem hi, ← h1]
      simp [List.getElem?_eq_getElem hi]
    · rw [List.getElem?_append_right (by omega), List.getElem?_map, List.getElem?_drop, show l.length + (i - l.length) = i by omega]
      have := List.getElem?_eq_none (by omega : l.length ≤ i)
      cases objs[i]? <;> simp [this]

/-- C64: the outcomes of `InsertBatch` and `InsertBatch2` with a pool of one worker, over all schedules, all failures of the disk
and all random levels, are exactly the outcomes of the sequential batch: the same collection (memory and disk), the same objects
as the caller sees them, and the same error. -/
theorem C64_one_worker (two : Bool) (L : Lib V D) (dim : Nat) (c : Coll) (hr : ReachAnyConc false L dim c)
    (hM : ∀ a b, L.metric.dist a b ≠ .error .outOfFuel) (os : List (Object V)) (embed : Embed V) (he : EmbedOK c embed dim os)
    (hroom : c.counter.count.toNat + os.length < 18446744073709551616) (objs : List (Object V))
    (hp : prepare c os embed = .ok (.ok objs)) (c' : Coll) (os' : List (Object V)) (r : Option Err) :
    (∃ (acts : List BAct) (b : Batch V D), BatchAt false two L dim 1 c os embed acts b ∧ BAct.cancel ∉ acts ∧
        b.returned (r.map .task) ∧ b.c = c' ∧ b.objs = os') ↔
    (∃ (envs : Nat → InsEnv) (ff : Bool), (∀ i, (envs i).level < 4294967296) ∧
        c.insertBatch L os embed envs ff = .ok (c', os', r)) := by
  constructor
  · rintro ⟨acts, b, hb, hcan, hret, rfl, rfl⟩
    have hnp := tame_noPanic hr.inv.1 hb (Or.inr (Or.inl rfl))
    obtain ⟨_, _, _, hl, objs', b0, hp', hs, hrun⟩ := hb
    rw [hp] at hp'
    cases hp'
    have start : One false L (· < 4294967296) c objs b0 := by
      cases two with
      | true => simp only [if_true, Option.some.injEq] at hs; subst hs; exact one_start2
      | false => simp only [Bool.false_eq_true, if_false] at hs; exact one_start hs
    obtain ⟨t, th, l, ck, done, ht, hth, hca, hpre, hobj, hP, hph⟩ := start.run hM acts hcan (by decide) hl hrun
    obtain ⟨todo, pc⟩ := t
    unfold Batch.returned at hret
    cases pc with
    | done =>
      simp only [Phase1] at hph
      obtain ⟨_, hk, ho, hph⟩ := hph
      rcases hph with hph | ⟨ff, h1, h2⟩
      · rw [hph.1] at hret; cases hret
      · obtain ⟨envs, e1, e2⟩ := envs_of l objs (· < 4294967296) (by decide) hP hobj
        refine ⟨envs, ff, e1, ?_⟩
        rw [prepare_batch hp, e2, List.drop_eq_nil_of_le (by omega), List.map_nil, List.append_nil, hpre]
        show Except.ok ((ck.flush ff).1, done, (ck.flush ff).2) = _
        rw [h1] at hret
        have : (ck.flush ff).2 = r := by
          injection hret with hret
          cases hx : (ck.flush ff).2 with
          | none => rw [hx] at hret; cases r with | none => rfl | some e => cases hret
          | some e1 => rw [hx] at hret; cases r with | none => cases hret | some e => cases hret; rfl
        rw [this, h2, ho]
    | failed e =>
      simp only [Phase1] at hph
      obtain ⟨_, h1, o, o', env, hPe, hko, hins, ho⟩ := hph
      rcases h1 with h1 | h1
      · rw [h1] at hret; cases hret
      · rw [h1] at hret
        have hre : r = some e := by cases r with | none => cases hret | some e => cases hret; rfl
        subst hre
        have hsn : c.insertAll L (l ++ [(o, env)]) = .ok (b.c, done ++ [o'], some e) := by
          rw [insertAll_snoc l _ hpre]
          dsimp only
          rw [hins]
          rfl
        have hobj' : (l ++ [(o, env)]).map Prod.fst = objs.take (l ++ [(o, env)]).length := by
          rw [List.map_append, hobj, List.length_append]
          exact (take_snoc hko).symm
        obtain ⟨envs, e1, e2⟩ := envs_of (l ++ [(o, env)]) objs (· < 4294967296) (by decide) (by
          intro p hp
          rcases List.mem_append.mp hp with hp | hp
          · exact hP p hp
          · rw [List.mem_singleton.mp hp]; exact hPe) hobj'
        refine ⟨envs, false, e1, ?_⟩
        rw [prepare_batch hp, e2, insertAll_stop _ _ hsn]
        show Except.ok (b.c, _, some e) = _
        rw [ho]
        congr 2
        simp [Function.comp_def]
    | panicked => exact absurd rfl (hnp _ (by rw [ht]; exact List.mem_singleton.mpr rfl))
    | skipped => exact absurd hph (by simp [Phase1])
    | _ =>
      simp only [Phase1] at hph
      rw [hph.2.1] at hret
      cases hret
  · rintro ⟨envs, ff, hlev, h⟩
    rw [prepare_batch hp] at h
    obtain ⟨⟨c1, os1, e1⟩, h1, h⟩ := (bind_ok_iff _ _ _).mp h
    obtain ⟨b0, th, todo, hs, ht, hth, herr, hret, hc, ho, hq⟩ : ∃ (b0 : Batch V D) (th : Thread D) (todo : List Nat),
        (if two then some (startBatch2 c objs 1) else startBatch c objs 1) = some b0 ∧ b0.tasks = [⟨todo, .wait⟩] ∧ b0.ts = [th] ∧
          b0.ctxDone = false ∧ b0.ret = none ∧ b0.c = c ∧ b0.objs = objs ∧ todo ++ b0.queue = List.range' 0 objs.length := by
      cases two with
      | true => exact ⟨_, _, _, rfl, rfl, rfl, rfl, rfl, rfl, rfl, by simp [startBatch2, List.range_eq_range']⟩
      | false =>
        obtain ⟨todos, g1, g2, g3⟩ := C13_partition (List.range objs.length) 1 (Nat.zero_lt_one)
        rw [List.length_range] at g1
        match todos, g2 with
        | [todo], _ =>
          simp only [List.flatten_cons, List.flatten_nil, List.append_nil] at g3
          subst g3
          refine ⟨_, _, _, by simp only [Bool.false_eq_true, if_false, startBatch, g1]; rfl, rfl, rfl, rfl, rfl, rfl, rfl, ?_⟩
          simp [List.range_eq_range']
    have w : b0.work false L 0 {} = some { b0 with tasks := [⟨todo, .loop⟩] } := by
      simp only [Batch.work, ht, List.getElem?_cons_zero, herr, Batch.goto, List.set_cons_zero]
      rfl
    have herr' : b0.err = none := by
      unfold Batch.ctxDone at herr
      cases hx : b0.err with
      | none => rfl
      | some e => rw [hx] at herr; cases herr
    have hmap : (objs.zipIdx.map (fun p => (p.1, envs p.2))).map Prod.fst = objs := by
      rw [List.map_map]
      show objs.zipIdx.map Prod.fst = objs
      simp
    obtain ⟨b1, g, i1, i2, i3, i4, i5⟩ := goes_all (fixed := false) (L := L) (P := (· < 4294967296)) hM (by decide)
      (objs.zipIdx.map (fun p => (p.1, envs p.2))) { b0 with tasks := [⟨todo, .loop⟩] } todo th [] rfl hth herr'
      (by rw [hmap]; exact ho) (by simpa using hq) (by
        intro p hp
        obtain ⟨q, _, rfl⟩ := List.mem_map.mp hp
        exact hlev q.2) (by rw [← hc] at h1; exact h1)
    have g0 := Goes.work (L := L) (fixed := false) (P := (· < 4294967296)) (env := {}) (by decide) w g
    have finish : ∃ b2, Goes false L (· < 4294967296) b1 b2 ∧ b2.returned (r.map .task) ∧ b2.c = c' ∧ b2.objs = os' := by
      cases e1 with
      | some e =>
        cases h
        refine ⟨{ b1 with ret := some (some (.task e)) }, Goes.finish (ff := false) ?_, rfl, i1, i2⟩
        simp only [Batch.step]
        rw [if_pos ⟨by rw [i4]; exact hret, i5⟩, i3]
        rfl
      | none =>
        cases h
        refine ⟨{ b1 with c := (b1.c.flush ff).1, ret := some ((b1.c.flush ff).2.map .task) }, Goes.finish (ff := ff) ?_, ?_, ?_, ?_⟩
        · simp only [Batch.step]
          rw [if_pos ⟨by rw [i4]; exact hret, i5⟩, i3]
          rfl
        · show some _ = some _
          rw [i1]; rfl
        · show (b1.c.flush ff).1 = _
          rw [i1]; rfl
        · show b1.objs = _
          rw [i2]; rfl
    obtain ⟨b2, g2, j1, j2, j3⟩ := finish
    obtain ⟨acts, a1, a2, a3⟩ := g0.trans g2
    exact ⟨acts, b2, ⟨Nat.zero_lt_one, he, hroom, a2, objs, b0, hp, hs, a3⟩, a1, j1, j2, j3⟩

theorem demoDist_fuel : ∀ a b, demoLib.metric.dist a b ≠ .error .outOfFuel := by
  intro a
  show ∀ b, demoDist a b ≠ .error .outOfFuel
  induction a with
  | nil => intro b h; cases b <;> cases h
  | cons x a ih =>
    intro b
    cases b with
    | nil => intro h; cases h
    | cons y b => unfold demoDist; exact bind_fuel (ih b) (fun d _ h => by cases h)

-- the batch of the example, on a new collection: three objects, the second rises to layer 1; the sequential batch ends with three
-- vertices, so some schedule of the single worker does
example : ∃ (c' : Coll) (os' : List (Object UInt8)) (acts : List BAct) (b : Batch UInt8 Nat), c'.index.nodes.length = 3 ∧ c'.index.maxLayer = 1 ∧
    BatchAt false true demoLib 1 1 (Coll.new demoCfg ["a"] false) [demoObj 11, demoObj 29, demoObj 3] noEmbed acts b ∧
    b.returned none ∧ b.c = c' ∧ b.objs = os' := by
  have h : (match (Coll.new demoCfg ["a"] false).insertBatch demoLib [demoObj 11, demoObj 29, demoObj 3] noEmbed c64Envs false with
      | .ok (c', _, none) => decide (c'.index.nodes.length = 3 ∧ c'.index.maxLayer = 1)
      | _ => false) = true := by decide +kernel
  split at h
  · rename_i c' os' hb
    obtain ⟨acts, b, h1, _, h2, h3, h4⟩ := (C64_one_worker true demoLib 1 (Coll.new demoCfg ["a"] false) (.new (demo_setup 1 (by decide)))
      demoDist_fuel [demoObj 11, demoObj 29, demoObj 3] noEmbed
      ⟨_, rfl, by intro os h o ho; cases h; simp at ho; rcases ho with rfl | rfl | rfl <;> rfl⟩ (by decide) _ rfl c' os' none).mpr
      ⟨c64Envs, false, (fun i => by unfold c64Envs; dsimp only; split <;> decide), hb⟩
    simp only [decide_eq_true_eq] at h
    exact ⟨c', os', acts, b, h.1, h.2, h1, h2, h3, h4⟩
  · cases h

end Vectory.Conc
