import Verif.Lemmas.ConcReal
import Verif.Props.Exact
/-! Concurrent inserts of level 0 into a small index keep its bottom layer connected. -/
namespace Vectory.Conc
open Vectory
variable {D : Type} {M : Metric D} {dim : Nat}

/-- the neighbours that a goroutine has still to link back to its vertex. -/
def PC.pend : PC D → List UInt64
  | .link _ _ _ todo => todo
  | .addLog _ _ _ n rest => n :: rest
  | .addRead _ _ _ n rest => n :: rest
  | .addWrite _ _ _ n rest _ => n :: rest
  | _ => []

/-- the neighbours that a goroutine has chosen and not yet written. -/
def PC.chosen : PC D → Option (List UInt64)
  | .logOwn _ _ _ ns => some ns
  | .setOwn _ _ _ ns => some ns
  | _ => none

def PC.pruning : PC D → Bool
  | .pruneLog .. => true
  | .pruneSet .. => true
  | _ => false

theorem PC.pend_ments {pc : PC D} {n : UInt64} (h : n ∈ pc.pend) : n ∈ pc.ments := by
  cases pc
  all_goals first
    | exact absurd h List.not_mem_nil
    | exact List.mem_append.mpr (Or.inr h)
    | exact List.mem_append.mpr (Or.inr (List.mem_append.mpr (Or.inl h)))

theorem PC.chosen_ments {pc : PC D} {ns : List UInt64} (h : pc.chosen = some ns) {n : UInt64} (hn : n ∈ ns) : n ∈ pc.ments := by
  cases pc <;> first | cases h | skip
  all_goals exact List.mem_append.mpr (Or.inr hn)

theorem PC.pend_active {pc : PC D} {n : UInt64} (h : n ∈ pc.pend) : pc.active = true := by
  cases pc <;> first | rfl | exact absurd h List.not_mem_nil

/-- the bottom layer while goroutines insert vertices of level 0 and no list is full. -/
structure Flat (h : Hnsw) (ts : List (Thread D)) : Prop where
  nd : ∀ x c, link? h.nodes x 0 = some c → c.Nodup ∧ x ∉ c
  /-- the list of a vertex that is not linked yet is empty -/
  fresh : ∀ (i : Nat) (t : Thread D), ts[i]? = some t → t.pc.hidden = true → ∀ c, link? h.nodes t.job.id 0 = some c → c = []
  chosen : ∀ (i : Nat) (t : Thread D), ts[i]? = some t → ∀ ns, t.pc.chosen = some ns → ns.Nodup ∧ ns ≠ []
  pendNd : ∀ (i : Nat) (t : Thread D), ts[i]? = some t → t.pc.pend.Nodup
  pend : ∀ (i : Nat) (t : Thread D), ts[i]? = some t → ∀ n ∈ t.pc.pend, Vectory.Linked h.nodes t.job.id n ∧
    ¬ Vectory.Linked h.nodes n t.job.id
  noPrune : ∀ (i : Nat) (t : Thread D), ts[i]? = some t → t.pc.pruning = false
  /-- links are mutual, or will be -/
  both : ∀ x y, Vectory.Linked h.nodes x y → Vectory.Linked h.nodes y x ∨
    ∃ (i : Nat) (t : Thread D), ts[i]? = some t ∧ t.job.id = x ∧ y ∈ t.pc.pend
  /-- every vertex that is linked reaches the entry point -/
  up : ∀ x ∈ h.nodes.keys, (∀ (i : Nat) (t : Thread D), ts[i]? = some t → t.pc.hidden = true → t.job.id ≠ x) →
    Reaches h.nodes x h.entry

/-- a step that changes no list. -/
theorem Flat.same {h h' : Hnsw} {ts : List (Thread D)} (f : Flat h ts) {i : Nat} {t : Thread D} {pc' : PC D} (ht : ts[i]? = some t)
    (hn : h'.nodes = h.nodes) (he : h'.entry = h.entry) (hh : pc'.hidden = t.pc.hidden) (hp : pc'.pend = t.pc.pend)
    (hc : ∀ ns, pc'.chosen = some ns → t.pc.chosen = some ns ∨ (ns.Nodup ∧ ns ≠ [])) (hr : pc'.pruning = false) :
    Flat h' (ts.set i { t with pc := pc' }) := by
  refine ⟨?_, ?_, ?_, ?_, ?_, ?_, ?_, ?_⟩
  · rw [hn]; exact f.nd
  · intro k u hu hid
    rw [hn]
    rcases set_get hu with ⟨rfl, rfl⟩ | ⟨_, hu⟩
    · exact f.fresh k t ht (hh ▸ hid)
    · exact f.fresh k u hu hid
  · intro k u hu ns hns
    rcases set_get hu with ⟨rfl, rfl⟩ | ⟨_, hu⟩
    · rcases hc ns hns with h1 | h1
      · exact f.chosen k t ht ns h1
      · exact h1
    · exact f.chosen k u hu ns hns
  · intro k u hu
    rcases set_get hu with ⟨rfl, rfl⟩ | ⟨_, hu⟩
    · show pc'.pend.Nodup
      rw [hp]; exact f.pendNd k t ht
    · exact f.pendNd k u hu
  · intro k u hu n hm
    rw [hn]
    rcases set_get hu with ⟨rfl, rfl⟩ | ⟨_, hu⟩
    · exact f.pend k t ht n (hp ▸ hm)
    · exact f.pend k u hu n hm
  · intro k u hu
    rcases set_get hu with ⟨rfl, rfl⟩ | ⟨_, hu⟩
    · exact hr
    · exact f.noPrune k u hu
  · intro x y hl
    rw [hn] at hl ⊢
    rcases f.both x y hl with h1 | ⟨k, u, hu, h1, h2⟩
    · exact Or.inl h1
    · right
      by_cases hk : k = i
      · subst hk
        rw [ht] at hu; cases hu
        exact ⟨k, _, set_this ht, h1, by show y ∈ pc'.pend; rw [hp]; exact h2⟩
      · exact ⟨k, u, set_other hk hu, h1, h2⟩
  · intro x hx hno
    rw [hn] at hx ⊢
    rw [he]
    refine f.up x hx ?_
    intro k u hu hid
    by_cases hk : k = i
    · subst hk
      rw [ht] at hu; cases hu
      exact hno k { t with pc := pc' } (set_this ht) (hh.trans hid)
    · exact hno k u (set_other hk hu) hid

/-- a new vertex with an empty list. -/
theorem Flat.publish {h : Hnsw} {ts : List (Thread D)} (f : Flat h ts) {i : Nat} {t : Thread D} {cs : List (List UInt64)} {vec : Vec} (ht : ts[i]? = some t)
    (hpc : t.pc = .publish) (hid : h.nodes.get? t.job.id = none) (hc0 : cs[0]? = some []) :
    Flat { h with nodes := h.nodes.set t.job.id ⟨t.job.id, cs, vec⟩ } (ts.set i { t with pc := .enter }) := by
  have hlk : ∀ x c, link? (h.nodes.set t.job.id ⟨t.job.id, cs, vec⟩) x 0 = some c → (x = t.job.id ∧ c = []) ∨ link? h.nodes x 0 = some c := by
    intro x c hc
    by_cases hx : x = t.job.id
    · subst hx
      left
      obtain ⟨v, hv, hvc⟩ := link?_some hc
      rw [AMap.get?_set_self] at hv
      cases hv
      rw [hc0] at hvc
      exact ⟨rfl, (Option.some.inj hvc).symm⟩
    · rw [link?_set_ne hx] at hc
      exact Or.inr hc
  have hno : ∀ c, link? h.nodes t.job.id 0 ≠ some c := by
    intro c hc
    obtain ⟨v, hv, _⟩ := link?_some hc
    rw [hid] at hv; cases hv
  have hback : ∀ x y, Vectory.Linked (h.nodes.set t.job.id ⟨t.job.id, cs, vec⟩) x y ↔ Vectory.Linked h.nodes x y := by
    intro x y
    constructor
    · rintro ⟨c, hc, hy⟩
      rcases hlk x c hc with ⟨_, rfl⟩ | h1
      · cases hy
      · exact ⟨c, h1, hy⟩
    · rintro ⟨c, hc, hy⟩
      refine ⟨c, ?_, hy⟩
      rw [link?_set_ne]
      · exact hc
      · rintro rfl; exact hno c hc
  refine ⟨?_, ?_, ?_, ?_, ?_, ?_, ?_, ?_⟩
  · intro x c hc
    rcases hlk x c hc with ⟨_, rfl⟩ | h1
    · exact ⟨List.nodup_nil, List.not_mem_nil⟩
    · exact f.nd x c h1
  · intro k u hu hh c hc
    rcases hlk _ c hc with ⟨_, rfl⟩ | h1
    · rfl
    · rcases set_get hu with ⟨rfl, rfl⟩ | ⟨_, hu⟩
      · exact absurd h1 (hno c)
      · exact f.fresh k u hu hh c h1
  · intro k u hu ns hns
    rcases set_get hu with ⟨rfl, rfl⟩ | ⟨_, hu⟩
    · cases hns
    · exact f.chosen k u hu ns hns
  · intro k u hu
    rcases set_get hu with ⟨rfl, rfl⟩ | ⟨_, hu⟩
    · exact List.nodup_nil
    · exact f.pendNd k u hu
  · intro k u hu n hm
    rcases set_get hu with ⟨rfl, rfl⟩ | ⟨_, hu⟩
    · cases hm
    · rw [hback, hback]; exact f.pend k u hu n hm
  · intro k u hu
    rcases set_get hu with ⟨rfl, rfl⟩ | ⟨_, hu⟩
    · rfl
    · exact f.noPrune k u hu
  · intro x y hl
    rw [hback] at hl ⊢
    rcases f.both x y hl with h1 | ⟨k, u, hu, h1, h2⟩
    · exact Or.inl h1
    · refine Or.inr ⟨k, u, set_other ?_ hu, h1, h2⟩
      rintro rfl
      rw [ht] at hu; cases hu
      rw [hpc] at h2; cases h2
  · intro x hx hno'
    have hxne : x ≠ t.job.id := fun e => hno' i _ (set_this ht) rfl e.symm
    have hxk : x ∈ h.nodes.keys := by
      rw [AMap.keys_set] at hx
      split at hx
      · exact hx
      · rcases List.mem_append.mp hx with h1 | h1
        · exact h1
        · exact absurd (List.mem_singleton.mp h1) hxne
    refine Reaches.mono (fun a b hl => (hback a b).mpr hl) (f.up x hxk ?_)
    intro k u hu hh
    by_cases hk : k = i
    · subst hk
      rw [ht] at hu; cases hu
      exact fun e => hxne e.symm
    · exact hno' k u (set_other hk hu) hh

/-- the first vertex of all. -/
theorem Flat.first {h h' : Hnsw} {ts : List (Thread D)} (f : Flat h ts) {i : Nat} {t : Thread D} {v : Vertex} (ht : ts[i]? = some t)
    (hn : h.nodes = []) (hn' : h'.nodes = [(t.job.id, v)]) (hv : v.conns = [[]]) (he : h'.entry = t.job.id) :
    Flat h' (ts.set i { t with pc := .idle }) := by
  have hlk : ∀ x c, link? h'.nodes x 0 = some c → c = [] := by
    intro x c hc
    obtain ⟨w, hw, hwc⟩ := link?_some hc
    rw [hn'] at hw
    have : w = v := by
      simp only [AMap.get?] at hw
      split at hw
      · cases hw; rfl
      · cases hw
    subst this
    rw [hv] at hwc
    simpa using hwc.symm
  have hno : ∀ x y, ¬ Vectory.Linked h'.nodes x y := by
    rintro x y ⟨c, hc, hy⟩
    rw [hlk x c hc] at hy; cases hy
  have hemp : ∀ (k : Nat) (u : Thread D), ts[k]? = some u → u.pc.pend = [] := by
    intro k u hu
    cases hp : u.pc.pend with
    | nil => rfl
    | cons n r =>
      obtain ⟨⟨c, hc, _⟩, _⟩ := f.pend k u hu n (by rw [hp]; simp)
      have := keys_of_link hc
      rw [hn] at this; cases this
  refine ⟨?_, ?_, ?_, ?_, ?_, ?_, ?_, ?_⟩
  · intro x c hc
    rw [hlk x c hc]; exact ⟨List.nodup_nil, List.not_mem_nil⟩
  · intro k u hu hh c hc; exact hlk _ c hc
  · intro k u hu ns hns
    rcases set_get hu with ⟨rfl, rfl⟩ | ⟨_, hu⟩
    · cases hns
    · exact f.chosen k u hu ns hns
  · intro k u hu
    rcases set_get hu with ⟨rfl, rfl⟩ | ⟨_, hu⟩
    · exact List.nodup_nil
    · exact f.pendNd k u hu
  · intro k u hu n hm
    rcases set_get hu with ⟨rfl, rfl⟩ | ⟨_, hu⟩
    · cases hm
    · rw [hemp k u hu] at hm; cases hm
  · intro k u hu
    rcases set_get hu with ⟨rfl, rfl⟩ | ⟨_, hu⟩
    · rfl
    · exact f.noPrune k u hu
  · intro x y hl; exact absurd hl (hno x y)
  · intro x hx _
    rw [hn'] at hx
    have : x = t.job.id := by simpa [AMap.keys] using hx
    rw [this, he]
    exact .refl _

/-- the new vertex gets its list. -/
theorem Flat.setOwn {h : Hnsw} {an : AMap UInt64 Vertex} {ts : List (Thread D)} (c : MachInv M dim h an ts) (s : Sec h ts) (f : Flat h ts)
    {i : Nat} {t : Thread D} {cur : Nat} {nns : List (Elem D)} {ns : List UInt64} {v : Vertex} (ht : ts[i]? = some t)
    (hpc : t.pc = .setOwn cur 0 nns ns) (hv : h.nodes.get? t.job.id = some v) (hvl : 0 < v.conns.length)
    (hin : ∀ n ∈ ns, n ∈ h.nodes.keys) :
    Flat { h with nodes := putConns h.nodes t.job.id v 0 ns } (ts.set i { t with pc := .link cur 0 nns ns }) := by
  have hhid : t.pc.hidden = true := by rw [hpc]; rfl
  obtain ⟨s1, s2, s3⟩ := s i t ht hhid
  obtain ⟨n1, n2⟩ := f.chosen i t ht ns (by rw [hpc]; rfl)
  have hnot : t.job.id ∉ ns := by
    intro hm
    exact s3 i t ht (by rw [hpc]; exact List.mem_append.mpr (Or.inr hm))
  have hunl : ∀ y, ¬ Vectory.Linked h.nodes y t.job.id := fun y ⟨cs, hc, hm⟩ => s1 ⟨y, 0, cs, hc, hm⟩
  have hlk : ∀ x c, link? (putConns h.nodes t.job.id v 0 ns) x 0 = some c → (x = t.job.id ∧ c = ns) ∨ (x ≠ t.job.id ∧ link? h.nodes x 0 = some c) := by
    intro x c hc
    rw [link?_put ns hv hvl] at hc
    split at hc
    · rename_i e; exact Or.inl ⟨e.1, (Option.some.inj hc).symm⟩
    · rename_i e; exact Or.inr ⟨fun e' => e ⟨e', rfl⟩, hc⟩
  have hmono : ∀ x y, Vectory.Linked h.nodes x y → Vectory.Linked (putConns h.nodes t.job.id v 0 ns) x y := by
    rintro x y ⟨cs, hc, hy⟩
    have hx : x ≠ t.job.id := by
      rintro rfl
      rw [f.fresh i t ht hhid cs hc] at hy; cases hy
    refine ⟨cs, ?_, hy⟩
    rw [link?_put ns hv hvl, if_neg (fun e => hx e.1)]; exact hc
  have hown : ∀ n ∈ ns, Vectory.Linked (putConns h.nodes t.job.id v 0 ns) t.job.id n := by
    intro n hn
    exact ⟨ns, by rw [link?_put ns hv hvl, if_pos ⟨rfl, rfl⟩], hn⟩
  have hback : ∀ x y, Vectory.Linked (putConns h.nodes t.job.id v 0 ns) x y → (x = t.job.id ∧ y ∈ ns) ∨ (x ≠ t.job.id ∧ Vectory.Linked h.nodes x y) := by
    rintro x y ⟨cs, hc, hy⟩
    rcases hlk x cs hc with ⟨rfl, rfl⟩ | ⟨h1, h2⟩
    · exact Or.inl ⟨rfl, hy⟩
    · exact Or.inr ⟨h1, cs, h2, hy⟩
  refine ⟨?_, ?_, ?_, ?_, ?_, ?_, ?_, ?_⟩
  · intro x cs hc
    rcases hlk x cs hc with ⟨rfl, rfl⟩ | ⟨_, h2⟩
    · exact ⟨n1, hnot⟩
    · exact f.nd x cs h2
  · intro k u hu hh cs hc
    rcases set_get hu with ⟨rfl, rfl⟩ | ⟨hk, hu⟩
    · cases hh
    · rcases hlk _ cs hc with ⟨h1, _⟩ | ⟨_, h2⟩
      · exact absurd (c.ids k i u t hu ht (PC.hidden_active hh) (PC.hidden_active hhid) h1) hk
      · exact f.fresh k u hu hh cs h2
  · intro k u hu xs hxs
    rcases set_get hu with ⟨rfl, rfl⟩ | ⟨_, hu⟩
    · cases hxs
    · exact f.chosen k u hu xs hxs
  · intro k u hu
    rcases set_get hu with ⟨rfl, rfl⟩ | ⟨_, hu⟩
    · exact n1
    · exact f.pendNd k u hu
  · intro k u hu n hm
    rcases set_get hu with ⟨rfl, rfl⟩ | ⟨hk, hu⟩
    · have hm : n ∈ ns := hm
      refine ⟨hown n hm, fun hl => ?_⟩
      rcases hback _ _ hl with ⟨_, h2⟩ | ⟨_, h2⟩
      · exact hnot h2
      · exact hunl n h2
    · obtain ⟨p1, p2⟩ := f.pend k u hu n hm
      refine ⟨hmono _ _ p1, fun hl => ?_⟩
      rcases hback _ _ hl with ⟨h1, _⟩ | ⟨_, h2⟩
      · exact s3 k u hu (h1 ▸ PC.pend_ments hm)
      · exact p2 h2
  · intro k u hu
    rcases set_get hu with ⟨rfl, rfl⟩ | ⟨_, hu⟩
    · rfl
    · exact f.noPrune k u hu
  · intro x y hl
    rcases hback x y hl with ⟨rfl, h2⟩ | ⟨_, h2⟩
    · exact Or.inr ⟨i, _, set_this ht, rfl, h2⟩
    · rcases f.both x y h2 with h1 | ⟨k, u, hu, h1, h3⟩
      · exact Or.inl (hmono _ _ h1)
      · refine Or.inr ⟨k, u, set_other ?_ hu, h1, h3⟩
        rintro rfl
        rw [ht] at hu; cases hu
        rw [hpc] at h3; cases h3
  · have hkeys : ∀ x, x ∈ (putConns h.nodes t.job.id v 0 ns).keys → x ∈ h.nodes.keys := by
      intro x hx
      rw [(shape_put ns hv).keys] at hx; exact hx
    -- a vertex that was linked before
    have old : ∀ x ∈ h.nodes.keys, x ≠ t.job.id → (∀ (k : Nat) (u : Thread D), (ts.set i { t with pc := .link cur 0 nns ns })[k]? = some u →
        u.pc.hidden = true → u.job.id ≠ x) → Reaches (putConns h.nodes t.job.id v 0 ns) x h.entry := by
      intro x hx hne hno
      refine Reaches.mono hmono (f.up x hx ?_)
      intro k u hu hh
      by_cases hk : k = i
      · subst hk
        rw [ht] at hu; cases hu
        exact fun e => hne e.symm
      · exact hno k u (set_other hk hu) hh
    intro x hx hno
    by_cases hxid : x = t.job.id
    · subst hxid
      obtain ⟨n, hn⟩ := List.exists_mem_of_ne_nil _ n2
      have hnne : n ≠ t.job.id := fun e => hnot (e ▸ hn)
      refine Reaches.trans (.step (.refl _) (hown n hn)) (old n (hin n hn) hnne ?_)
      intro k u hu hh e
      rcases set_get hu with ⟨rfl, rfl⟩ | ⟨hk, hu⟩
      · cases hh
      · exact (s k u hu hh).2.2 i t ht (by rw [hpc, e]; exact List.mem_append.mpr (Or.inr hn))
    · exact old x (hkeys x hx) hxid hno

/-- a neighbour gets its link back. -/
theorem Flat.addWrite {h : Hnsw} {an : AMap UInt64 Vertex} {ts : List (Thread D)} (c : MachInv M dim h an ts) (s : Sec h ts) (f : Flat h ts)
    {i : Nat} {t : Thread D} {cur : Nat} {nns : List (Elem D)} {n : UInt64} {rest cs : List UInt64} {v : Vertex} (ht : ts[i]? = some t)
    (hpc : t.pc = .addWrite cur 0 nns n rest cs) (hv : h.nodes.get? n = some v) (hvl : 0 < v.conns.length)
    (hcs : link? h.nodes n 0 = some cs) :
    Flat { h with nodes := putConns h.nodes n v 0 (cs ++ [t.job.id]) } (ts.set i { t with pc := .link cur 0 nns rest }) := by
  have hact : t.pc.active = true := by rw [hpc]; rfl
  have hp : t.pc.pend = n :: rest := by rw [hpc]; rfl
  obtain ⟨p1, p2⟩ := f.pend i t ht n (by rw [hp]; simp)
  have hnd := f.pendNd i t ht
  rw [hp] at hnd
  obtain ⟨hnr, hnd⟩ := List.nodup_cons.mp hnd
  have hne : n ≠ t.job.id := by
    rintro rfl
    exact p2 p1
  have hjc : t.job.id ∉ cs := fun hm => p2 ⟨cs, hcs, hm⟩
  have hlk : ∀ x c, link? (putConns h.nodes n v 0 (cs ++ [t.job.id])) x 0 = some c → (x = n ∧ c = cs ++ [t.job.id]) ∨ (x ≠ n ∧ link? h.nodes x 0 = some c) := by
    intro x c hc
    rw [link?_put _ hv hvl] at hc
    split at hc
    · rename_i e; exact Or.inl ⟨e.1, (Option.some.inj hc).symm⟩
    · rename_i e; exact Or.inr ⟨fun e' => e ⟨e', rfl⟩, hc⟩
  have hnew : Vectory.Linked (putConns h.nodes n v 0 (cs ++ [t.job.id])) n t.job.id :=
    ⟨_, by rw [link?_put _ hv hvl, if_pos ⟨rfl, rfl⟩], List.mem_append.mpr (Or.inr (List.mem_singleton.mpr rfl))⟩
  have hmono : ∀ x y, Vectory.Linked h.nodes x y → Vectory.Linked (putConns h.nodes n v 0 (cs ++ [t.job.id])) x y := by
    rintro x y ⟨ds, hc, hy⟩
    by_cases hx : x = n
    · subst hx
      rw [hcs] at hc; cases hc
      exact ⟨_, by rw [link?_put _ hv hvl, if_pos ⟨rfl, rfl⟩], List.mem_append.mpr (Or.inl hy)⟩
    · exact ⟨ds, by rw [link?_put _ hv hvl, if_neg (fun e => hx e.1)]; exact hc, hy⟩
  have hback : ∀ x y, Vectory.Linked (putConns h.nodes n v 0 (cs ++ [t.job.id])) x y → (x = n ∧ y = t.job.id) ∨ Vectory.Linked h.nodes x y := by
    rintro x y ⟨ds, hc, hy⟩
    rcases hlk x ds hc with ⟨rfl, rfl⟩ | ⟨_, h2⟩
    · rcases List.mem_append.mp hy with h1 | h1
      · exact Or.inr ⟨cs, hcs, h1⟩
      · exact Or.inl ⟨rfl, List.mem_singleton.mp h1⟩
    · exact Or.inr ⟨ds, h2, hy⟩
  refine ⟨?_, ?_, ?_, ?_, ?_, ?_, ?_, ?_⟩
  · intro x ds hc
    rcases hlk x ds hc with ⟨rfl, rfl⟩ | ⟨_, h2⟩
    · obtain ⟨a, b⟩ := f.nd _ cs hcs
      refine ⟨?_, ?_⟩
      · rw [List.nodup_append]
        refine ⟨a, by simp, ?_⟩
        intro y hy z hz
        rw [List.mem_singleton.mp hz]
        rintro rfl
        exact hjc hy
      · intro hm
        rcases List.mem_append.mp hm with h1 | h1
        · exact b h1
        · exact hne (List.mem_singleton.mp h1)
    · exact f.nd x ds h2
  · intro k u hu hh ds hc
    rcases set_get hu with ⟨rfl, rfl⟩ | ⟨hk, hu⟩
    · cases hh
    · rcases hlk _ ds hc with ⟨h1, _⟩ | ⟨_, h2⟩
      · exact absurd (PC.pend_ments (pc := t.pc) (by rw [hp, h1]; simp)) ((s k u hu hh).2.2 i t ht)
      · exact f.fresh k u hu hh ds h2
  · intro k u hu xs hxs
    rcases set_get hu with ⟨rfl, rfl⟩ | ⟨_, hu⟩
    · cases hxs
    · exact f.chosen k u hu xs hxs
  · intro k u hu
    rcases set_get hu with ⟨rfl, rfl⟩ | ⟨_, hu⟩
    · exact hnd
    · exact f.pendNd k u hu
  · intro k u hu x hm
    rcases set_get hu with ⟨rfl, rfl⟩ | ⟨hk, hu⟩
    · have hm : x ∈ rest := hm
      obtain ⟨a, b⟩ := f.pend k t ht x (by rw [hp]; exact List.mem_cons_of_mem _ hm)
      refine ⟨hmono _ _ a, fun hl => ?_⟩
      rcases hback _ _ hl with ⟨h1, _⟩ | h2
      · exact hnr (h1 ▸ hm)
      · exact b h2
    · obtain ⟨a, b⟩ := f.pend k u hu x hm
      refine ⟨hmono _ _ a, fun hl => ?_⟩
      rcases hback _ _ hl with ⟨_, h1⟩ | h2
      · exact hk (c.ids k i u t hu ht (PC.pend_active hm) hact h1)
      · exact b h2
  · intro k u hu
    rcases set_get hu with ⟨rfl, rfl⟩ | ⟨_, hu⟩
    · rfl
    · exact f.noPrune k u hu
  · intro x y hl
    rcases hback x y hl with ⟨rfl, rfl⟩ | h2
    · exact Or.inl (hmono _ _ p1)
    · rcases f.both x y h2 with h1 | ⟨k, u, hu, h1, h3⟩
      · exact Or.inl (hmono _ _ h1)
      · by_cases hk : k = i
        · subst hk
          rw [ht] at hu; cases hu
          rw [hp] at h3
          rcases List.mem_cons.mp h3 with rfl | h3
          · exact Or.inl (h1 ▸ hnew)
          · exact Or.inr ⟨k, _, set_this ht, h1, h3⟩
        · exact Or.inr ⟨k, u, set_other hk hu, h1, h3⟩
  · intro x hx hno
    rw [(shape_put _ hv).keys] at hx
    refine Reaches.mono hmono (f.up x hx ?_)
    intro k u hu hh
    by_cases hk : k = i
    · subst hk
      rw [ht] at hu; cases hu
      rw [hpc] at hh; cases hh
    · exact hno k u (set_other hk hu) hh

theorem pend_call {ts : List (Thread D)} {i : Nat} {t : Thread D} (ht : ts[i]? = some t) (hp : t.pc = .idle) {h : Hnsw} (f : Flat h ts)
    {j : Job} (hj : j.id ∉ h.nodes.keys) : Flat h (ts.set i { job := j, pc := .start }) := by
  refine ⟨f.nd, ?_, ?_, ?_, ?_, ?_, ?_, ?_⟩
  · intro k u hu hh c hc
    rcases set_get hu with ⟨rfl, rfl⟩ | ⟨_, hu⟩
    · exact absurd (keys_of_link hc) hj
    · exact f.fresh k u hu hh c hc
  · intro k u hu ns hns
    rcases set_get hu with ⟨rfl, rfl⟩ | ⟨_, hu⟩
    · cases hns
    · exact f.chosen k u hu ns hns
  · intro k u hu
    rcases set_get hu with ⟨rfl, rfl⟩ | ⟨_, hu⟩
    · exact List.nodup_nil
    · exact f.pendNd k u hu
  · intro k u hu n hm
    rcases set_get hu with ⟨rfl, rfl⟩ | ⟨_, hu⟩
    · cases hm
    · exact f.pend k u hu n hm
  · intro k u hu
    rcases set_get hu with ⟨rfl, rfl⟩ | ⟨_, hu⟩
    · rfl
    · exact f.noPrune k u hu
  · intro x y hl
    rcases f.both x y hl with h1 | ⟨k, u, hu, h1, h2⟩
    · exact Or.inl h1
    · refine Or.inr ⟨k, u, set_other ?_ hu, h1, h2⟩
      rintro rfl
      rw [ht] at hu; cases hu
      rw [hp] at h2; cases h2
  · intro x hx hno
    refine f.up x hx ?_
    intro k u hu hh
    by_cases hk : k = i
    · subst hk
      rw [ht] at hu; cases hu
      rw [hp] at hh; cases hh
    · exact hno k u (set_other hk hu) hh

/-- the end of a layer search. -/
theorem afterSearch_flat {h : Hnsw} {an : AMap UInt64 Vertex} {ts : List (Thread D)} (hM : DimOK M dim) (c : MachInv M dim h an ts)
    {j : Job} {cur : Nat} {ph : Phase} {s : SL D} {buf : List UInt64} (k : Searching M h j ph s buf) :
    (afterSearch M h j cur ph s.nn).hidden = true ∧ (afterSearch M h j cur ph s.nn).pend = [] ∧
      (afterSearch M h j cur ph s.nn).pruning = false ∧
      ∀ ns, (afterSearch M h j cur ph s.nn).chosen = some ns → ns.Nodup ∧ ns ≠ [] := by
  cases ph with
  | lookup n =>
    cases hn : s.nn with
    | nil => exact absurd hn k.inv.ne
    | cons e r => cases n <;> exact ⟨rfl, rfl, rfl, fun ns hns => by cases hns⟩
  | construct l =>
    obtain ⟨ns, hs, sel⟩ := selectNeighbors_spec M h.cfg h.nodes s.nn h.cfg.m (c.vec.pair hM)
      (fun e he' => by obtain ⟨w, hw, _⟩ := k.inv.nnD e he'; exact ⟨w, hw⟩)
    simp only [afterSearch, hs, orDie]
    refine ⟨rfl, rfl, rfl, ?_⟩
    intro xs hxs
    cases hxs
    exact ⟨sel.nd k.inv.nnNd, sel.ne k.inv.ne (by have := c.cfg.m2; omega)⟩

/-- every step of a goroutine whose level is 0, while the index is small. -/
theorem flat_step (hM : DimOK M dim) {h h' : Hnsw} {an : AMap UInt64 Vertex} {ts : List (Thread D)} (c : MachInv M dim h an ts)
    (s : Sec h ts) (f : Flat h ts) {i : Nat} {t : Thread D} {pc' : PC D} (ht : ts[i]? = some t) (h0 : t.job.level = 0)
    (hs : stepPC true M h (lockedBy true ts) t.job t.pc = some (h', pc')) (hroom : h.nodes.length ≤ h.cfg.mMax0 + 1) :
    Flat h' (ts.set i { t with pc := pc' }) := by
  obtain ⟨an', c'⟩ := step_inv hM c ht hs
  have ok' := c'.thr i _ (set_this ht)
  have hdie : ∀ {A : Type} {held : Option UInt64} {r : Except Panic A} {k : A → PC D}, pc' = orDie held r k → ∃ a, pc' = k a := by
    intro A held r k e
    cases r with
    | ok a => exact ⟨a, e⟩
    | error p => exfalso; rw [e] at ok'; exact ok'
  have ok := c.thr i t ht
  have none_ : ∀ {pc : PC D}, pc.chosen = none → ∀ ns, pc.chosen = some ns → t.pc.chosen = some ns ∨ (ns.Nodup ∧ ns ≠ []) := by
    intro pc e ns hns
    rw [e] at hns; cases hns
  cases hpc : t.pc with
  | idle => rw [hpc] at hs; cases hs
  | start =>
    rw [hpc] at hs
    simp only [stepPC] at hs
    split at hs
    · rename_i hh
      cases hs
      exact f.first ht hh.2 (v := ⟨t.job.id, [[]], t.job.vec⟩) (by simp [Hnsw.insertFirst, Hnsw.log, hh.2, AMap.set]) rfl rfl
    · cases hs
      exact f.same ht rfl rfl (by rw [hpc]; rfl) (by rw [hpc]; rfl) (none_ rfl) rfl
  | create =>
    rw [hpc] at hs
    simp only [stepPC] at hs
    split at hs
    · cases hs; exact ok'.elim
    · cases hs; exact f.same ht rfl rfl (by rw [hpc]; rfl) (by rw [hpc]; rfl) (none_ rfl) rfl
  | publish =>
    rw [hpc] at hs ok
    cases hs
    exact f.publish ht hpc ok.1 (by rw [h0]; rfl)
  | enter =>
    rw [hpc] at hs
    simp only [stepPC] at hs
    cases hs
    obtain ⟨a, e⟩ := hdie rfl
    rw [e]
    exact f.same ht rfl rfl (by rw [hpc]; rfl) (by rw [hpc]; rfl) (none_ rfl) rfl
  | layer cur ph eps =>
    rw [hpc] at hs
    simp only [stepPC] at hs
    split at hs <;> cases hs
    · exact ok'.elim
    · exact f.same ht rfl rfl (by rw [hpc]; rfl) (by rw [hpc]; rfl) (none_ rfl) rfl
  | pop cur ph sl buf =>
    rw [hpc] at ok
    have ok : Searching M h t.job ph sl buf := ok
    obtain ⟨a1, a2, a3, a4⟩ := afterSearch_flat (cur := cur) hM c ok
    have hafter : Flat h (ts.set i { t with pc := afterSearch M h t.job cur ph sl.nn }) :=
      f.same ht rfl rfl (by rw [hpc, a1]; rfl) (by rw [hpc, a2]; rfl) (fun ns hns => Or.inr (a4 ns hns)) a3
    rw [hpc] at hs
    simp only [stepPC] at hs
    cases hp : Heap.pop (minLess M.lt) sl.cands with
    | none => rw [hp] at hs; cases hs; exact hafter
    | some p =>
      obtain ⟨e, rest⟩ := p
      obtain ⟨g, hg⟩ := peek_some ok.inv.ne
      simp only [hp, hg] at hs
      split at hs
      · cases hs; exact hafter
      · split at hs
        · cases hs; exact ok'.elim
        · split at hs
          · cases hs
          · cases hs
            obtain ⟨cs, e⟩ := hdie rfl
            rw [e]
            rw [e] at ok'
            split at ok'
            · exact ok'.elim
            · rename_i hlen
              rw [if_neg hlen]
              exact f.same ht rfl rfl (by rw [hpc]; rfl) (by rw [hpc]; rfl) (none_ rfl) rfl
  | copy cur ph sl buf cid n =>
    rw [hpc] at hs
    simp only [stepPC] at hs
    cases hs
    obtain ⟨a, e⟩ := hdie rfl
    rw [e]
    exact f.same ht rfl rfl (by rw [hpc]; rfl) (by rw [hpc]; rfl) (none_ rfl) rfl
  | visit cur ph sl buf todo =>
    rw [hpc] at hs
    cases todo with
    | nil =>
      cases hs
      exact f.same ht rfl rfl (by rw [hpc]; rfl) (by rw [hpc]; rfl) (none_ rfl) rfl
    | cons nid rest =>
      simp only [stepPC] at hs
      cases hs
      obtain ⟨a, e⟩ := hdie rfl
      rw [e]
      exact f.same ht rfl rfl (by rw [hpc]; rfl) (by rw [hpc]; rfl) (none_ rfl) rfl
  | logOwn cur l nns ns =>
    rw [hpc] at hs
    simp only [stepPC] at hs
    split at hs
    · cases hs
    · cases hs
      exact f.same ht rfl rfl (by rw [hpc]; rfl) (by rw [hpc]; rfl) (fun xs hxs => Or.inl (by rw [hpc]; exact hxs)) rfl
  | setOwn cur l nns ns =>
    rw [hpc] at ok
    obtain ⟨o1, _⟩ := ok
    have hl0 : l = 0 := by have := o1.lvl; omega
    subst hl0
    obtain ⟨v, hv, hvl⟩ := o1.own.at o1.lvl
    rw [hpc] at hs
    simp only [stepPC, setConns_ok ns hv hvl] at hs
    cases hs
    exact f.setOwn c s ht hpc hv hvl (fun n hn => (hasLevel_zero c.mem.graph).mp (o1.todo n hn))
  | link cur l nns todo =>
    rw [hpc] at ok
    have o1 : Linking M h t.job l nns todo := ok
    have hl0 : l = 0 := by have := o1.lvl; omega
    subst hl0
    rw [hpc] at hs
    cases todo with
    | nil =>
      cases hs
      exact f.same ht rfl rfl (by rw [hpc]; rfl) (by rw [hpc]; rfl) (none_ rfl) rfl
    | cons n rest =>
      have hnl := o1.todo n (by simp)
      obtain ⟨cs, hcs, hcl, hcm⟩ := c.linkOf hnl
      obtain ⟨v, hv, hvc⟩ := link?_some hcs
      -- there is room for one more
      have hlen : cs.length < maxConn h.cfg 0 := by
        obtain ⟨p1, p2⟩ := f.pend i t ht n (by rw [hpc]; exact List.mem_cons_self ..)
        obtain ⟨a, b⟩ := f.nd n cs hcs
        have hjc : t.job.id ∉ cs := fun hm => p2 ⟨cs, hcs, hm⟩
        have hne : n ≠ t.job.id := by rintro rfl; exact p2 p1
        have := nodup_length_le (l₁ := n :: t.job.id :: cs) (l₂ := h.nodes.keys) (by
          rw [List.nodup_cons, List.nodup_cons]
          refine ⟨?_, hjc, a⟩
          intro hm
          rcases List.mem_cons.mp hm with e | e
          · exact hne e
          · exact b e) (by
          intro x hx
          rcases List.mem_cons.mp hx with rfl | hx
          · exact keys_of_link hcs
          · rcases List.mem_cons.mp hx with rfl | hx
            · obtain ⟨c1, hc1, _⟩ := p1; exact keys_of_link hc1
            · exact (hasLevel_zero c.mem.graph).mp (hcm x hx))
        rw [AMap.length_keys] at this
        simp only [List.length_cons] at this
        show cs.length < h.cfg.mMax0
        omega
      simp only [stepPC, hv] at hs
      split at hs
      · cases hs
      · simp only [connsAt_of hvc, orDie, if_pos hlen] at hs
        cases hs
        exact f.same ht rfl rfl (by rw [hpc]; rfl) (by rw [hpc]; rfl) (none_ rfl) rfl
  | addLog cur l nns n rest =>
    rw [hpc] at hs
    cases hs
    exact f.same ht rfl rfl (by rw [hpc]; rfl) (by rw [hpc]; rfl) (none_ rfl) rfl
  | addRead cur l nns n rest =>
    rw [hpc] at hs
    simp only [stepPC] at hs
    cases hs
    obtain ⟨a, e⟩ := hdie rfl
    rw [e]
    exact f.same ht rfl rfl (by rw [hpc]; rfl) (by rw [hpc]; rfl) (none_ rfl) rfl
  | addWrite cur l nns n rest cs =>
    rw [hpc] at ok
    obtain ⟨o1, o2, o3, o4⟩ := ok
    have hl0 : l = 0 := by have := o1.lvl; omega
    subst hl0
    obtain ⟨v, hv, hvc⟩ := link?_some o2
    have hvl : 0 < v.conns.length := (List.getElem?_eq_some_iff.mp hvc).1
    rw [hpc] at hs
    simp only [stepPC, setConns_ok _ hv hvl] at hs
    cases hs
    exact f.addWrite c s ht hpc hv hvl o2
  | pruneLog cur l nns n rest new =>
    have := f.noPrune i t ht
    rw [hpc] at this; cases this
  | pruneSet cur l nns n rest new =>
    have := f.noPrune i t ht
    rw [hpc] at this; cases this
  | finish cur =>
    rw [hpc] at hs
    simp only [stepPC] at hs
    rw [if_neg (by omega)] at hs
    cases hs
    exact f.same ht rfl rfl (by rw [hpc]; rfl) (by rw [hpc]; rfl) (none_ rfl) rfl
  | dead p x => rw [hpc] at hs; cases hs

theorem quiet_idle {m : Mach D} (hq : m.quiet) {i : Nat} {t : Thread D} (ht : m.ts[i]? = some t) : t.pc = .idle := by
  have := hq t (List.mem_of_getElem? ht)
  cases hp : t.pc <;> rw [hp] at this <;> first | rfl | cases this

theorem flat_quiet {m : Mach D} {an : AMap UInt64 Vertex} (c : MachInv M dim m.h an m.ts) (hq : m.quiet) (hp : Proper m.h.nodes)
    (hc : Connected m.h.nodes) : Flat m.h m.ts := by
  refine ⟨hp, ?_, ?_, ?_, ?_, ?_, ?_, ?_⟩
  · intro i t ht hh; rw [quiet_idle hq ht] at hh; cases hh
  · intro i t ht ns hh; rw [quiet_idle hq ht] at hh; cases hh
  · intro i t ht; rw [quiet_idle hq ht]; exact List.nodup_nil
  · intro i t ht n hm; rw [quiet_idle hq ht] at hm; cases hm
  · intro i t ht; rw [quiet_idle hq ht]; rfl
  · intro x y hl; exact Or.inl (hc.both x y hl)
  · intro x hx _
    refine hc.all x _ hx ?_
    rcases c.mem.entry with h1 | ⟨v, hv, _⟩
    · rw [h1] at hx; cases hx
    · rw [← AMap.get?_isSome_iff, hv]; rfl

theorem Reaches.back {nodes : AMap UInt64 Vertex} (hb : ∀ x y, Vectory.Linked nodes x y → Vectory.Linked nodes y x) {x y : UInt64}
    (r : Reaches nodes x y) : Reaches nodes y x := by
  induction r with
  | refl => exact .refl _
  | step _ hl ih => exact Vectory.Reaches.trans (.step (.refl _) (hb _ _ hl)) ih

theorem Flat.settled {m : Mach D} (f : Flat m.h m.ts) (hq : m.quiet) : Proper m.h.nodes ∧ Connected m.h.nodes := by
  have hboth : ∀ x y, Vectory.Linked m.h.nodes x y → Vectory.Linked m.h.nodes y x := by
    intro x y hl
    rcases f.both x y hl with h1 | ⟨i, t, ht, _, h2⟩
    · exact h1
    · rw [quiet_idle hq ht] at h2; cases h2
  have hup : ∀ x ∈ m.h.nodes.keys, Reaches m.h.nodes x m.h.entry := by
    intro x hx
    refine f.up x hx ?_
    intro i t ht hh
    rw [quiet_idle hq ht] at hh; cases hh
  exact ⟨f.nd, hboth, fun x y hx hy => (hup x hx).trans (Reaches.back hboth (hup y hy))⟩

theorem flat_length {fixed : Bool} {h h' : Hnsw} {locked : UInt64 → Bool} {j : Job} {pc pc' : PC D}
    (hs : stepPC fixed M h locked j pc = some (h', pc')) : h.nodes.length ≤ h'.nodes.length := by
  rcases (stepPC_eff hs).nodes with ⟨h1, _⟩ | ⟨_, _, cs, h1⟩
  · rw [← AMap.length_keys, ← AMap.length_keys, h1.keys]; exact Nat.le_refl _
  · rw [h1, ← AMap.length_keys, ← AMap.length_keys, AMap.keys_set]
    split
    · exact Nat.le_refl _
    · simp

/-- inserts of level 0 into a small, connected index: the invariant. -/
theorem flat_sched (hM : DimOK M dim) {m m' : Mach D} {js : List Job} (hq : m.quiet) (hi : ∃ an, MachInv M dim m.h an m.ts)
    (hp : Proper m.h.nodes) (hc : Connected m.h.nodes)
    (hs : Sched false M dim m js m') (h0 : ∀ j ∈ js, j.level = 0) (hroom : m'.h.nodes.length ≤ m.h.cfg.mMax0 + 1) :
    Flat m'.h m'.ts := by
  induction hs with
  | start => obtain ⟨an, c⟩ := hi; exact flat_quiet c hq hp hc
  | run i h1 h ih =>
    obtain ⟨f1, s1⟩ := sched_level0 hM hq hi h1 h0
    obtain ⟨an, c⟩ := sched_inv hM f1 hi
    obtain ⟨t, pc, ht, hst, e⟩ := step_run (real_fixed c s1 h)
    have hlen := flat_length hst
    have f := ih h0 (by omega)
    have g := sched_grow hq h1
    rw [e]
    exact flat_step hM c s1 f ht (h0 _ (g.mine i t ht (stepPC_eff hst).act)) hst (by rw [g.cfg]; omega)
  | call i j h1 hf hj h ih =>
    obtain ⟨t, ht, hp, e⟩ := step_call h
    subst e
    exact pend_call ht hp (ih (fun x hx => h0 x (List.mem_append.mpr (Or.inl hx))) hroom) hf.1

/-- inserts of level 0 into a small, connected index keep it connected. -/
theorem flat_connected (hM : DimOK M dim) {m m' : Mach D} {js : List Job} (hq : m.quiet) (hi : ∃ an, MachInv M dim m.h an m.ts)
    (hp : Proper m.h.nodes) (hc : Connected m.h.nodes) (hs : Sched false M dim m js m') (h0 : ∀ j ∈ js, j.level = 0)
    (hroom : m'.h.nodes.length ≤ m.h.cfg.mMax0 + 1) (hq' : m'.quiet) : Proper m'.h.nodes ∧ Connected m'.h.nodes :=
  (flat_sched hM hq hi hp hc hs h0 hroom).settled hq'

end Vectory.Conc
