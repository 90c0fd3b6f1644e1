import Verif.Model.Conc
import Verif.Lemmas.Graph
/-!
# Schedules of concurrent inserts

A legal schedule only calls `Insert` with ids that are not in use (the collection's id counter provides them), vectors of the
collection's dimension and levels that fit the log format.
-/
namespace Vectory.Conc
open Vectory
variable {D : Type}

/-- inside `Insert`. -/
def PC.active : PC D → Bool
  | .idle => false
  | _ => true

/-- panicked. -/
def PC.panicked : PC D → Bool
  | .dead _ _ => true
  | _ => false

def JobOK (dim : Nat) (j : Job) : Prop := j.vec.length = dim ∧ j.level < 4294967296

/-- the id is neither in the index nor being inserted. -/
def FreshCall (m : Mach D) (j : Job) : Prop :=
  j.id ∉ m.h.nodes.keys ∧ ∀ t ∈ m.ts, t.pc.active = true → t.job.id ≠ j.id

/-- `m'` is reached from `m` by some legal schedule, in which exactly the calls `js` were made. `fixed = false` is the program
as it is. -/
inductive Sched (fixed : Bool) (M : Metric D) (dim : Nat) (m : Mach D) : List Job → Mach D → Prop where
  | start : Sched fixed M dim m [] m
  | run {js : List Job} {m₁ m₂ : Mach D} (i : Nat) : Sched fixed M dim m js m₁ → m₁.step fixed M (.run i) = some m₂ →
      Sched fixed M dim m js m₂
  | call {js : List Job} {m₁ m₂ : Mach D} (i : Nat) (j : Job) : Sched fixed M dim m js m₁ → FreshCall m₁ j → JobOK dim j →
      m₁.step fixed M (.call i j) = some m₂ → Sched fixed M dim m (js ++ [j]) m₂

/-- nobody is inside `Insert`. -/
def Mach.quiet (m : Mach D) : Prop := ∀ t ∈ m.ts, t.pc.active = false

/-- the index that `h` would be after the vertices of `js` were added to `h₀`, as far as vertices are concerned. -/
structure Grown (h₀ : Hnsw) (js : List Job) (h : Hnsw) : Prop where
  cfg : h.cfg = h₀.cfg
  deleted : h.deleted = h₀.deleted
  disk : h.wal.disk = h₀.wal.disk
  old : ∀ x v, h₀.nodes.get? x = some v → ∃ w, h.nodes.get? x = some w ∧ w.conns.length = v.conns.length ∧ w.vec = v.vec
  new : ∀ j ∈ js, ∃ w, h.nodes.get? j.id = some w ∧ w.vec = j.vec
  only : ∀ x, x ∈ h.nodes.keys → x ∈ h₀.nodes.keys ∨ x ∈ js.map Job.id

/-- every link leads to a vertex that has the layer of the link, no list is longer than the search can hold, and the entry point
has the top layer. -/
def Sound (h : Hnsw) : Prop :=
  (∀ (id : UInt64) (v : Vertex) (l : Nat) (links : List UInt64), AMap.get? h.nodes id = some v → v.conns[l]? = some links →
    links.length ≤ 2 * h.cfg.mMax ∧ ∀ n ∈ links, ∃ vn : Vertex, AMap.get? h.nodes n = some vn ∧ l < vn.conns.length) ∧
  (h.nodes ≠ [] → ∃ v : Vertex, AMap.get? h.nodes h.entry = some v ∧ h.maxLayer < v.conns.length)

/-- all the records of the log, flushed or not. -/
def logOf (h : Hnsw) : List Bytes := h.wal.disk ++ h.wal.batch.map Prod.snd

/-- replaying the log gives the vertices, levels and links, the entry point and the deleted marks of `h`. -/
def LogMatches (h : Hnsw) : Prop :=
  ∃ s, loadFromWAL (Hnsw.empty h.cfg (logOf h)) (logOf h) = .ok s ∧
    (∀ id, (AMap.get? s.nodes id).map Vertex.conns = (AMap.get? h.nodes id).map Vertex.conns) ∧
    s.entry = h.entry ∧ s.maxLayer = h.maxLayer ∧ s.deleted = h.deleted

end Vectory.Conc
