import Verif.Model.Linear
import Verif.Spec.CollSched
/-!
# Linearizability

`Alone` says what a call does when nothing else is running; `Linearization` is the usual definition (Herlihy and Wing): the calls can be
put in one sequence, in which they run alone one after the other with the results the clients saw, and in which a call that returned
before another one began comes first.
-/
namespace Vectory.Conc
open Vectory
variable {V D : Type}

/-- the part of `Delete` that runs under the lock (`collection_delete.go:17-30`). -/
def Coll.blindDelete (c : Coll) (id : UInt64) (df ff : Bool) : Coll × Option Err :=
  if df then (c, some .io)
  else ({ c with stores := deleteObject c.stores id, index := c.index.delete id } : Coll).flush ff

/-- `GetSize` returns the size. -/
def sizeExact (c : Coll) (r : Except Err Nat) : Prop := r = c.getSize

/-- `GetSize` returns the size or up to `w` more. -/
def sizeWithin (w : Nat) (c : Coll) (r : Except Err Nat) : Prop :=
  r = c.getSize ∨ ∃ m n, c.getSize = .ok m ∧ r = .ok n ∧ m ≤ n ∧ n ≤ m + w

/-- the calls `n` and `m` overlap: at some moment both had begun and neither had returned. -/
def Overlap (H : List (LEv V D)) (n m : Nat) : Prop :=
  ∃ H1 H2 op1 op2, H = H1 ++ H2 ∧ LEv.call n op1 ∈ H1 ∧ LEv.call m op2 ∈ H1 ∧ (∀ out, LEv.ret n out ∉ H1) ∧ (∀ out, LEv.ret m out ∉ H1)

/-- the number of objects a call writes or removes, at most. -/
def LOp.weight : LOp V → Nat
  | .insert _ _ _ _ => 1
  | .batch _ _ os _ => os.length
  | .delete _ _ _ => 1
  | _ => 0

/-- `GetSize` (the call `n` of the history `H`) returns the size, or more, up to the number of objects that one call overlapping with it
writes or removes. -/
def sizeOverlap (H : List (LEv V D)) (n : Nat) (c : Coll) (r : Except Err Nat) : Prop :=
  r = c.getSize ∨ ∃ m op, LEv.call m op ∈ H ∧ Overlap H n m ∧ sizeWithin op.weight c r

/-- the call `op`, running alone on `c`, returns `out` and leaves `c'`. What `GetSize` may return is `Z` (`sizeExact`, or less). -/
inductive Alone (fixed : Bool) (Z : Coll → Except Err Nat → Prop) (L : Lib V D) (dim : Nat) : Coll → LOp V → LOut V D → Coll → Prop where
  | insert {c c' : Coll} {o o' : Object V} {embed : Embed V} {env : InsEnv} {ff : Bool} {e : Option Err} :
      c.insert L o embed env ff = .ok (c', o', e) → Alone fixed Z L dim c (.insert o embed env ff) (.inserted o' e) c'
  | refused {c : Coll} {two : Bool} {workers : Nat} {os : List (Object V)} {embed : Embed V} {e : Err} :
      prepare c os embed = .ok (.error e) → Alone fixed Z L dim c (.batch two workers os embed) (.refused e) c
  | batch {c : Coll} {two : Bool} {workers : Nat} {os : List (Object V)} {embed : Embed V} {acts : List BAct} {b : Batch V D}
      {r : Option GroupErr} : BatchAt fixed two L dim workers c os embed acts b → NoRace fixed two L dim workers c os embed acts → b.returned r →
      (∀ t ∈ b.tasks, t.pc.over = true) → Alone fixed Z L dim c (.batch two workers os embed) (.batched b.objs r) b.c
  | delete {c c' : Coll} {id : UInt64} {df ff : Bool} {e : Option Err} :
      c.delete L id df ff = .ok (c', e) → Alone fixed Z L dim c (.delete id df ff) (.deleted e) c'
  /-- the object is already deleted; the disk is used all the same: the deletion is logged a second time. -/
  | again {c : Coll} {id : UInt64} {df ff : Bool} :
      keyOf id ∉ c.stores.objects.keys → id ∈ c.index.deleted →
      Alone fixed Z L dim c (.delete id df ff) (.deleted (Coll.blindDelete c id df ff).2) (Coll.blindDelete c id df ff).1
  | get {c : Coll} {ids : List UInt64} : Alone fixed Z L dim c (.get ids) (.objects (c.get L ids)) c
  | search {c : Coll} {o : Object V} {embed : Embed V} {k : Int} :
      Alone fixed Z L dim c (.search o embed k) (.found (c.semanticSearch L o embed k)) c
  | size {c : Coll} {r : Except Err Nat} : Z c r → Alone fixed Z L dim c .size (.size r) c

/-- calls that run one after the other. -/
inductive OneByOne (fixed : Bool) (Z : Nat → Coll → Except Err Nat → Prop) (L : Lib V D) (dim : Nat) : Coll → List (Nat × LOp V × LOut V D) → Coll → Prop where
  | nil (c : Coll) : OneByOne fixed Z L dim c [] c
  | snoc {c c1 c2 : Coll} {S : List (Nat × LOp V × LOut V D)} {n : Nat} {op : LOp V} {out : LOut V D} :
      OneByOne fixed Z L dim c S c1 → Alone fixed (Z n) L dim c1 op out c2 → OneByOne fixed Z L dim c (S ++ [(n, op, out)]) c2

/-- `S` is a linearization of the history `H` on the collection `c`. -/
structure Linearization (fixed : Bool) (Z : Nat → Coll → Except Err Nat → Prop) (L : Lib V D) (dim : Nat) (c : Coll) (H : List (LEv V D)) (S : List (Nat × LOp V × LOut V D))
    (c' : Coll) : Prop where
  /-- the calls run one after the other -/
  seq : OneByOne fixed Z L dim c S c'
  /-- no call occurs twice -/
  once : (S.map Prod.fst).Nodup
  /-- every call that returned occurs, with its result -/
  all : ∀ n out, LEv.ret n out ∈ H → ∃ op, (n, op, out) ∈ S
  /-- only calls that were made occur -/
  only : ∀ n op out, (n, op, out) ∈ S → LEv.call n op ∈ H
  /-- the order of calls that did not overlap is kept -/
  order : ∀ H1 H2 a b op out, H = H1 ++ LEv.call b op :: H2 → LEv.ret a out ∈ H1 →
    ∀ S1 S2 x, S = S1 ++ (b, x) :: S2 → a ∈ S1.map Prod.fst

/-- the conditions on what happens: vectors of the collection's dimension, levels that fit the log format, enough ids, a pool with
workers, and no step of a batch that leads into the race of Spec/Race.lean. -/
def LAct.Legal (fixed : Bool) (L : Lib V D) (dim : Nat) (s : LState V D) : LAct V → Prop
  | .go n a =>
    (∀ o embed env ff, s.calls[n]? = some (.invoked (.insert o embed env ff)) → Vectory.Legal dim s.c (.insert o embed env ff)) ∧
    (∀ two workers os embed, s.calls[n]? = some (.invoked (.batch two workers os embed)) →
      0 < workers ∧ EmbedOK s.c embed dim os ∧ s.c.counter.count.toNat + os.length < 18446744073709551616) ∧
    (∀ workers b i env, s.writer = some (n, .batch workers b) → a = .work i env →
      env.level < 4294967296 ∧ ∀ b', b.step fixed L (.work i env) = some b' → ¬ Race ⟨b'.c.index, b'.ts⟩)
  | _ => True

/-- an execution from the collection `c` with no call in progress, and what the clients saw. -/
inductive Exec (fixed : Bool) (L : Lib V D) (dim : Nat) (c : Coll) : List (LEv V D) → LState V D → Prop where
  | start : Exec fixed L dim c [] { c := c }
  | step {H evs : List (LEv V D)} {s s' : LState V D} {a : LAct V} :
      Exec fixed L dim c H s → a.Legal fixed L dim s → s.step fixed L a = some (s', evs) → Exec fixed L dim c (H ++ evs) s'

end Vectory.Conc
