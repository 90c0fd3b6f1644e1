import Verif.Props.DiskSearch
import Verif.Props.DiskInsFail
/-! # C74 and C75: cases that meet the hypotheses, and cases outside them in which vectors are lost -/
namespace Vectory
open DiskAnn

/-- like `lineParams`, with all sizes chosen. -/
def lineSizes (maxDegree limit : UInt32) (listSize t : Nat) : Params Nat :=
  { metric := lineMetric, close := fun d c => decide (t * d ≤ c), listSize := listSize, maxDegree := maxDegree, dim := 1, limit := limit }

/-- the ids and distances a search returns after some calls. -/
def afterInserts (P : Params Nat) (ops : List (List UInt32 × Vec)) (del : List UInt32) (q : Vec) (k : Nat) : Option (List (UInt64 × Nat)) :=
  match DiskAnn.insertAll P (newDA P) ops with
  | .ok (da, _) => (da.search P del q k).toOption.map (List.map (fun e : Elem Nat => (e.id, e.dist)))
  | .error _ => none

theorem afterInserts_some {P : Params Nat} {ops : List (List UInt32 × Vec)} {del : List UInt32} {q : Vec} {k : Nat} {r : List (UInt64 × Nat)}
    (h : afterInserts P ops del q k = some r) : ∃ da rs hits, DiskAnn.insertAll P (newDA P) ops = .ok (da, rs) ∧
      da.search P del q k = .ok hits ∧ hits.map (fun e : Elem Nat => (e.id, e.dist)) = r := by
  unfold afterInserts at h
  split at h
  · rename_i da rs hi
    cases hs : da.search P del q k with
    | error e => rw [hs] at h; cases h
    | ok hits => rw [hs] at h; cases h; exact ⟨da, rs, hits, hi, hs, rfl⟩
  · cases h

/-- C74, the panic: parts of two; after two vectors a third, too long, is refused; from then on every search panics, until the next vector
is accepted. -/
theorem C74_refused_vector_breaks_search :
    ∃ da, DiskAnn.insertAll (lineParams 2) (newDA (lineParams 2)) [([], [10]), ([], [20]), ([], [30, 1])] = .ok (da, [none, none, some .dimension]) ∧
      ∀ del q k, da.search (lineParams 2) del q k = .error .nilDeref := by
  obtain ⟨da, h1, _⟩ := C70_insert_sequential (lineParams 2) line_ord line_dim (by decide) [([], [10]), ([], [20]), ([], [30, 1])] (by decide)
  refine ⟨da, h1, fun del q k => (C74_search (lineParams 2) line_ord line_dim (by decide) _ (by decide) da _ h1 del k).1 ?_ q⟩
  refine ⟨by decide, ?_⟩
  rintro ⟨op, ho, hl⟩
  cases ho
  revert hl; decide

/-- C75 without its bounds on the sizes, the degree: with maximal degree 2, seven vectors and a list as long as one likes, the vector 30 is
in the index, but a search for 30 finds only the others. -/
theorem C75_degree_needed :
    ∃ da rs hits, DiskAnn.insertAll (lineSizes 2 100 100 1) (newDA (lineSizes 2 100 100 1))
        [([], [17]), ([], [30]), ([], [18]), ([], [16]), ([], [18]), ([], [2]), ([], [5])] = .ok (da, rs) ∧
      da.search (lineSizes 2 100 100 1) [] [30] 20 = .ok hits ∧
      hits.map (fun e : Elem Nat => (e.id, e.dist)) = [(3, 12), (7, 25), (6, 28), (4, 14), (5, 12), (1, 13)] :=
  afterInserts_some (P := lineSizes 2 100 100 1) (by decide +kernel)

/-- the list: five vectors, maximal degree 4, a list of 5: one vector is not found. -/
theorem C75_list_needed :
    ∃ da rs hits, DiskAnn.insertAll (lineSizes 4 100 5 1) (newDA (lineSizes 4 100 5 1))
        [([], [44]), ([], [28]), ([], [50]), ([], [33]), ([], [41])] = .ok (da, rs) ∧
      da.search (lineSizes 4 100 5 1) [] [5] 5 = .ok hits ∧ hits.map (fun e : Elem Nat => (e.id, e.dist)) = [(2, 23), (1, 39), (5, 36), (4, 28)] :=
  afterInserts_some (P := lineSizes 4 100 5 1) (by decide +kernel)

/-- deletions: a vector inserted while object id 0 counts as deleted is linked to nothing. -/
theorem C75_deletion_needed :
    ∃ da rs hits, DiskAnn.insertAll (lineSizes 4 5 25 1) (newDA (lineSizes 4 5 25 1)) [([], [10]), ([0], [20]), ([], [30])] = .ok (da, rs) ∧
      da.search (lineSizes 4 5 25 1) [] [20] 5 = .ok hits ∧ hits.map (fun e : Elem Nat => (e.id, e.dist)) = [(1, 10), (3, 10)] :=
  afterInserts_some (P := lineSizes 4 5 25 1) (by decide +kernel)

-- the hypotheses of `C74_search` and `C75_small_parts`: parts of three, five vectors, one of them refused
example : ∃ da rs, DiskAnn.insertAll (lineSizes 2 3 9 2) (newDA (lineSizes 2 3 9 2)) [([], [10]), ([], [20]), ([], [30, 1]), ([7], [40]), ([], [35])] = .ok (da, rs) ∧
    (3 : Nat) ≤ (lineSizes 2 3 9 2).maxDegree.toNat + 1 ∧
    ¬ ((lineSizes 2 3 9 2).limit.toNat ∣ acceptedCount 1 [([], [10]), ([], [20]), ([], [30, 1]), ([7], [40]), ([], [35])] ∧
      ¬ lastAccepted 1 [([], [10]), ([], [20]), ([], [30, 1]), ([7], [40]), ([], [35])]) ∧
    ∃ hits, da.search (lineSizes 2 3 9 2) [] [19] 3 = .ok hits ∧ hits.map (fun e : Elem Nat => (e.id, e.dist)) = [(5, 16), (2, 1), (1, 9)] := by
  obtain ⟨da, rs, hits, h1, h2, h3⟩ := afterInserts_some (P := lineSizes 2 3 9 2) (ops := [([], [10]), ([], [20]), ([], [30, 1]), ([7], [40]), ([], [35])])
    (del := []) (q := [19]) (k := 3) (r := [(5, 16), (2, 1), (1, 9)]) (by decide +kernel)
  refine ⟨da, rs, h1, by decide, ?_, hits, h2, h3⟩
  rintro ⟨h, _⟩
  revert h; decide

end Vectory
