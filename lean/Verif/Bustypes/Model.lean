import Verif.NumPy

/-! # Model of `bustypes.py` -/

namespace Verif.Bustypes
open Verif.NumPy

/-- A generator as seen by `bustypes`: `GEN_BUS` (internal, 0-based) and `GEN_STATUS`. -/
structure Gen where
  bus : Nat
  status : Int
deriving DecidableEq, Repr

/-- `Cg * ones(ng)` (bustypes.py:33-36): number of in-service generators at bus `i`. -/
def gensOn (gens : List Gen) (i : Nat) : Nat :=
  (gens.filter (fun g => g.bus == i && decide (0 < g.status))).length

/-- `bustypes(bus, gen)` (bustypes.py:16-50); `types` is the `BUS_TYPE` column (1 PQ, 2 PV, 3 REF, 4 NONE).
`none` models the exceptions: building the sparse matrix with an index outside the bus table (line 33), and `pv[0]` of an empty
list (line 47).  Result: `(ref, pv, pq)`. -/
def bustypes (types : List Int) (gens : List Gen) : Option (List Nat × List Nat × List Nat) :=
  if gens.any (fun g => decide (types.length ≤ g.bus)) then none else
  let st := (List.range types.length).map (fun i => gensOn gens i != 0)
  let ref := find (List.zipWith (fun t s => t == 3 && s) types st)
  let pv := find (List.zipWith (fun t s => t == 2 && s) types st)
  let pq := find (List.zipWith (fun t s => t == 1 || !s) types st)
  if ref = [] then
    match pv with
    | [] => none
    | p :: ps => some ([p], ps, pq)
  else some (ref, pv, pq)

end Verif.Bustypes
