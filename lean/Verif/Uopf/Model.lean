import Mathlib.Algebra.Order.Ring.Defs
import Verif.NumPy

/-!
# Unit decommitment

Model of `uopf.py:25-130` and `fairmax.py:12-30`. The optimal power flow is a parameter: any function from bus data and
a generator table to a result (or an exception). Only the columns used here are kept of a generator row. Simplifications:
options, timing and printing are left out; the numbers form a linearly ordered ring (no rounding, no NaN).
-/

namespace Verif.Uopf

open Verif.NumPy

/-- The columns of a generator row used by `uopf`: GEN_STATUS, PMIN, PMAX, PG, QG, MU_PMIN. -/
structure Row (R : Type) where
  status : R
  pmin : R
  pmax : R
  pg : R
  qg : R
  muPmin : R
deriving DecidableEq

/-- The fields of an OPF result used by `uopf`. -/
structure Res (B R : Type) where
  bus : B
  gen : List (Row R)
  success : Bool
  f : R
deriving DecidableEq

variable {B R : Type} [CommRing R] [LinearOrder R]

/-- `isload` (isload.py): negative PMIN and zero PMAX. -/
def isload (r : Row R) : Bool := decide (r.pmin < 0) && decide (r.pmax = 0)

/-- `sum(Pmin)` over the generators in service (uopf.py:56,59). -/
def sumPmin (gen : List (Row R)) : R := ((gen.filter fun r => decide (0 < r.status) && !isload r).map Row.pmin).sum

/-- `load_capacity` (uopf.py:57-58): total demand minus the (negative) PMIN of the dispatchable loads in service. -/
def loadCapacity (pd : List R) (gen : List (Row R)) : R :=
  pd.sum - ((gen.filter fun r => decide (0 < r.status) && isload r).map Row.pmin).sum

/-- `fairmax` (fairmax.py:25-30) raises for every argument: it applies the tuple returned by `nonzero` as a function. -/
def fairmax (_x : List R) : Option (R × Nat) := none

/-- `ppc["gen"][k, [PG, QG, GEN_STATUS]] = 0` (uopf.py:70,101). -/
def switchOff (gen : List (Row R)) (k : Nat) : List (Row R) :=
  gen.modify k fun r => { r with pg := 0, qg := 0, status := 0 }

/-- The loop that decommits until all PMIN limits can be met (uopf.py:60-76). One iteration calls `fairmax` and so raises;
`none` is the exception. The number of iterations is bounded by the argument, which is never used up. -/
def precommit (pd : List R) (cost : List (Row R) → List R) : Nat → List (Row R) → Option (List (Row R))
  | 0, gen => some gen
  | n + 1, gen =>
    if loadCapacity pd gen < sumPmin gen then
      match fairmax (cost gen) with
      | none => none
      | some (_, i) => precommit pd cost n (switchOff gen i)
    else some gen

/-- Candidates for shut down (uopf.py:90). -/
def candidates (gen : List (Row R)) : List Nat :=
  find (gen.map fun r => decide (0 < r.muPmin) && decide (0 < r.pmin))

/-- The loop over the candidates of a stage (uopf.py:98-111): best result so far and whether it was improved. -/
def tryAll (opf : B → List (Row R) → Option (Res B R)) (r0 : Res B R) :
    List Nat → Res B R → Bool → Option (Res B R × Bool)
  | [], r1, improved => some (r1, improved)
  | k :: ks, r1, improved =>
    match opf r0.bus (switchOff r0.gen k) with
    | none => none
    | some r =>
      if r.success && decide (r.f < r1.f) then tryAll opf r0 ks r true else tryAll opf r0 ks r1 improved

/-- Outcome of the main loop: the returned result, an exception, or still running after the given number of stages. -/
inductive Outcome (B R : Type) where
  | done (r : Res B R)
  | raised
  | running

/-- The main loop (uopf.py:88-121), `r0` being the best result of the current stage and the best so far. -/
def stages (opf : B → List (Row R) → Option (Res B R)) : Nat → Res B R → Outcome B R
  | 0, _ => .running
  | n + 1, r0 =>
    match candidates r0.gen with
    | [] => .done r0
    | k :: ks =>
      match tryAll opf r0 (k :: ks) r0 false with
      | none => .raised
      | some (_, false) => .done r0
      | some (r1, true) => stages opf n r1

/-- `uopf` (uopf.py:25-130) with at most `n` stages. `pd` reads the demands of the bus data, `cost` the average cost at
PMIN of each generator. -/
def uopf (opf : B → List (Row R) → Option (Res B R)) (pd : B → List R) (cost : List (Row R) → List R) (n : Nat)
    (bus : B) (gen : List (Row R)) : Outcome B R :=
  match precommit (pd bus) cost (gen.length + 1) gen with
  | none => .raised
  | some gen' =>
    match opf bus gen' with
    | none => .raised
    | some r => stages opf n r

end Verif.Uopf
