import Mathlib.Algebra.Polynomial.Derivative
import Verif.Cost.Model

/-!
# Specification vocabulary for generator costs (independent of how the code evaluates them)
-/

namespace Verif.Cost
open Polynomial

variable {K : Type} [Field K]

/-- The polynomial a polynomial cost row stands for: highest order coefficient first, `NCOST` coefficients. -/
noncomputable def rowPoly (r : CostRow K) : K[X] :=
  ∑ i ∈ Finset.range r.ncost, C (r.data.getD i 0) * X ^ (r.ncost - 1 - i)

/-- `k`-th breakpoint of a piecewise linear row: abscissa in data column `2k`, cost in data column `2k+1`. -/
def bp (r : CostRow K) (k : Nat) : K × K := (r.data.getD (2 * k) 0, r.data.getD (2 * k + 1) 0)

/-- Slope of the segment between breakpoints `k` and `k+1`. -/
def slope (r : CostRow K) (k : Nat) : K := ((bp r (k + 1)).2 - (bp r k).2) / ((bp r (k + 1)).1 - (bp r k).1)

/-- The straight line through breakpoints `k` and `k+1`, evaluated at `x`. -/
def line (r : CostRow K) (k : Nat) (x : K) : K := (bp r k).2 + slope r k * (x - (bp r k).1)

variable [LinearOrder K]

/-- A well-formed piecewise linear row: at least two breakpoints, all present, abscissae strictly increasing. -/
structure PwlRow (r : CostRow K) : Prop where
  model : r.model = 1
  two : 2 ≤ r.ncost
  data : 2 * r.ncost ≤ r.data.length
  incr : ∀ k, k + 1 < r.ncost → (bp r k).1 < (bp r (k + 1)).1

/-- A well-formed polynomial row. -/
structure PolyRow (r : CostRow K) : Prop where
  model : r.model = 2
  one : 1 ≤ r.ncost
  data : r.ncost ≤ r.data.length

/-- Slopes do not decrease from one segment to the next. -/
def ConvexRow (r : CostRow K) : Prop := ∀ k, k + 2 < r.ncost → slope r k ≤ slope r (k + 1)

/-- Every row is a well-formed piecewise linear or polynomial row. -/
def WFTable (rows : List (CostRow K)) : Prop := ∀ r ∈ rows, PwlRow r ∨ PolyRow r

end Verif.Cost
