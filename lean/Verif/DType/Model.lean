import Mathlib.Algebra.Order.Floor.Ring
import Mathlib.Algebra.Order.Archimedean.Real.Basic

/-!
# Element types of the tables

A table written with whole numbers only is an `int64` array; storing a float in it drops the fraction.  The shipped cases `case9.py:42-46` and `case9Q.py` have
such a `gen` table, `case30pwl.py` such a `gencost` table.
-/

namespace Verif.DType

/-- Conversion of a float to an integer: towards zero.  Overflow and NaN are not modelled. -/
noncomputable def trunc (x : ℝ) : ℝ := if 0 ≤ x then (⌊x⌋ : ℝ) else (⌈x⌉ : ℝ)

/-- Element type of an array. -/
inductive Elem where
  | float
  | int

/-- What is in the array after `a[...] = x`. -/
noncomputable def Elem.put : Elem → ℝ → ℝ
  | .float, x => x
  | .int, x => trunc x

/-- A value an integer array can hold. -/
def Whole (x : ℝ) : Prop := ∃ z : ℤ, x = z

end Verif.DType
