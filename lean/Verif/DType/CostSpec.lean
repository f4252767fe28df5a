import Verif.DType.PfSpec
import Verif.Opf.EconSpec

/-!
# Specification vocabulary: cost tables of whole numbers
-/

namespace Verif.DType

open Verif.Opf Verif.Cost

noncomputable section

/-- Generators in service whose cost is one segment, from `(x0, y0)` to `(x1, y1)`. -/
def segGens (c : Index.Case Tables) : Finset ℕ := (onGens c).filter fun i => (costAt c i).model = 1 ∧ (costAt c i).ncost = 2

/-- The costs given by a table: one line `y = slope · x + intercept` per one-segment row. -/
def segSlope (r : CostRow ℝ) : ℝ := (r.data.getD 3 0 - r.data.getD 1 0) / (r.data.getD 2 0 - r.data.getD 0 0)
def segIntercept (r : CostRow ℝ) : ℝ := r.data.getD 1 0 - segSlope r * r.data.getD 0 0

/-- Every entry of the cost table is a whole number. -/
def WholeCosts (c : Index.Case Tables) : Prop := ∀ gc, c.gencost = some gc → ∀ r ∈ gc, ∀ x ∈ r.data, Whole x

/-- Slopes and intercepts of one-segment costs are whole numbers. -/
def WholeLines (c : Index.Case Tables) : Prop :=
  ∀ gc, c.gencost = some gc → ∀ r ∈ gc, r.model = 1 → r.ncost = 2 → Whole (segSlope r) ∧ Whole (segIntercept r)

/-- What the costs of the outputs in `t` can differ by when slope and intercept of every one-segment cost lose their fraction: one $/MWh and one $/h. -/
def costLoss (c t : Index.Case Tables) : ℝ := ∑ i ∈ segGens c, (|pgAt t i| + 1)

end

end Verif.DType
