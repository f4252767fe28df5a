import Verif.Opf.EconModel
import Verif.Opf.RunSpec
import Verif.Opf.DcCostProps
import Verif.Constr.Props

/-!
# Specification vocabulary for the economics of the returned tables

Everything is read off the tables in the caller's own numbering and row order; row `i` of the cost table belongs to row `i` of the generator table.
-/

namespace Verif.Opf

open Verif.Index (BusRow GenRow BranchRow GenInService BranchInService)
open Verif.Cost Verif.Network

noncomputable section

/-- Rows of connected buses and of generators in service. -/
def onBuses (c : Index.Case Tables) : Finset ℕ := @Finset.filter _ (fun i => ∃ b, c.bus[i]? = some b ∧ b.typ ≠ 4) (Classical.decPred _) (Finset.range c.bus.length)
def onGens (c : Index.Case Tables) : Finset ℕ := @Finset.filter _ (fun i => ∃ g, c.gen[i]? = some g ∧ GenInService c g) (Classical.decPred _) (Finset.range c.gen.length)

/-- Those generators whose cost is piecewise linear with more than one segment. -/
def pwlGens (c : Index.Case Tables) : Finset ℕ := (onGens c).filter fun i => (costAt c i).model = 1 ∧ (costAt c i).ncost ≠ 2

/-- Output (MW) in row `i`; angle (radians) in row `i`. -/
def pgAt (t : Index.Case Tables) (i : ℕ) : ℝ := ((t.gen[i]?).map fun g => g.data.PG).getD 0
def vaAt (t : Index.Case Tables) (i : ℕ) : ℝ := ((t.bus[i]?).map fun b => b.data.VA * (Real.pi / 180)).getD 0

/-- Cost of a generator at an output, and of the outputs in table `t` at the costs of case `c`; `rowVal` is what `totcost` gives for one row (`totcost_eq`). -/
def genCost (c : Index.Case Tables) (i : ℕ) (P : ℝ) : ℝ := rowVal (costAt c i) P
def dispatchCost (c t : Index.Case Tables) : ℝ := ∑ i ∈ onGens c, genCost c i (pgAt t i)

/-- Tables `t` show another dispatch of the same system: the same inputs; the DC branch flows at its angles; balance at every bus; outputs, flows and angle differences
within their limits; reference angles as given; nothing from equipment out of service. -/
structure DcFeasible (base : ℝ) (E : Econ) (c t : Index.Case Tables) (θ : ℕ → ℝ) : Prop where
  bus : t.bus.map busInput = c.bus.map busInput
  gen : t.gen.map genInput = c.gen.map genInput
  branch : t.branch.map branchInput = c.branch.map branchInput
  angles : ∀ b ∈ t.bus, θ b.num = b.data.VA * (Real.pi / 180)
  flows : ∀ l ∈ t.branch, BranchInService t l → l.data.PF = base * dcFlow (asBranch l) θ ∧ l.data.PT = -l.data.PF
  balance : ∀ b ∈ t.bus, b.typ ≠ 4 → dcBalance t b = 0
  limits : ∀ g ∈ t.gen, GenInService t g → g.data.PMIN ≤ g.data.PG ∧ g.data.PG ≤ g.data.PMAX
  rating : ∀ l ∈ t.branch, BranchInService t l → l.data.rateA ≠ 0 → l.data.rateA < 10 ^ 10 → |l.data.PF| ≤ l.data.rateA
  ref : ∀ (i : ℕ) b b0, t.bus[i]? = some b → c.bus[i]? = some b0 → b.typ = 3 → b.data.VA = b0.data.VA
  angle : E.ignoreAng = false → ∀ l ∈ c.branch, BranchInService c l → Constr.Limited ⟨l.f, l.t, E.angmin l.data.rest, E.angmax l.data.rest⟩ →
    Constr.AngleOk ⟨l.f, l.t, E.angmin l.data.rest, E.angmax l.data.rest⟩ θ
  genOff : ∀ g ∈ t.gen, ¬ GenInService t g → g.data.PG = 0
  brOff : ∀ l ∈ t.branch, ¬ BranchInService t l → l.data.PF = 0 ∧ l.data.PT = 0

/-- Distance between the dispatches `r` and `t`: angles, outputs per unit, costs of the generators with piecewise linear costs (`y` in `r`). -/
def dist (base : ℝ) (c r t : Index.Case Tables) (y : ℕ → ℝ) : ℝ :=
  ∑ i ∈ onBuses c, |vaAt t i - vaAt r i| + ∑ i ∈ onGens c, |pgAt t i - pgAt r i| / base + ∑ i ∈ pwlGens c, |genCost c i (pgAt t i) - y i|

/-- Costs the DC formulation can represent and that are convex; the lines through the segments of piecewise linear costs have right-hand sides below `1e10`, the
value that counts as no limit. -/
structure EconCosts (c : Index.Case Tables) : Prop where
  table : c.gencost.isSome
  ok : ∀ i ∈ onGens c, CostOK (costAt c i)
  big : ∀ i ∈ onGens c, (costAt c i).model = 1 → ∀ k, k + 1 < (costAt c i).ncost →
    slope (costAt c i) k * (bp (costAt c i) k).1 - (bp (costAt c i) k).2 < 10 ^ 10

/-- Angle limits a run can start from: below `1e10` radians, lower ones not above upper ones. -/
def AngInputs (E : Econ) (c : Index.Case Tables) : Prop :=
  ∀ l ∈ c.branch, BranchInService c l → |E.angmin l.data.rest * Real.pi / 180| < 10 ^ 10 ∧ |E.angmax l.data.rest * Real.pi / 180| < 10 ^ 10 ∧
    (E.angmin l.data.rest ≠ 0 → E.angmax l.data.rest ≠ 0 → E.angmin l.data.rest ≤ E.angmax l.data.rest)

end

end Verif.Opf
