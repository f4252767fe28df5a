import Verif.Opf.PriceSpec

/-!
# Specification vocabulary for C129: what the prices collect

Everything is read off the returned tables.  `lam` gives the price `LAM_P`, `θ` the angle `VA` (degrees) of a bus number.
-/

namespace Verif.Opf

open Verif.Index (BusRow GenRow BranchRow GenInService BranchInService)

noncomputable section

open Classical in
/-- What consumption (demand and shunts, in MW) pays at the prices of the buses, less what generation is paid. -/
def surplus (t : Index.Case Tables) (lam : ℕ → ℝ) : ℝ :=
  (t.bus.map fun b => if b.typ = 4 then 0 else b.data.LAM_P * (b.data.PD + b.data.GS)).sum -
  (t.gen.map fun g => if GenInService t g then lam g.bus * g.data.PG else 0).sum

open Classical in
/-- What the limits of a branch earn at their shadow prices: per MW of the flows at both ends, per degree of the angle difference. -/
def used (E : Econ) (θ : ℕ → ℝ) (l : BranchRow BrD) : ℝ :=
  l.data.MU_SF * l.data.PF + l.data.MU_ST * l.data.PT + if AngLimited E l then (l.data.MU_ANGMAX - l.data.MU_ANGMIN) * (θ l.f - θ l.t) else 0

open Classical in
/-- The same with the limits in place of flows and angle differences. -/
def rent (E : Econ) (l : BranchRow BrD) : ℝ :=
  (l.data.MU_SF + l.data.MU_ST) * l.data.rateA + if AngLimited E l then l.data.MU_ANGMAX * E.angmax l.data.rest - l.data.MU_ANGMIN * E.angmin l.data.rest else 0

/-- What the phase shifter of a branch is worth: the power it moves between the ends, in MW, at the difference of prices and the shadow prices of the flow limits. -/
def shifted (base : ℝ) (lam : ℕ → ℝ) (l : BranchRow BrD) : ℝ :=
  base * susc l * (l.data.shift * Real.pi / 180) * (lam l.f - lam l.t + l.data.MU_SF - l.data.MU_ST)

open Classical in
/-- The number of limits of a branch that have a shadow price. -/
def pricedLimits (E : Econ) (l : BranchRow BrD) : ℝ :=
  (if l.data.MU_SF = 0 then 0 else 1) + (if l.data.MU_ST = 0 then 0 else 1) +
    if AngLimited E l then (if l.data.MU_ANGMAX = 0 then 0 else 1) + (if l.data.MU_ANGMIN = 0 then 0 else 1) else 0

/-- The error terms of C129: prices times the tolerated mismatches, and angles (from that of the reference) times the tolerated deviation from stationarity. -/
def rentError (base : ℝ) (E : Econ) (o : Pips.Opt) (tol dual : ℝ) (t : Index.Case Tables) (θ0 : ℝ) : ℝ :=
  (t.bus.map fun b => if b.typ = 4 then 0 else |b.data.LAM_P| * (tol * base)).sum +
  (t.bus.map fun b => if b.typ = 4 ∨ b.typ = 3 then 0 else |(b.data.VA - θ0) * (Real.pi / 180)| *
    ((o.gradtol * (1 + dual) + 1 / 10 ^ 5 * (2 * (1 + scaleAt E t b.num))) / o.costMult)).sum

end

end Verif.Opf
