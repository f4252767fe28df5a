import Verif.Runpf.TableSpec

/-!
# C141: data of optimal power flows in power flows
-/

namespace Verif.Runpf

open Verif.Index (BusRow GenRow BranchRow)
open Verif.Opf (Tables BusD GenD BrD)

/-- A bus row but for voltage limits, prices, multipliers and further columns (area, zone, base voltage). -/
def noBusLimits (b : BusRow BusD) : BusRow BusD :=
  { b with data := { b.data with VMAX := 0, VMIN := 0, LAM_P := 0, LAM_Q := 0, MU_VMAX := 0, MU_VMIN := 0, rest := [] } }

/-- A generator row but for limits of active power, multipliers and further columns (machine base, capability curve, ramp rates). -/
def noGenLimits (g : GenRow GenD) : GenRow GenD :=
  { g with data := { g.data with PMAX := 0, PMIN := 0, MU_PMAX := 0, MU_PMIN := 0, MU_QMAX := 0, MU_QMIN := 0, rest := [] } }

/-- A branch row but for the rating, multipliers and further columns (other ratings, angle limits). -/
def noBranchLimits (l : BranchRow BrD) : BranchRow BrD :=
  { l with data := { l.data with rateA := 0, MU_SF := 0, MU_ST := 0, MU_ANGMIN := 0, MU_ANGMAX := 0, rest := [] } }

/-- Two cases whose tables differ only in these columns; costs, user matrices and areas are any. -/
structure SameFlowData (c1 c2 : Index.Case Tables) : Prop where
  bus : c1.bus.map noBusLimits = c2.bus.map noBusLimits
  gen : c1.gen.map noGenLimits = c2.gen.map noGenLimits
  branch : c1.branch.map noBranchLimits = c2.branch.map noBranchLimits

end Verif.Runpf
