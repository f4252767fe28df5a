import Verif.Runpf.LimitSpec

/-!
# C142: the status of generators
-/

namespace Verif.Runpf

open Verif.Index (BusRow GenRow BranchRow)
open Verif.Opf (Tables BusD GenD BrD)

/-- A generator row with its status only as on or off, and but for what `noGenLimits` leaves out. -/
def onOff (g : GenRow GenD) : GenRow GenD :=
  { g with
    status := if 0 < g.status then 1 else 0
    data := { g.data with PMAX := 0, PMIN := 0, MU_PMAX := 0, MU_PMIN := 0, MU_QMAX := 0, MU_QMIN := 0, rest := [] } }

/-- Two cases with the same generators on, whatever positive numbers say so and whatever other numbers say off; they may also differ as in C141. -/
structure SameOnOff (c1 c2 : Index.Case Tables) : Prop where
  bus : c1.bus.map noBusLimits = c2.bus.map noBusLimits
  gen : c1.gen.map onOff = c2.gen.map onOff
  branch : c1.branch.map noBranchLimits = c2.branch.map noBranchLimits

end Verif.Runpf
