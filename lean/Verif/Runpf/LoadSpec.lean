import Verif.Runpf.TableSpec

/-!
# C140: AC power flows depend on net injections only
-/

namespace Verif.Runpf

open Verif.Index (BusRow)
open Verif.Opf (Tables BusD)

/-- A row of the bus table but for its loads. -/
def noLoad (b : BusRow BusD) : BusRow BusD := { b with data := { b.data with PD := 0, QD := 0 } }

/-- Two cases with the same net injections: they differ only in the loads of buses, the outputs of generators and stored flows; outputs in service minus load are the same at every
connected bus, but for active power at slack buses and for reactive power at buses held at a set point. -/
structure SameNet (c1 c2 : Index.Case Tables) : Prop where
  busData : c1.bus.map noLoad = c2.bus.map noLoad
  genData : c1.gen.map pfGenInput = c2.gen.map pfGenInput
  branchData : c1.branch.map pfBranchInput = c2.branch.map pfBranchInput
  gencost : c1.gencost = c2.gencost
  A : c1.A = c2.A
  N : c1.N = c2.N
  active : ∀ (i : ℕ) b1 b2, c1.bus[i]? = some b1 → c2.bus[i]? = some b2 → b1.typ ≠ 4 → ¬ IsSlack c1 i →
    genOnAt c2 b2.num (·.PG) - b2.data.PD = genOnAt c1 b1.num (·.PG) - b1.data.PD
  reactive : ∀ (i : ℕ) b1 b2, c1.bus[i]? = some b1 → c2.bus[i]? = some b2 → b1.typ ≠ 4 → ¬ IsControlled c1 i →
    genOnAt c2 b2.num (·.QG) - b2.data.QD = genOnAt c1 b1.num (·.QG) - b1.data.QD

end Verif.Runpf
