import Verif.Runpf.LimitSpec

/-!
# C143: the declared type of buses without generators in service
-/

namespace Verif.Runpf

open Verif.Index (BusRow GenRow BranchRow)
open Verif.Opf (Tables BusD GenD BrD)

/-- A bus row with its type only as isolated or not, and but for what `noBusLimits` leaves out. -/
def anyType (b : BusRow BusD) : BusRow BusD :=
  { b with
    typ := if b.typ = 4 then 4 else 1
    data := { b.data with VMAX := 0, VMIN := 0, LAM_P := 0, LAM_Q := 0, MU_VMAX := 0, MU_VMIN := 0, rest := [] } }

/-- Two cases that differ in the declared types (PQ, PV or REF) of buses with no generator in service; they may also differ as in C141. -/
structure SameTypes (c1 c2 : Index.Case Tables) : Prop where
  bus : c1.bus.map anyType = c2.bus.map anyType
  gen : c1.gen.map noGenLimits = c2.gen.map noGenLimits
  branch : c1.branch.map noBranchLimits = c2.branch.map noBranchLimits
  typ : ∀ (i : ℕ) b1 b2, c1.bus[i]? = some b1 → c2.bus[i]? = some b2 → b2.typ = b1.typ ∨ ¬ HasGenOn c1 b1.num

/-- Rows that differ in declared types and in what power flows ignore only. -/
structure AnyTypes (R1 R2 : Index.Case Tables) : Prop where
  bus : R1.bus.map anyType = R2.bus.map anyType
  gen : R1.gen.map noGenLimits = R2.gen.map noGenLimits
  branch : R1.branch.map noBranchLimits = R2.branch.map noBranchLimits

end Verif.Runpf
