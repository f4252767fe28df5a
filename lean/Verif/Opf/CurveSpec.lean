import Verif.Opf.CurveModel
import Verif.Constr.Props
import Verif.Opf.RunSpec

/-!
# Specification vocabulary for capability curves and constant power factors in the tables of an optimal power flow

The data of a generator row in the caller's units (MW, MVAr) is a `Constr.Gen`; `Constr.BelowUpper`, `Constr.AboveLower` say on which side of the two lines a point
lies, `Constr.ValidCurve` that the data are acceptable, `Constr.VarLoad` that the row is a dispatchable load with reactive power.
-/

namespace Verif.Opf

open Verif.Index (BusRow GenRow BranchRow GenInService BranchInService)

noncomputable section

/-- Slopes of the two lines of a capability curve. -/
def upperSlope (g : Constr.Gen) : ℝ := (g.qc2max - g.qc1max) / (g.pc2 - g.pc1)
def lowerSlope (g : Constr.Gen) : ℝ := (g.qc2min - g.qc1min) / (g.pc2 - g.pc1)

/-- Data below `1e10` p.u., the value that counts as no limit. -/
structure CurveRange (base : ℝ) (g : Constr.Gen) : Prop where
  pmax : g.pmax / base < 10 ^ 10
  qmax : g.qmax / base < 10 ^ 10
  qmin : -10 ^ 10 < g.qmin / base
  upper : (|g.pc1| + |g.qc1max|) / base < 10 ^ 10
  lower : (|g.pc1| + |g.qc1min|) / base < 10 ^ 10

/-- The upper (lower) line cuts off the corner `(PMAX, QMAX)` (`(PMAX, QMIN)`) of the box. -/
def CutsUpper (g : Constr.Gen) : Prop := g.pc1 ≠ g.pc2 ∧ ¬ Constr.BelowUpper g g.pmax g.qmax
def CutsLower (g : Constr.Gen) : Prop := g.pc1 ≠ g.pc2 ∧ ¬ Constr.AboveLower g g.pmax g.qmin

/-- Some generator in service of the case has its upper (lower) corner cut off. -/
def SomeUpper (K : Curves) (c : Index.Case Tables) : Prop := ∃ g ∈ c.gen, GenInService c g ∧ CutsUpper (K.row g.data)
def SomeLower (K : Curves) (c : Index.Case Tables) : Prop := ∃ g ∈ c.gen, GenInService c g ∧ CutsLower (K.row g.data)

end

end Verif.Opf
