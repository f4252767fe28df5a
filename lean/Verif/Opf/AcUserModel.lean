import Verif.Opf.CurveModel
import Verif.Opf.UserModel

/-!
# Model of the AC optimal power flow with user-defined constraints and variables, from tables to tables

`ppc['A']`, `ppc['l']`, `ppc['u']` (linear constraints on angles, magnitudes, outputs, reactive outputs and user variables), `ppc['z0']`, `ppc['zl']`, `ppc['zu']` (user variables).

Simplifications: messages on `stderr` are not modelled; user costs are part of the arbitrary objective `Curves.cost`, their report `results['cost']` is not modelled.  `none` is an
exception.
-/

namespace Verif.Opf

open Verif.OpfModel Verif.Pips Verif.Network Verif.OpfCost

noncomputable section

/-- What the AC formulation takes from the user: the matrix with all its columns (opf_setup.py:53-61: `nusr` rows), the number of user variables (opf_setup.py:188-198: none without
constraints; fewer columns than standard variables only give a message). -/
structure AUData where
  A : Mat
  nz : ℕ
  dat : UserIn

def acUser (nb ng : ℕ) (c : Index.Case Tables) (U : UserIn) : AUData :=
  let A := colMat (rowsOf (colsOf c.A)) (colsOf c.A)
  ⟨A, if A.rows = 0 then 0 else A.cols - (2 * nb + 2 * ng), U⟩

/-- `user_vars` (opf_setup.py:166, 239-242). -/
def AUData.vs (W : AUData) : List String := if W.nz = 0 then ["Va", "Vm", "Pg", "Qg"] else ["Va", "Vm", "Pg", "Qg", "z"]

/-- The calls at opf_setup.py:239-245. -/
def AUData.ops (W : AUData) : List Op :=
  (if W.nz = 0 then [] else [.addVars "z" W.nz (some W.dat.z0) (some W.dat.zl) (some W.dat.zu)]) ++
    (if W.A.rows = 0 then [] else [.addLin "usr" W.A W.dat.l W.dat.u W.vs])

/-- The setup of a case with user data: they come after the helper variables and constraints of piecewise linear costs (opf_setup.py:235-245), which are `K.more`. -/
def withUser (K : Curves) (U : UserIn) : Curves :=
  { K with more := fun {nb ng _} d c => K.more d c ++ (acUser nb ng c U).ops }

/-- `results['x']`, `results['var']['val']['z']` and its multipliers, `results['lin']['mu']['l']['usr']` and `['u']`; empty where there is no such key. -/
structure AcUserOut where
  x : List ℝ
  z : List ℝ
  z_mu_l : List ℝ
  z_mu_u : List ℝ
  mu_l : List ℝ
  mu_u : List ℝ

/-- opf_execute.py:146-164, pipsopf_solver.py:207-209. -/
def acUserResults {nb ng nl : ℕ} (W : AUData) (m : Model) (s : AcRes nb ng nl) : Option AcUserOut := do
  let z ← slice W.nz (m.var.i1 "z") s.x
  let zl ← slice W.nz (m.var.i1 "z") s.muVarL
  let zu ← slice W.nz (m.var.i1 "z") s.muVarU
  let l ← slice W.A.rows (m.lin.i1 "usr") s.mu_l
  let u ← slice W.A.rows (m.lin.i1 "usr") s.mu_u
  some ⟨(List.range m.var.total).map s.x, z, zl, zu, l, u⟩

/-- `opf` with the AC formulation on a case with user data (opf.py:166-191); a dense `A` with rows has no `todense` (opf_model.py:750): `AttributeError`. -/
def opfAcUser (srt : List ℕ → List ℕ) (base : ℝ) (lim : Int) (K : Curves) (U : UserIn) (o : Opt) (solve : AnySolver) (c : Index.Case Tables) : Option (Ret × AcUserOut) := do
  let c' ← Index.ext2int srt c
  let d ← readCase base c'
  if sparseOk c'.A then do
    let m ← OpfModel.run (acOps d ++ curveExtra (withUser K U) d c')
    let s ← pipsopfSolver d lim (K.cost c') m o solve (K.ang.x0 c' m)
    let out ← acUserResults (acUser c'.bus.length c'.gen.length c' U) m s
    let mu ← curveMus base K c' m s
    let t ← Index.int2ext (write c' (acUpd s (curvePost K c' m s mu)))
    some (⟨s.success, s.f, s.tol, s.dual, m.var.total + m.lin.total, zeroOff opfOff t⟩, out)
  else none

end

end Verif.Opf
