import Verif.Opf.ResModel

/-!
# Model of the DC optimal power flow with user-defined constraints, variables and costs, from tables to tables

`ppc['A']`, `ppc['l']`, `ppc['u']` (linear constraints on angles, outputs and user variables), `ppc['z0']`, `ppc['zl']`, `ppc['zu']` (user variables), `ppc['N']`, `ppc['Cw']`, `ppc['H']`,
`ppc['fparm']` (user costs).  The conversion of the numbering (`Verif/Index`) treats the columns of `A` and `N`; here follow the formulation, the solver and the packaging of the results.

Simplifications: messages on `stderr` are not modelled; a case without callbacks.  `none` is an exception.
-/

namespace Verif.Opf

open Verif.OpfModel Verif.Pips Verif.Network Verif.Cost Verif.OpfCost

noncomputable section

/-- The user data besides the matrices `A` and `N` (opf_args.py:204-218); an absent vector is empty, an absent `H` is `none`. -/
structure UserIn where
  l : List EReal
  u : List EReal
  z0 : List EReal
  zl : List EReal
  zu : List EReal
  Cw : List ℝ
  H : Option Mat
  fparm : List (ℝ × ℝ × ℝ × ℝ)

/-- The columns of a user matrix, none if it is absent. -/
def colsOf (m : Option (Index.UserMat (List ℝ))) : List (List ℝ) := (m.map fun a => a.cols).getD []

/-- `shape[0]` (opf_setup.py:53-61). -/
def rowsOf (cols : List (List ℝ)) : ℕ := (cols.headD []).length

/-- Reduction from AC to DC dimensions: the columns of `Vm` and `Qg` are deleted (opf_setup.py:70-91). -/
def dcCols (nb ng : ℕ) (cols : List (List ℝ)) : List (List ℝ) :=
  if 2 * nb + 2 * ng ≤ cols.length then cols.take nb ++ ((cols.drop (2 * nb)).take ng ++ cols.drop (2 * nb + 2 * ng)) else cols

/-- The matrix with the given columns. -/
def colMat (rows : ℕ) (cols : List (List ℝ)) : Mat := ⟨rows, cols.length, fun i j => (cols.getD j []).getD i 0⟩

/-- What the formulation takes from the user: reduced matrices, number of user variables (opf_setup.py:188-198: none without constraints; fewer columns than standard
variables only give a message). -/
structure UData where
  A : Mat
  N : Mat
  nz : ℕ
  dat : UserIn

def userData (nb ng : ℕ) (c : Index.Case Tables) (U : UserIn) : UData :=
  let A := colMat (rowsOf (colsOf c.A)) (dcCols nb ng (colsOf c.A))
  ⟨A, colMat (rowsOf (colsOf c.N)) (dcCols nb ng (colsOf c.N)), if A.rows = 0 then 0 else A.cols - (nb + ng), U⟩

/-- `user_vars` (opf_setup.py:145, 241-242). -/
def UData.vs (W : UData) : List String := if W.nz = 0 then ["Va", "Pg"] else ["Va", "Pg", "z"]

/-- `user_cost` (opf_setup.py:247-258). -/
def UData.cp (W : UData) : CP :=
  ⟨W.N, W.dat.Cw, W.dat.H, if W.dat.fparm = [] then none else some (W.dat.fparm.map fun p => p.1), if W.dat.fparm = [] then none else some (W.dat.fparm.map fun p => p.2.1),
    if W.dat.fparm = [] then none else some (W.dat.fparm.map fun p => p.2.2.1), if W.dat.fparm = [] then none else some (W.dat.fparm.map fun p => p.2.2.2)⟩

/-- The calls at opf_setup.py:239-260. -/
def UData.ops (W : UData) : List Op :=
  (if W.nz = 0 then [] else [.addVars "z" W.nz (some W.dat.z0) (some W.dat.zl) (some W.dat.zu)]) ++
    ((if W.A.rows = 0 then [] else [.addLin "usr" W.A W.dat.l W.dat.u W.vs]) ++ (if W.N.rows = 0 then [] else [.addCosts "usr" W.cp W.vs]))

/-- The setup of a case with user data: angle limits, helper variables of piecewise linear costs, then the user data (opf_setup.py:222-260); objective from the cost table and
the user costs (dcopf_solver.py:91-172, as with reserves). -/
def userSetup (base : ℝ) (E : Econ) (U : UserIn) : DcSetup where
  extra := fun {nb ng _} d c => angOps E nb c ++ (pwlOps d.base (fun p : Fin ng => pwl1Row (costAt c p)) ++ (userData nb ng c U).ops)
  H := fun c m => match resParams m with
    | some P => if h : c.bus.length + c.gen.length ≤ m.var.total then HH (resData base c P m h) else 0
    | none => 0
  C := fun c m => match resParams m with
    | some P => if h : c.bus.length + c.gen.length ≤ m.var.total then CC (resData base c P m h) else 0
    | none => 0
  C0 := fun c m => match resParams m with
    | some P => if h : c.bus.length + c.gen.length ≤ m.var.total then C0 (resData base c P m h) else 0
    | none => 0
  x0 := E.x0
  post := angPost E

/-- `results['var']['val']['z']` and its multipliers, `results['lin']['mu']['l']['usr']` and `['u']`, `results['cost']['usr']`; empty or zero where there is no such key. -/
structure UserOut where
  z : List ℝ
  z_mu_l : List ℝ
  z_mu_u : List ℝ
  mu_l : List ℝ
  mu_u : List ℝ
  cost : ℝ

/-- The slice of a vector that belongs to a block, if it is not empty (opf_execute.py:150-155, 160-164). -/
def slice (n : ℕ) (i1 : Option ℕ) (v : ℕ → ℝ) : Option (List ℝ) :=
  if n = 0 then some [] else i1.map fun i => (List.range n).map fun k => v (i + k)

/-- `results['cost']['usr']`, if there are user costs (opf_execute.py:178-182). -/
def userCostOut (nw : ℕ) (m' : Model) (x : ℕ → ℝ) : Option ℝ := if nw = 0 then some 0 else (m'.computeCost x (some "usr")).map Prod.fst

def userResults {nb ng nl : ℕ} (W : UData) (m m' : Model) (s : DcRes nb ng nl) : Option UserOut := do
  let z ← slice W.nz (m.var.i1 "z") s.x
  let zl ← slice W.nz (m.var.i1 "z") s.lower
  let zu ← slice W.nz (m.var.i1 "z") s.upper
  let l ← slice W.A.rows (m.lin.i1 "usr") s.mu_l
  let u ← slice W.A.rows (m.lin.i1 "usr") s.mu_u
  let f ← userCostOut W.N.rows m' s.x
  some ⟨z, zl, zu, l, u, f⟩

/-- Is this matrix, if it has rows, sparse?  A dense `A` has no `nnz`, `tolil` (opf_setup.py:75, 80) or `todense` (opf_model.py:750); a dense `N` likewise (opf_setup.py:82-91,
opf_model.py:465): `AttributeError`. -/
def sparseOk (m : Option (Index.UserMat (List ℝ))) : Bool :=
  match m with
  | none => true
  | some a => a.sparse || rowsOf a.cols == 0

/-- `opf` with `PF_DC` on a case with user data (opf.py:166-191).  User costs without `H` raise: `None` has no `shape` (opf_setup.py:257-258, opf_model.py:330-331). -/
def opfDcUser (srt : List ℕ → List ℕ) (base : ℝ) (E : Econ) (U : UserIn) (o : Opt) (solve : AnySolver) (c : Index.Case Tables) : Option (Ret × UserOut) := do
  let c' ← Index.ext2int srt c
  let d ← readCase base c'
  let W := userData c'.bus.length c'.gen.length c' U
  if sparseOk c'.A && sparseOk c'.N && (W.N.rows == 0 || U.H.isSome) then do
    let m ← OpfModel.run (dcOps d ++ (userSetup base E U).extra d c')
    let m' ← m.buildCostParams
    let s ← dcopfSolver d m ((userSetup base E U).H c' m) ((userSetup base E U).C c' m) ((userSetup base E U).C0 c' m) o solve (E.x0 c' m)
    let out ← userResults W m m' s
    let t ← Index.int2ext (write c' (dcUpd s (angPost E c' m s)))
    some (⟨s.success, s.f, s.tol, s.dual, m.var.total + m.lin.total, zeroOff opfOff t⟩, out)
  else none

end

end Verif.Opf
