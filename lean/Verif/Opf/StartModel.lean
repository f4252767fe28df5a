import Verif.Opf.CurveModel
import Verif.Opf.ExecModel

/-!
# Where the optimal power flow starts, and how the options of the caller reach the solver

`dcopf_solver` and `pipsopf_solver` choose their own starting point and pick the options of `pips` from the dictionary of options.  The other models of the optimal power
flow hold for any starting point and any options; here both are what the code takes.
-/

namespace Verif.Opf

open Verif.OpfModel Verif.Pips Verif.Cost

noncomputable section

/-! ### Starting point -/

/-- `lb[xmin == -inf] = -1e10`, `ub[xmax == inf] = 1e10` (dcopf_solver.py:189-190, pipsopf_solver.py:111-113). -/
def loProxy (v : EReal) : ℝ := if v = ⊥ then -10 ^ 10 else v.toReal
def hiProxy (v : EReal) : ℝ := if v = ⊤ then 10 ^ 10 else v.toReal

/-- Position `k` is in `x0[vv["i1"][name]:vv["iN"][name]]`. -/
def inBlock (m : Model) (name : String) (k : ℕ) : Bool :=
  match m.var.i1 name, m.var.iN name with
  | some i1, some iN => decide (i1 ≤ k ∧ k < iN)
  | _, _ => false

/-- The starting point (dcopf_solver.py:186-199, pipsopf_solver.py:110-122): the middle of the bounds; angles are set to `ref`, helper variables of piecewise
linear costs to `y`. -/
def interior (m : Model) (ref y : ℝ) (k : ℕ) : ℝ :=
  if inBlock m "y" k then y else if inBlock m "Va" k then ref else
    match m.getv none with
    | some v => (loProxy (v.2.1.getD k ⊥) + hiProxy (v.2.2.getD k ⊤)) / 2
    | none => 0

/-- `Varefs[0]` (dcopf_solver.py:186, 193, pipsopf_solver.py:114-116); `none`: no reference bus, `IndexError`. -/
def firstRef (c : Index.Case Tables) : Option ℝ := (c.bus.find? fun b => b.typ == 3).map fun b => b.data.VA * (Real.pi / 180)

/-- `gencost.flatten('F')[sub2ind(gencost.shape, ipwl, NCOST + 2 * gencost[ipwl, NCOST])]` (dcopf_solver.py:197-198, pipsopf_solver.py:121): the value at the last
breakpoint, entry `2 n - 1` of the data of the row.  (`makeAy` has read the same entry; a table with fewer columns does not get here.) -/
def lastValue (r : CostRow ℝ) : ℝ := r.data.getD (2 * r.ncost - 1) 0

/-- `max(c) + 0.1 * abs(max(c))` (dcopf_solver.py:199, pipsopf_solver.py:122) over the piecewise linear rows of a cost table. -/
def yStart (gc : List (CostRow ℝ)) : ℝ :=
  let c := (gc.filter fun r => r.model == 1).map lastValue
  let top := c.foldl max (c.headD 0)
  top + 1 / 10 * |top|

/-- DC: `gencost` has the active power costs only (opf_setup.py:65), after the two-point rows were converted (opf_setup.py:94-107). -/
def dcStart (c : Index.Case Tables) (m : Model) (k : Fin m.var.total) : ℝ :=
  interior m ((firstRef c).getD 0) (yStart (List.ofFn fun p : Fin c.gen.length => pwl1Row (costAt c p))) k

/-- AC: all rows of `gencost`. -/
def acStart (c : Index.Case Tables) (m : Model) (k : Fin m.var.total) : ℝ :=
  interior m ((firstRef c).getD 0) (yStart ((c.gencost.getD []).map pwl1Row)) k

/-! ### Options -/

/-- The options read (ppoption.py:72-111, 162-176). -/
structure PpOpt where
  OPF_ALG : ℕ
  OPF_ALG_DC : ℕ
  OPF_VIOLATION : ℝ
  OPF_FLOW_LIM : ℤ
  OPF_IGNORE_ANG_LIM : Bool
  PDIPM_FEASTOL : ℝ
  PDIPM_GRADTOL : ℝ
  PDIPM_COMPTOL : ℝ
  PDIPM_COSTTOL : ℝ
  PDIPM_MAX_IT : ℕ
  SCPDIPM_RED_IT : ℕ

/-- `ppoption()` (ppoption.py:72-111, 162-176). -/
def PpOpt.default : PpOpt := ⟨0, 0, 5 / 10 ^ 6, 0, false, 0, 1 / 10 ^ 6, 1 / 10 ^ 6, 1 / 10 ^ 6, 150, 20⟩

/-- `if feastol == 0: feastol = ppopt['OPF_VIOLATION']` (dcopf_solver.py:208-209, pipsopf_solver.py:78-79). -/
def PpOpt.feastol (p : PpOpt) : ℝ := if p.PDIPM_FEASTOL = 0 then p.OPF_VIOLATION else p.PDIPM_FEASTOL

/-- The options of `pips` in a DC run (dcopf_solver.py:202-216, qps_pypower.py:169-184): PIPS is algorithm 200, with step control 250; 0 is 200 unless a commercial
solver can be imported (`others`).  `none`: another solver, or `ValueError` for an unknown code (dcopf_solver.py:225-226). -/
def PpOpt.dc (p : PpOpt) (others : Bool) : Option Opt :=
  let o (sc : Bool) : Opt := ⟨p.feastol, p.PDIPM_GRADTOL, p.PDIPM_COMPTOL, p.PDIPM_COSTTOL, p.PDIPM_MAX_IT, p.SCPDIPM_RED_IT, sc, 1⟩
  if p.OPF_ALG_DC = 200 ∨ (p.OPF_ALG_DC = 0 ∧ others = false) then some (o false)
  else if p.OPF_ALG_DC = 250 then some (o true)
  else none

/-- The options of `pips` in an AC run (pipsopf_solver.py:69-88).  `none`: another solver or an unknown code (`acSolver`). -/
def PpOpt.ac (p : PpOpt) : Option Opt :=
  if acSolver false p.OPF_ALG = some .pips then
    some ⟨p.feastol, p.PDIPM_GRADTOL, p.PDIPM_COMPTOL, p.PDIPM_COSTTOL, p.PDIPM_MAX_IT, p.SCPDIPM_RED_IT, acStepControl p.OPF_ALG, 1 / 10 ^ 4⟩
  else none

/-! ### Runs -/

/-- `rundcopf` up to the report (rundcopf.py:22-26, opf.py:149-196): the options and the starting point are what the code takes; `E` says where the angle limits
are in a branch row. -/
def runDc (srt : List ℕ → List ℕ) (base : ℝ) (E : Econ) (others : Bool) (p : PpOpt) (solve : AnySolver) (c : Index.Case Tables) : Option Ret := do
  let c' ← Index.ext2int srt c
  let _ ← firstRef c'
  let o ← p.dc others
  opfDcEcon srt base { E with ignoreAng := p.OPF_IGNORE_ANG_LIM, x0 := dcStart } o solve c

/-- `runopf` up to the report (runopf.py:26-31, opf.py:149-196). -/
def runAc (srt : List ℕ → List ℕ) (base : ℝ) (K : Curves) (p : PpOpt) (solve : AnySolver) (c : Index.Case Tables) : Option Ret := do
  let c' ← Index.ext2int srt c
  let _ ← firstRef c'
  let o ← p.ac
  opfAcCurve srt base p.OPF_FLOW_LIM { K with ang := { K.ang with ignoreAng := p.OPF_IGNORE_ANG_LIM, x0 := acStart } } o solve c

end

end Verif.Opf
