import Mathlib.Data.Matrix.Mul
import Mathlib.Data.Matrix.Diagonal
import Mathlib.Data.Real.Basic
import Verif.Cost.Model

/-!
# Model of the objective set up by the DC OPF (pypower/dcopf_solver.py:91-182, 240)

`X` indexes the optimisation variables, `Q` the polynomial rows of `gencost` (`ipol`), `W` the rows of the user costs.
-/

open Matrix

namespace Verif.OpfCost

open Verif.Cost

noncomputable section

variable {X Q W : Type*} [Fintype X] [Fintype Q] [Fintype W] [DecidableEq X] [DecidableEq Q] [DecidableEq W]

/-- The data used: `baseMVA`, the polynomial rows `gencost[ipol, :]`, the position `vv["i1"]["Pg"] + ipol` of the generator's output in `x`,
the positions of the `y` variables, and the user cost parameters `N, H, Cw, rh, mm` (dcopf_solver.py:91-110; `dd` and `kk` are not used). -/
structure DcData (X Q W : Type*) where
  base : ℝ
  row : Q → CostRow ℝ
  pg : Q → X
  y : Finset X
  N : Matrix W X ℝ
  H : Matrix W W ℝ
  Cw : W → ℝ
  rh : W → ℝ
  mm : W → ℝ

/-- `polycf` in p.u. (dcopf_solver.py:136-146): only rows with `NCOST` 2 or 3 are filled in, all others stay zero. -/
def polycf (d : DcData X Q W) (q : Q) : ℝ × ℝ × ℝ :=
  let c := (d.row q).data
  let raw : ℝ × ℝ × ℝ :=
    if (d.row q).ncost = 3 then (c.getD 0 0, c.getD 1 0, c.getD 2 0)
    else if (d.row q).ncost = 2 then (0, c.getD 0 0, c.getD 1 0)
    else (0, 0, 0)
  (raw.1 * d.base ^ 2, raw.2.1 * d.base, raw.2.2)

/-- Rows of `w`: the sum of the `y` variables (only if `ny > 0`), the polynomial costs, the user costs (dcopf_solver.py:121-132, 159). -/
abbrev R (d : DcData X Q W) (Q W : Type*) := {_u : Unit // d.y.Nonempty} ⊕ (Q ⊕ W)

instance (d : DcData X Q W) : Fintype {_u : Unit // d.y.Nonempty} :=
  haveI : Decidable d.y.Nonempty := Classical.dec _
  inferInstance

/-- `NN = [Npwl; Npol; N]` (dcopf_solver.py:124, 148, 159). -/
def NN (d : DcData X Q W) : Matrix (R d Q W) X ℝ := Matrix.of fun r j =>
  match r with
  | .inl _ => if j ∈ d.y then 1 else 0
  | .inr (.inl q) => if j = d.pg q then 1 else 0
  | .inr (.inr w) => d.N w j

/-- `HHw`: block diagonal of `Hpwl = 0`, `Hpol = diag(2 polycf[:,0])` and `H` (dcopf_solver.py:125, 150, 161-170). -/
def HHw (d : DcData X Q W) : Matrix (R d Q W) (R d Q W) ℝ := Matrix.of fun r s =>
  match r, s with
  | .inr (.inl q), .inr (.inl q') => if q = q' then 2 * (polycf d q).1 else 0
  | .inr (.inr w), .inr (.inr w') => d.H w w'
  | _, _ => 0

/-- `CCw` (dcopf_solver.py:126, 155, 171). -/
def CCw (d : DcData X Q W) : R d Q W → ℝ
  | .inl _ => 1
  | .inr (.inl q) => (polycf d q).2.1
  | .inr (.inr w) => d.Cw w

/-- Columns 1 (`rh`) and 3 (`mm`) of `ffparm` (dcopf_solver.py:127, 156, 172). -/
def rhAll (d : DcData X Q W) : R d Q W → ℝ
  | .inr (.inr w) => d.rh w
  | _ => 0

def mmAll (d : DcData X Q W) : R d Q W → ℝ
  | .inr (.inr w) => d.mm w
  | _ => 1

open Classical in
/-- `MN = M * NN` (dcopf_solver.py:176, 179). -/
def MN (d : DcData X Q W) : Matrix (R d Q W) X ℝ := diagonal (mmAll d) * NN d

open Classical in
/-- `MR = M * ffparm[:, 1]` (dcopf_solver.py:177). -/
def MR (d : DcData X Q W) : R d Q W → ℝ := diagonal (mmAll d) *ᵥ rhAll d

/-- `HH`, `CC`, `C0` (dcopf_solver.py:178-182). -/
def HH (d : DcData X Q W) : Matrix X X ℝ := (MN d)ᵀ * HHw d * MN d
def CC (d : DcData X Q W) : X → ℝ := (MN d)ᵀ *ᵥ (CCw d - HHw d *ᵥ MR d)
def C0 (d : DcData X Q W) : ℝ := 1 / 2 * (MR d ⬝ᵥ (HHw d *ᵥ MR d)) + ∑ q, (polycf d q).2.2

/-- The reported objective value at `x`: the QP value `½ x'HHx + CC'x` plus `C0` (dcopf_solver.py:231-240). -/
def dcObjective (d : DcData X Q W) (x : X → ℝ) : ℝ := 1 / 2 * (x ⬝ᵥ (HH d *ᵥ x)) + CC d ⬝ᵥ x + C0 d

end

end Verif.OpfCost
