import Verif.Opf.DcModel
import Verif.OpfCost.DcModel
import Verif.Cost.Model

/-!
# Model of the costs in the DC optimal power flow: from `gencost` to the objective

`gc` is the table of active power costs (`pqcost` has cut off the reactive ones, opf_setup.py:65), in internal order, after the two-point piecewise linear
rows were turned into polynomials (opf_setup.py:94-107, `Verif.Cost.pwl1Row`).
-/

namespace Verif.Opf

open Verif.OpfModel Verif.Pips Verif.Network Verif.Cost Verif.OpfCost

noncomputable section

variable {nb ng nl : ℕ}

/-- `ipwl` (opf_setup.py:184, dcopf_solver.py:104) and `ny` (opf_setup.py:185). -/
def ipwl (gc : Fin ng → CostRow ℝ) : List (Fin ng) := (List.finRange ng).filter fun p => (gc p).model = 1
def nyOf (gc : Fin ng → CostRow ℝ) : ℕ := (ipwl gc).length

/-- `Ay` as a matrix with `w` columns (makeAy.py:61-97): `-1` in the column of the helper variable, the slope in the column of the output. -/
def ayMat (w : ℕ) (rows : List (AyRow ℝ)) : Mat where
  rows := rows.length
  cols := w
  val := fun i k => ((rows[i]?).map fun r => if k = r.ycol then -1 else if k = r.col then r.slope else 0).getD 0

/-- `Ay, by = makeAy(baseMVA, ng, gencost, 1, q1, 1+ng+nq)` with `nq = 0` (opf_setup.py:186); `q1` is not used, there being no reactive costs. -/
def ayRows (base : ℝ) (gc : Fin ng → CostRow ℝ) : List (AyRow ℝ) := makeAy base ng (List.ofFn gc) 1 0 (1 + ng)

/-- The helper variables and their constraints, if there are piecewise linear costs (opf_setup.py:235-237; `ycon_vars = ['Pg', 'y']`, opf_setup.py:153). -/
def pwlOps (base : ℝ) (gc : Fin ng → CostRow ℝ) : List Op :=
  if nyOf gc = 0 then []
  else [ .addVars "y" (nyOf gc) none none none,
         .addLin "ycon" (ayMat (ng + nyOf gc) (ayRows base gc)) [] ((ayRows base gc).map fun r => ((r.rhs : ℝ) : EReal)) ["Pg", "y"] ]

/-- User costs as `om.get_cost_params()` returns them (dcopf_solver.py:95-97): `N`, `H`, `Cw`, `rh`, `mm`. -/
structure UserCost (n : ℕ) (W : Type) where
  N : Matrix W (Fin n) ℝ
  H : Matrix W W ℝ
  Cw : W → ℝ
  rh : W → ℝ
  mm : W → ℝ

/-- The data from which `dcopf_solver` builds its objective (dcopf_solver.py:91-172): polynomial rows `ipol`, the positions `vv["i1"]["Pg"] + ipol` of their
outputs, the positions `vv["i1"]["y"] .. vv["iN"]["y"] - 1` of the helper variables. -/
def dcData (base : ℝ) (gc : Fin ng → CostRow ℝ) {n : ℕ} {W : Type} (u : UserCost n W) (iPg iY : ℕ) (h : iPg + ng ≤ n) :
    DcData (Fin n) {p : Fin ng // (gc p).model = 2} W where
  base := base
  row := fun p => gc p
  pg := fun p => ⟨iPg + p, by have := p.1.isLt; omega⟩
  y := Finset.univ.filter fun i : Fin n => iY ≤ i ∧ (i : ℕ) < iY + nyOf gc
  N := u.N
  H := u.H
  Cw := u.Cw
  rh := u.rh
  mm := u.mm

end

end Verif.Opf
