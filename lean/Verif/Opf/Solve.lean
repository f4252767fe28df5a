import Verif.OpfModel.Spec
import Verif.Pips.Full

/-!
# Handing an `opf_model` object to `pips`

`A, l, u = om.linear_constraints()`, `x0, xmin, xmax = om.getv()` (pipsopf_solver.py:102-105, dcopf_solver.py:112-113) and the call of the solver.
-/

namespace Verif.Opf

open Verif.OpfModel Verif.Pips

noncomputable section

/-- The linear constraints and bounds passed on (pipsopf_solver.py:102-105, dcopf_solver.py:112-113).  Without linear rows `A` is `None`. -/
def linearOf (m : Model) : Option Linear := do
  let lc ← m.linearConstraints
  let v ← m.getv none
  some { nA := m.lin.total
         A := (lc.map LinAcc.A).getD (fun _ _ => 0)
         l := (lc.map LinAcc.l).getD (fun _ => ⊥)
         u := (lc.map LinAcc.u).getD (fun _ => ⊤)
         xmin := fun k => v.2.1.getD k ⊥
         xmax := fun k => v.2.2.getD k ⊤ }

/-- A vector of `n` values as a function of the position. -/
def pad {n : ℕ} (x : Fin n → ℝ) (k : ℕ) : ℝ := if h : k < n then x ⟨k, h⟩ else 0

/-- A linear equation solver for every size of problem. -/
abbrev AnySolver := ∀ X E : Type, Solver X E

/-! ### Specification: bounds of a block -/

/-- Bounds of entry `i` of a variable block: those given by the caller, infinite if omitted (`None` or an empty vector). -/
def VarVals.lo (b : VarVals) (i : ℕ) : EReal := (orDefault b.n ⊥ b.vl).getD i ⊥
def VarVals.hi (b : VarVals) (i : ℕ) : EReal := (orDefault b.n ⊤ b.vu).getD i ⊤

/-- Bounds of row `i` of a linear block. -/
def LinBlk.lo (b : LinBlk) (i : ℕ) : EReal := if b.l = [] then ⊥ else b.l.getD i ⊥
def LinBlk.hi (b : LinBlk) (i : ℕ) : EReal := if b.u = [] then ⊤ else b.u.getD i ⊤

/-- A variable block whose bounds, where given, have one entry per variable. -/
def VarFits (b : VarVals) : Prop := (orDefault b.n ⊥ b.vl).length = b.n ∧ (orDefault b.n ⊤ b.vu).length = b.n

/-- Bounds beyond `±1e10` (per unit) count as absent. -/
def Finite (v : ℝ) : Prop := -10 ^ 10 < v ∧ v < 10 ^ 10

/-- Coefficient of variable `j` (position in the stacked vector) in row `i` of a linear block: the value of the row at the unit vector. -/
def coef (vb : List (String × ℕ)) (b : LinBlk) (i j : ℕ) : ℝ := rowDot b.A i (subvec vb (Pi.single j 1) (eff vb b.vs))

/-- `∑ F(coefficient of variable j, value at the row)` over the rows of the blocks `bs`, whose rows are numbered as in the blocks `lb`. -/
def overRows (F : ℝ → ℝ → ℝ) (vb lb : List (String × ℕ)) (bs : List (String × LinBlk)) (j : ℕ) (y : ℕ → ℝ) : ℝ :=
  (bs.map fun b => ∑ i ∈ Finset.range b.2.A.rows, F (coef vb b.2 i j) (y (start lb b.1 + i))).sum

end

end Verif.Opf
