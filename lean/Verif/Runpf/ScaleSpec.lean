import Verif.Runpf.TableModel

/-!
# C137: the MVA base is only a unit
-/

namespace Verif.Runpf

open Verif.Index (BranchRow)
open Verif.Opf (Tables BrD)

noncomputable section

/-- The impedance and charging of a branch in per unit of a base `k` times as large. -/
def rebaseData (k : ℝ) (d : BrD) : BrD := { d with r := k * d.r, x := k * d.x, b := d.b / k }

def rebaseRow (k : ℝ) (l : BranchRow BrD) : BranchRow BrD := { l with data := rebaseData k l.data }

/-- The same network in per unit of a base `k` times as large. Powers are in MW and MVAr and stay as they are, and so do voltages, which are in per unit of the voltage base. -/
def rebase (k : ℝ) (c : Index.Case Tables) : Index.Case Tables := { c with branch := c.branch.map (rebaseRow k) }

/-- Multiplying all equations of a linear system by the same number does not change what the solver returns. -/
structure ScaleFree (lib : PfLib) : Prop where
  lin : ∀ {n : ℕ} (V : Fin n → ℂ) (J : List (List ℝ)) (F : List ℝ) (a : ℝ), a ≠ 0 → lib.lin V (J.map fun r => r.map (a * ·)) (F.map (a * ·)) = lib.lin V J F
  splu : ∀ (M : List (List ℝ)) (a : ℝ), a ≠ 0 →
    Option.Rel (fun P P' => ∀ F : List ℝ, P' (F.map (a * ·)) = P F) (lib.splu M) (lib.splu (M.map fun r => r.map (a * ·)))

/-- The same for the DC power flow. -/
def ScaleFreeDc (lib : DcLib) : Prop := ∀ (I : Type) (M : Matrix I I ℝ) (v : I → ℝ) (a : ℝ), a ≠ 0 → lib (fun i j => a * M i j) (fun i => a * v i) = lib M v

/-- The same outcome and the same results; impedances are those of the respective case. -/
structure SameRebased (k : ℝ) (r1 r2 : PfRet) : Prop where
  success : r2.success = r1.success
  tables : Option.Rel (fun R1 R2 : Index.Case Tables => R2.bus = R1.bus ∧ R2.gen = R1.gen ∧ R2.branch = R1.branch.map (rebaseRow k)) r1.tables r2.tables

end

end Verif.Runpf
