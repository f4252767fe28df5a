import Verif.Runpf.TableModel

/-!
# C138: only differences of voltage angles matter
-/

namespace Verif.Runpf

open Verif.Index (BusRow)
open Verif.Opf (Tables BusD)

noncomputable section

/-- The same bus with its angle measured from elsewhere. -/
def shiftAngle (δ : ℝ) (b : BusRow BusD) : BusRow BusD := { b with data := { b.data with VA := b.data.VA + δ } }

/-- The case with `δ` degrees added to the angles of all buses. -/
def shiftAngles (δ : ℝ) (c : Index.Case Tables) : Index.Case Tables := { c with bus := c.bus.map (shiftAngle δ) }

/-- Turning all voltages by the same angle does not change what the solver makes of the Newton equations (they are the same equations), and as many equations as unknowns, of
which one does not occur, are not solved. -/
structure AngleFree (lib : PfLib) : Prop where
  lin : ∀ {n : ℕ} (V : Fin n → ℂ) (J : List (List ℝ)) (F : List ℝ) (u : ℂ), ‖u‖ = 1 → lib.lin (fun b => u * V b) J F = lib.lin V J F
  singular : ∀ {n : ℕ} (V : Fin n → ℂ) (J : List (List ℝ)) (F : List ℝ) (k : ℕ), J ≠ [] → (∀ r ∈ J, r.length = J.length ∧ r[k]? = some 0) → lib.lin V J F = none

/-- The same row but for the angle, which is `δ` larger, up to whole turns; a voltage of zero has no angle. -/
def AngleShifted (δ : ℝ) (b1 b2 : BusRow BusD) : Prop :=
  (∃ a, b2 = { b1 with data := { b1.data with VA := a } }) ∧ (b1.data.VM = 0 ∨ ∃ m : ℤ, b2.data.VA = b1.data.VA + δ + 360 * m)

/-- The same outcome, the same generator and branch rows, and the same bus rows but for angles larger by `δ`. -/
structure SameShifted (δ : ℝ) (r1 r2 : PfRet) : Prop where
  success : r2.success = r1.success
  tables : Option.Rel (fun R1 R2 : Index.Case Tables => List.Forall₂ (AngleShifted δ) R1.bus R2.bus ∧ R2.gen = R1.gen ∧ R2.branch = R1.branch) r1.tables r2.tables

end

end Verif.Runpf
