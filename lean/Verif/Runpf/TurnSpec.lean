import Verif.Runpf.TableModel

/-!
# C136: the direction in which a branch is entered
-/

namespace Verif.Runpf

open Verif.Index (BranchRow)
open Verif.Opf (Tables BrD)

/-- The off-nominal turns ratio of a branch (0 stands for 1). -/
noncomputable def ratio (d : BrD) : ℝ := if d.tap = 0 then 1 else d.tap

/-- Two rows describe the same branch in the same direction. -/
structure SameLine (l l' : BranchRow BrD) : Prop where
  f : l'.f = l.f
  t : l'.t = l.t
  status : l'.status = l.status
  r : l'.data.r = l.data.r
  x : l'.data.x = l.data.x
  b : l'.data.b = l.data.b
  tap : l'.data.tap = l.data.tap
  shift : l'.data.shift = l.data.shift

/-- Two rows describe the same branch in opposite directions: ends exchanged, the shift negated, the ratio inverted and the impedance seen from the other side of the transformer.
For a line or a pure phase shifter (ratio 1) only the ends and the sign of the shift differ. -/
structure TurnedLine (l l' : BranchRow BrD) : Prop where
  f : l'.f = l.t
  t : l'.t = l.f
  status : l'.status = l.status
  r : l'.data.r = l.data.r * ratio l.data ^ 2
  x : l'.data.x = l.data.x * ratio l.data ^ 2
  b : l'.data.b = l.data.b / ratio l.data ^ 2
  tap : ratio l'.data = (ratio l.data)⁻¹
  shift : l'.data.shift = -l.data.shift

/-- The same case, some branches entered in the opposite direction. -/
structure Turned (c1 c2 : Index.Case Tables) : Prop where
  bus : c2.bus = c1.bus
  gen : c2.gen = c1.gen
  branch : List.Forall₂ (fun l l' => SameLine l l' ∨ TurnedLine l l') c1.branch c2.branch

/-- The same results of buses and generators; the flows of a turned branch have changed ends, the others are the same. -/
structure SameFlows (c1 c2 R1 R2 : Index.Case Tables) : Prop where
  bus : R2.bus = R1.bus
  gen : R2.gen = R1.gen
  len : R1.branch.length = c1.branch.length ∧ R2.branch.length = c2.branch.length
  same : ∀ (i : ℕ) l1 l2 q1 q2, c1.branch[i]? = some l1 → c2.branch[i]? = some l2 → R1.branch[i]? = some q1 → R2.branch[i]? = some q2 → SameLine l1 l2 →
    q2.data.PF = q1.data.PF ∧ q2.data.QF = q1.data.QF ∧ q2.data.PT = q1.data.PT ∧ q2.data.QT = q1.data.QT
  turned : ∀ (i : ℕ) l1 l2 q1 q2, c1.branch[i]? = some l1 → c2.branch[i]? = some l2 → R1.branch[i]? = some q1 → R2.branch[i]? = some q2 → TurnedLine l1 l2 →
    q2.data.PF = q1.data.PT ∧ q2.data.QF = q1.data.QT ∧ q2.data.PT = q1.data.PF ∧ q2.data.QT = q1.data.QF

/-- The same outcome; either both tables contain NaN or both have the same results up to the direction of branches. -/
structure SameTurned (c1 c2 : Index.Case Tables) (r1 r2 : PfRet) : Prop where
  success : r2.success = r1.success
  tables : Option.Rel (SameFlows c1 c2) r1.tables r2.tables

end Verif.Runpf
