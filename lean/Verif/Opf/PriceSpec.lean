import Verif.Opf.RunSpec
import Verif.Opf.EconModel
import Verif.Constr.Props

/-!
# Specification vocabulary for prices in the network (C99)

Everything is read off the returned tables.  `lam` gives the price `LAM_P` of a bus number.
-/

namespace Verif.Opf

open Verif.Index (BusRow GenRow BranchRow BranchInService)

noncomputable section

open Classical in
/-- Sum over the branches in service. -/
def onSum (t : Index.Case Tables) (F : BranchRow BrD → ℝ) : ℝ := (t.branch.map fun l => if BranchInService t l then F l else 0).sum

/-- Susceptance of a branch (its status is 1), the flow in p.u. for one radian of angle difference. -/
def susc (l : BranchRow BrD) : ℝ := l.status / l.data.x / (if l.data.tap = 0 then 1 else l.data.tap)

/-- The branch has an angle limit that is enforced. -/
def AngLimited (E : Econ) (l : BranchRow BrD) : Prop := E.ignoreAng = false ∧ Constr.Limited ⟨l.f, l.t, E.angmin l.data.rest, E.angmax l.data.rest⟩

open Classical in
/-- What one more radian of angle difference between the ends of the branch is worth per MVA of base: it moves power from the price at one end to that at the other, uses
up the flow limits, and uses up the angle limits (whose shadow prices are per degree). -/
def worth (E : Econ) (base : ℝ) (lam : ℕ → ℝ) (l : BranchRow BrD) : ℝ :=
  susc l * (lam l.f - lam l.t + l.data.MU_SF - l.data.MU_ST) + if AngLimited E l then (l.data.MU_ANGMAX - l.data.MU_ANGMIN) * (180 / Real.pi) / base else 0

/-- `1` at the from end, `−1` at the to end. -/
def ends (n : ℕ) (l : BranchRow BrD) : ℝ := (if l.f = n then 1 else 0) - (if l.t = n then 1 else 0)

open Classical in
/-- Susceptances and number of angle limits of the branches at bus `n`: the scale of the terms that have to cancel there. -/
def scaleAt (E : Econ) (t : Index.Case Tables) (n : ℕ) : ℝ :=
  onSum t fun l => ((if l.f = n then 1 else 0) + (if l.t = n then 1 else 0)) * (4 * |susc l| + if AngLimited E l then 1 else 0)

end

end Verif.Opf
