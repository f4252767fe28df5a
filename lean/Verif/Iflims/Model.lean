import Mathlib.Data.List.Sort
import Verif.Network.Model
import Verif.NumPy

/-!
# Interface flow limits

Model of the three numerical callbacks of `toggle_iflims.py`: `userfcn_iflims_ext2int` (81-106),
`userfcn_iflims_formulation` (109-152) and `userfcn_iflims_int2ext` (155-186, without the copied multipliers of 181-184).

The map is an integer array (with a float array recent numpy versions raise at lines 142-143 and 179 because of the float
index); interface numbers are integers; limits are real (no infinite limits). `none` is `IndexError`.
Messages on `stderr` (line 134-135) are not modelled.
-/

open Verif.NumPy

namespace Verif.Iflims

/-- A row of `ppc['if']['map']`: interface number and signed branch index. -/
abbrev MapRow := Int × Int

/-- toggle_iflims.py:96-97: external to internal branch numbers; branches that are out of service get 0. -/
def e2i (on : List Bool) : Option (List Nat) :=
  scatter (List.replicate on.length 0) (find on) (List.range (find on).length)

/-- toggle_iflims.py:98-100 for one row. -/
def convRow (e : List Nat) (r : MapRow) : Option MapRow :=
  (e[r.2.natAbs]?).map fun i => (r.1, r.2.sign * (i : Int))

/-- `userfcn_iflims_ext2int` (toggle_iflims.py:81-106) for branches with statuses `on`. The result is
`(ppc['order']['ext']['ifmap'], ppc['if']['map'])`: the saved map is the same array that line 100 overwrites, the
internal one is the copy made by `delete`. -/
def ext2int (on : List Bool) (ifmap : List MapRow) : Option (List MapRow × List MapRow) := do
  let e ← e2i on
  let m ← ifmap.mapM (convRow e)
  pure (m, m.filter fun r => decide (r.2 ≠ 0))

/-- Rows of `ppc['if']['lims']`: interface number, lower and upper limit in MW. -/
abbrev LimRow := Int × ℝ × ℝ

/-- `unique(iflims[:, 0])` (toggle_iflims.py:126,171): sorted, without repetition. -/
def ifidx (lims : List LimRow) : List Int := (lims.map Prod.fst).dedup.insertionSort (· ≤ ·)

/-- Signed branch numbers of an interface (toggle_iflims.py:133,176). -/
def members (ifmap : List MapRow) (id : Int) : List Int := (ifmap.filter fun r => decide (r.1 = id)).map Prod.snd

noncomputable section

variable {B : Type} [Fintype B] [DecidableEq B]

/-- A row of the interface constraint: coefficients of the bus angles, bounds in p.u. -/
structure Row (B : Type) where
  A : B → ℝ
  lower : ℝ
  upper : ℝ

/-- One step of toggle_iflims.py:141-143. -/
def addBranch (branch : List (Network.Branch B)) (acc : (B → ℝ) × ℝ) (s : Int) : Option ((B → ℝ) × ℝ) :=
  if h : s.natAbs < branch.length then
    some (fun j => acc.1 j + s.sign * Network.Bf branch.get ⟨s.natAbs, h⟩ j,
      acc.2 + s.sign * Network.Pfinj branch.get ⟨s.natAbs, h⟩)
  else none

/-- toggle_iflims.py:133-147 for interface `k`. -/
def row (baseMVA : ℝ) (branch : List (Network.Branch B)) (ifmap : List MapRow) (lims : List LimRow) (k : Nat) (id : Int) :
    Option (Row B) := do
  let (Ak, bk) ← (members ifmap id).foldlM (addBranch branch) (fun _ => 0, 0)
  let lim ← lims[k]?
  pure ⟨Ak, lim.2.1 / baseMVA - bk, lim.2.2 / baseMVA - bk⟩

/-- `userfcn_iflims_formulation` (toggle_iflims.py:109-152): the rows of the constraint added to the model. -/
def formulation (baseMVA : ℝ) (branch : List (Network.Branch B)) (ifmap : List MapRow) (lims : List LimRow) :
    Option (List (Row B)) :=
  (ifidx lims).zipIdx.mapM fun p => row baseMVA branch ifmap lims p.2 p.1

/-- The constraint holds at `theta`. -/
def Holds (rows : List (Row B)) (theta : B → ℝ) : Prop :=
  ∀ r ∈ rows, r.lower ≤ ∑ j, r.A j * theta j ∧ ∑ j, r.A j * theta j ≤ r.upper

/-- One term of toggle_iflims.py:179. `pf` is the column PF of the solved internal branch table. -/
def flowTerm (pf : List ℝ) (s : Int) : Option ℝ := (pf[s.natAbs]?).map fun p => s.sign * p

/-- `userfcn_iflims_int2ext` (toggle_iflims.py:155-186): the map of the results and the interface flows. `saved` is
`results['order']['ext']['ifmap']`. -/
def int2ext (pf : List ℝ) (saved ifmap : List MapRow) (lims : List LimRow) : Option (List MapRow × List ℝ) := do
  let P ← (ifidx lims).mapM fun id => ((members ifmap id).mapM (flowTerm pf)).map List.sum
  pure (saved, P)

end

end Verif.Iflims
