import Verif.Opf.ExecModel
import Verif.OpfModel.Spec
import Verif.Opf.SolveLemmas

/-! # What the named results of an optimal power flow should be

`h` is the sequence of calls that built the model: each `add_vars`, `add_constraints`, `add_costs` call names its block. -/

namespace Verif.Opf

open Verif.OpfModel Verif.Pips

/-- The values a user gets by putting together the entries of a dictionary for some names, in order. -/
def gather (D : Dict (List ℝ)) (vs : List String) : List ℝ := vs.flatMap fun v => (D v).getD []

/-- `1/2 w'Hw + Cw'w` with `w = N x`, `x` being the named values of the variables the block refers to (a block that leaves out `dd`, `rh`, `kk`, `mm`). -/
noncomputable def costAtNamed (all : List (String × ℕ)) (D : Dict (List ℝ)) (b : CostBlk) : ℝ :=
  let w := fun i => rowDot b.cp.N i (gather D (eff all b.vs))
  1 / 2 * (∑ i ∈ Finset.range b.cp.N.rows, ∑ k ∈ Finset.range b.cp.N.rows, w i * (b.cp.H.map fun H => H.val i k).getD 0 * w k) +
    ∑ i ∈ Finset.range b.cp.N.rows, b.cp.Cw.getD i 0 * w i

/-- Which names appear, and that what stands under a name has one entry per element of that block. -/
structure NamesOK (h : List Op) (R : Named) : Prop where
  /-- every non-empty block of variables has its values and two lists of shadow prices, of the right length -/
  vars : ∀ b ∈ varVals h, 0 < b.2.n → (∃ L, R.val b.1 = some L ∧ L.length = b.2.n) ∧ (∃ L, R.varL b.1 = some L ∧ L.length = b.2.n) ∧
    ∃ L, R.varU b.1 = some L ∧ L.length = b.2.n
  /-- every non-empty block of linear constraints has two lists of shadow prices -/
  lins : ∀ b ∈ linBlks h, 0 < b.2.A.rows → (∃ L, R.linL b.1 = some L ∧ L.length = b.2.A.rows) ∧ ∃ L, R.linU b.1 = some L ∧ L.length = b.2.A.rows
  /-- nothing else appears -/
  varsOnly : ∀ v, (R.val v ≠ none ∨ R.varL v ≠ none ∨ R.varU v ≠ none) → ∃ b ∈ varVals h, b.1 = v ∧ 0 < b.2.n
  linsOnly : ∀ v, (R.linL v ≠ none ∨ R.linU v ≠ none) → ∃ b ∈ linBlks h, b.1 = v ∧ 0 < b.2.A.rows
  /-- costs: exactly the non-empty blocks, at the named values -/
  costs : ∀ b ∈ costBlks h, 0 < b.2.cp.N.rows → R.cost b.1 = some (costAtNamed (varBlocks h) R.val b.2)
  costsOnly : ∀ v, R.cost v ≠ none → ∃ b ∈ costBlks h, b.1 = v ∧ 0 < b.2.cp.N.rows

/-- What the values and shadow prices under the names satisfy after a successful run: bounds and constraints as given in the calls, within `tol`; shadow prices are not
negative and, times the unused margin, at most `gap`. -/
structure ValuesOK (h : List Op) (R : Named) (tol gap : ℝ) : Prop where
  vars : ∀ b ∈ varVals h, ∀ i < b.2.n,
    let v := (gather R.val [b.1]).getD i 0
    let l := (gather R.varL [b.1]).getD i 0
    let u := (gather R.varU [b.1]).getD i 0
    Within (VarVals.lo b.2 i) (VarVals.hi b.2 i) v tol ∧ 0 ≤ l ∧ 0 ≤ u ∧
      (∀ c : ℝ, VarVals.hi b.2 i = (c : EReal) → u * (c - v) ≤ gap) ∧ (∀ c : ℝ, VarVals.lo b.2 i = (c : EReal) → l * (v - c) ≤ gap)
  lins : ∀ b ∈ linBlks h, ∀ i < b.2.A.rows,
    let v := rowDot b.2.A i (gather R.val (eff (varBlocks h) b.2.vs))
    let l := (gather R.linL [b.1]).getD i 0
    let u := (gather R.linU [b.1]).getD i 0
    Within (LinBlk.lo b.2 i) (LinBlk.hi b.2 i) v tol ∧ 0 ≤ l ∧ 0 ≤ u ∧
      (∀ c : ℝ, LinBlk.hi b.2 i = (c : EReal) → u * (c - v) ≤ gap) ∧ (∀ c : ℝ, LinBlk.lo b.2 i = (c : EReal) → l * (v - c) ≤ gap)

/-- At most one block of costs has rows. -/
def OneCost (h : List Op) : Prop := ∀ b ∈ costBlks h, ∀ c ∈ costBlks h, 0 < b.2.cp.N.rows → 0 < c.2.cp.N.rows → b.1 = c.1

/-- The blocks the model was built from have different names, the matrices fit, and no cost block supplies `dd`, `rh`, `kk` or `mm` (those are not kept, C43). -/
structure Tidy (h : List Op) : Prop where
  good : Good h
  nlnNames : (names (nlnBlocks h)).Nodup
  costNames : (names (costBlks h)).Nodup
  costFits : ∀ b ∈ costBlks h, CostFits (varBlocks h) b.2
  costPlain : ∀ b ∈ costBlks h, b.2.cp.dd = none ∧ b.2.cp.rh = none ∧ b.2.cp.kk = none ∧ b.2.cp.mm = none

end Verif.Opf
