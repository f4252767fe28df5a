import Verif.Opf.EconSpec

/-!
# Specification vocabulary for C128: the same system with other demand and limits
-/

namespace Verif.Opf

open Verif.Index (BusRow GenRow BranchRow GenInService BranchInService)

noncomputable section

/-- Rows of the branches in service. -/
def onBranches (c : Index.Case Tables) : Finset ℕ :=
  @Finset.filter _ (fun i => ∃ l, c.branch[i]? = some l ∧ BranchInService c l) (Classical.decPred _) (Finset.range c.branch.length)

/-- `f` of row `i` of a table. -/
def cell {α : Type} (xs : List α) (f : α → ℝ) (i : ℕ) : ℝ := ((xs[i]?).map f).getD 0

/-- `c2` is the system `c` with other demand (`PD`), output limits (`PMIN`, `PMAX`) and ratings (`rateA`); branches in service with a rating keep one. -/
structure OtherLimits (c c2 : Index.Case Tables) : Prop where
  bus : c2.bus.map (fun b => { b with data := { b.data with PD := 0 } }) = c.bus.map fun b => { b with data := { b.data with PD := 0 } }
  gen : c2.gen.map (fun g => { g with data := { g.data with PMIN := 0, PMAX := 0 } }) = c.gen.map fun g => { g with data := { g.data with PMIN := 0, PMAX := 0 } }
  branch : c2.branch.map (fun l => { l with data := { l.data with rateA := 0 } }) = c.branch.map fun l => { l with data := { l.data with rateA := 0 } }
  rated : ∀ (i : ℕ) l l2, c.branch[i]? = some l → c2.branch[i]? = some l2 → BranchInService c l → l.data.rateA ≠ 0 → l.data.rateA < 10 ^ 10 →
    l2.data.rateA ≠ 0 ∧ l2.data.rateA < 10 ^ 10

/-- The cost of the change from `c` to `c2` at the prices in the returned tables `r`: each MW of demand at the price of its bus, each MW of a limit at its shadow price. -/
def priced (c c2 r : Index.Case Tables) : ℝ :=
  ∑ i ∈ onBuses c, cell r.bus (fun b => b.data.LAM_P) i * (cell c2.bus (fun b => b.data.PD) i - cell c.bus (fun b => b.data.PD) i) +
  ∑ i ∈ onGens c, (cell r.gen (fun g => g.data.MU_PMIN) i * (cell c2.gen (fun g => g.data.PMIN) i - cell c.gen (fun g => g.data.PMIN) i) -
    cell r.gen (fun g => g.data.MU_PMAX) i * (cell c2.gen (fun g => g.data.PMAX) i - cell c.gen (fun g => g.data.PMAX) i)) -
  ∑ i ∈ onBranches c, (cell r.branch (fun l => l.data.MU_SF) i + cell r.branch (fun l => l.data.MU_ST) i) *
    (cell c2.branch (fun l => l.data.rateA) i - cell c.branch (fun l => l.data.rateA) i)

/-- How far the limits are changed, in MW. -/
def changed (c c2 : Index.Case Tables) : ℝ :=
  ∑ i ∈ onGens c, (|cell c2.gen (fun g => g.data.PMIN) i - cell c.gen (fun g => g.data.PMIN) i| + |cell c2.gen (fun g => g.data.PMAX) i - cell c.gen (fun g => g.data.PMAX) i|) +
  2 * ∑ i ∈ onBranches c, |cell c2.branch (fun l => l.data.rateA) i - cell c.branch (fun l => l.data.rateA) i|

end

end Verif.Opf
