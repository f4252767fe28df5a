import Verif.Opf.EconSpec
import Verif.Opf.ResModel
import Verif.Reserves.Props

/-!
# Specification vocabulary for the DC optimal power flow with zonal reserves

Everything is read off the tables of the caller: row `i` of a vector of `results['reserves']` and column `i` of the zones belong to row `i` of the generator table.
-/

namespace Verif.Opf

open Verif.Reserves (Provides providers zoneReserves)

noncomputable section

/-- Rows of the generators in service that belong to some zone. -/
def resGens (c : Index.Case Tables) (r : Reserves.Res) : Finset ℕ := @Finset.filter _ (Provides r) (Classical.decPred _) (onGens c)

/-- The entry for row `i` of a vector that is given with one entry per generator, or with one entry per generator that belongs to some zone (in service or not). -/
def resDatum (ng : ℕ) (r : Reserves.Res) (v : List ℝ) (i : ℕ) : ℝ := if v.length < ng then v.getD ((providers ng r).idxOf i) 0 else v.getD i 0

/-- Cost of the reserves `R` (MW). -/
def reserveCost (c : Index.Case Tables) (r : Reserves.Res) (R : ℕ → ℝ) : ℝ := ∑ i ∈ resGens c r, resDatum c.gen.length r r.cost i * R i

/-- `x` MW are within the limits of the reserve in row `i`: RAMP_10 if it is not zero, and the quantity if quantities are given. -/
def ReserveLimits (ramp10 : List ℝ → ℝ) (c : Index.Case Tables) (r : Reserves.Res) (i : ℕ) (x : ℝ) : Prop :=
  (∀ g, c.gen[i]? = some g → ramp10 g.data.rest ≠ 0 → x ≤ ramp10 g.data.rest) ∧ ∀ q, r.qty = some q → x ≤ resDatum c.gen.length r q i

/-- Reserves `R` (MW) that can be held beside the outputs in the tables `t`. -/
structure ResFeasible (ramp10 : List ℝ → ℝ) (c : Index.Case Tables) (r : Reserves.Res) (t : Index.Case Tables) (R : ℕ → ℝ) : Prop where
  off : ∀ i, i ∉ resGens c r → R i = 0
  nonneg : ∀ i ∈ resGens c r, 0 ≤ R i
  limits : ∀ i ∈ resGens c r, ReserveLimits ramp10 c r i (R i)
  capacity : ∀ i ∈ resGens c r, ∀ g, c.gen[i]? = some g → pgAt t i + R i ≤ g.data.PMAX
  required : ∀ (z : ℕ) row q, r.zones[z]? = some row → r.req[z]? = some q → q ≤ zoneReserves c.gen.length row R

/-- Reserve data a run can start from: the documented shapes, some generator in service provides reserves, quantities and ramp rates are not negative. -/
structure ResInputs (ramp10 : List ℝ → ℝ) (c : Index.Case Tables) (r : Reserves.Res) : Prop where
  shape : Reserves.Valid c.gen.length r
  provider : (resGens c r).Nonempty
  qty : ∀ q, r.qty = some q → ∀ i ∈ resGens c r, 0 ≤ resDatum c.gen.length r q i
  ramp : ∀ i ∈ resGens c r, ∀ g, c.gen[i]? = some g → 0 ≤ ramp10 g.data.rest

end

end Verif.Opf
