import Verif.Opf.EconSpec
import Verif.Iflims.Model

/-! # Specification: interface flow limits in the tables of the caller -/

namespace Verif.Opf

open Verif.Index (BranchInService)
open Verif.Network

noncomputable section

/-- Flow (MW) in row `i` of the branch table of `t`. -/
def pfAt (t : Index.Case Tables) (i : ℕ) : ℝ := match t.branch[i]? with | some l => l.data.PF | none => 0

/-- What a row of the map contributes to the flow of its interface: the flow (MW) of its branch in the tables `t`, with the sign of the row. -/
def ifTerm (t : Index.Case Tables) (r : Iflims.MapRow) : ℝ :=
  match t.branch[r.2.natAbs]? with
  | some l => if r.2 < 0 then -l.data.PF else l.data.PF
  | none => 0

/-- Flow (MW) of interface `id` in the tables `t`. -/
def ifFlow (t : Index.Case Tables) (ifmap : List Iflims.MapRow) (id : ℤ) : ℝ := ((ifmap.filter fun r => decide (r.1 = id)).map (ifTerm t)).sum

/-- Row `i` of the branch table is the first one in service. -/
def FirstInService (c : Index.Case Tables) (i : ℕ) : Prop :=
  (∃ l, c.branch[i]? = some l ∧ BranchInService c l) ∧ ∀ (j : ℕ) l, j < i → c.branch[j]? = some l → ¬ BranchInService c l

open Classical in
/-- The map without the rows that refer to the first branch in service. -/
def counted (c : Index.Case Tables) (ifmap : List Iflims.MapRow) : List Iflims.MapRow := ifmap.filter fun r => decide (¬ FirstInService c r.2.natAbs)

open Classical in
/-- What a row of the map contributes (per unit) when all angles are zero: the effect of the phase shifters in service. -/
def shiftTerm (c : Index.Case Tables) (r : Iflims.MapRow) : ℝ :=
  match c.branch[r.2.natAbs]? with
  | some l => if BranchInService c l then (if r.2 < 0 then -dcFlow (asBranch l) (fun _ => 0) else dcFlow (asBranch l) fun _ => 0) else 0
  | none => 0

/-- Flow (per unit) of interface `id` at zero angles. -/
def ifShift (c : Index.Case Tables) (ifmap : List Iflims.MapRow) (id : ℤ) : ℝ := ((ifmap.filter fun r => decide (r.1 = id)).map (shiftTerm c)).sum

/-- The rows of the map refer to rows of the branch table. -/
def MapRows (c : Index.Case Tables) (ifmap : List Iflims.MapRow) : Prop := ∀ r ∈ ifmap, r.2.natAbs < c.branch.length

/-- Limits as documented: some, one row per interface, in increasing order, lower limits not above upper ones, per unit and without the effect of phase shifters
below `1e10` (the value that counts as no limit). -/
structure IfInputs (base : ℝ) (c : Index.Case Tables) (ifmap : List Iflims.MapRow) (lims : List Iflims.LimRow) : Prop where
  rows : MapRows c ifmap
  some_ : lims ≠ []
  sorted : (lims.map Prod.fst).Pairwise (· < ·)
  order : ∀ l ∈ lims, l.2.1 ≤ l.2.2
  low : ∀ l ∈ lims, |l.2.1 / base - ifShift c (counted c ifmap) l.1| < 10 ^ 10
  upp : ∀ l ∈ lims, |l.2.2 / base - ifShift c (counted c ifmap) l.1| < 10 ^ 10

/-- Every listed interface is within its limits in the tables `t`. -/
def IfFeasible (ifmap : List Iflims.MapRow) (lims : List Iflims.LimRow) (t : Index.Case Tables) : Prop :=
  ∀ l ∈ lims, l.2.1 ≤ ifFlow t ifmap l.1 ∧ ifFlow t ifmap l.1 ≤ l.2.2

end

end Verif.Opf
