import Verif.Opf.RunModel
import Verif.Network.Spec
import Verif.Index.Spec

/-!
# Specification vocabulary for the returned tables of `opf`

Everything is read off the tables in the caller's own numbering.
-/

namespace Verif.Opf

open Verif.Index (BusRow GenRow BranchRow GenInService BranchInService)

noncomputable section

/-- Sum of a column over all generators at bus number `n`; over all branches starting or ending there (in service or not). -/
def genAt (t : Index.Case Tables) (n : ℕ) (f : GenD → ℝ) : ℝ := ((t.gen.filter fun g => g.bus == n).map fun g => f g.data).sum
def fromAt (t : Index.Case Tables) (n : ℕ) (f : BrD → ℝ) : ℝ := ((t.branch.filter fun l => l.f == n).map fun l => f l.data).sum
def toAt (t : Index.Case Tables) (n : ℕ) (f : BrD → ℝ) : ℝ := ((t.branch.filter fun l => l.t == n).map fun l => f l.data).sum

/-- Generation − demand − shunt − flows into branches, in MW (DC model: shunts at 1 p.u.). -/
def dcBalance (t : Index.Case Tables) (b : BusRow BusD) : ℝ :=
  genAt t b.num GenD.PG - b.data.PD - b.data.GS - fromAt t b.num BrD.PF - toAt t b.num BrD.PT

/-- The same for the AC model, active and reactive. -/
def acBalanceP (t : Index.Case Tables) (b : BusRow BusD) : ℝ :=
  genAt t b.num GenD.PG - b.data.PD - b.data.GS * b.data.VM ^ 2 - fromAt t b.num BrD.PF - toAt t b.num BrD.PT
def acBalanceQ (t : Index.Case Tables) (b : BusRow BusD) : ℝ :=
  genAt t b.num GenD.QG - b.data.QD + b.data.BS * b.data.VM ^ 2 - fromAt t b.num BrD.QF - toAt t b.num BrD.QT

/-- A row of the branch table as a branch between bus numbers. -/
def asBranch (l : BranchRow BrD) : Network.Branch ℕ :=
  ⟨l.f, l.t, l.data.r, l.data.x, l.data.b, l.data.tap, l.data.shift, l.status⟩

/-- The columns that the caller provides and an optimal power flow must not change (`dc`: it does not touch voltage magnitudes, set points and reactive outputs of
equipment in service either). -/
def busInput (b : BusRow BusD) : BusRow BusD :=
  { b with data := { b.data with VM := 0, VA := 0, LAM_P := 0, LAM_Q := 0, MU_VMAX := 0, MU_VMIN := 0 } }
def genInput (g : GenRow GenD) : GenRow GenD :=
  { g with data := { g.data with PG := 0, QG := 0, VG := 0, MU_PMAX := 0, MU_PMIN := 0, MU_QMAX := 0, MU_QMIN := 0 } }
def branchInput (l : BranchRow BrD) : BranchRow BrD :=
  { l with data := { l.data with PF := 0, QF := 0, PT := 0, QT := 0, MU_SF := 0, MU_ST := 0, MU_ANGMIN := 0, MU_ANGMAX := 0 } }

/-- Bus voltage phasor of a row. -/
def rowPhasor (b : BusRow BusD) : ℂ := (b.data.VM : ℂ) * Complex.exp (Complex.I * ((b.data.VA * (Real.pi / 180) : ℝ) : ℂ))

/-- Injections of all phase shifters in service taken together, in per unit. -/
def shiftTotal (c : Index.Case Tables) : ℝ :=
  (c.branch.map fun l => if l.status = 1 then |l.data.shift * (Real.pi / 180) / (l.data.x * if l.data.tap = 0 then 1 else l.data.tap)| else 0).sum

/-- Data a DC optimal power flow can start from: angles, demands (with the injections of phase shifters) and output limits (the latter in order) of equipment in service of
magnitude below `1e10` per unit. -/
structure DcInputs (base : ℝ) (c : Index.Case Tables) : Prop where
  pos : 0 < base
  bus : ∀ b ∈ c.bus, b.typ ≠ 4 → |b.data.VA * (Real.pi / 180)| < 10 ^ 10 ∧ |(b.data.PD + b.data.GS) / base| + shiftTotal c < 10 ^ 10
  gen : ∀ g ∈ c.gen, GenInService c g → g.data.PMIN ≤ g.data.PMAX ∧ |g.data.PMIN / base| < 10 ^ 10 ∧ |g.data.PMAX / base| < 10 ^ 10
  branch : ∀ l ∈ c.branch, BranchInService c l → l.status = 1

/-- The same without phase shifters. -/
structure DcPlain (base : ℝ) (c : Index.Case Tables) : Prop where
  pos : 0 < base
  bus : ∀ b ∈ c.bus, b.typ ≠ 4 → |b.data.VA * (Real.pi / 180)| < 10 ^ 10 ∧ |(b.data.PD + b.data.GS) / base| < 10 ^ 10
  gen : ∀ g ∈ c.gen, GenInService c g → g.data.PMIN ≤ g.data.PMAX ∧ |g.data.PMIN / base| < 10 ^ 10 ∧ |g.data.PMAX / base| < 10 ^ 10
  branch : ∀ l ∈ c.branch, BranchInService c l → l.status = 1
  shift : ∀ l ∈ c.branch, l.status = 1 → l.data.shift = 0

/-- Data an AC optimal power flow can start from; at least one branch in service has a flow limit (without one the solver raises, `C81_negation`). -/
structure AcInputs (base : ℝ) (c : Index.Case Tables) : Prop where
  pos : 0 < base
  bus : ∀ b ∈ c.bus, b.typ ≠ 4 → |b.data.VA * (Real.pi / 180)| < 10 ^ 10 ∧ b.data.VMIN ≤ b.data.VMAX ∧ |b.data.VMIN| < 10 ^ 10 ∧ |b.data.VMAX| < 10 ^ 10
  gen : ∀ g ∈ c.gen, GenInService c g → (g.data.PMIN ≤ g.data.PMAX ∧ |g.data.PMIN / base| < 10 ^ 10 ∧ |g.data.PMAX / base| < 10 ^ 10) ∧
    g.data.QMIN ≤ g.data.QMAX ∧ |g.data.QMIN / base| < 10 ^ 10 ∧ |g.data.QMAX / base| < 10 ^ 10
  limited : ∃ l ∈ c.branch, BranchInService c l ∧ l.data.rateA ≠ 0 ∧ l.data.rateA < 10 ^ 10

end

end Verif.Opf
