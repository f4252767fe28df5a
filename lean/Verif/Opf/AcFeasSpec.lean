import Verif.Opf.CurveSpec
import Verif.Opf.EconSpec
import Verif.Opf.AcUserSpec
import Verif.Network.Spec

/-!
# Specification vocabulary: operating points of an AC system within all limits
-/

open ComplexConjugate

namespace Verif.Opf

open Verif.Index (BusRow GenRow BranchRow GenInService BranchInService)
open Verif.Network

noncomputable section

/-- Tables `t` show an operating point of the system `c`: the same inputs; the flows of the standard branch model at its voltages; active and reactive balance at every bus; voltages,
outputs, flows (apparent power, active power or current by `lim`) and angle differences within their limits; outputs within the capability curves; constant power factors at dispatchable
loads (with two nonzero reactive limits, which are documented to be rejected: no reactive power); reference angles as given; nothing from equipment out of service. -/
structure AcFeasible (base : ℝ) (lim : Int) (K : Curves) (c t : Index.Case Tables) : Prop where
  bus : t.bus.map busInput = c.bus.map busInput
  gen : t.gen.map genInput = c.gen.map genInput
  branch : t.branch.map branchInput = c.branch.map branchInput
  flows : ∀ l ∈ t.branch, BranchInService t l → ∀ bf ∈ t.bus, ∀ bt ∈ t.bus, bf.num = l.f → bt.num = l.t →
    ∃ If It : ℂ, PiModel (asBranch l) (rowPhasor bf) (rowPhasor bt) If It ∧
      (⟨l.data.PF, l.data.QF⟩ : ℂ) = rowPhasor bf * conj If * base ∧ (⟨l.data.PT, l.data.QT⟩ : ℂ) = rowPhasor bt * conj It * base
  balance : ∀ b ∈ t.bus, b.typ ≠ 4 → acBalanceP t b = 0 ∧ acBalanceQ t b = 0
  volt : ∀ b ∈ t.bus, b.typ ≠ 4 → b.data.VMIN ≤ b.data.VM ∧ b.data.VM ≤ b.data.VMAX
  limits : ∀ g ∈ t.gen, GenInService t g → (g.data.PMIN ≤ g.data.PG ∧ g.data.PG ≤ g.data.PMAX) ∧ g.data.QMIN ≤ g.data.QG ∧ g.data.QG ≤ g.data.QMAX
  rating : ∀ l ∈ t.branch, BranchInService t l → l.data.rateA ≠ 0 → l.data.rateA < 10 ^ 10 →
    (lim ≠ 1 → lim ≠ 2 → l.data.PF ^ 2 + l.data.QF ^ 2 ≤ l.data.rateA ^ 2 ∧ l.data.PT ^ 2 + l.data.QT ^ 2 ≤ l.data.rateA ^ 2) ∧
    (lim = 1 → l.data.PF ^ 2 ≤ l.data.rateA ^ 2 ∧ l.data.PT ^ 2 ≤ l.data.rateA ^ 2) ∧
    (lim = 2 → ∀ bf ∈ t.bus, ∀ bt ∈ t.bus, bf.num = l.f → bt.num = l.t → (bf.data.VM ≠ 0 ∧ bt.data.VM ≠ 0) ∧
      l.data.PF ^ 2 + l.data.QF ^ 2 ≤ bf.data.VM ^ 2 * l.data.rateA ^ 2 ∧ l.data.PT ^ 2 + l.data.QT ^ 2 ≤ bt.data.VM ^ 2 * l.data.rateA ^ 2)
  ref : ∀ (i : ℕ) b b0, t.bus[i]? = some b → c.bus[i]? = some b0 → b.typ = 3 → b.data.VA = b0.data.VA
  angle : K.ang.ignoreAng = false → ∀ l ∈ t.branch, BranchInService t l → Constr.Limited ⟨l.f, l.t, K.ang.angmin l.data.rest, K.ang.angmax l.data.rest⟩ →
    ∀ θ : ℕ → ℝ, (∀ b ∈ t.bus, θ b.num = b.data.VA * (Real.pi / 180)) → Constr.AngleOk ⟨l.f, l.t, K.ang.angmin l.data.rest, K.ang.angmax l.data.rest⟩ θ
  curve : ∀ g ∈ t.gen, GenInService t g → (CutsUpper (K.row g.data) → Constr.BelowUpper (K.row g.data) g.data.PG g.data.QG) ∧
    (CutsLower (K.row g.data) → Constr.AboveLower (K.row g.data) g.data.PG g.data.QG)
  factor : ∀ g ∈ t.gen, GenInService t g → Constr.VarLoad (K.row g.data) →
    (∀ q, q ≠ 0 → Constr.PfLimit (K.row g.data) q → g.data.PG * q = g.data.QG * g.data.PMIN) ∧ (g.data.QMIN ≠ 0 → g.data.QMAX ≠ 0 → g.data.QG = 0)
  genOff : ∀ g ∈ t.gen, ¬ GenInService t g → g.data.PG = 0 ∧ g.data.QG = 0
  brOff : ∀ l ∈ t.branch, ¬ BranchInService t l → l.data.PF = 0 ∧ l.data.QF = 0 ∧ l.data.PT = 0 ∧ l.data.QT = 0

/-- The user constraints and bounds hold at the operating point `t` with user variables `z`, with the columns in the order `bs`, `gs`. -/
structure AcUserFeasible (base : ℝ) (c : Index.Case Tables) (U : UserIn) (bs gs : List ℕ) (t : Index.Case Tables) (z : List ℝ) : Prop where
  size : z.length = nUserAc bs.length gs.length (colsOf c.A)
  rows : ∀ i < rowsOf (colsOf c.A), lowAt U.l i ≤ (acRowValue base t bs gs z (colsOf c.A) i : EReal) ∧ (acRowValue base t bs gs z (colsOf c.A) i : EReal) ≤ uppAt U.u i
  vars : ∀ k < z.length, lowAt U.zl k ≤ (z.getD k 0 : EReal) ∧ (z.getD k 0 : EReal) ≤ uppAt U.zu k

/-- Data the AC model can represent: branches in service have status 1 and an impedance, curves run from left to right. -/
structure AcModel (K : Curves) (c : Index.Case Tables) : Prop where
  branch : ∀ l ∈ c.branch, BranchInService c l → l.status = 1 ∧ (l.data.r : ℂ) + Complex.I * l.data.x ≠ 0
  curve : ∀ g ∈ c.gen, GenInService c g → K.pc1 g.data.rest ≤ K.pc2 g.data.rest

end

end Verif.Opf
