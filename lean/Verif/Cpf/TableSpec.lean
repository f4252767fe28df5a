import Verif.Runpf.TableSpec

/-!
# Specification vocabulary for the returned tables of `runcpf`
-/

open ComplexConjugate

namespace Verif.Cpf

open Verif.Opf (Tables BusD GenD BrD acBalanceP acBalanceQ asBranch rowPhasor)
open Verif.Index (BusRow GenRow BranchRow GenInService BranchInService)
open Verif.Runpf (HasGenOn IsControlled IsSlack genOnAt)

/-- What identifies a bus and its shunt, a generator, a branch and its parameters. -/
def netBus (b : BusRow BusD) : ℕ × ℤ × ℝ × ℝ := (b.num, b.typ, b.data.GS, b.data.BS)
def netGen (g : GenRow GenD) : ℕ × ℤ := (g.bus, g.status)
def netBr (l : BranchRow BrD) : ℕ × ℕ × ℤ × ℝ × ℝ × ℝ × ℝ × ℝ := (l.f, l.t, l.status, l.data.r, l.data.x, l.data.b, l.data.tap, l.data.shift)

/-- Base and target case have the same network and the same equipment in service; demand, outputs, set points, limits, voltages and flows may differ. -/
structure SameNet (cb ct : Index.Case Tables) : Prop where
  bus : ct.bus.map netBus = cb.bus.map netBus
  gen : ct.gen.map netGen = cb.gen.map netGen
  branch : ct.branch.map netBr = cb.branch.map netBr

/-- The value at `lam` on the straight line from `a` (at 0) to `b` (at 1). -/
def between (lam a b : ℝ) : ℝ := a + lam * (b - a)

/-- A row of the bus table at the loading `lam`: demand between base (`b`) and target (`t`), initial voltage of the base case; isolated buses as in the target. -/
noncomputable def busAt (lam : ℝ) (b t : BusRow BusD) : BusRow BusD :=
  if t.typ = 4 then t
  else { t with data := { t.data with PD := between lam b.data.PD t.data.PD, QD := between lam b.data.QD t.data.QD, VM := b.data.VM, VA := b.data.VA } }

/-- A row of the generator table at the loading `lam`: output between base and target, set point of the base case, reactive limits of the target; rows out of
service as in the target. -/
noncomputable def genAt (lam : ℝ) (ct : Index.Case Tables) (g t : GenRow GenD) : GenRow GenD :=
  @ite _ (Index.GenInService ct t) (Classical.dec _)
    { t with data := { t.data with PG := between lam g.data.PG t.data.PG, QG := between lam g.data.QG t.data.QG, VG := g.data.VG } } t

/-- The power flow problem at the loading `lam`. -/
noncomputable def atLoading (lam : ℝ) (cb ct : Index.Case Tables) : Index.Case Tables where
  bus := List.zipWith (busAt lam) cb.bus ct.bus
  gen := List.zipWith (genAt lam ct) cb.gen ct.gen
  branch := ct.branch
  areas := none
  gencost := none
  A := none
  N := none
  order := none

/-- What a continuation power flow must not change in the target tables. -/
def cpfBusInput (b : BusRow BusD) : BusRow BusD := { b with data := { b.data with PD := 0, QD := 0, VM := 0, VA := 0 } }

/-- The tables `R` are a power flow solution, within `tol` per unit, of the case at the loading `lam` on the way from `cb` to `ct`, with the voltage set points of
`cb` and the reactive limits of `ct` (`EPS`: machine epsilon). -/
structure FlowAt (tol EPS base lam : ℝ) (cb ct R : Index.Case Tables) : Prop where
  /-- Demand at connected buses is in between. -/
  demand : ∀ (i : ℕ) b0 t0 b, cb.bus[i]? = some b0 → ct.bus[i]? = some t0 → R.bus[i]? = some b → t0.typ ≠ 4 →
    b.data.PD = between lam b0.data.PD t0.data.PD ∧ b.data.QD = between lam b0.data.QD t0.data.QD
  /-- Active outputs of generators in service are in between, except for one generator at each slack bus. -/
  dispatch : ∃ slackGen : ℕ → ℕ, ∀ (j : ℕ) g0 t0 g, cb.gen[j]? = some g0 → ct.gen[j]? = some t0 → R.gen[j]? = some g → GenInService ct t0 →
    g.data.PG ≠ between lam g0.data.PG t0.data.PG → ∃ (i : ℕ) (b : BusRow BusD), cb.bus[i]? = some b ∧ IsSlack cb i ∧ b.num = g0.bus ∧ slackGen i = j
  /-- Active power balances: within the tolerance, exactly at slack buses. -/
  active : ∀ (i : ℕ) b, R.bus[i]? = some b → b.typ ≠ 4 → ¬ IsSlack cb i → |acBalanceP R b| < tol * base
  slack : ∀ (i : ℕ) b, R.bus[i]? = some b → b.typ ≠ 4 → IsSlack cb i → acBalanceP R b = 0
  /-- Reactive power balances: within the tolerance at buses without generators, up to the sharing formula with `EPS` at buses with generators. -/
  reactive : ∀ (i : ℕ) b, R.bus[i]? = some b → b.typ ≠ 4 → ¬ HasGenOn cb b.num → |acBalanceQ R b| < tol * base
  reactiveGen : ∀ (i : ℕ) b, R.bus[i]? = some b → HasGenOn cb b.num → 0 ≤ EPS → genOnAt ct b.num GenD.QMIN ≤ genOnAt ct b.num GenD.QMAX →
    |acBalanceQ R b| * (genOnAt ct b.num GenD.QMAX - genOnAt ct b.num GenD.QMIN) ≤
      |Opf.genAt R b.num GenD.QG - acBalanceQ R b - genOnAt ct b.num GenD.QMIN| * EPS
  /-- Controlled buses have the set point of the base case, slack buses also its angle. -/
  voltage : ∀ (i : ℕ) b b0, R.bus[i]? = some b → cb.bus[i]? = some b0 → IsControlled cb i →
    ∃ g ∈ cb.gen, GenInService cb g ∧ g.bus = b.num ∧ b.data.VM = |g.data.VG| ∧
      (IsSlack cb i → 0 < b0.data.VM → 0 ≤ g.data.VG → rowPhasor b = rowPhasor { b0 with data := { b0.data with VM := g.data.VG } })
  /-- Branch flows obey the branch model at the voltages. -/
  flow : ∀ l ∈ R.branch, BranchInService R l → l.status = 1 → (l.data.r : ℂ) + Complex.I * l.data.x ≠ 0 →
    ∀ bf ∈ R.bus, bf.num = l.f → ∀ bt ∈ R.bus, bt.num = l.t →
    ∃ If It : ℂ, Network.PiModel (asBranch l) (rowPhasor bf) (rowPhasor bt) If It ∧
      (l.data.PF : ℂ) + Complex.I * l.data.QF = rowPhasor bf * conj If * base ∧ (l.data.PT : ℂ) + Complex.I * l.data.QT = rowPhasor bt * conj It * base

/-- `R` is the target case with other demands, outputs, voltages and flows; results of equipment out of service are zero, isolated buses untouched. -/
structure TargetWith (ct R : Index.Case Tables) : Prop where
  bus : R.bus.map cpfBusInput = ct.bus.map cpfBusInput
  gen : R.gen.map Runpf.pfGenInput = ct.gen.map Runpf.pfGenInput
  branch : R.branch.map Runpf.pfBranchInput = ct.branch.map Runpf.pfBranchInput
  genOff : ∀ g ∈ R.gen, ¬ GenInService R g → g.data.PG = 0 ∧ g.data.QG = 0
  branchOff : ∀ l ∈ R.branch, ¬ BranchInService R l → l.data.PF = 0 ∧ l.data.QF = 0 ∧ l.data.PT = 0 ∧ l.data.QT = 0
  isolated : ∀ (i : ℕ) t, ct.bus[i]? = some t → t.typ = 4 → R.bus[i]? = some t

/-- A column of voltages, one entry per row of the bus table `R`: NaN at isolated buses. -/
def ColumnOf (R : Index.Case Tables) (col : List (Option ℂ)) : Prop :=
  col.length = R.bus.length ∧ ∀ (i : ℕ) b, R.bus[i]? = some b → (b.typ = 4 → col[i]? = some none) ∧ (b.typ ≠ 4 → col[i]? = some (some (rowPhasor b)))

end Verif.Cpf
