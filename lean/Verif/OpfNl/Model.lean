import Mathlib.Data.EReal.Basic
import Mathlib.Data.EReal.Operations
import Verif.Derivs.Model
import Verif.Network.Model
import Verif.OpfCost.AcModel

/-!
# Models of the nonlinear constraints of the AC OPF and of the Hessian of the Lagrangian

`pypower/opf_consfcn.py`, `pypower/opf_hessfcn.py`.  `nb` buses, `ng` generators, `nl` *constrained* branches (`branch[il, :]`, with `Yf`, `Yt`
already restricted to those rows, as `pipsopf_solver.py:126-133` does).  The vector `x` is a function `Nat → ℝ` of which the first `nx` values
are used.  Bus references are elements of `Fin nb`, i.e. they exist.  The model assumes at least one bus.
-/

open Matrix ComplexConjugate

namespace Verif.OpfNl

open Verif.Derivs Verif.Network Verif.OpfCost Verif.Cost Verif.NumPy

noncomputable section

/-- The data read by `opf_consfcn` and `opf_hessfcn` (opf_consfcn.py:59-74, opf_hessfcn.py:62-79): tables, admittance matrices, the option
`OPF_FLOW_LIM`, the first positions of the blocks `Va`, `Vm`; `cost` holds `baseMVA`, `gencost`, user costs, and the first positions of the blocks
`Pg`, `Qg` (see `OpfCost.AcData`). -/
structure Nl (nb ng nl : Nat) where
  bus : Fin nb → Bus
  gen : Fin ng → Gen (Fin nb)
  f : Fin nl → Fin nb
  t : Fin nl → Fin nb
  rateA : Fin nl → ℝ
  Y : Matrix (Fin nb) (Fin nb) ℂ
  Yf : Matrix (Fin nl) (Fin nb) ℂ
  Yt : Matrix (Fin nl) (Fin nb) ℂ
  lim : Int
  iVa : Nat
  iVm : Nat
  cost : AcData

variable {nb ng nl : Nat}

/-- `V = Vm * exp(1j * Va)` (opf_consfcn.py:89-91, opf_hessfcn.py:91-93). -/
def Nl.V (d : Nl nb ng nl) (x : Nat → ℝ) (b : Fin nb) : ℂ := (x (d.iVm + b) : ℂ) * Complex.exp (Complex.I * (x (d.iVa + b) : ℂ))

/-- The generator table with `Pg`, `Qg` put back (opf_consfcn.py:76-82). -/
def Nl.genAt (d : Nl nb ng nl) (x : Nat → ℝ) (g : Fin ng) : Gen (Fin nb) :=
  { d.gen g with PG := x (d.cost.iPg + g) * d.cost.base, QG := x (d.cost.iQg + g) * d.cost.base }

/-- `mis = V * conj(Ybus * V) - Sbus` (opf_consfcn.py:85, 94). -/
def Nl.mis (d : Nl nb ng nl) (x : Nat → ℝ) (b : Fin nb) : ℂ :=
  d.V x b * conj ((d.Y *ᵥ d.V x) b) - makeSbus d.cost.base d.bus (d.genAt x) b

/-- `g = r_[mis.real, mis.imag]` (opf_consfcn.py:98-99). -/
def Nl.g (d : Nl nb ng nl) (x : Nat → ℝ) : Fin nb ⊕ Fin nb → ℝ := Sum.elim (fun b => (d.mis x b).re) (fun b => (d.mis x b).im)

/-- `flow_max` (opf_consfcn.py:103-104). -/
def Nl.flowMax (d : Nl nb ng nl) (l : Fin nl) : EReal :=
  if (d.rateA l / d.cost.base) ^ 2 = 0 then ⊤ else (((d.rateA l / d.cost.base) ^ 2 : ℝ) : EReal)

/-- The squared flow at one end (opf_consfcn.py:105-122): current for `OPF_FLOW_LIM == 2`, active power for 1, else apparent power. -/
def sqFlow (lim : Int) (f : Fin nl → Fin nb) (Y : Matrix (Fin nl) (Fin nb) ℂ) (V : Fin nb → ℂ) (l : Fin nl) : ℝ :=
  if lim = 2 then ((Y *ᵥ V) l * conj ((Y *ᵥ V) l)).re
  else if lim = 1 then (V (f l) * conj ((Y *ᵥ V) l)).re ^ 2
  else ((V (f l) * conj ((Y *ᵥ V) l)) * conj (V (f l) * conj ((Y *ᵥ V) l))).re

/-- `h`: from ends, then to ends (opf_consfcn.py:102-124); without constrained lines it is empty. -/
def Nl.h (d : Nl nb ng nl) (x : Nat → ℝ) : Fin nl ⊕ Fin nl → EReal :=
  Sum.elim (fun l => (sqFlow d.lim d.f d.Yf (d.V x) l : EReal) - d.flowMax l) (fun l => (sqFlow d.lim d.t d.Yt (d.V x) l : EReal) - d.flowMax l)

/-- A row assigned at the columns `r_[iVa, iVm, iPg, iQg]` of a zero row (opf_consfcn.py:127-132, 139-146); should blocks overlap, the last assignment
wins. -/
def Nl.place (d : Nl nb ng nl) (a m : Fin nb → ℝ) (p q : Fin ng → ℝ) (j : Nat) : ℝ :=
  if h : d.cost.iQg ≤ j ∧ j < d.cost.iQg + ng then q ⟨j - d.cost.iQg, by omega⟩
  else if h : d.cost.iPg ≤ j ∧ j < d.cost.iPg + ng then p ⟨j - d.cost.iPg, by omega⟩
  else if h : d.iVm ≤ j ∧ j < d.iVm + nb then m ⟨j - d.iVm, by omega⟩
  else if h : d.iVa ≤ j ∧ j < d.iVa + nb then a ⟨j - d.iVa, by omega⟩
  else 0

/-- `neg_Cg` (opf_consfcn.py:136): all generators, in service or not. -/
def Nl.negCg (d : Nl nb ng nl) : Matrix (Fin nb) (Fin ng) ℝ := coo (fun g => (d.gen g).bus) id (fun _ => -1)

/-- `dg`, untransposed: row of constraint, column of variable (opf_consfcn.py:134-147). -/
def Nl.dg (d : Nl nb ng nl) (x : Nat → ℝ) : Fin nb ⊕ Fin nb → Nat → ℝ :=
  Sum.elim
    (fun i => d.place (fun b => (dSbus_dVa d.Y (d.V x) i b).re) (fun b => (dSbus_dVm d.Y (d.V x) i b).re) (d.negCg i) 0)
    (fun i => d.place (fun b => (dSbus_dVa d.Y (d.V x) i b).im) (fun b => (dSbus_dVm d.Y (d.V x) i b).im) 0 (d.negCg i))

/-- Flow at one end and its sensitivities, as used for the Jacobian and the Hessian (opf_consfcn.py:149-164, opf_hessfcn.py:167-182). -/
def flow (lim : Int) (f : Fin nl → Fin nb) (Y : Matrix (Fin nl) (Fin nb) ℂ) (V : Fin nb → ℂ) : Fin nl → ℂ :=
  if lim = 2 then Ibr Y V else if lim = 1 then fun l => ((Sbr f Y V l).re : ℂ) else Sbr f Y V
def flowVa (lim : Int) (f : Fin nl → Fin nb) (Y : Matrix (Fin nl) (Fin nb) ℂ) (V : Fin nb → ℂ) : Matrix (Fin nl) (Fin nb) ℂ :=
  if lim = 2 then dIbr_dVa Y V else if lim = 1 then (dSbr_dVa f Y V).map fun z => (z.re : ℂ) else dSbr_dVa f Y V
def flowVm (lim : Int) (f : Fin nl → Fin nb) (Y : Matrix (Fin nl) (Fin nb) ℂ) (V : Fin nb → ℂ) : Matrix (Fin nl) (Fin nb) ℂ :=
  if lim = 2 then dIbr_dVm Y V else if lim = 1 then (dSbr_dVm f Y V).map fun z => (z.re : ℂ) else dSbr_dVm f Y V

/-- A row assigned at the columns `r_[iVa, iVm]` of a zero row (opf_consfcn.py:170-176). -/
def Nl.placeV (d : Nl nb ng nl) (a m : Fin nb → ℝ) (j : Nat) : ℝ :=
  if h : d.iVm ≤ j ∧ j < d.iVm + nb then m ⟨j - d.iVm, by omega⟩
  else if h : d.iVa ≤ j ∧ j < d.iVa + nb then a ⟨j - d.iVa, by omega⟩
  else 0

/-- `dh`, untransposed (opf_consfcn.py:149-178); without constrained lines the code returns `None`, here there are no rows. -/
def Nl.dh (d : Nl nb ng nl) (x : Nat → ℝ) : Fin nl ⊕ Fin nl → Nat → ℝ :=
  Sum.elim
    (fun l => d.placeV (dAbr (flowVa d.lim d.f d.Yf (d.V x)) (flow d.lim d.f d.Yf (d.V x)) l) (dAbr (flowVm d.lim d.f d.Yf (d.V x)) (flow d.lim d.f d.Yf (d.V x)) l))
    (fun l => d.placeV (dAbr (flowVa d.lim d.t d.Yt (d.V x)) (flow d.lim d.t d.Yt (d.V x)) l) (dAbr (flowVm d.lim d.t d.Yt (d.V x)) (flow d.lim d.t d.Yt (d.V x)) l))

/-! ## Hessian -/

/-- Second derivatives of the active power costs (opf_hessfcn.py:94, 101-105): one value per generator.  As in `opf_costfcn`, `baseMVA**2 * []` raises
for a Python float. -/
def d2fPg (c : AcData) (x : Nat → ℝ) : Option (List ℝ) := do
  let pcost ← gather c.gencost (List.range c.ng)
  let ipolp := find (pcost.map fun r => r.model == 2)
  let rows ← gather pcost ipolp
  let p ← gather ((List.range c.ng).map fun i => x (c.iPg + i)) ipolp
  let v ← polycost rows (p.map (· * c.base)) 2
  if ipolp = [] ∧ c.kind = .pyFloat then none else
  scatter (List.replicate c.ng 0) ipolp (v.map (c.base ^ 2 * ·))

/-- opf_hessfcn.py:95-98, 106-109.  `any` is the Python built-in (the module imports no other): iterating over the two-dimensional `qcost` it takes the truth
value of the first row, an array of several elements, which raises.  So this succeeds only when there are no reactive cost rows, and contributes
nothing.  (With `ng = 0` a longer cost table gives an empty `qcost`, which is fine.) -/
def d2fQg (c : AcData) : Option Unit := if c.ng < c.gencost.length then (if c.ng = 0 then some () else none) else some ()

/-- Diagonal entry of `AA`-type factors: `M (LL + 2 QQ diagrr)` (opf_hessfcn.py:131-137). -/
def dw (P : OpfModel.Params) (x : Nat → ℝ) (i : Nat) : ℝ :=
  P.M x i * ((if P.dd i = 1 then 1 else 0) + 2 * (if P.dd i = 2 then 1 else 0) * P.rr x i)

/-- `AA * H * AA.T + 2 * N.T * M * QQ * diag(HwC) * N` (opf_hessfcn.py:117-140). -/
def d2user (P : OpfModel.Params) (x : Nat → ℝ) (j k : Nat) : ℝ :=
  ∑ i ∈ Finset.range P.nw, ∑ b ∈ Finset.range P.nw, P.N i j * dw P x i * P.H i b * (dw P x b * P.N b k) +
  2 * ∑ i ∈ Finset.range P.nw, P.N i j * P.M x i * (if P.dd i = 2 then 1 else 0) * HwC P x i * P.N i k

/-- `d2f` before multiplication by `cost_mult` (opf_hessfcn.py:100-140). -/
def d2f (c : AcData) (x : Nat → ℝ) : Option (Nat → Nat → ℝ) := do
  let p ← d2fPg c x
  let _ ← d2fQg c
  some fun j k => (if j = k ∧ c.iPg ≤ j ∧ j < c.iPg + c.ng then p.getD (j - c.iPg) 0 else 0) + (if c.user then d2user c.P x j k else 0)

/-- `vstack([hstack([aa, av, 0]), hstack([va, vv, 0]), 0])` (opf_hessfcn.py:150-161, 191-203): the blocks occupy the first `2 nb` rows and columns. -/
def blocks (aa av va vv : Matrix (Fin nb) (Fin nb) ℝ) (j k : Nat) : ℝ :=
  if hj : j < nb then
    if hk : k < nb then aa ⟨j, hj⟩ ⟨k, hk⟩ else if hk : nb ≤ k ∧ k < 2 * nb then av ⟨j, hj⟩ ⟨k - nb, by omega⟩ else 0
  else if hj : nb ≤ j ∧ j < 2 * nb then
    if hk : k < nb then va ⟨j - nb, by omega⟩ ⟨k, hk⟩ else if hk : nb ≤ k ∧ k < 2 * nb then vv ⟨j - nb, by omega⟩ ⟨k - nb, by omega⟩ else 0
  else 0

/-- `d2G` (opf_hessfcn.py:144-161). -/
def Nl.d2G (d : Nl nb ng nl) (x : Nat → ℝ) (lamP lamQ : Fin nb → ℝ) : Nat → Nat → ℝ :=
  let P : Fin nb → ℂ := fun b => lamP b
  let Q : Fin nb → ℂ := fun b => lamQ b
  let c (A B : Matrix (Fin nb) (Fin nb) ℂ) : Matrix (Fin nb) (Fin nb) ℝ := A.map Complex.re + B.map Complex.im
  blocks (c (busGaa d.Y (d.V x) P) (busGaa d.Y (d.V x) Q)) (c (busGav d.Y (d.V x) P) (busGav d.Y (d.V x) Q))
    (c (busGva d.Y (d.V x) P) (busGva d.Y (d.V x) Q)) (c (busGvv d.Y (d.V x) P) (busGvv d.Y (d.V x) Q))

/-- Second derivatives of the weighted squared flows at one end (opf_hessfcn.py:164-189). -/
def endH (lim : Int) (f : Fin nl → Fin nb) (Y : Matrix (Fin nl) (Fin nb) ℂ) (V : Fin nb → ℂ) (mu : Fin nl → ℝ) : Nat → Nat → ℝ :=
  let w := conjTimes (flow lim f Y V) mu
  let a := flowVa lim f Y V
  let m := flowVm lim f Y V
  if lim = 2 then
    blocks (sqH (ibHaa Y V w) a a mu) (sqH (ibHav Y V w) a m mu) (sqH (ibHva Y V w) m a mu) (sqH (ibHvv Y V w) m m mu)
  else
    blocks (sqH (brHaa (conn f) Y V w) a a mu) (sqH (brHav (conn f) Y V w) a m mu) (sqH (brHva (conn f) Y V w) m a mu) (sqH (brHvv (conn f) Y V w) m m mu)

/-- `opf_hessfcn(x, lmbda, om, Ybus, Yf, Yt, ppopt, il, cost_mult)` (opf_hessfcn.py:60-236) with `lmbda["eqnonlin"] = r_[lamP, lamQ]` and
`lmbda["ineqnonlin"] = r_[muF, muT]`.  Without constrained lines the sparse diagonal matrices of `dSbr_dV.py:78`, `d2AIbr_dV2.py:35-38` are built from empty index
arrays without a shape, which raises. -/
def Nl.hess (d : Nl nb ng nl) (x : Nat → ℝ) (lamP lamQ : Fin nb → ℝ) (muF muT : Fin nl → ℝ) (costMult : ℝ) : Option (Nat → Nat → ℝ) := do
  let f2 ← d2f d.cost x
  if nl = 0 then none else
  some fun j k => f2 j k * costMult + d.d2G x lamP lamQ j k + (endH d.lim d.f d.Yf (d.V x) muF j k + endH d.lim d.t d.Yt (d.V x) muT j k)

end

end Verif.OpfNl
