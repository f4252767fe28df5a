import Verif.Opf.DcModel
import Verif.OpfNl.Model

/-!
# Model of the AC optimal power flow: `opf_setup` (AC branch) and `pipsopf_solver`

Case and conventions as in `DcModel.lean`.  The cost data (`AcData`: generator cost table, piecewise linear cost variables, user costs) is arbitrary; its
`baseMVA`, number of generators and block positions are those of the model.  Everything `opf_setup` adds after the nonlinear constraints (capability,
constant power factor and angle constraints, piecewise linear cost variables, user variables and constraints, callbacks) is an arbitrary list of
further calls.
-/

open Matrix ComplexConjugate

namespace Verif.Opf

open Verif.OpfModel Verif.Pips Verif.Network Verif.OpfNl Verif.OpfCost

noncomputable section

variable {nb ng nl : ℕ}

/-- The variables and nonlinear constraints of the AC formulation (opf_setup.py:123-132, 170-173, 221-228).  The initial values of the magnitudes, which the
solver ignores (pipsopf_solver.py:105), are simplified to column `VM` (the code uses the generators' `VG` where there is one). -/
def acOps (d : Case nb ng nl) : List Op :=
  [ .addVars "Va" nb (some (vec d.vaRad)) (some d.val) (some d.vau),
    .addVars "Vm" nb (some (vec d.vm)) (some (vec d.vmin)) (some (vec d.vmax)),
    .addVars "Pg" ng (some (vec fun g => (d.gen g).PG / d.base)) (some (vec fun g => d.pmin g / d.base)) (some (vec fun g => d.pmax g / d.base)),
    .addVars "Qg" ng (some (vec fun g => (d.gen g).QG / d.base)) (some (vec fun g => d.qmin g / d.base)) (some (vec fun g => d.qmax g / d.base)),
    .addNln "Pmis" nb, .addNln "Qmis" nb, .addNln "Sf" nl, .addNln "St" nl ]

/-- The data the callbacks read: tables, admittance matrices restricted to the limited branches, block positions (pipsopf_solver.py:107-108, 126-133). -/
def nlOf (d : Case nb ng nl) (lim : Int) (c : AcData) (iVa iVm iPg iQg : ℕ) : Nl nb ng d.il.length where
  bus := d.bus
  gen := d.gen
  f := fun k => (d.branch (d.il.get k)).f
  t := fun k => (d.branch (d.il.get k)).t
  rateA := fun k => d.rateA (d.il.get k)
  Y := Ybus d.base d.bus d.branch
  Yf := Matrix.of fun k b => Network.Yf d.branch (d.il.get k) b
  Yt := Matrix.of fun k b => Network.Yt d.branch (d.il.get k) b
  lim := lim
  iVa := iVa
  iVm := iVm
  cost := { c with base := d.base, ng := ng, iPg := iPg, iQg := iQg }

/-- No callback raises.  Whether one does depends only on the shapes of the tables (number of cost rows, kind of `baseMVA`, no limited branch), not on the
point; the model asks for all points. -/
def Evaluable (D : Nl nb ng nl) : Prop :=
  (∀ x, (D.cost.f x).isSome ∧ (D.cost.df x).isSome) ∧ ∀ x lamP lamQ muF muT cm, (D.hess x lamP lamQ muF muT cm).isSome

/-- `f_fcn`, `gh_fcn`, `hess_fcn` (pipsopf_solver.py:131-133).  The Jacobians are transposed (opf_consfcn.py:147, 178).  The rows of `h` of limited branches are
real numbers. -/
def callbacks (D : Nl nb ng nl) (n : ℕ) : Callbacks n (Fin nb ⊕ Fin nb) (Fin nl ⊕ Fin nl) where
  f := fun x => (D.cost.f (pad x)).getD 0
  df := fun x j => (D.cost.df (pad x)).getD 0 j
  g := fun x => D.g (pad x)
  dg := fun x => Matrix.of fun j e => D.dg (pad x) e j
  h := fun x i => (D.h (pad x) i).toReal
  dh := fun x => Matrix.of fun j i => D.dh (pad x) i j
  hess := fun x lam mu cm => Matrix.of fun j k =>
    (D.hess (pad x) (fun b => lam (.inl b)) (fun b => lam (.inr b)) (fun l => mu (.inl l)) (fun l => mu (.inr l)) cm).getD 0 j k

/-- `r_[a, b]` as a function of the position. -/
def flat {n : ℕ} (v : Fin n ⊕ Fin n → ℝ) (k : ℕ) : ℝ := if k < n then pad (fun i => v (.inl i)) k else pad (fun i => v (.inr i)) (k - n)

/-- The results written by `pipsopf_solver` (pipsopf_solver.py:141-204); `tol`, `dual` as in `DcRes`; `muVarL`, `muVarU` are
`results["mu"]["var"]`, `mu_l`, `mu_u` are `results["mu"]["lin"]`, `muNlnL`, `muNlnU` are `results["mu"]["nln"]` (pipsopf_solver.py:190-204). -/
structure AcRes (nb ng nl : ℕ) where
  success : Bool
  f : ℝ
  VA : Fin nb → ℝ
  VM : Fin nb → ℝ
  PG : Fin ng → ℝ
  QG : Fin ng → ℝ
  VG : Fin ng → ℝ
  PF : Fin nl → ℝ
  QF : Fin nl → ℝ
  PT : Fin nl → ℝ
  QT : Fin nl → ℝ
  LAM_P : Fin nb → ℝ
  LAM_Q : Fin nb → ℝ
  MU_VMIN : Fin nb → ℝ
  MU_VMAX : Fin nb → ℝ
  MU_PMIN : Fin ng → ℝ
  MU_PMAX : Fin ng → ℝ
  MU_QMIN : Fin ng → ℝ
  MU_QMAX : Fin ng → ℝ
  MU_SF : Fin nl → ℝ
  MU_ST : Fin nl → ℝ
  x : ℕ → ℝ
  muVarL : ℕ → ℝ
  muVarU : ℕ → ℝ
  mu_l : ℕ → ℝ
  mu_u : ℕ → ℝ
  muNlnL : ℕ → ℝ
  muNlnU : ℕ → ℝ
  tol : ℝ
  dual : ℝ

open Classical in
/-- `pipsopf_solver(om, ppopt)` (pipsopf_solver.py:92-204) for any starting point `x0`; `none` if a callback raises or a block is missing. -/
def pipsopfSolver (d : Case nb ng nl) (lim : Int) (c : AcData) (m : Model) (o : Opt) (solve : AnySolver) (x0 : Fin m.var.total → ℝ) :
    Option (AcRes nb ng nl) := do
  let q ← linearOf m
  let iVa ← m.var.i1 "Va"
  let iVm ← m.var.i1 "Vm"
  let iPg ← m.var.i1 "Pg"
  let iQg ← m.var.i1 "Qg"
  let jP ← m.nln.i1 "Pmis"
  let jQ ← m.nln.i1 "Qmis"
  let D := nlOf d lim c iVa iVm iPg iQg
  if ¬ Evaluable D then none else
  let r ← pipsFull (callbacks D m.var.total) q o (solve _ _) x0
  let Va : Fin nb → ℝ := fun b => pad r.x (iVa + b)
  let Vm : Fin nb → ℝ := fun b => pad r.x (iVm + b)
  let V : Fin nb → ℂ := fun b => (Vm b : ℂ) * Complex.exp (Complex.I * (Va b : ℂ))
  let Sf : Fin nl → ℂ := fun l => V (d.branch l).f * conj ((Network.Yf d.branch *ᵥ V) l)
  let St : Fin nl → ℂ := fun l => V (d.branch l).t * conj ((Network.Yt d.branch *ᵥ V) l)
  let muSf : Fin nl → ℝ := fun l => if l ∈ d.il then 2 * flat r.ineqnonlin (d.il.idxOf l) * d.rateA l / d.base else 0
  let muSt : Fin nl → ℝ := fun l => if l ∈ d.il then 2 * flat r.ineqnonlin (d.il.length + d.il.idxOf l) * d.rateA l / d.base else 0
  some {
    success := r.eflag
    f := r.f
    VA := fun b => Va b * 180 / Real.pi
    VM := Vm
    PG := fun g => pad r.x (iPg + g) * d.base
    QG := fun g => pad r.x (iQg + g) * d.base
    VG := fun g => Vm (d.gen g).bus
    PF := fun l => (Sf l).re * d.base
    QF := fun l => (Sf l).im * d.base
    PT := fun l => (St l).re * d.base
    QT := fun l => (St l).im * d.base
    MU_VMAX := fun b => r.upper (iVm + b)
    MU_VMIN := fun b => r.lower (iVm + b)
    MU_PMAX := fun g => r.upper (iPg + g) / d.base
    MU_PMIN := fun g => r.lower (iPg + g) / d.base
    MU_QMAX := fun g => r.upper (iQg + g) / d.base
    MU_QMIN := fun g => r.lower (iQg + g) / d.base
    LAM_P := fun b => flat r.eqnonlin (jP + b) / d.base
    LAM_Q := fun b => flat r.eqnonlin (jQ + b) / d.base
    MU_SF := fun l => muSf l / d.base
    MU_ST := fun l => muSt l / d.base
    x := pad r.x
    muVarL := r.lower
    muVarU := r.upper
    mu_l := r.mu_l
    mu_u := r.mu_u
    muNlnL := fun k => if flat r.eqnonlin k < 0 then -flat r.eqnonlin k else 0
    muNlnU := fun k => if flat r.eqnonlin k > 0 then flat r.eqnonlin k else
      if k < 2 * nb then 0 else if k < 2 * nb + nl then pad muSf (k - 2 * nb) else pad muSt (k - 2 * nb - nl)
    tol := r.tol o
    dual := r.dual }

end

end Verif.Opf
