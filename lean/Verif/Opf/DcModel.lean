import Verif.Opf.Solve
import Verif.Network.Model

/-!
# Model of the DC optimal power flow: `opf_setup` (DC branch), `dcopf_solver`, `qps_pips`

The case is in internal numbering (see `Verif/Index`): buses `Fin nb`, in-service generators `Fin ng`, in-service branches `Fin nl`.
Everything `opf_setup` adds after the flow limits (angle limits, piecewise linear cost variables, user variables and constraints, callbacks) is an arbitrary
list `extra` of further calls.  Limits are real numbers (infinite entries in the tables are not modelled).  The objective is any quadratic
`½ x'Hx + C'x + C0`; the one built from the cost tables is in `Verif/OpfCost/DcModel.lean`.
-/

open Matrix

namespace Verif.Opf

open Verif.OpfModel Verif.Pips Verif.Network

noncomputable section

/-- The tables, with the columns used by the optimal power flow (idx_bus.py, idx_gen.py, idx_brch.py); `isRef` is `BUS_TYPE == REF`. -/
structure Case (nb ng nl : ℕ) where
  base : ℝ
  bus : Fin nb → Bus
  isRef : Fin nb → Bool
  va : Fin nb → ℝ
  vm : Fin nb → ℝ
  vmin : Fin nb → ℝ
  vmax : Fin nb → ℝ
  gen : Fin ng → Gen (Fin nb)
  pmin : Fin ng → ℝ
  pmax : Fin ng → ℝ
  qmin : Fin ng → ℝ
  qmax : Fin ng → ℝ
  branch : Fin nl → Branch (Fin nb)
  rateA : Fin nl → ℝ

variable {nb ng nl : ℕ}

/-- A vector argument. -/
def vec {n : ℕ} (v : Fin n → ℝ) : List EReal := List.ofFn fun i => ((v i : ℝ) : EReal)

/-- A matrix argument. -/
def matOf {a b : ℕ} (M : Matrix (Fin a) (Fin b) ℝ) : Mat := ⟨a, b, fun i j => if h : i < a ∧ j < b then M ⟨i, h.1⟩ ⟨j, h.2⟩ else 0⟩

/-- `hstack([M, N])`. -/
def hcat {a b c : ℕ} (M : Matrix (Fin a) (Fin b) ℝ) (N : Matrix (Fin a) (Fin c) ℝ) : Mat :=
  matOf (Matrix.of fun i (j : Fin (b + c)) => Fin.addCases (fun k => M i k) (fun k => N i k) j)

/-- `Va` in radians (opf_setup.py:123). -/
def Case.vaRad (d : Case nb ng nl) (b : Fin nb) : ℝ := d.va b * (Real.pi / 180)

/-- `Val`, `Vau` (opf_setup.py:170-173): free except at the reference buses. -/
def Case.val (d : Case nb ng nl) : List EReal := List.ofFn fun b => if d.isRef b then ((d.vaRad b : ℝ) : EReal) else ⊥
def Case.vau (d : Case nb ng nl) : List EReal := List.ofFn fun b => if d.isRef b then ((d.vaRad b : ℝ) : EReal) else ⊤

/-- `il`: branches with a flow limit (opf_setup.py:146, dcopf_solver.py:258, pipsopf_solver.py:127). -/
def Case.il (d : Case nb ng nl) : List (Fin nl) := (List.finRange nl).filter fun l => d.rateA l ≠ 0 ∧ d.rateA l < 10 ^ 10

/-- `neg_Cg` (opf_setup.py:141). -/
def Case.negCg (d : Case nb ng nl) : Matrix (Fin nb) (Fin ng) ℝ := coo (fun g => (d.gen g).bus) id (fun _ => -1)

/-- `bmis` (opf_setup.py:143). -/
def Case.bmis (d : Case nb ng nl) (b : Fin nb) : ℝ := -((d.bus b).PD + (d.bus b).GS) / d.base - Pbusinj d.branch b

/-- `Bf[il, :]` (opf_setup.py:215). -/
def Case.BfIl (d : Case nb ng nl) : Matrix (Fin d.il.length) (Fin nb) ℝ := fun k j => Bf d.branch (d.il.get k) j

/-- `upf`, `upt` (opf_setup.py:149-150). -/
def Case.upf (d : Case nb ng nl) (k : Fin d.il.length) : ℝ := d.rateA (d.il.get k) / d.base - Pfinj d.branch (d.il.get k)
def Case.upt (d : Case nb ng nl) (k : Fin d.il.length) : ℝ := d.rateA (d.il.get k) / d.base + Pfinj d.branch (d.il.get k)

/-- The variables and constraints of the DC formulation (opf_setup.py:140-150, 212-216). -/
def dcOps (d : Case nb ng nl) : List Op :=
  [ .addVars "Va" nb (some (vec d.vaRad)) (some d.val) (some d.vau),
    .addVars "Pg" ng (some (vec fun g => (d.gen g).PG / d.base)) (some (vec fun g => d.pmin g / d.base)) (some (vec fun g => d.pmax g / d.base)),
    .addLin "Pmis" (hcat (Bbus d.branch) d.negCg) (vec d.bmis) (vec d.bmis) ["Va", "Pg"],
    .addLin "Pf" (matOf d.BfIl) (List.replicate d.il.length ⊥) (vec d.upf) ["Va"],
    .addLin "Pt" (matOf (-d.BfIl)) (List.replicate d.il.length ⊥) (vec d.upt) ["Va"] ]

/-- `qp_f` and its Hessian (qps_pips.py:163-169). -/
def qp {n : ℕ} (H : Matrix (Fin n) (Fin n) ℝ) (C : Fin n → ℝ) : Callbacks n (Fin 0) (Fin 0) where
  f := fun x => 1 / 2 * (x ⬝ᵥ (H *ᵥ x)) + C ⬝ᵥ x
  df := fun x => H *ᵥ x + C
  g := fun _ e => e.elim0
  dg := fun _ => 0
  h := fun _ e => e.elim0
  dh := fun _ => 0
  hess := fun _ _ _ cm => cm • H

/-- The results written by `dcopf_solver` (dcopf_solver.py:233-282); `mu_l`, `mu_u`, `lower`, `upper` are `results['mu']`: multipliers of the linear constraints and of the
bounds of the variables, by position; `tol`, `dual` are the solver's feasibility tolerance and multiplier norm. -/
structure DcRes (nb ng nl : ℕ) where
  success : Bool
  f : ℝ
  VA : Fin nb → ℝ
  PG : Fin ng → ℝ
  PF : Fin nl → ℝ
  PT : Fin nl → ℝ
  QF : Fin nl → ℝ
  QT : Fin nl → ℝ
  LAM_P : Fin nb → ℝ
  MU_SF : Fin nl → ℝ
  MU_ST : Fin nl → ℝ
  MU_PMIN : Fin ng → ℝ
  MU_PMAX : Fin ng → ℝ
  x : ℕ → ℝ
  mu_l : ℕ → ℝ
  mu_u : ℕ → ℝ
  lower : ℕ → ℝ
  upper : ℕ → ℝ
  tol : ℝ
  dual : ℝ

/-- `a[il] = v` into zeros (dcopf_solver.py:261, 264-265). -/
def atIl (il : List (Fin nl)) (v : ℕ → ℝ) (l : Fin nl) : ℝ := if l ∈ il then v (il.idxOf l) else 0

/-- `dcopf_solver(om, ppopt)` with `pips` (dcopf_solver.py:98-267) from the objective on; `x0` is any starting point. -/
def dcopfSolver (d : Case nb ng nl) (m : Model) (H : Matrix (Fin m.var.total) (Fin m.var.total) ℝ) (C : Fin m.var.total → ℝ) (C0 : ℝ)
    (o : Opt) (solve : AnySolver) (x0 : Fin m.var.total → ℝ) : Option (DcRes nb ng nl) := do
  let q ← linearOf m
  let r ← pipsFull (qp H C) q o (solve _ _) x0
  let iVa ← m.var.i1 "Va"
  let iPg ← m.var.i1 "Pg"
  let jP ← m.lin.i1 "Pmis"
  let jF ← m.lin.i1 "Pf"
  let jT ← m.lin.i1 "Pt"
  let Va : Fin nb → ℝ := fun b => pad r.x (iVa + b)
  let PF : Fin nl → ℝ := fun l => ((Bf d.branch *ᵥ Va) l + Pfinj d.branch l) * d.base
  some {
    success := r.eflag
    f := r.f + C0
    VA := fun b => Va b * 180 / Real.pi
    PG := fun g => pad r.x (iPg + g) * d.base
    PF := PF
    PT := fun l => -PF l
    QF := fun _ => 0
    QT := fun _ => 0
    LAM_P := fun b => (r.mu_u (jP + b) - r.mu_l (jP + b)) / d.base
    MU_SF := atIl d.il fun k => r.mu_u (jF + k) / d.base
    MU_ST := atIl d.il fun k => r.mu_u (jT + k) / d.base
    MU_PMIN := fun g => r.lower (iPg + g) / d.base
    MU_PMAX := fun g => r.upper (iPg + g) / d.base
    x := pad r.x
    mu_l := r.mu_l
    mu_u := r.mu_u
    lower := r.lower
    upper := r.upper
    tol := r.tol o
    dual := r.dual }

end

end Verif.Opf
