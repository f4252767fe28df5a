import Mathlib.Data.Matrix.Mul
import Mathlib.Data.Matrix.Block
import Mathlib.Data.Matrix.Diagonal
import Mathlib.Analysis.Normed.Group.Constructions
import Mathlib.Analysis.SpecialFunctions.Log.Basic

/-!
# Model of the primal-dual interior point solver `pips` (pypower/pips.py:22-643)

`X`, `E`, `I` index the optimisation variables, the equality constraints `g` (nonlinear rows, then `Ae`, pips.py:264-292)
and the inequality constraints `h` (nonlinear rows, then `Ai`).  Numbers are reals, so IEEE rounding and NaN/inf values are
outside the model; the one place where the code itself tests for NaN in the solution of the Newton system (pips.py:392) is
kept: the linear solver returns `none` in that case.  `norm(v, inf)` (with 0 for an empty `v`) is the sup norm of the function
space.  Printing and the `hist` list are not modelled, except that the iteration count is.
-/

open Matrix

namespace Verif.Pips

noncomputable section

variable {X E I : Type*} [Fintype X] [Fintype E] [Fintype I] [DecidableEq X] [DecidableEq E] [DecidableEq I]

/-- The callbacks of pips: `f_fcn` (pips.py:261, 409, 506), `gh_fcn` combined with the linear rows (pips.py:264-292) and the Hessian
of the Lagrangian (pips.py:364-375).  `dh`, `dg` are the transposed Jacobians, as in the code; a missing (`None`) `dh` is the
matrix with no columns. -/
structure Problem (X E I : Type*) where
  f : (X → ℝ) → ℝ
  df : (X → ℝ) → X → ℝ
  g : (X → ℝ) → E → ℝ
  dg : (X → ℝ) → Matrix X E ℝ
  h : (X → ℝ) → I → ℝ
  dh : (X → ℝ) → Matrix X I ℝ
  hess : (X → ℝ) → (E → ℝ) → (I → ℝ) → ℝ → Matrix X X ℝ

/-- The options (pips.py:200-219). -/
structure Opt where
  feastol : ℝ
  gradtol : ℝ
  comptol : ℝ
  costtol : ℝ
  maxIt : ℕ
  maxRed : ℕ
  stepControl : Bool
  costMult : ℝ

/-- pips.py:225-231. -/
def xi : ℝ := 99995 / 100000
def sigma : ℝ := 1 / 10
def alphaMin : ℝ := 1 / 10 ^ 8
def rhoMin : ℝ := 95 / 100
def rhoMax : ℝ := 105 / 100
def muThreshold : ℝ := 1 / 10 ^ 5
/-- `EPS = finfo(float).eps` (pips.py:19) = 2⁻⁵². -/
def eps : ℝ := 1 / 2 ^ 52

/-- The loop variables `x, z, lam, mu, gamma, f0` (everything else is recomputed from them). -/
structure St (X E I : Type*) where
  x : X → ℝ
  z : I → ℝ
  lam : E → ℝ
  mu : I → ℝ
  gamma : ℝ
  f0 : ℝ

/-- A search direction `dx, dz, dlam, dmu`. -/
structure Dir (X E I : Type*) where
  dx : X → ℝ
  dz : I → ℝ
  dlam : E → ℝ
  dmu : I → ℝ

variable (P : Problem X E I) (o : Opt)

/-- Scaled cost `f * opt["cost_mult"]` (pips.py:262, 410, 468, 507). -/
def cost (x : X → ℝ) : ℝ := P.f x * o.costMult

/-- Scaled gradient (pips.py:263, 411, 508). -/
def grad (x : X → ℝ) : X → ℝ := fun i => P.df x i * o.costMult

/-- Initial slacks: `z = ones; z[h < -1] = -h` (pips.py:304, 306-307, `z0 = 1`). -/
def initZ (x : X → ℝ) : I → ℝ := fun i => if P.h x i < -1 then -P.h x i else 1

/-- Initial multipliers: `mu = ones; mu[gamma / z > 1] = gamma / z` with `gamma = 1` (pips.py:302, 305, 308-309). -/
def initMu (z : I → ℝ) : I → ℝ := fun i => if 1 / z i > 1 then 1 / z i else 1

/-- State before the first iteration (pips.py:302-313). -/
def init (x0 : X → ℝ) : St X E I where
  x := x0
  z := initZ P x0
  lam := fun _ => 0
  mu := initMu (initZ P x0)
  gamma := 1
  f0 := cost P o x0

/-- Gradient of the Lagrangian at a point: `Lx = df + dg*lam + dh*mu` (pips.py:317-319, 445-447, 538-540). -/
def Lx (x : X → ℝ) (lam : E → ℝ) (mu : I → ℝ) : X → ℝ :=
  grad P o x + P.dg x *ᵥ lam + P.dh x *ᵥ mu

/-- `maxh = 0 if len(h) == 0 else max(h)` (pips.py:321, 449, 542-545). -/
def maxh (h : I → ℝ) : ℝ :=
  if hne : (Finset.univ : Finset I).Nonempty then Finset.univ.sup' hne h else 0

/-- `feascond` (pips.py:327-328, 456-457, 551-552). -/
def feascond (x : X → ℝ) (z : I → ℝ) : ℝ := max ‖P.g x‖ (maxh (P.h x)) / (1 + max ‖x‖ ‖z‖)

/-- `gradcond` (pips.py:329-330, 458, 553-554). -/
def gradcond (x : X → ℝ) (lam : E → ℝ) (mu : I → ℝ) : ℝ := ‖Lx P o x lam mu‖ / (1 + max ‖lam‖ ‖mu‖)

/-- `compcond` (pips.py:331, 555). -/
def compcond (x : X → ℝ) (z mu : I → ℝ) : ℝ := (z ⬝ᵥ mu) / (1 + ‖x‖)

/-- `costcond` (pips.py:332, 556). -/
def costcond (f f0 : ℝ) : ℝ := |f - f0| / (1 + |f0|)

/-- The convergence test (pips.py:353-354, 568-569). -/
def conv (s : St X E I) : Prop :=
  feascond P s.x s.z < o.feastol ∧ gradcond P o s.x s.lam s.mu < o.gradtol ∧
    compcond s.x s.z s.mu < o.comptol ∧ costcond (cost P o s.x) s.f0 < o.costtol

/-- The Newton matrix `Ab = [[M, dg], [dgᵀ, 0]]` with `M = Lxx + dh diag(1/z) diag(mu) dhᵀ` (pips.py:376-387). -/
def newtonMat (s : St X E I) : Matrix (X ⊕ E) (X ⊕ E) ℝ :=
  fromBlocks
    (P.hess s.x s.lam s.mu o.costMult + P.dh s.x * diagonal (fun i => 1 / s.z i) * diagonal s.mu * (P.dh s.x)ᵀ)
    (P.dg s.x) (P.dg s.x)ᵀ 0

/-- The right-hand side `bb = [-N, -g]`, `N = Lx + dh diag(1/z) (mu*h + gamma e)` (pips.py:382, 388). -/
def newtonRhs (s : St X E I) : X ⊕ E → ℝ :=
  Sum.elim
    (-(Lx P o s.x s.lam s.mu + (P.dh s.x * diagonal (fun i => 1 / s.z i)) *ᵥ (fun i => s.mu i * P.h s.x i + s.gamma)))
    (-P.g s.x)

/-- The direction computed from the solution of the Newton system (pips.py:398-401). -/
def rawDir (s : St X E I) (sol : X ⊕ E → ℝ) : Dir X E I :=
  let dx : X → ℝ := fun i => sol (Sum.inl i)
  let dz : I → ℝ := -P.h s.x - s.z - (P.dh s.x)ᵀ *ᵥ dx
  { dx := dx
    dlam := fun i => sol (Sum.inr i)
    dz := dz
    dmu := fun i => -s.mu i + 1 / s.z i * (s.gamma - s.mu i * dz i) }

/-- The Lagrangian merit function `L` (pips.py:315, 477, 583). -/
def merit (s : St X E I) (x : X → ℝ) : ℝ :=
  cost P o x + s.lam ⬝ᵥ P.g x + s.mu ⬝ᵥ (P.h x + s.z) - s.gamma * ∑ i, Real.log (s.z i)

/-- `rho` for a step scaled by `alpha` (pips.py:465-482). -/
def rho (s : St X E I) (dx : X → ℝ) (alpha : ℝ) : ℝ :=
  let dx1 := alpha • dx
  (merit P o s (s.x + dx1) - merit P o s s.x) /
    (Lx P o s.x s.lam s.mu ⬝ᵥ dx1 + 1 / 2 * (dx1 ⬝ᵥ (P.hess s.x s.lam s.mu o.costMult *ᵥ dx1)))

open Classical in
/-- The step-halving loop (pips.py:463-487): at most `fuel` halvings, stop when `rho` is in range. -/
def halve (s : St X E I) (dx : X → ℝ) : ℕ → ℝ → ℝ
  | 0, alpha => alpha
  | fuel + 1, alpha =>
    if rhoMin < rho P o s dx alpha ∧ rho P o s dx alpha < rhoMax then alpha
    else halve s dx fuel (alpha / 2)

open Classical in
/-- The factor of the optional step control (pips.py:404-487); 1 when it is off or not triggered. -/
def scAlpha (s : St X E I) (dx : X → ℝ) : ℝ :=
  if o.stepControl = true ∧ feascond P (s.x + dx) s.z > feascond P s.x s.z ∧
      gradcond P o (s.x + dx) s.lam s.mu > gradcond P o s.x s.lam s.mu then
    halve P o s dx o.maxRed 1
  else 1

/-- Scaling of the direction (pips.py:488-491). -/
def Dir.scale (d : Dir X E I) (a : ℝ) : Dir X E I :=
  { dx := a • d.dx, dz := a • d.dz, dlam := a • d.dlam, dmu := a • d.dmu }

open Classical in
/-- `alphap = min([xi * min(z[k] / -dz[k]), 1]) if len(k) else 1.0` with `k = find(dz < 0)` (pips.py:494-495; the same for `alphad`, 496-497). -/
def stepLen (z dz : I → ℝ) : ℝ :=
  if hk : (Finset.univ.filter (fun i => dz i < 0)).Nonempty then
    min (xi * (Finset.univ.filter (fun i => dz i < 0)).inf' hk (fun i => z i / -dz i)) 1
  else 1

/-- The update (pips.py:498-503). -/
def update (s : St X E I) (d : Dir X E I) : St X E I :=
  let ap := stepLen s.z d.dz
  let ad := stepLen s.mu d.dmu
  let z := s.z + ap • d.dz
  let mu := s.mu + ad • d.dmu
  { x := s.x + ap • d.dx
    z := z
    lam := s.lam + ad • d.dlam
    mu := mu
    gamma := if 0 < Fintype.card I then sigma * (z ⬝ᵥ mu) / Fintype.card I else s.gamma
    f0 := s.f0 }

/-- Numerical failure test after an unsuccessful iteration (pips.py:574-575; `isnan(x)` is outside the model). -/
def numFail (s : St X E I) (d : Dir X E I) : Prop :=
  stepLen s.z d.dz < alphaMin ∨ stepLen s.mu d.dmu < alphaMin ∨
    (update s d).gamma < eps ∨ (update s d).gamma > 1 / eps

/-- Exit status, `message` (pips.py:590-600). -/
inductive Exit where
  | converged
  | maxIter
  | failed
deriving DecidableEq

/-- What the loop leaves behind: the last state, the iteration count and the exit status. -/
structure Out (X E I : Type*) where
  st : St X E I
  iters : ℕ
  exit : Exit

/-- A linear solver: `pplinsolve(Ab, bb)` (pips.py:390, 392); `none` if the result contains a NaN.  Arbitrary. -/
abbrev Solver (X E : Type*) := Matrix (X ⊕ E) (X ⊕ E) ℝ → (X ⊕ E → ℝ) → Option (X ⊕ E → ℝ)

variable (solve : Solver X E)

/-- The search direction of one iteration, or `none` if the linear solver returned NaN (pips.py:363-491). -/
def direction (s : St X E I) : Option (Dir X E I) :=
  (solve (newtonMat P o s) (newtonRhs P o s)).map fun sol =>
    (rawDir P s sol).scale (scAlpha P o s (rawDir P s sol).dx)

open Classical in
/-- The main loop (pips.py:360-583): `fuel` is the number of iterations left (`max_it - i`), `i` the iteration counter.
An iteration either fails (NaN direction), converges, fails numerically, or goes on with `f0 = f`. -/
def loop : ℕ → ℕ → St X E I → Out X E I
  | 0, i, s => ⟨s, i, .maxIter⟩
  | fuel + 1, i, s =>
    match direction P o solve s with
    | none => ⟨s, i + 1, .failed⟩
    | some d =>
      if conv P o (update s d) then ⟨update s d, i + 1, .converged⟩
      else if numFail s d then ⟨update s d, i + 1, .failed⟩
      else loop fuel (i + 1) { update s d with f0 := cost P o (update s d).x }

open Classical in
/-- `pips` up to the packaging of the results (pips.py:302-583). -/
def run (x0 : X → ℝ) : Out X E I :=
  if conv P o (init P o x0) then ⟨init P o x0, 0, .converged⟩
  else loop P o solve o.maxIt 0 (init P o x0)

open Classical in
/-- Final multipliers: zeroed on non-binding constraints, then un-scaled (pips.py:605, 610). -/
def finalMu (s : St X E I) : I → ℝ := fun i =>
  (if P.h s.x i < -o.feastol ∧ s.mu i < muThreshold then 0 else s.mu i) / o.costMult

/-- `lam / cost_mult` (pips.py:609). -/
def finalLam (s : St X E I) : E → ℝ := fun i => s.lam i / o.costMult

/-- The returned dictionary: `x`, `f`, `eflag` (= `converged`), `iterations`, multipliers (pips.py:590-610, 640-641).
(The doc string promises `None` after a numerical failure; the code returns `False`, pips.py:640.) -/
structure Solution (X E I : Type*) where
  x : X → ℝ
  f : ℝ
  eflag : Bool
  exit : Exit
  iterations : ℕ
  lam : E → ℝ
  mu : I → ℝ

/-- `pips` (pips.py:22-643) without the linear-constraint splitting and multiplier re-packaging, which are in `Split.lean`. -/
def pips (x0 : X → ℝ) : Solution X E I :=
  let r := run P o solve x0
  { x := r.st.x
    f := cost P o r.st.x / o.costMult
    eflag := decide (r.exit = .converged)
    exit := r.exit
    iterations := r.iters
    lam := finalLam o r.st
    mu := finalMu P o r.st }

/-- The sequence of loop states visited by a run (for stating invariants): the state at the head of iteration `k` when
the directions are `d 0, d 1, …`, each reached from the previous one by `update` (pips.py:360-583) with any `f0`. -/
inductive Reach (s0 : St X E I) : St X E I → Prop
  | start : Reach s0 s0
  | step {s : St X E I} (d : Dir X E I) (f0 : ℝ) : Reach s0 s → Reach s0 { update s d with f0 := f0 }

end

end Verif.Pips
