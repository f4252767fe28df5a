import Verif.Pips.Model
import Verif.Pips.Split
import Mathlib.Data.Fin.Basic

/-!
# Model of `pips` with its linear constraints and bounds (pypower/pips.py:22-643)

Composes the interior point iteration (`Model.lean`) with the splitting of `AA = [I; A]` and the re-packaging of the multipliers (`Split.lean`):
the caller's problem has `n` variables with bounds, `nA` linear rows with bounds and nonlinear constraints `g = 0`, `h ≤ 0`.
-/

open Matrix

namespace Verif.Pips

noncomputable section

/-- The callbacks `f_fcn`, `gh_fcn`, `hess_fcn` of the caller (pips.py:264, 375).  With `gh_fcn = None`, `E` and `I` are empty and `hess` is the Hessian of
the cost times `cost_mult` (pips.py:376-378). -/
structure Callbacks (n : ℕ) (E I : Type) where
  f : (Fin n → ℝ) → ℝ
  df : (Fin n → ℝ) → Fin n → ℝ
  g : (Fin n → ℝ) → E → ℝ
  dg : (Fin n → ℝ) → Matrix (Fin n) E ℝ
  h : (Fin n → ℝ) → I → ℝ
  dh : (Fin n → ℝ) → Matrix (Fin n) I ℝ
  hess : (Fin n → ℝ) → (E → ℝ) → (I → ℝ) → ℝ → Matrix (Fin n) (Fin n) ℝ

/-- The linear constraints `l ≤ A x ≤ u` (`nA` rows) and the bounds `xmin ≤ x ≤ xmax` (pips.py:185-195). -/
structure Linear where
  nA : ℕ
  A : ℕ → ℕ → ℝ
  l : ℕ → EReal
  u : ℕ → EReal
  xmin : ℕ → EReal
  xmax : ℕ → EReal

/-- Row `k` of `AA = [I; A]` (pips.py:240). -/
def Linear.AA {n : ℕ} (q : Linear) (k : ℕ) (j : Fin n) : ℝ := if k < n then (if (j : ℕ) = k then 1 else 0) else q.A (k - n) j

/-- `ll = r_[xmin, l]`, `uu = r_[xmax, u]` (pips.py:241-242). -/
def Linear.ll (q : Linear) (n k : ℕ) : EReal := if k < n then q.xmin k else q.l (k - n)
def Linear.uu (q : Linear) (n k : ℕ) : EReal := if k < n then q.xmax k else q.u (k - n)

/-- Row `k` of `AA * x`. -/
def Linear.val {n : ℕ} (q : Linear) (k : ℕ) (x : Fin n → ℝ) : ℝ := ∑ j, q.AA k j * x j

/-- The rows of `Ae` and of `Ai`, as lists of (upper?, row) (pips.py:245-253). -/
abbrev Linear.eqRows (q : Linear) (n : ℕ) : List ℕ := ieq (n + q.nA) (q.ll n) (q.uu n)
abbrev Linear.inRows (q : Linear) (n : ℕ) : List (Bool × ℕ) := iRows (n + q.nA) (q.ll n) (q.uu n)

/-- The sign of a row of `Ai` (pips.py:252). -/
def sgn (b : Bool) : ℝ := if b then 1 else -1

/-- The bound of a row of `Ai`: `uu` for an upper one, `-ll` for a lower one (pips.py:257).  Bounds in use are finite (`toReal`). -/
def Linear.bound (q : Linear) (n : ℕ) (r : Bool × ℕ) : ℝ := if r.1 then (q.uu n r.2).toReal else -(q.ll n r.2).toReal

/-- The problem handed to the iteration (pips.py:259-292): nonlinear rows first, then the linear ones; only the multipliers of the nonlinear rows are passed to
the Hessian (pips.py:365-366). -/
def problem {n : ℕ} {E I : Type} (c : Callbacks n E I) (q : Linear) :
    Problem (Fin n) (E ⊕ Fin (q.eqRows n).length) (I ⊕ Fin (q.inRows n).length) where
  f := c.f
  df := c.df
  g := fun x => Sum.elim (c.g x) (fun p => q.val ((q.eqRows n).get p) x - (q.uu n ((q.eqRows n).get p)).toReal)
  dg := fun x => Matrix.of fun j e => Sum.elim (fun e' => c.dg x j e') (fun p => q.AA ((q.eqRows n).get p) j) e
  h := fun x => Sum.elim (c.h x) (fun p => sgn ((q.inRows n).get p).1 * q.val ((q.inRows n).get p).2 x - q.bound n ((q.inRows n).get p))
  dh := fun x => Matrix.of fun j i => Sum.elim (fun i' => c.dh x j i')
    (fun p => sgn ((q.inRows n).get p).1 * q.AA ((q.inRows n).get p).2 j) i
  hess := fun x lam mu cm => c.hess x (fun e => lam (Sum.inl e)) (fun i => mu (Sum.inl i)) cm

/-- The returned dictionary (pips.py:628-641).  `slack`, `dual` are the sup norms of the loop variables `z` and `(lam, mu)` at exit:
they are not returned, but the feasibility and gradient tolerances are relative to them (pips.py:551-554). -/
structure Result (n : ℕ) (E I : Type) where
  x : Fin n → ℝ
  f : ℝ
  eflag : Bool
  eqnonlin : E → ℝ
  ineqnonlin : I → ℝ
  lower : ℕ → ℝ
  upper : ℕ → ℝ
  mu_l : ℕ → ℝ
  mu_u : ℕ → ℝ
  slack : ℝ
  dual : ℝ

/-- The feasibility tolerance met by a successful result (pips.py:551-552, 568). -/
def Result.tol {n : ℕ} {E I : Type} (r : Result n E I) (o : Opt) : ℝ := o.feastol * (1 + max ‖r.x‖ r.slack)

variable {n : ℕ} {E I : Type} [Fintype E] [Fintype I] [DecidableEq E] [DecidableEq I]

/-- `pips(f_fcn, x0, A, l, u, xmin, xmax, gh_fcn, hess_fcn, opt)` (pips.py:22-643): `mu_l`, `mu_u` of length `nx + nA` are cut into `lower`, `upper` (first
`nx`) and `mu_l`, `mu_u` (the rest) (pips.py:628-629).  `none` would be an index error in the re-packaging. -/
def pipsFull (c : Callbacks n E I) (q : Linear) (o : Opt)
    (solve : Solver (Fin n) (E ⊕ Fin (q.eqRows n).length)) (x0 : Fin n → ℝ) : Option (Result n E I) := do
  let s := pips (problem c q) o solve x0
  let lamLin := List.ofFn fun p => s.lam (Sum.inr p)
  let muLin := List.ofFn fun p => s.mu (Sum.inr p)
  let L ← muL (n + q.nA) (q.ll n) (q.uu n) lamLin muLin
  let U ← muU (n + q.nA) (q.ll n) (q.uu n) lamLin muLin
  some { x := s.x, f := s.f, eflag := s.eflag, eqnonlin := fun e => s.lam (Sum.inl e), ineqnonlin := fun i => s.mu (Sum.inl i)
         lower := fun k => L.getD k 0, upper := fun k => U.getD k 0
         mu_l := fun k => L.getD (n + k) 0, mu_u := fun k => U.getD (n + k) 0
         slack := ‖(run (problem c q) o solve x0).st.z‖
         dual := max ‖(run (problem c q) o solve x0).st.lam‖ ‖(run (problem c q) o solve x0).st.mu‖ }

end

end Verif.Pips
