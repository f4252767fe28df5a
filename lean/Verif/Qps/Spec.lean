import Verif.Qps.Model
import Verif.Pips.FullProps

/-!
# What C124 says

The problem a dictionary poses: minimise `1/2 x'Hx + c'x` with `l ≤ A x ≤ u` and `xmin ≤ x ≤ xmax`, where what is not given is zero, no row or no bound.
-/

open Matrix

namespace Verif.Qps

open Verif.Pips

variable {ω : Type} {m n : ℕ}

noncomputable section

/-- The matrix and vector of the costs; zero if not given. -/
def Prob.Hm (p : Prob ω m n) : Matrix (Fin n) (Fin n) ℝ := p.H.get?.getD 0
def Prob.cv (p : Prob ω m n) : Fin n → ℝ := p.c.get?.getD 0

/-- The start; zero if not given. -/
def Prob.start (p : Prob ω m n) : Fin n → ℝ := p.x0.get?.getD 0

/-- The options `pips` gets, with its defaults. -/
def Prob.options (p : Prob PipsOpt m n) : Opt := (p.opt.get?.getD .empty).full

/-- The objective. -/
def Prob.objective (p : Prob ω m n) (x : Fin n → ℝ) : ℝ := 1 / 2 * (x ⬝ᵥ (p.Hm *ᵥ x)) + p.cv ⬝ᵥ x

/-- A bound; `d` if it is not given. -/
def bound {k : ℕ} (d : EReal) (b : Key (Arr k)) (i : Fin k) : EReal :=
  match b.get? with
  | some (some v) => v i
  | _ => d

/-- `x` meets all bounds and constraints. -/
structure Prob.Meets (p : Prob ω m n) (x : Fin n → ℝ) : Prop where
  box : ∀ j, bound ⊥ p.xmin j ≤ (x j : EReal) ∧ (x j : EReal) ≤ bound ⊤ p.xmax j
  rows : ∀ a, p.A.get? = some a → ∀ k, bound ⊥ p.l k ≤ ((a.mat *ᵥ x) k : EReal) ∧ ((a.mat *ᵥ x) k : EReal) ≤ bound ⊤ p.u k

/-- `x` meets all bounds and constraints up to `t` (bounds beyond `±1e10` count as none). -/
structure Prob.Nearly (p : Prob ω m n) (x : Fin n → ℝ) (t : ℝ) : Prop where
  box : ∀ j, Within (bound ⊥ p.xmin j) (bound ⊤ p.xmax j) (x j) t
  rows : ∀ a, p.A.get? = some a → ∀ k, Within (bound ⊥ p.l k) (bound ⊤ p.u k) ((a.mat *ᵥ x) k) t

/-- All bounds are sensible. -/
structure Prob.Sensible (p : Prob ω m n) : Prop where
  box : ∀ j, Sane (bound ⊥ p.xmin j) (bound ⊤ p.xmax j)
  rows : ∀ a, p.A.get? = some a → ∀ k, Sane (bound ⊥ p.l k) (bound ⊤ p.u k)

/-- The number of rows of `A`. -/
def Prob.nRows (p : Prob ω m n) : ℕ := if p.A.get?.isSome then m else 0

/-- A symmetric matrix with nonnegative quadratic form. -/
structure ConvexSymm (H : Matrix (Fin n) (Fin n) ℝ) : Prop where
  symm : Hᵀ = H
  psd : ∀ v : Fin n → ℝ, 0 ≤ v ⬝ᵥ (H *ᵥ v)

/-- Two dictionaries pose the same problem, with the same start and options. -/
structure Same (p q : Prob PipsOpt m n) : Prop where
  H : p.Hm = q.Hm
  c : p.cv = q.cv
  A : p.A.get?.map Sparse.mat = q.A.get?.map Sparse.mat
  l : bound ⊥ p.l = bound ⊥ q.l
  u : bound ⊤ p.u = bound ⊤ q.u
  xmin : bound ⊥ p.xmin = bound ⊥ q.xmin
  xmax : bound ⊤ p.xmax = bound ⊤ q.xmax
  start : p.start = q.start
  options : p.options = q.options

/-- The problem a call of `qps_pypower` poses. -/
def Call.posed : Call m n → Prob QOpt m n
  | .args a => a.prob
  | .dict p => p

/-- `H` is an argument or a key of the dictionary. -/
def Call.hasH : Call m n → Prop
  | .args _ => True
  | .dict p => p.H.present = true

/-- The options a call of `qps_pypower` asks for: those under `pips_opt`, `max_it` at the top level first, step control for algorithm 250. -/
def Call.documented (k : Call m n) : Opt where
  feastol := (k.opt.pipsOpt.bind PipsOpt.feastol).getD (1 / 10 ^ 6)
  gradtol := (k.opt.pipsOpt.bind PipsOpt.gradtol).getD (1 / 10 ^ 6)
  comptol := (k.opt.pipsOpt.bind PipsOpt.comptol).getD (1 / 10 ^ 6)
  costtol := (k.opt.pipsOpt.bind PipsOpt.costtol).getD (1 / 10 ^ 6)
  maxIt := (k.opt.top.maxIt.or (k.opt.pipsOpt.bind PipsOpt.maxIt)).getD 150
  maxRed := (k.opt.pipsOpt.bind PipsOpt.maxRed).getD 20
  stepControl := decide (k.opt.alg = some 250)
  costMult := (k.opt.pipsOpt.bind PipsOpt.costMult).getD 1

end

end Verif.Qps
