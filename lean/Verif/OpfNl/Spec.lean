import Mathlib.Analysis.Calculus.Deriv.Basic
import Verif.OpfNl.Model

/-!
# Vocabulary for the nonlinear constraints of the AC OPF
-/

open Matrix ComplexConjugate

namespace Verif.OpfNl

open Verif.Network Verif.OpfCost

noncomputable section

variable {nb ng nl : Nat}

/-- `F` has partial derivative `d` at `x` with respect to variable `k`. -/
def PartialX (F : (Nat → ℝ) → ℝ) (x : Nat → ℝ) (k : Nat) (d : ℝ) : Prop := HasDerivAt (fun t => F (Function.update x k t)) d (x k)

/-- The order of the variables: `opf_setup` adds angles, magnitudes, active and reactive outputs first, in this order (opf_setup.py:221-224), so their
blocks are consecutive (property C38). -/
structure Layout (d : Nl nb ng nl) : Prop where
  va : d.iVa = 0
  vm : d.iVm = nb
  pg : d.cost.iPg = 2 * nb
  qg : d.cost.iQg = 2 * nb + ng
  ng_eq : d.cost.ng = ng

/-- Complex power produced at bus `b` by in-service generators, minus demand, in p.u. -/
def injection (d : Nl nb ng nl) (x : Nat → ℝ) (b : Fin nb) : ℂ :=
  (∑ g with (d.gen g).stat > 0 ∧ (d.gen g).bus = b, ((x (d.cost.iPg + g) : ℂ) + Complex.I * (x (d.cost.iQg + g) : ℂ))) -
    ((d.bus b).PD + Complex.I * (d.bus b).QD) / d.cost.base

/-- What is limited at one end of a branch: for `OPF_FLOW_LIM` 2 the current magnitude, for 1 the active power, else the apparent power; in p.u. -/
def limited (lim : Int) (f : Fin nl → Fin nb) (Y : Matrix (Fin nl) (Fin nb) ℂ) (V : Fin nb → ℂ) (l : Fin nl) : ℝ :=
  if lim = 2 then ‖∑ b, Y l b * V b‖
  else if lim = 1 then |(V (f l) * conj (∑ b, Y l b * V b)).re|
  else ‖V (f l) * conj (∑ b, Y l b * V b)‖

end

end Verif.OpfNl
