import Mathlib.Analysis.SpecialFunctions.ExpDeriv
import Mathlib.Analysis.Complex.RealDeriv

/-!
# What a partial derivative with respect to voltage angle or magnitude is

Voltages are written in polar form `V_b = m_b exp(j a_b)`.  The partial derivative with respect to the angle (magnitude) of bus `k` moves the
angle (magnitude) of bus `k` and keeps everything else.
-/

namespace Verif.Derivs

/-- Bus voltages from magnitudes and angles. -/
noncomputable def volt {B : Type*} (m a : B → ℝ) (b : B) : ℂ := (m b : ℂ) * Complex.exp (Complex.I * (a b : ℂ))

/-- `f` has partial derivative `d` with respect to the angle of bus `k` at magnitudes `m`, angles `a`. -/
def PartialVa {B E : Type*} [DecidableEq B] [NormedAddCommGroup E] [NormedSpace ℝ E] (f : (B → ℂ) → E) (m a : B → ℝ) (k : B) (d : E) : Prop :=
  HasDerivAt (fun t : ℝ => f (volt m (Function.update a k t))) d (a k)

/-- `f` has partial derivative `d` with respect to the magnitude of bus `k` at magnitudes `m`, angles `a`. -/
def PartialVm {B E : Type*} [DecidableEq B] [NormedAddCommGroup E] [NormedSpace ℝ E] (f : (B → ℂ) → E) (m a : B → ℝ) (k : B) (d : E) : Prop :=
  HasDerivAt (fun t : ℝ => f (volt (Function.update m k t) a)) d (m k)

end Verif.Derivs
