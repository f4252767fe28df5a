import Verif.Network.Model

/-!
# Specification vocabulary: circuit laws
-/

namespace Verif.Network
open Complex ComplexConjugate

variable {B : Type}

/-- Complex turns ratio of the transformer at the from end: magnitude `tap` (nominal if 0), angle `shift` degrees. -/
noncomputable def turns (br : Branch B) : ℂ :=
  let τ : ℝ := if br.tap = 0 then 1 else br.tap
  let θ : ℝ := br.shift * Real.pi / 180
  τ * (Real.cos θ + I * Real.sin θ)

/-- The standard branch model: an ideal transformer at the from end (voltage ratio `turns`, lossless), then a pi section with series impedance
`r + jx` and half of the charging susceptance `b` at each end.  `If`, `It` are the currents entering the branch at its two ends. -/
def PiModel (br : Branch B) (Vf Vt If It : ℂ) : Prop :=
  ∃ E IE J : ℂ, -- voltage and current behind the transformer, current in the series impedance
    Vf = turns br * E ∧ Vf * conj If = E * conj IE ∧ conj (turns br) * If = IE ∧
    E - Vt = (br.r + I * br.x) * J ∧
    IE = J + (I * br.b / 2) * E ∧
    It = -J + (I * br.b / 2) * Vt

/-- A branch is in service. -/
def InService (br : Branch B) : Prop := br.stat = 1

/-- Active power at the from end of a branch in the DC model, in p.u. -/
noncomputable def dcFlow (br : Branch B) (θ : B → ℝ) : ℝ :=
  if br.stat = 0 then 0
  else (θ br.f - θ br.t - br.shift * Real.pi / 180) / (br.x * (if br.tap = 0 then 1 else br.tap))

end Verif.Network
