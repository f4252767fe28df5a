import Verif.Network.FdMatrix

/-!
# C89: B′ of networks with phase shifters
-/

open Matrix Complex ComplexConjugate

namespace Verif.Network

set_option linter.unusedSectionVars false

variable {B L : Type} [Fintype B] [Fintype L] [DecidableEq B] [DecidableEq L]

/-- Series conductance `r/(r² + x²)` of a branch, zero if out of service; with `lossless` the resistance is neglected. -/
noncomputable def seriesG (lossless : Prop) [Decidable lossless] (br : Branch B) : ℝ :=
  br.stat * (if lossless then 0 else br.r / (br.r ^ 2 + br.x ^ 2))

/-- The phase shift in radians. -/
noncomputable def shiftRad (br : Branch B) : ℝ := Real.pi / 180 * br.shift

theorem re_Ys (br : Branch B) : (Ys br).re = br.stat * (br.r / (br.r ^ 2 + br.x ^ 2)) := by
  rw [Ys, Complex.div_re]
  simp only [Complex.ofReal_re, Complex.ofReal_im, Complex.add_re, Complex.add_im, Complex.mul_re, Complex.mul_im, Complex.I_re, Complex.I_im, Complex.normSq_apply]
  simp only [zero_mul, one_mul, mul_zero, sub_zero, add_zero, zero_add, zero_div]
  ring

theorem ctap_one (br : Branch B) (h : br.tap = 1) : ctap br = exp ((shiftRad br : ℂ) * I) := by
  have : tapRatio br = 1 := by simp [tapRatio, h]
  rw [ctap, this, shiftRad]
  push_cast
  rw [one_mul]
  congr 1
  ring

theorem im_rows_shift (br : Branch B) (ht : br.tap = 1) (hb : br.b = 0) (a b : ℝ) :
    (Yff br * (a : ℂ) + Yft br * (b : ℂ)).im = (Ys br).im * a - ((Ys br).im * Real.cos (shiftRad br) + (Ys br).re * Real.sin (shiftRad br)) * b ∧
    (Ytf br * (a : ℂ) + Ytt br * (b : ℂ)).im = (Ys br).im * b - ((Ys br).im * Real.cos (shiftRad br) - (Ys br).re * Real.sin (shiftRad br)) * a := by
  have hc := ctap_one br ht
  have hcc : conj (ctap br) = exp (-((shiftRad br : ℂ) * I)) := by
    rw [hc, ← Complex.exp_conj]
    congr 1
    simp
  have e1 : Ytt br = Ys br := by simp [Ytt, Bc, hb]
  have e2 : Yff br = Ys br := by
    rw [Yff, e1, hcc, hc, ← Complex.exp_add, add_neg_cancel, Complex.exp_zero, div_one]
  have hre : (exp ((shiftRad br : ℂ) * I)).re = Real.cos (shiftRad br) := Complex.exp_ofReal_mul_I_re _
  have him : (exp ((shiftRad br : ℂ) * I)).im = Real.sin (shiftRad br) := Complex.exp_ofReal_mul_I_im _
  have hre' : (exp (-((shiftRad br : ℂ) * I))).re = Real.cos (shiftRad br) := by
    rw [← neg_mul, ← Complex.ofReal_neg, Complex.exp_ofReal_mul_I_re, Real.cos_neg]
  have him' : (exp (-((shiftRad br : ℂ) * I))).im = -Real.sin (shiftRad br) := by
    rw [← neg_mul, ← Complex.ofReal_neg, Complex.exp_ofReal_mul_I_im, Real.sin_neg]
  have e3 : Yft br = -(Ys br * exp ((shiftRad br : ℂ) * I)) := by
    rw [Yft, hcc, Complex.exp_neg, div_inv_eq_mul, neg_mul]
  have e4 : Ytf br = -(Ys br * exp (-((shiftRad br : ℂ) * I))) := by
    rw [Ytf, hc, Complex.exp_neg, neg_div, div_eq_mul_inv]
  constructor
  · rw [Complex.add_im, Complex.im_mul_ofReal, Complex.im_mul_ofReal, e2, e3, Complex.neg_im, Complex.mul_im, hre, him]; ring
  · rw [Complex.add_im, Complex.im_mul_ofReal, Complex.im_mul_ofReal, e1, e4, Complex.neg_im, Complex.mul_im, hre', him']; ring

theorem im_Ybus_shift (baseMVA : ℝ) (bus : B → Bus) (branch : L → Branch B) (hB : ∀ i, (bus i).BS = 0) (ht : ∀ l, (branch l).tap = 1) (hb : ∀ l, (branch l).b = 0) (w : B → ℝ) (i : B) :
    -((Ybus baseMVA bus branch *ᵥ fun j => (w j : ℂ)) i).im =
      (∑ l with (branch l).f = i, (-(Ys (branch l)).im * w (branch l).f -
        (-(Ys (branch l)).im * Real.cos (shiftRad (branch l)) - (Ys (branch l)).re * Real.sin (shiftRad (branch l))) * w (branch l).t)) +
      (∑ l with (branch l).t = i, (-(Ys (branch l)).im * w (branch l).t -
        (-(Ys (branch l)).im * Real.cos (shiftRad (branch l)) + (Ys (branch l)).re * Real.sin (shiftRad (branch l))) * w (branch l).f)) := by
  have hs : (Ysh baseMVA bus i * (w i : ℂ)).im = 0 := by
    rw [Complex.im_mul_ofReal, Ysh, Complex.div_ofReal_im, hB]
    simp
  rw [Ybus_mulVec, Complex.add_im, Complex.add_im, hs, Complex.im_sum, Complex.im_sum, Finset.sum_filter, Finset.sum_filter, add_zero, neg_add, ← Finset.sum_neg_distrib,
    ← Finset.sum_neg_distrib]
  congr 1
  · refine Finset.sum_congr rfl fun l _ => ?_
    split
    · rw [Yf_mulVec, (im_rows_shift _ (ht l) (hb l) _ _).1]
      ring
    · simp
  · refine Finset.sum_congr rfl fun l _ => ?_
    split
    · rw [Yt_mulVec, (im_rows_shift _ (ht l) (hb l) _ _).2]
      ring
    · simp

/-- **C89 (B′, phase shifters).**  In general B′ also knows the phase shifters -- neither bus shunts nor line charging nor turns ratios: a branch with series admittance `g - jb` and phase
shift `φ` couples its ends by `b cos φ ∓ g sin φ`; the XB method (`alg = 2`) neglects the resistances. -/
theorem C89_Bp_shift (baseMVA : ℝ) (bus : B → Bus) (branch : L → Branch B) (alg : ℕ) (w : B → ℝ) (i : B) :
    (Bp baseMVA bus branch alg *ᵥ w) i =
      (∑ l with (branch l).f = i, (seriesB (alg = 2) (branch l) * w (branch l).f -
        (seriesB (alg = 2) (branch l) * Real.cos (shiftRad (branch l)) - seriesG (alg = 2) (branch l) * Real.sin (shiftRad (branch l))) * w (branch l).t)) +
      (∑ l with (branch l).t = i, (seriesB (alg = 2) (branch l) * w (branch l).t -
        (seriesB (alg = 2) (branch l) * Real.cos (shiftRad (branch l)) + seriesG (alg = 2) (branch l) * Real.sin (shiftRad (branch l))) * w (branch l).f)) := by
  have hb : ∀ l, (Ys { branch l with b := 0, tap := 1, r := if alg = 2 then 0 else (branch l).r }).im = -seriesB (alg = 2) (branch l) := by
    intro l
    rw [im_Ys, neg_inj, seriesB]
    dsimp only
    by_cases ha : alg = 2
    · simp only [ha, if_true]
      by_cases hx : (branch l).x = 0
      · simp [hx]
      · field_simp
        ring
    · simp [ha]
  have hg : ∀ l, (Ys { branch l with b := 0, tap := 1, r := if alg = 2 then 0 else (branch l).r }).re = seriesG (alg = 2) (branch l) := by
    intro l
    rw [re_Ys, seriesG]
    by_cases ha : alg = 2 <;> simp [ha]
  have e := im_Ybus_shift baseMVA (fun i => { bus i with BS := 0 }) (fun l => { branch l with b := 0, tap := 1, r := if alg = 2 then 0 else (branch l).r })
    (fun _ => rfl) (fun _ => rfl) (fun _ => rfl) w i
  refine ((imag_mulVec _ w i).trans e).trans ?_
  simp only [hb, hg, neg_neg]
  rfl

/-- A 30 degree phase shifter between two buses with `r = x = 1/2`: both ends differ, B′ is not symmetric. -/
example : let br : Branch (Fin 2) := { f := 0, t := 1, stat := 1, r := 1 / 2, x := 1 / 2, b := 1, tap := 2, shift := 30 }
    seriesB False br = 1 ∧ seriesG False br = 1 ∧ seriesG True br = 0 ∧ shiftRad br = Real.pi / 6 := by
  simp only [seriesB, seriesG, shiftRad, if_true, if_false]
  refine ⟨by norm_num, by norm_num, by norm_num, by ring⟩

end Verif.Network
