import Verif.Network.Props

/-!
# C89: the matrices of the fast-decoupled power flow
-/

open Matrix Complex ComplexConjugate

namespace Verif.Network

set_option linter.unusedSectionVars false

variable {B L : Type} [Fintype B] [Fintype L] [DecidableEq B] [DecidableEq L]

/-- Series susceptance `x/(r² + x²)` of a branch, zero if out of service; with `lossless` the resistance is neglected. -/
noncomputable def seriesB (lossless : Prop) [Decidable lossless] (br : Branch B) : ℝ :=
  br.stat * (if lossless then 1 / br.x else br.x / (br.r ^ 2 + br.x ^ 2))

/-- The turns ratio, 0 standing for 1. -/
noncomputable def ratio (br : Branch B) : ℝ := if br.tap = 0 then 1 else br.tap

theorem imag_mulVec (Y : Matrix B B ℂ) (w : B → ℝ) (i : B) :
    ((Matrix.of fun i j => -1 * (Y i j).im) *ᵥ w) i = -((Y *ᵥ fun j => (w j : ℂ)) i).im := by
  simp only [Matrix.mulVec, dotProduct, Matrix.of_apply, Complex.im_sum, Complex.im_mul_ofReal]
  rw [← Finset.sum_neg_distrib]
  exact Finset.sum_congr rfl fun j _ => by ring

theorem im_Ys (br : Branch B) : (Ys br).im = -(br.stat * (br.x / (br.r ^ 2 + br.x ^ 2))) := by
  rw [Ys, Complex.div_im]
  simp only [Complex.ofReal_re, Complex.ofReal_im, Complex.add_re, Complex.add_im, Complex.mul_re, Complex.mul_im, Complex.I_re, Complex.I_im, Complex.normSq_apply]
  simp only [zero_mul, one_mul, mul_zero, sub_zero, add_zero, zero_add, zero_div, zero_sub]
  ring

theorem ctap_real (br : Branch B) (h : br.shift = 0) : ctap br = (tapRatio br : ℂ) := by simp [ctap, h]

theorem im_rows (br : Branch B) (h : br.shift = 0) (a b : ℝ) :
    (Yff br * (a : ℂ) + Yft br * (b : ℂ)).im = ((Ys br).im + br.stat * br.b / 2) / ratio br ^ 2 * a - (Ys br).im / ratio br * b ∧
    (Ytf br * (a : ℂ) + Ytt br * (b : ℂ)).im = ((Ys br).im + br.stat * br.b / 2) * b - (Ys br).im / ratio br * a := by
  have hr : tapRatio br = ratio br := rfl
  have h0 := tapRatio_ne br
  have e1 : (Ytt br).im = (Ys br).im + br.stat * br.b / 2 := by
    have : (I * (Bc br : ℂ) / 2).im = br.stat * br.b / 2 := by
      rw [show I * (Bc br : ℂ) / 2 = ((Bc br / 2 : ℝ) : ℂ) * I by push_cast; ring]
      simp [Bc]
    rw [Ytt, Complex.add_im, this]
  have e2 : (Yff br).im = ((Ys br).im + br.stat * br.b / 2) / ratio br ^ 2 := by
    rw [Yff, ctap_real br h, Complex.conj_ofReal, ← Complex.ofReal_mul, Complex.div_ofReal_im, e1, hr]
    ring
  have e3 : (Yft br).im = -(Ys br).im / ratio br := by
    rw [Yft, ctap_real br h, Complex.conj_ofReal, Complex.div_ofReal_im, Complex.neg_im, hr]
  have e4 : (Ytf br).im = -(Ys br).im / ratio br := by
    rw [Ytf, ctap_real br h, Complex.div_ofReal_im, Complex.neg_im, hr]
  constructor
  · rw [Complex.add_im, Complex.im_mul_ofReal, Complex.im_mul_ofReal, e2, e3]; ring
  · rw [Complex.add_im, Complex.im_mul_ofReal, Complex.im_mul_ofReal, e1, e4]; ring

theorem im_Ybus (baseMVA : ℝ) (bus : B → Bus) (branch : L → Branch B) (hshift : ∀ l, (branch l).shift = 0) (w : B → ℝ) (i : B) :
    -((Ybus baseMVA bus branch *ᵥ fun j => (w j : ℂ)) i).im =
      (∑ l with (branch l).f = i, ((-(Ys (branch l)).im - (branch l).stat * (branch l).b / 2) / ratio (branch l) ^ 2 * w i + (Ys (branch l)).im / ratio (branch l) * w (branch l).t)) +
      (∑ l with (branch l).t = i, ((-(Ys (branch l)).im - (branch l).stat * (branch l).b / 2) * w i + (Ys (branch l)).im / ratio (branch l) * w (branch l).f)) -
      (bus i).BS / baseMVA * w i := by
  rw [Ybus_mulVec]
  have hs : (Ysh baseMVA bus i * (w i : ℂ)).im = (bus i).BS / baseMVA * w i := by
    rw [Complex.im_mul_ofReal, Ysh, Complex.div_ofReal_im]
    simp
  rw [Complex.add_im, Complex.add_im, hs, Complex.im_sum, Complex.im_sum, Finset.sum_filter, Finset.sum_filter, neg_add, neg_add, ← Finset.sum_neg_distrib, ← Finset.sum_neg_distrib,
    ← sub_eq_add_neg]
  congr 2
  · refine Finset.sum_congr rfl fun l _ => ?_
    split
    · rename_i hl
      rw [Yf_mulVec, (im_rows _ (hshift l) _ _).1, ← hl]
      ring
    · simp
  · refine Finset.sum_congr rfl fun l _ => ?_
    split
    · rename_i hl
      rw [Yt_mulVec, (im_rows _ (hshift l) _ _).2, ← hl]
      ring
    · simp

/-- **C89 (B′).**  Without phase shifters, B′ of the fast-decoupled power flow maps angles to the flows of a network of series susceptances: bus shunts, line charging and taps play no
part; the XB method (`alg = 2`) neglects the resistances. -/
theorem C89_Bp (baseMVA : ℝ) (bus : B → Bus) (branch : L → Branch B) (alg : ℕ) (hshift : ∀ l, (branch l).shift = 0) (w : B → ℝ) (i : B) :
    (Bp baseMVA bus branch alg *ᵥ w) i =
      (∑ l with (branch l).f = i, seriesB (alg = 2) (branch l) * (w (branch l).f - w (branch l).t)) +
      (∑ l with (branch l).t = i, seriesB (alg = 2) (branch l) * (w (branch l).t - w (branch l).f)) := by
  have e := im_Ybus baseMVA (fun i => { bus i with BS := 0 }) (fun l => { branch l with b := 0, tap := 1, r := if alg = 2 then 0 else (branch l).r }) hshift w i
  have hr : ∀ l, ratio { branch l with b := 0, tap := 1, r := if alg = 2 then 0 else (branch l).r } = 1 := fun l => by simp [ratio]
  have hb : ∀ l, (Ys { branch l with b := 0, tap := 1, r := if alg = 2 then 0 else (branch l).r }).im = -seriesB (alg = 2) (branch l) := by
    intro l
    rw [im_Ys, neg_inj, seriesB]
    dsimp only
    by_cases ha : alg = 2
    · simp only [ha, if_true]
      by_cases hx : (branch l).x = 0
      · simp [hx]
      · field_simp
        ring
    · simp [ha]
  refine ((imag_mulVec _ w i).trans e).trans ?_
  simp only [hr, hb, neg_neg, mul_zero, zero_div, sub_zero, one_pow, div_one, zero_mul]
  congr 1
  · refine Finset.sum_congr rfl fun l hl => ?_
    rw [Finset.mem_filter] at hl
    rw [hl.2]
    ring
  · refine Finset.sum_congr rfl fun l hl => ?_
    rw [Finset.mem_filter] at hl
    rw [hl.2]
    ring

/-- **C89 (B″).**  B″ keeps bus shunts, line charging and taps but no phase shifters; the BX method (`alg = 3`) neglects the resistances. -/
theorem C89_Bpp (baseMVA : ℝ) (bus : B → Bus) (branch : L → Branch B) (alg : ℕ) (w : B → ℝ) (i : B) :
    (Bpp baseMVA bus branch alg *ᵥ w) i =
      (∑ l with (branch l).f = i,
        ((seriesB (alg = 3) (branch l) - (branch l).stat * (branch l).b / 2) * (w (branch l).f / ratio (branch l) ^ 2) - seriesB (alg = 3) (branch l) / ratio (branch l) * w (branch l).t)) +
      (∑ l with (branch l).t = i,
        ((seriesB (alg = 3) (branch l) - (branch l).stat * (branch l).b / 2) * w (branch l).t - seriesB (alg = 3) (branch l) / ratio (branch l) * w (branch l).f)) -
      (bus i).BS / baseMVA * w i := by
  have e := im_Ybus baseMVA bus (fun l => { branch l with shift := 0, r := if alg = 3 then 0 else (branch l).r }) (fun _ => rfl) w i
  have hr : ∀ l, ratio { branch l with shift := 0, r := if alg = 3 then 0 else (branch l).r } = ratio (branch l) := fun l => by simp [ratio]
  have hb : ∀ l, (Ys { branch l with shift := 0, r := if alg = 3 then 0 else (branch l).r }).im = -seriesB (alg = 3) (branch l) := by
    intro l
    rw [im_Ys, neg_inj, seriesB]
    dsimp only
    by_cases ha : alg = 3
    · simp only [ha, if_true]
      by_cases hx : (branch l).x = 0
      · simp [hx]
      · field_simp
        ring
    · simp [ha]
  refine ((imag_mulVec _ w i).trans e).trans ?_
  simp only [hr, hb, neg_neg]
  congr 2
  · refine Finset.sum_congr rfl fun l hl => ?_
    rw [Finset.mem_filter] at hl
    rw [hl.2]
    ring
  · refine Finset.sum_congr rfl fun l hl => ?_
    rw [Finset.mem_filter] at hl
    rw [hl.2]
    ring

end Verif.Network
