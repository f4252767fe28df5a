import Mathlib.Analysis.Calculus.Deriv.Add
import Mathlib.Analysis.Calculus.Deriv.Mul
import Mathlib.Analysis.Calculus.Deriv.Star
import Mathlib.Analysis.Calculus.Deriv.Comp
import Mathlib.Tactic.Ring
import Mathlib.Tactic.LinearCombination
import Mathlib.Tactic.FieldSimp
import Verif.Derivs.Model
import Verif.Derivs.Spec

/-!
# Lemmas on the derivatives
-/

open Matrix ComplexConjugate

namespace Verif.Derivs

set_option linter.unusedSectionVars false

noncomputable section

variable {B L : Type*} [Fintype B] [Fintype L] [DecidableEq B] [DecidableEq L]

theorem volt_norm (m a : B → ℝ) (hm : ∀ b, 0 < m b) (b : B) : ‖volt m a b‖ = m b := by
  unfold volt
  rw [norm_mul, mul_comm Complex.I, Complex.norm_exp_ofReal_mul_I, mul_one, Complex.norm_real, Real.norm_of_nonneg (hm b).le]

theorem volt_ne (m a : B → ℝ) (hm : ∀ b, 0 < m b) (b : B) : volt m a b ≠ 0 := by
  intro h
  have := volt_norm m a hm b
  rw [h, norm_zero] at this
  exact (hm b).ne this

theorem Vnorm_volt (m a : B → ℝ) (hm : ∀ b, 0 < m b) (b : B) : Vnorm (volt m a) b = Complex.exp (Complex.I * (a b : ℂ)) := by
  unfold Vnorm
  rw [volt_norm m a hm b]
  unfold volt
  have : (m b : ℂ) ≠ 0 := by exact_mod_cast (hm b).ne'
  field_simp

theorem conj_deriv {f : ℝ → ℂ} {f' : ℂ} {t : ℝ} (h : HasDerivAt f f' t) : HasDerivAt (fun t => conj (f t)) (conj f') t := h.star

theorem re_deriv {f : ℝ → ℂ} {f' : ℂ} {t : ℝ} (h : HasDerivAt f f' t) : HasDerivAt (fun t => (f t).re) f'.re t := by
  have := (Complex.reCLM.hasFDerivAt (x := f t)).comp_hasDerivAt t h
  exact this

theorem im_deriv {f : ℝ → ℂ} {f' : ℂ} {t : ℝ} (h : HasDerivAt f f' t) : HasDerivAt (fun t => (f t).im) f'.im t := by
  have := (Complex.imCLM.hasFDerivAt (x := f t)).comp_hasDerivAt t h
  exact this

theorem expI_deriv (x : ℝ) : HasDerivAt (fun t : ℝ => Complex.exp (Complex.I * (t : ℂ))) (Complex.I * Complex.exp (Complex.I * (x : ℂ))) x := by
  have h : HasDerivAt (fun t : ℝ => Complex.I * (t : ℂ)) (Complex.I * 1) x := (Complex.ofRealCLM.hasDerivAt (x := x)).const_mul _
  have := h.cexp
  exact this.congr_deriv (by ring)

/-- A curve of voltages (and of directions of unit length) all of whose components are constant except that of bus `k`. -/
structure Curve (V N : ℝ → B → ℂ) (k : B) (v w : ℂ) (t : ℝ) : Prop where
  dV : ∀ b, HasDerivAt (fun s => V s b) (if b = k then v else 0) t
  dN : ∀ b, HasDerivAt (fun s => N s b) (if b = k then w else 0) t

theorem volt_curve_a (m a : B → ℝ) (k b : B) :
    HasDerivAt (fun t => volt m (Function.update a k t) b) (if b = k then Complex.I * volt m a k else 0) (a k) := by
  unfold volt
  by_cases h : b = k
  · subst h
    simp only [Function.update_self, if_true]
    exact ((expI_deriv (a b)).const_mul _).congr_deriv (by ring)
  · simp only [Function.update_of_ne h, if_neg h]
    exact hasDerivAt_const _ _

theorem dir_curve_a (m a : B → ℝ) (hm : ∀ b, 0 < m b) (k b : B) :
    HasDerivAt (fun t => Vnorm (volt m (Function.update a k t)) b) (if b = k then Complex.I * Vnorm (volt m a) k else 0) (a k) := by
  simp only [Vnorm_volt m _ hm]
  by_cases h : b = k
  · subst h
    simp only [Function.update_self, if_true]
    exact expI_deriv _
  · simp only [Function.update_of_ne h, if_neg h]
    exact hasDerivAt_const _ _

theorem volt_curve_m (m a : B → ℝ) (hm : ∀ b, 0 < m b) (k b : B) :
    HasDerivAt (fun t => volt (Function.update m k t) a b) (if b = k then Vnorm (volt m a) k else 0) (m k) := by
  rw [Vnorm_volt m a hm]
  unfold volt
  by_cases h : b = k
  · subst h
    simp only [Function.update_self, if_true]
    have h1 : HasDerivAt (fun t : ℝ => (t : ℂ)) 1 (m b) := Complex.ofRealCLM.hasDerivAt
    exact (h1.mul_const _).congr_deriv (by ring)
  · simp only [Function.update_of_ne h, if_neg h]
    exact hasDerivAt_const _ _

theorem dir_curve_m (m a : B → ℝ) (hm : ∀ b, 0 < m b) (k b : B) :
    HasDerivAt (fun t => Vnorm (volt (Function.update m k t) a) b) (if b = k then 0 else 0) (m k) := by
  have hev : (fun t => Vnorm (volt (Function.update m k t) a) b) =ᶠ[nhds (m k)] fun _ => Complex.exp (Complex.I * (a b : ℂ)) := by
    filter_upwards [lt_mem_nhds (hm k)] with t ht
    apply Vnorm_volt
    intro c
    by_cases h : c = k
    · subst h; simpa using ht
    · simpa [Function.update_of_ne h] using hm c
  rw [ite_self]
  exact (hasDerivAt_const _ _).congr_of_eventuallyEq hev

theorem curve_a (m a : B → ℝ) (hm : ∀ b, 0 < m b) (k : B) :
    Curve (fun t => volt m (Function.update a k t)) (fun t => Vnorm (volt m (Function.update a k t))) k
      (Complex.I * volt m a k) (Complex.I * Vnorm (volt m a) k) (a k) :=
  ⟨volt_curve_a m a k, dir_curve_a m a hm k⟩

theorem curve_m (m a : B → ℝ) (hm : ∀ b, 0 < m b) (k : B) :
    Curve (fun t => volt (Function.update m k t) a) (fun t => Vnorm (volt (Function.update m k t) a)) k (Vnorm (volt m a) k) 0 (m k) :=
  ⟨volt_curve_m m a hm k, dir_curve_m m a hm k⟩

/-- A linear form along a curve. -/
theorem lin_deriv {V N : ℝ → B → ℂ} {k : B} {v w : ℂ} {t : ℝ} (h : Curve V N k v w t) (y : B → ℂ) :
    HasDerivAt (fun s => ∑ b, y b * V s b) (y k * v) t := by
  have h1 : HasDerivAt (fun s => ∑ b, y b * V s b) (∑ b, y b * if b = k then v else 0) t :=
    HasDerivAt.fun_sum fun b _ => (h.dV b).const_mul (y b)
  exact h1.congr_deriv (by simp)

theorem mulVec_deriv {M : Type*} {V N : ℝ → B → ℂ} {k : B} {v w : ℂ} {t : ℝ} (h : Curve V N k v w t) (Y : Matrix M B ℂ) (l : M) :
    HasDerivAt (fun s => (Y *ᵥ V s) l) (Y l k * v) t := lin_deriv h (Y l)

/-- An antilinear form along a curve. -/
theorem conjlin_deriv {V N : ℝ → B → ℂ} {k : B} {v w : ℂ} {t : ℝ} (h : Curve V N k v w t) (y : B → ℂ) :
    HasDerivAt (fun s => ∑ b, y b * conj (V s b)) (y k * conj v) t := by
  have h1 : HasDerivAt (fun s => ∑ b, y b * conj (V s b)) (∑ b, y b * conj (if b = k then v else 0)) t :=
    HasDerivAt.fun_sum fun b _ => (conj_deriv (h.dV b)).const_mul (y b)
  refine h1.congr_deriv ?_
  rw [Finset.sum_eq_single k] <;> simp +contextual

/-! ## Entries of the first-derivative matrices -/

theorem dSbus_dVa_apply (Y : Matrix B B ℂ) (V : B → ℂ) (i j : B) :
    dSbus_dVa Y V i j = Complex.I * V i * conj ((if i = j then (Y *ᵥ V) i else 0) - Y i j * V j) := by
  simp [dSbus_dVa, Matrix.diagonal_mul, Matrix.mul_diagonal, Matrix.diagonal_apply, Matrix.smul_apply, mul_assoc]

theorem dSbus_dVm_apply (Y : Matrix B B ℂ) (V : B → ℂ) (i j : B) :
    dSbus_dVm Y V i j = V i * conj (Y i j * Vnorm V j) + (if i = j then conj ((Y *ᵥ V) i) * Vnorm V i else 0) := by
  by_cases h : i = j
  · subst h; simp [dSbus_dVm, Matrix.diagonal_mul, Matrix.mul_diagonal]
  · simp [dSbus_dVm, Matrix.diagonal_mul, Matrix.mul_diagonal, h]

theorem dSbr_dVa_apply (f : L → B) (Y : Matrix L B ℂ) (V : B → ℂ) (l : L) (j : B) :
    dSbr_dVa f Y V l j = Complex.I * (conj ((Y *ᵥ V) l) * (if f l = j then V (f l) else 0) - V (f l) * conj (Y l j * V j)) := by
  have hd : (diagonal (Y *ᵥ V)).map (conj : ℂ → ℂ) = diagonal fun l => conj ((Y *ᵥ V) l) := by
    rw [Matrix.diagonal_map (by simp)]
  simp [dSbr_dVa, hd, Matrix.diagonal_mul, Matrix.mul_diagonal, pick]

theorem dSbr_dVm_apply (f : L → B) (Y : Matrix L B ℂ) (V : B → ℂ) (l : L) (j : B) :
    dSbr_dVm f Y V l j = V (f l) * conj (Y l j * Vnorm V j) + conj ((Y *ᵥ V) l) * (if f l = j then Vnorm V (f l) else 0) := by
  have hd : (diagonal (Y *ᵥ V)).map (conj : ℂ → ℂ) = diagonal fun l => conj ((Y *ᵥ V) l) := by
    rw [Matrix.diagonal_map (by simp)]
  simp [dSbr_dVm, hd, Matrix.diagonal_mul, Matrix.mul_diagonal, pick]

theorem dIbr_dVa_apply (Y : Matrix L B ℂ) (V : B → ℂ) (l : L) (j : B) : dIbr_dVa Y V l j = Complex.I * Y l j * V j := by
  simp [dIbr_dVa, Matrix.mul_diagonal]

theorem dIbr_dVm_apply (Y : Matrix L B ℂ) (V : B → ℂ) (l : L) (j : B) : dIbr_dVm Y V l j = Y l j * Vnorm V j := by
  simp [dIbr_dVm, Matrix.mul_diagonal]

theorem dAbr_apply (dS : Matrix L B ℂ) (S : L → ℂ) (l : L) (j : B) :
    dAbr dS S l j = 2 * (S l).re * (dS l j).re + 2 * (S l).im * (dS l j).im := by
  simp [dAbr, Matrix.diagonal_mul]

/-! ## The Hermitian form `V^H A V` -/

/-- `Σ_l lam_l (C V)_l conj((Y V)_l)` derived with respect to the angle of bus `j`. -/
def Ta (A : Matrix B B ℂ) (V : B → ℂ) (j : B) : ℂ :=
  Complex.I * ((∑ i, A i j * conj (V i)) * V j - conj (V j) * ∑ i, A j i * V i)

def Tm (A : Matrix B B ℂ) (V N : B → ℂ) (j : B) : ℂ :=
  conj (N j) * (∑ i, A j i * V i) + (∑ i, A i j * conj (V i)) * N j

theorem Ta_deriv {V N : ℝ → B → ℂ} {k : B} {v w : ℂ} {t : ℝ} (h : Curve V N k v w t) (A : Matrix B B ℂ) (j : B) :
    HasDerivAt (fun s => Ta A (V s) j)
      (Complex.I * (A k j * conj v * V t j + (if j = k then (∑ i, A i j * conj (V t i)) * v - conj v * ∑ i, A j i * V t i else 0)
        - conj (V t j) * (A j k * v))) t := by
  have h1 := conjlin_deriv h (fun i => A i j)
  have h2 := lin_deriv h (fun i => A j i)
  have h3 := h.dV j
  have h4 := ((h1.fun_mul h3).fun_sub ((conj_deriv h3).fun_mul h2)).const_mul Complex.I
  refine h4.congr_deriv ?_
  by_cases hj : j = k
  · subst hj; simp only [if_true]; ring
  · simp only [if_neg hj, map_zero]; ring

theorem Tm_deriv {V N : ℝ → B → ℂ} {k : B} {v w : ℂ} {t : ℝ} (h : Curve V N k v w t) (A : Matrix B B ℂ) (j : B) :
    HasDerivAt (fun s => Tm A (V s) (N s) j)
      ((if j = k then conj w * (∑ i, A j i * V t i) + (∑ i, A i j * conj (V t i)) * w else 0)
        + conj (N t j) * (A j k * v) + A k j * conj v * N t j) t := by
  have h1 := conjlin_deriv h (fun i => A i j)
  have h2 := lin_deriv h (fun i => A j i)
  have h3 := h.dN j
  have h4 := ((conj_deriv h3).fun_mul h2).fun_add (h1.fun_mul h3)
  refine h4.congr_deriv ?_
  by_cases hj : j = k
  · subst hj; simp only [if_true]; ring
  · simp only [if_neg hj, map_zero]; ring

/-! ## Entries of the second-derivative matrices -/

theorem brA_apply (C Y : Matrix L B ℂ) (lam : L → ℂ) (j k : B) : brA C Y lam j k = ∑ l, conj (Y l j) * lam l * C l k := by
  rw [brA, Matrix.mul_apply]
  simp only [Matrix.mul_diagonal, Matrix.conjTranspose_apply]
  rfl

theorem brA_left (f : L → B) (Y : Matrix L B ℂ) (lam : L → ℂ) (V : B → ℂ) (j : B) :
    ∑ i, brA (conn f) Y lam i j * conj (V i) = ∑ l, lam l * (if f l = j then conj ((Y *ᵥ V) l) else 0) := by
  simp only [brA_apply, conn, Matrix.of_apply, Finset.sum_mul]
  rw [Finset.sum_comm]
  refine Finset.sum_congr rfl fun l _ => ?_
  by_cases h : f l = j
  · simp only [h, if_true, Matrix.mulVec, dotProduct, map_sum, map_mul, Finset.mul_sum]
    exact Finset.sum_congr rfl fun i _ => by ring
  · simp [h]

theorem brA_right (f : L → B) (Y : Matrix L B ℂ) (lam : L → ℂ) (V : B → ℂ) (j : B) :
    ∑ i, brA (conn f) Y lam j i * V i = ∑ l, lam l * (conj (Y l j) * V (f l)) := by
  simp only [brA_apply, conn, Matrix.of_apply, Finset.sum_mul]
  rw [Finset.sum_comm]
  refine Finset.sum_congr rfl fun l _ => ?_
  rw [Finset.sum_eq_single (f l)]
  · simp only [if_true]; ring
  · intro b _ hb; simp [hb.symm]
  · simp

theorem weighted_dVa (f : L → B) (Y : Matrix L B ℂ) (lam : L → ℂ) (V : B → ℂ) (j : B) :
    ∑ l, lam l * dSbr_dVa f Y V l j = Ta (brA (conn f) Y lam) V j := by
  unfold Ta
  rw [brA_left, brA_right, Finset.sum_mul, Finset.mul_sum, ← Finset.sum_sub_distrib, Finset.mul_sum]
  refine Finset.sum_congr rfl fun l _ => ?_
  rw [dSbr_dVa_apply, map_mul]
  by_cases h : f l = j
  · simp only [h, if_true]; ring
  · simp only [h, if_false]; ring

theorem weighted_dVm (f : L → B) (Y : Matrix L B ℂ) (lam : L → ℂ) (V : B → ℂ) (j : B) :
    ∑ l, lam l * dSbr_dVm f Y V l j = Tm (brA (conn f) Y lam) V (Vnorm V) j := by
  unfold Tm
  rw [brA_left, brA_right, Finset.sum_mul, Finset.mul_sum, ← Finset.sum_add_distrib]
  refine Finset.sum_congr rfl fun l _ => ?_
  rw [dSbr_dVm_apply, map_mul]
  by_cases h : f l = j
  · simp only [h, if_true]; ring
  · simp only [h, if_false]; ring

theorem Vnorm_eq (V : B → ℂ) (b : B) : Vnorm V b = ((1 / ‖V b‖ : ℝ) : ℂ) * V b := by
  unfold Vnorm
  push_cast
  ring

theorem conj_Vnorm (V : B → ℂ) (b : B) : conj (Vnorm V b) = ((1 / ‖V b‖ : ℝ) : ℂ) * conj (V b) := by
  rw [Vnorm_eq, map_mul, Complex.conj_ofReal]

theorem brB_apply (A : Matrix B B ℂ) (V : B → ℂ) (j k : B) : brB A V j k = conj (V j) * A j k * V k := by
  have hd : (diagonal V).map (conj : ℂ → ℂ) = diagonal fun l => conj (V l) := by
    rw [Matrix.diagonal_map (by simp)]
  simp [brB, hd, Matrix.mul_diagonal, Matrix.diagonal_mul]

theorem brD_apply (A : Matrix B B ℂ) (V : B → ℂ) (j k : B) :
    brD A V j k = if j = k then (∑ i, A j i * V i) * conj (V j) else 0 := by
  simp only [brD, Matrix.diagonal_apply, Matrix.mulVec, dotProduct]

theorem brE_apply (A : Matrix B B ℂ) (V : B → ℂ) (j k : B) :
    brE A V j k = if j = k then (∑ i, A i j * conj (V i)) * V j else 0 := by
  simp only [brE, Matrix.diagonal_apply, Matrix.mulVec, dotProduct, Matrix.transpose_apply]

theorem brHva_apply (C Y : Matrix L B ℂ) (V : B → ℂ) (lam : L → ℂ) (j k : B) :
    brHva C Y V lam j k = Complex.I * ((1 / ‖V j‖ : ℝ) : ℂ) * (brB (brA C Y lam) V j k - brB (brA C Y lam) V k j
      - brD (brA C Y lam) V j k + brE (brA C Y lam) V j k) := by
  simp [brHva, Ginv, Matrix.diagonal_mul, mul_assoc]

theorem brHvv_apply (C Y : Matrix L B ℂ) (V : B → ℂ) (lam : L → ℂ) (j k : B) :
    brHvv C Y V lam j k = ((1 / ‖V j‖ : ℝ) : ℂ) * (brB (brA C Y lam) V j k + brB (brA C Y lam) V k j) * ((1 / ‖V k‖ : ℝ) : ℂ) := by
  simp [brHvv, brF, Ginv, Matrix.diagonal_mul, Matrix.mul_diagonal]

/-! ## The four second derivatives of weighted branch flows -/

theorem br_aa (f : L → B) (Y : Matrix L B ℂ) (m a : B → ℝ) (hm : ∀ b, 0 < m b) (lam : L → ℂ) (j k : B) :
    PartialVa (fun V => ∑ l, lam l * dSbr_dVa f Y V l j) m a k (brHaa (conn f) Y (volt m a) lam j k) := by
  unfold PartialVa
  simp only [weighted_dVa]
  have h := Ta_deriv (curve_a m a hm k) (brA (conn f) Y lam) j
  refine h.congr_deriv ?_
  simp only [Function.update_eq_self, brHaa, brF, Matrix.sub_apply, Matrix.add_apply, Matrix.transpose_apply, brB_apply, brD_apply, brE_apply,
    map_mul, Complex.conj_I]
  by_cases hj : j = k
  · subst hj
    simp only [if_true]
    linear_combination (-(brA (conn f) Y lam j j * conj (volt m a j) * volt m a j)
      + (∑ i, brA (conn f) Y lam i j * conj (volt m a i)) * volt m a j
      + conj (volt m a j) * (∑ i, brA (conn f) Y lam j i * volt m a i)
      - conj (volt m a j) * brA (conn f) Y lam j j * volt m a j) * Complex.I_mul_I
  · simp only [if_neg hj]
    linear_combination (-(brA (conn f) Y lam k j * conj (volt m a k) * volt m a j)
      - conj (volt m a j) * brA (conn f) Y lam j k * volt m a k) * Complex.I_mul_I

theorem br_va (f : L → B) (Y : Matrix L B ℂ) (m a : B → ℝ) (hm : ∀ b, 0 < m b) (lam : L → ℂ) (j k : B) :
    PartialVa (fun V => ∑ l, lam l * dSbr_dVm f Y V l j) m a k (brHva (conn f) Y (volt m a) lam j k) := by
  unfold PartialVa
  simp only [weighted_dVm]
  have h := Tm_deriv (curve_a m a hm k) (brA (conn f) Y lam) j
  refine h.congr_deriv ?_
  simp only [Function.update_eq_self, brHva_apply, brB_apply, brD_apply, brE_apply, map_mul, Complex.conj_I, Vnorm_eq, Complex.conj_ofReal]
  by_cases hj : j = k
  · subst hj; simp only [if_true]; ring
  · simp only [if_neg hj]; ring

theorem br_av (f : L → B) (Y : Matrix L B ℂ) (m a : B → ℝ) (hm : ∀ b, 0 < m b) (lam : L → ℂ) (j k : B) :
    PartialVm (fun V => ∑ l, lam l * dSbr_dVa f Y V l j) m a k (brHav (conn f) Y (volt m a) lam j k) := by
  unfold PartialVm
  simp only [weighted_dVa]
  have h := Ta_deriv (curve_m m a hm k) (brA (conn f) Y lam) j
  refine h.congr_deriv ?_
  simp only [Function.update_eq_self, brHav, Matrix.transpose_apply, brHva_apply, brB_apply, brD_apply, brE_apply, map_mul, Vnorm_eq,
    Complex.conj_ofReal]
  by_cases hj : j = k
  · subst hj; simp only [if_true]; ring
  · simp only [if_neg hj, if_neg (Ne.symm hj)]; ring

theorem br_vv (f : L → B) (Y : Matrix L B ℂ) (m a : B → ℝ) (hm : ∀ b, 0 < m b) (lam : L → ℂ) (j k : B) :
    PartialVm (fun V => ∑ l, lam l * dSbr_dVm f Y V l j) m a k (brHvv (conn f) Y (volt m a) lam j k) := by
  unfold PartialVm
  simp only [weighted_dVm]
  have h := Tm_deriv (curve_m m a hm k) (brA (conn f) Y lam) j
  refine h.congr_deriv ?_
  simp only [Function.update_eq_self, brHvv_apply, brB_apply, map_mul, map_zero, Vnorm_eq, Complex.conj_ofReal]
  by_cases hj : j = k
  · subst hj; simp only [if_true]; ring
  · simp only [if_neg hj]; ring

/-! ## Bus injections are the flows of a branch per bus -/

theorem bus_dVa (Y : Matrix B B ℂ) (V : B → ℂ) : dSbus_dVa Y V = dSbr_dVa id Y V := by
  ext i j
  rw [dSbus_dVa_apply, dSbr_dVa_apply]
  by_cases h : i = j
  · subst h; simp only [if_true, id, map_sub]; ring
  · simp only [id, if_neg h, map_sub, map_zero]; ring

theorem bus_dVm (Y : Matrix B B ℂ) (V : B → ℂ) : dSbus_dVm Y V = dSbr_dVm id Y V := by
  ext i j
  rw [dSbus_dVm_apply, dSbr_dVm_apply]
  by_cases h : i = j
  · subst h; simp
  · simp [h]

theorem bus_A (Y : Matrix B B ℂ) (lam : B → ℂ) (i j : B) : brA (conn id) Y lam i j = conj (Y j i) * lam j := by
  rw [brA_apply, Finset.sum_eq_single j]
  · simp [conn]
  · intro b _ hb; simp [conn, hb]
  · simp

theorem busC_apply (Y : Matrix B B ℂ) (V lam : B → ℂ) (j k : B) : busC Y V lam j k = lam j * V j * (conj (Y j k) * conj (V k)) := by
  simp [busC, busA, Matrix.diagonal_mul, Matrix.mul_diagonal]

theorem busD_apply (Y : Matrix B B ℂ) (V : B → ℂ) (j k : B) : busD Y V j k = conj (Y k j) * V k := by
  simp [busD, Matrix.mul_diagonal, Matrix.conjTranspose_apply]

theorem busE_apply (Y : Matrix B B ℂ) (V lam : B → ℂ) (j k : B) :
    busE Y V lam j k = conj (V j) * (conj (Y k j) * V k * lam k - if j = k then ∑ i, conj (Y i j) * V i * lam i else 0) := by
  have hd : (diagonal V).map (conj : ℂ → ℂ) = diagonal fun l => conj (V l) := by
    rw [Matrix.diagonal_map (by simp)]
  simp [busE, hd, Matrix.diagonal_mul, Matrix.mul_diagonal, busD_apply, Matrix.diagonal_apply, Matrix.mulVec, dotProduct]

theorem busF_apply (Y : Matrix B B ℂ) (V lam : B → ℂ) (j k : B) :
    busF Y V lam j k = lam j * V j * (conj (Y j k) * conj (V k)) - if j = k then lam j * V j * conj ((Y *ᵥ V) j) else 0 := by
  rw [busF, Matrix.sub_apply, busC_apply, busA, Matrix.diagonal_mul_diagonal, Matrix.diagonal_apply]

theorem bus_E (Y : Matrix B B ℂ) (V lam : B → ℂ) (j k : B) :
    busE Y V lam j k = brB (brA (conn id) Y lam) V j k - brD (brA (conn id) Y lam) V j k := by
  rw [busE_apply, brB_apply, brD_apply, brA_right, bus_A, mul_sub]
  congr 1
  · ring
  · by_cases h : j = k
    · subst h
      simp only [if_true, id, Finset.mul_sum, Finset.sum_mul]
      exact Finset.sum_congr rfl fun i _ => by ring
    · simp [h]

theorem bus_F (Y : Matrix B B ℂ) (V lam : B → ℂ) (j k : B) :
    busF Y V lam j k = brB (brA (conn id) Y lam) V k j - brE (brA (conn id) Y lam) V j k := by
  rw [busF_apply, brB_apply, brE_apply, brA_left, bus_A]
  congr 1
  · ring
  · by_cases h : j = k
    · subst h
      simp only [if_true, id]
      rw [Finset.sum_eq_single j]
      · simp only [if_true]; ring
      · intro b _ hb; simp [hb]
      · simp
    · simp [h]

theorem bus_aa (Y : Matrix B B ℂ) (V lam : B → ℂ) : busGaa Y V lam = brHaa (conn id) Y V lam := by
  ext j k
  simp only [busGaa, brHaa, brF, Matrix.add_apply, Matrix.sub_apply, Matrix.transpose_apply, bus_E, bus_F]
  ring

theorem bus_va (Y : Matrix B B ℂ) (V lam : B → ℂ) : busGva Y V lam = brHva (conn id) Y V lam := by
  unfold busGva brHva
  congr 1
  ext j k
  simp only [Matrix.add_apply, Matrix.sub_apply, Matrix.transpose_apply, bus_E, bus_F]
  ring

theorem bus_vv (Y : Matrix B B ℂ) (V lam : B → ℂ) : busGvv Y V lam = brHvv (conn id) Y V lam := by
  unfold busGvv brHvv brF
  congr 2
  ext j k
  simp only [Matrix.add_apply, Matrix.transpose_apply, busC_apply, brB_apply, bus_A]
  ring

/-! ## Currents -/

theorem ib_weighted_dVa (Y : Matrix L B ℂ) (lam : L → ℂ) (V : B → ℂ) (j : B) :
    ∑ l, lam l * dIbr_dVa Y V l j = Complex.I * (Yᵀ *ᵥ lam) j * V j := by
  simp only [dIbr_dVa_apply, Matrix.mulVec, dotProduct, Matrix.transpose_apply, Finset.mul_sum, Finset.sum_mul]
  exact Finset.sum_congr rfl fun i _ => by ring

theorem ib_weighted_dVm (Y : Matrix L B ℂ) (lam : L → ℂ) (V : B → ℂ) (j : B) :
    ∑ l, lam l * dIbr_dVm Y V l j = (Yᵀ *ᵥ lam) j * Vnorm V j := by
  simp only [dIbr_dVm_apply, Matrix.mulVec, dotProduct, Matrix.transpose_apply, Finset.sum_mul]
  exact Finset.sum_congr rfl fun i _ => by ring

/-! ## Squared magnitudes -/

/-- From the weighted derivative of a family to the derivative of each member. -/
theorem each_of_weighted {g : ℝ → L → ℂ} {H : (L → ℂ) → ℂ} {t : ℝ}
    (h : ∀ lam : L → ℂ, HasDerivAt (fun s => ∑ l, lam l * g s l) (H lam) t) :
    ∃ g' : L → ℂ, (∀ l, HasDerivAt (fun s => g s l) (g' l) t) ∧ ∀ lam, H lam = ∑ l, lam l * g' l := by
  have hg : ∀ l, HasDerivAt (fun s => g s l) (H (Pi.single l 1)) t := by
    intro l
    have := h (Pi.single l 1)
    refine this.congr_of_eventuallyEq (Filter.Eventually.of_forall fun s => ?_)
    show g s l = ∑ l', (Pi.single l 1 : L → ℂ) l' * g s l'
    rw [Finset.sum_eq_single l]
    · simp
    · intro b _ hb; simp [hb]
    · simp
  refine ⟨fun l => H (Pi.single l 1), hg, fun lam => ?_⟩
  exact (h lam).unique (HasDerivAt.fun_sum fun l _ => (hg l).const_mul (lam l))

theorem sqH_apply (H : Matrix B B ℂ) (dX dY : Matrix L B ℂ) (lam : L → ℝ) (j k : B) :
    sqH H dX dY lam j k = 2 * (H j k + ∑ l, dX l j * (lam l : ℂ) * conj (dY l k)).re := by
  rw [sqH, Matrix.smul_apply, Matrix.map_apply, Matrix.add_apply, Matrix.mul_apply]
  simp only [Matrix.mul_diagonal, Matrix.transpose_apply, Matrix.map_apply, smul_eq_mul]

theorem conjTimes_apply (S : L → ℂ) (lam : L → ℝ) (l : L) : conjTimes S lam l = conj (S l) * lam l := by
  simp [conjTimes, Matrix.mulVec_diagonal]

/-- The generic squared-magnitude rule: `S` has derivative `S'` along the curve, `g` is the weighted family whose derivative is `H`. -/
theorem sq_deriv {S g : ℝ → L → ℂ} {S' : L → ℂ} {H : (L → ℂ) → ℂ} {t : ℝ} (lam : L → ℝ)
    (hS : ∀ l, HasDerivAt (fun s => S s l) (S' l) t) (h : ∀ w : L → ℂ, HasDerivAt (fun s => ∑ l, w l * g s l) (H w) t) :
    HasDerivAt (fun s => ∑ l, lam l * (2 * (S s l).re * (g s l).re + 2 * (S s l).im * (g s l).im))
      (2 * (H (conjTimes (S t) lam) + ∑ l, g t l * (lam l : ℂ) * conj (S' l)).re) t := by
  obtain ⟨g', hg, hH⟩ := each_of_weighted h
  have h1 : HasDerivAt (fun s => ∑ l, lam l * (2 * (S s l).re * (g s l).re + 2 * (S s l).im * (g s l).im))
      (∑ l, lam l * ((2 * (S' l).re * (g t l).re + 2 * (S t l).re * (g' l).re) + (2 * (S' l).im * (g t l).im + 2 * (S t l).im * (g' l).im))) t :=
    HasDerivAt.fun_sum fun l _ => ((((re_deriv (hS l)).const_mul 2).fun_mul (re_deriv (hg l))).fun_add
      (((im_deriv (hS l)).const_mul 2).fun_mul (im_deriv (hg l)))).const_mul (lam l)
  refine h1.congr_deriv ?_
  rw [hH, ← Finset.sum_add_distrib, Complex.re_sum, Finset.mul_sum]
  refine Finset.sum_congr rfl fun l _ => ?_
  simp only [conjTimes_apply, Complex.add_re, Complex.mul_re, Complex.mul_im, Complex.conj_re, Complex.conj_im, Complex.ofReal_re, Complex.ofReal_im]
  ring

end

end Verif.Derivs
