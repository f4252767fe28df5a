import Mathlib.Analysis.SpecialFunctions.Complex.Arg
import Verif.Derivs.Lemmas

/-!
# C58, C59, C60: the derivative routines return the derivatives
-/

open Matrix ComplexConjugate

namespace Verif.Derivs

set_option linter.unusedSectionVars false

noncomputable section

variable {B L : Type*} [Fintype B] [Fintype L] [DecidableEq B] [DecidableEq L]

/-- Every voltage vector is of the polar form used in the statements below. -/
theorem volt_polar (V : B → ℂ) : volt (fun b => ‖V b‖) (fun b => (V b).arg) = V := by
  funext b
  unfold volt
  rw [mul_comm Complex.I]
  exact Complex.norm_mul_exp_arg_mul_I (V b)

/-! ## First derivatives -/

/-- Complex bus injections `S_i(V) = V_i conj((Ybus V)_i)`. -/
def busInjection (Y : Matrix B B ℂ) (V : B → ℂ) (i : B) : ℂ := V i * conj (∑ j, Y i j * V j)

/-- Complex power entering branch `l` at its bus `f l`, with branch admittance matrix `Yf`. -/
def branchFlow (f : L → B) (Yf : Matrix L B ℂ) (V : B → ℂ) (l : L) : ℂ := V (f l) * conj (∑ j, Yf l j * V j)

/-- Complex current entering branch `l`, with branch admittance matrix `Yf`. -/
def branchCurrent (Yf : Matrix L B ℂ) (V : B → ℂ) (l : L) : ℂ := ∑ j, Yf l j * V j

theorem flow_deriv (f : L → B) (Y : Matrix L B ℂ) {V N : ℝ → B → ℂ} {k : B} {v w : ℂ} {t : ℝ} (h : Curve V N k v w t) (l : L) :
    HasDerivAt (fun s => branchFlow f Y (V s) l) ((if f l = k then v else 0) * conj (∑ j, Y l j * V t j) + V t (f l) * conj (Y l k * v)) t :=
  (h.dV (f l)).fun_mul (conj_deriv (lin_deriv h (Y l)))

theorem flow_dVa (f : L → B) (Y : Matrix L B ℂ) (m a : B → ℝ) (hm : ∀ b, 0 < m b) (l : L) (k : B) :
    PartialVa (fun V => branchFlow f Y V l) m a k (dSbr_dVa f Y (volt m a) l k) := by
  refine (flow_deriv f Y (curve_a m a hm k) l).congr_deriv ?_
  simp only [Function.update_eq_self, dSbr_dVa_apply, Matrix.mulVec, dotProduct, map_mul, Complex.conj_I]
  by_cases h : f l = k
  · simp only [h, if_true]; ring
  · simp only [h, if_false]; ring

theorem flow_dVm (f : L → B) (Y : Matrix L B ℂ) (m a : B → ℝ) (hm : ∀ b, 0 < m b) (l : L) (k : B) :
    PartialVm (fun V => branchFlow f Y V l) m a k (dSbr_dVm f Y (volt m a) l k) := by
  refine (flow_deriv f Y (curve_m m a hm k) l).congr_deriv ?_
  simp only [Function.update_eq_self, dSbr_dVm_apply, Matrix.mulVec, dotProduct, map_mul]
  by_cases h : f l = k
  · simp only [h, if_true]; ring
  · simp only [h, if_false]; ring

/-- **C58.** The matrices returned by `dSbus_dV` are the partial derivatives of every bus injection with respect to every magnitude and angle. -/
theorem C58 (Y : Matrix B B ℂ) (m a : B → ℝ) (hm : ∀ b, 0 < m b) (i k : B) :
    PartialVm (fun V => busInjection Y V i) m a k (dSbus_dVm Y (volt m a) i k) ∧
    PartialVa (fun V => busInjection Y V i) m a k (dSbus_dVa Y (volt m a) i k) := by
  rw [bus_dVa, bus_dVm]
  exact ⟨flow_dVm id Y m a hm i k, flow_dVa id Y m a hm i k⟩

/-- The hypothesis of C58 is met by every nonzero voltage vector. -/
example (V : B → ℂ) (h : ∀ b, V b ≠ 0) : ∃ m a : B → ℝ, (∀ b, 0 < m b) ∧ volt m a = V :=
  ⟨_, _, fun b => norm_pos_iff.2 (h b), volt_polar V⟩

/-- **C59**, power: the flow returned is the branch flow and the matrices returned by `dSbr_dV` are its partial derivatives. -/
theorem C59_power (f : L → B) (Yf : Matrix L B ℂ) (m a : B → ℝ) (hm : ∀ b, 0 < m b) (l : L) (k : B) :
    Sbr f Yf (volt m a) l = branchFlow f Yf (volt m a) l ∧
    PartialVa (fun V => branchFlow f Yf V l) m a k (dSbr_dVa f Yf (volt m a) l k) ∧
    PartialVm (fun V => branchFlow f Yf V l) m a k (dSbr_dVm f Yf (volt m a) l k) :=
  ⟨rfl, flow_dVa f Yf m a hm l k, flow_dVm f Yf m a hm l k⟩

/-- **C59**, current: the same for `dIbr_dV`. -/
theorem C59_current (Yf : Matrix L B ℂ) (m a : B → ℝ) (hm : ∀ b, 0 < m b) (l : L) (k : B) :
    Ibr Yf (volt m a) l = branchCurrent Yf (volt m a) l ∧
    PartialVa (fun V => branchCurrent Yf V l) m a k (dIbr_dVa Yf (volt m a) l k) ∧
    PartialVm (fun V => branchCurrent Yf V l) m a k (dIbr_dVm Yf (volt m a) l k) := by
  refine ⟨rfl, ?_, ?_⟩
  · refine (lin_deriv (curve_a m a hm k) (Yf l)).congr_deriv ?_
    rw [dIbr_dVa_apply]; ring
  · refine (lin_deriv (curve_m m a hm k) (Yf l)).congr_deriv ?_
    rw [dIbr_dVm_apply]

/-- The squared-magnitude rule of `dAbr_dV`, along any curve. -/
theorem sqmag_deriv {S : ℝ → ℂ} {S' : ℂ} {t : ℝ} (h : HasDerivAt S S' t) :
    HasDerivAt (fun s => ‖S s‖ ^ 2) (2 * (S t).re * S'.re + 2 * (S t).im * S'.im) t := by
  have he : (fun s => ‖S s‖ ^ 2) = fun s => (S s).re * (S s).re + (S s).im * (S s).im := by
    funext s; rw [← Complex.normSq_eq_norm_sq, Complex.normSq_apply]
  rw [he]
  exact (((re_deriv h).fun_mul (re_deriv h)).fun_add ((im_deriv h).fun_mul (im_deriv h))).congr_deriv (by ring)

/-- **C59**, squared magnitudes of power: `dAbr_dV` applied to the results of `dSbr_dV` returns the derivatives of `|S|^2`. -/
theorem C59_sq_power (f : L → B) (Yf : Matrix L B ℂ) (m a : B → ℝ) (hm : ∀ b, 0 < m b) (l : L) (k : B) :
    PartialVa (fun V => ‖branchFlow f Yf V l‖ ^ 2) m a k (dAbr (dSbr_dVa f Yf (volt m a)) (Sbr f Yf (volt m a)) l k) ∧
    PartialVm (fun V => ‖branchFlow f Yf V l‖ ^ 2) m a k (dAbr (dSbr_dVm f Yf (volt m a)) (Sbr f Yf (volt m a)) l k) := by
  constructor
  · refine (sqmag_deriv (flow_dVa f Yf m a hm l k)).congr_deriv ?_
    simp only [Function.update_eq_self, dAbr_apply]; rfl
  · refine (sqmag_deriv (flow_dVm f Yf m a hm l k)).congr_deriv ?_
    simp only [Function.update_eq_self, dAbr_apply]; rfl

/-- **C59**, squared magnitudes of current. -/
theorem C59_sq_current (Yf : Matrix L B ℂ) (m a : B → ℝ) (hm : ∀ b, 0 < m b) (l : L) (k : B) :
    PartialVa (fun V => ‖branchCurrent Yf V l‖ ^ 2) m a k (dAbr (dIbr_dVa Yf (volt m a)) (Ibr Yf (volt m a)) l k) ∧
    PartialVm (fun V => ‖branchCurrent Yf V l‖ ^ 2) m a k (dAbr (dIbr_dVm Yf (volt m a)) (Ibr Yf (volt m a)) l k) := by
  obtain ⟨-, ha, hv⟩ := C59_current Yf m a hm l k
  constructor
  · refine (sqmag_deriv ha).congr_deriv ?_
    simp only [Function.update_eq_self, dAbr_apply]; rfl
  · refine (sqmag_deriv hv).congr_deriv ?_
    simp only [Function.update_eq_self, dAbr_apply]; rfl

/-- **C59**, real power: with the real parts of the sensitivities and of the flow (`OPF_FLOW_LIM == 1`), `dAbr_dV` returns the derivatives of `P^2`. -/
theorem C59_sq_real (f : L → B) (Yf : Matrix L B ℂ) (m a : B → ℝ) (hm : ∀ b, 0 < m b) (l : L) (k : B) :
    PartialVa (fun V => (branchFlow f Yf V l).re ^ 2) m a k
      (dAbr ((dSbr_dVa f Yf (volt m a)).map fun z => (z.re : ℂ)) (fun l => ((Sbr f Yf (volt m a) l).re : ℂ)) l k) ∧
    PartialVm (fun V => (branchFlow f Yf V l).re ^ 2) m a k
      (dAbr ((dSbr_dVm f Yf (volt m a)).map fun z => (z.re : ℂ)) (fun l => ((Sbr f Yf (volt m a) l).re : ℂ)) l k) := by
  have key : ∀ {S : ℝ → ℂ} {S' : ℂ} {t : ℝ}, HasDerivAt S S' t → HasDerivAt (fun s => (S s).re ^ 2) (2 * (S t).re * S'.re) t := by
    intro S S' t h
    simp only [pow_two]
    exact ((re_deriv h).fun_mul (re_deriv h)).congr_deriv (by ring)
  constructor
  · refine (key (flow_dVa f Yf m a hm l k)).congr_deriv ?_
    simp [dAbr_apply]; left; rfl
  · refine (key (flow_dVm f Yf m a hm l k)).congr_deriv ?_
    simp [dAbr_apply]; left; rfl

/-! ## Second derivatives -/

/-- **C60**, bus injections: `d2Sbus_dV2(Ybus, V, lam)` returns the partial derivatives of the `lam`-weighted first derivatives. -/
theorem C60_bus (Y : Matrix B B ℂ) (m a : B → ℝ) (hm : ∀ b, 0 < m b) (lam : B → ℂ) (j k : B) :
    PartialVa (fun V => ∑ i, lam i * dSbus_dVa Y V i j) m a k (busGaa Y (volt m a) lam j k) ∧
    PartialVm (fun V => ∑ i, lam i * dSbus_dVa Y V i j) m a k (busGav Y (volt m a) lam j k) ∧
    PartialVa (fun V => ∑ i, lam i * dSbus_dVm Y V i j) m a k (busGva Y (volt m a) lam j k) ∧
    PartialVm (fun V => ∑ i, lam i * dSbus_dVm Y V i j) m a k (busGvv Y (volt m a) lam j k) := by
  simp only [bus_dVa, bus_dVm, bus_aa, bus_va, bus_vv, busGav]
  exact ⟨br_aa id Y m a hm lam j k, br_av id Y m a hm lam j k, br_va id Y m a hm lam j k, br_vv id Y m a hm lam j k⟩

/-- **C60**, branch flows: the same for `d2Sbr_dV2` with the connection matrix of the branch ends. -/
theorem C60_flow (f : L → B) (Y : Matrix L B ℂ) (m a : B → ℝ) (hm : ∀ b, 0 < m b) (lam : L → ℂ) (j k : B) :
    PartialVa (fun V => ∑ l, lam l * dSbr_dVa f Y V l j) m a k (brHaa (conn f) Y (volt m a) lam j k) ∧
    PartialVm (fun V => ∑ l, lam l * dSbr_dVa f Y V l j) m a k (brHav (conn f) Y (volt m a) lam j k) ∧
    PartialVa (fun V => ∑ l, lam l * dSbr_dVm f Y V l j) m a k (brHva (conn f) Y (volt m a) lam j k) ∧
    PartialVm (fun V => ∑ l, lam l * dSbr_dVm f Y V l j) m a k (brHvv (conn f) Y (volt m a) lam j k) :=
  ⟨br_aa f Y m a hm lam j k, br_av f Y m a hm lam j k, br_va f Y m a hm lam j k, br_vv f Y m a hm lam j k⟩

/-- **C60**, branch currents: the same for `d2Ibr_dV2`. -/
theorem C60_current (Y : Matrix L B ℂ) (m a : B → ℝ) (hm : ∀ b, 0 < m b) (lam : L → ℂ) (j k : B) :
    PartialVa (fun V => ∑ l, lam l * dIbr_dVa Y V l j) m a k (ibHaa Y (volt m a) lam j k) ∧
    PartialVm (fun V => ∑ l, lam l * dIbr_dVa Y V l j) m a k (ibHav Y (volt m a) lam j k) ∧
    PartialVa (fun V => ∑ l, lam l * dIbr_dVm Y V l j) m a k (ibHva Y (volt m a) lam j k) ∧
    PartialVm (fun V => ∑ l, lam l * dIbr_dVm Y V l j) m a k (ibHvv Y (volt m a) lam j k) := by
  have hva : ∀ j k, ibHva Y (volt m a) lam j k = if j = k then Complex.I * (Yᵀ *ᵥ lam) j * Vnorm (volt m a) j else 0 := by
    intro j k
    rw [Vnorm_eq]
    by_cases h : j = k
    · subst h; simp [ibHva, ibHaa, Ginv]; ring
    · simp [ibHva, ibHaa, Ginv, h]
  unfold PartialVa PartialVm ibHav
  simp only [ib_weighted_dVa, ib_weighted_dVm, hva]
  refine ⟨?_, ?_, ?_, ?_⟩
  · refine ((volt_curve_a m a k j).const_mul _).congr_deriv ?_
    by_cases h : j = k
    · subst h; simp [ibHaa]
      linear_combination ((Yᵀ *ᵥ lam) j * volt m a j) * Complex.I_mul_I
    · simp [ibHaa, h]
  · refine ((volt_curve_m m a hm k j).const_mul _).congr_deriv ?_
    by_cases h : j = k
    · subst h; simp
    · simp [h]
  · refine ((dir_curve_a m a hm k j).const_mul _).congr_deriv ?_
    by_cases h : j = k
    · subst h; simp; ring
    · simp [h]
  · refine ((dir_curve_m m a hm k j).const_mul _).congr_deriv ?_
    simp [ibHvv]

/-- **C60**, squared flow magnitudes: `d2ASbr_dV2` applied to the results of `dSbr_dV` returns the partial derivatives of the weighted
first derivatives of `|S|^2` (those of C59). -/
theorem C60_sq_flow (f : L → B) (Y : Matrix L B ℂ) (m a : B → ℝ) (hm : ∀ b, 0 < m b) (lam : L → ℝ) (j k : B) :
    let V := volt m a
    let w := conjTimes (Sbr f Y V) lam
    PartialVa (fun V => ∑ l, lam l * dAbr (dSbr_dVa f Y V) (Sbr f Y V) l j) m a k
      (sqH (brHaa (conn f) Y V w) (dSbr_dVa f Y V) (dSbr_dVa f Y V) lam j k) ∧
    PartialVm (fun V => ∑ l, lam l * dAbr (dSbr_dVa f Y V) (Sbr f Y V) l j) m a k
      (sqH (brHav (conn f) Y V w) (dSbr_dVa f Y V) (dSbr_dVm f Y V) lam j k) ∧
    PartialVa (fun V => ∑ l, lam l * dAbr (dSbr_dVm f Y V) (Sbr f Y V) l j) m a k
      (sqH (brHva (conn f) Y V w) (dSbr_dVm f Y V) (dSbr_dVa f Y V) lam j k) ∧
    PartialVm (fun V => ∑ l, lam l * dAbr (dSbr_dVm f Y V) (Sbr f Y V) l j) m a k
      (sqH (brHvv (conn f) Y V w) (dSbr_dVm f Y V) (dSbr_dVm f Y V) lam j k) := by
  intro V w
  have ha : ∀ l, PartialVa (fun V => Sbr f Y V l) m a k (dSbr_dVa f Y V l k) := fun l => flow_dVa f Y m a hm l k
  have hv : ∀ l, PartialVm (fun V => Sbr f Y V l) m a k (dSbr_dVm f Y V l k) := fun l => flow_dVm f Y m a hm l k
  unfold PartialVa PartialVm at *
  simp only [dAbr_apply, sqH_apply]
  refine ⟨?_, ?_, ?_, ?_⟩
  · refine (sq_deriv lam ha (fun w => br_aa f Y m a hm w j k)).congr_deriv ?_
    simp only [Function.update_eq_self]; rfl
  · refine (sq_deriv lam hv (fun w => br_av f Y m a hm w j k)).congr_deriv ?_
    simp only [Function.update_eq_self]; rfl
  · refine (sq_deriv lam ha (fun w => br_va f Y m a hm w j k)).congr_deriv ?_
    simp only [Function.update_eq_self]; rfl
  · refine (sq_deriv lam hv (fun w => br_vv f Y m a hm w j k)).congr_deriv ?_
    simp only [Function.update_eq_self]; rfl

/-- **C60**, squared current magnitudes: the same for `d2AIbr_dV2` and `dIbr_dV`. -/
theorem C60_sq_current (Y : Matrix L B ℂ) (m a : B → ℝ) (hm : ∀ b, 0 < m b) (lam : L → ℝ) (j k : B) :
    let V := volt m a
    let w := conjTimes (Ibr Y V) lam
    PartialVa (fun V => ∑ l, lam l * dAbr (dIbr_dVa Y V) (Ibr Y V) l j) m a k
      (sqH (ibHaa Y V w) (dIbr_dVa Y V) (dIbr_dVa Y V) lam j k) ∧
    PartialVm (fun V => ∑ l, lam l * dAbr (dIbr_dVa Y V) (Ibr Y V) l j) m a k
      (sqH (ibHav Y V w) (dIbr_dVa Y V) (dIbr_dVm Y V) lam j k) ∧
    PartialVa (fun V => ∑ l, lam l * dAbr (dIbr_dVm Y V) (Ibr Y V) l j) m a k
      (sqH (ibHva Y V w) (dIbr_dVm Y V) (dIbr_dVa Y V) lam j k) ∧
    PartialVm (fun V => ∑ l, lam l * dAbr (dIbr_dVm Y V) (Ibr Y V) l j) m a k
      (sqH (ibHvv Y V w) (dIbr_dVm Y V) (dIbr_dVm Y V) lam j k) := by
  intro V w
  have ha : ∀ l, PartialVa (fun V => Ibr Y V l) m a k (dIbr_dVa Y V l k) := fun l => (C59_current Y m a hm l k).2.1
  have hv : ∀ l, PartialVm (fun V => Ibr Y V l) m a k (dIbr_dVm Y V l k) := fun l => (C59_current Y m a hm l k).2.2
  have h2 := fun w => C60_current Y m a hm w j k
  unfold PartialVa PartialVm at *
  simp only [dAbr_apply, sqH_apply]
  refine ⟨?_, ?_, ?_, ?_⟩
  · refine (sq_deriv lam ha (fun w => (h2 w).1)).congr_deriv ?_
    simp only [Function.update_eq_self]; rfl
  · refine (sq_deriv lam hv (fun w => (h2 w).2.1)).congr_deriv ?_
    simp only [Function.update_eq_self]; rfl
  · refine (sq_deriv lam ha (fun w => (h2 w).2.2.1)).congr_deriv ?_
    simp only [Function.update_eq_self]; rfl
  · refine (sq_deriv lam hv (fun w => (h2 w).2.2.2)).congr_deriv ?_
    simp only [Function.update_eq_self]; rfl

/-- Weighted derivatives of the squared real parts along a curve. -/
theorem sq_re_deriv {S g : ℝ → L → ℂ} {S' : L → ℂ} {H : (L → ℂ) → ℂ} {t : ℝ} (lam : L → ℝ)
    (hS : ∀ l, HasDerivAt (fun s => S s l) (S' l) t) (h : ∀ w : L → ℂ, HasDerivAt (fun s => ∑ l, w l * g s l) (H w) t) :
    HasDerivAt (fun s => ∑ l, lam l * (2 * (S s l).re * (g s l).re))
      (2 * (H (conjTimes (fun l => ((S t l).re : ℂ)) lam) + ∑ l, ((g t l).re : ℂ) * (lam l : ℂ) * conj (((S' l).re : ℝ) : ℂ)).re) t := by
  obtain ⟨g', hg, hH⟩ := each_of_weighted h
  have h1 : HasDerivAt (fun s => ∑ l, lam l * (2 * (S s l).re * (g s l).re))
      (∑ l, lam l * (2 * (S' l).re * (g t l).re + 2 * (S t l).re * (g' l).re)) t := by
    refine HasDerivAt.fun_sum fun l _ => HasDerivAt.const_mul _ ?_
    exact (((re_deriv (hS l)).const_mul 2).fun_mul (re_deriv (hg l)))
  refine h1.congr_deriv ?_
  rw [hH, ← Finset.sum_add_distrib, Complex.re_sum, Finset.mul_sum]
  refine Finset.sum_congr rfl fun l _ => ?_
  simp [conjTimes_apply]
  ring

/-- **C60**, squared real flows (`OPF_FLOW_LIM == 1`): `d2ASbr_dV2` applied to the real parts of the results of `dSbr_dV` returns the
partial derivatives of the weighted first derivatives of `P^2` (those of `C59_sq_real`). -/
theorem C60_sq_real (f : L → B) (Y : Matrix L B ℂ) (m a : B → ℝ) (hm : ∀ b, 0 < m b) (lam : L → ℝ) (j k : B) :
    let V := volt m a
    let re (M : Matrix L B ℂ) : Matrix L B ℂ := M.map fun z => (z.re : ℂ)
    let P (V : B → ℂ) (l : L) : ℂ := ((Sbr f Y V l).re : ℂ)
    let w := conjTimes (P V) lam
    PartialVa (fun V => ∑ l, lam l * dAbr (re (dSbr_dVa f Y V)) (P V) l j) m a k
      (sqH (brHaa (conn f) Y V w) (re (dSbr_dVa f Y V)) (re (dSbr_dVa f Y V)) lam j k) ∧
    PartialVm (fun V => ∑ l, lam l * dAbr (re (dSbr_dVa f Y V)) (P V) l j) m a k
      (sqH (brHav (conn f) Y V w) (re (dSbr_dVa f Y V)) (re (dSbr_dVm f Y V)) lam j k) ∧
    PartialVa (fun V => ∑ l, lam l * dAbr (re (dSbr_dVm f Y V)) (P V) l j) m a k
      (sqH (brHva (conn f) Y V w) (re (dSbr_dVm f Y V)) (re (dSbr_dVa f Y V)) lam j k) ∧
    PartialVm (fun V => ∑ l, lam l * dAbr (re (dSbr_dVm f Y V)) (P V) l j) m a k
      (sqH (brHvv (conn f) Y V w) (re (dSbr_dVm f Y V)) (re (dSbr_dVm f Y V)) lam j k) := by
  intro V re P w
  have ha : ∀ l, PartialVa (fun V => Sbr f Y V l) m a k (dSbr_dVa f Y V l k) := fun l => flow_dVa f Y m a hm l k
  have hv : ∀ l, PartialVm (fun V => Sbr f Y V l) m a k (dSbr_dVm f Y V l k) := fun l => flow_dVm f Y m a hm l k
  unfold PartialVa PartialVm at *
  simp only [dAbr_apply, sqH_apply, re, P, Matrix.map_apply, Complex.ofReal_re, Complex.ofReal_im, mul_zero, add_zero]
  refine ⟨?_, ?_, ?_, ?_⟩
  · refine (sq_re_deriv lam ha (fun w => br_aa f Y m a hm w j k)).congr_deriv ?_
    simp only [Function.update_eq_self]; rfl
  · refine (sq_re_deriv lam hv (fun w => br_av f Y m a hm w j k)).congr_deriv ?_
    simp only [Function.update_eq_self]; rfl
  · refine (sq_re_deriv lam ha (fun w => br_va f Y m a hm w j k)).congr_deriv ?_
    simp only [Function.update_eq_self]; rfl
  · refine (sq_re_deriv lam hv (fun w => br_vv f Y m a hm w j k)).congr_deriv ?_
    simp only [Function.update_eq_self]; rfl

/-- The hypotheses of C59 and C60 are met: flat voltages on a two-bus, one-branch network. -/
example : ∀ b : Fin 2, 0 < (fun _ => 1 : Fin 2 → ℝ) b := fun _ => one_pos

end

end Verif.Derivs
