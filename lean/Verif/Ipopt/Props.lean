import Verif.Ipopt.Lemmas
import Verif.Opf.AcProps

/-!
# C104: the values and derivatives served to IPOPT

Vocabulary: `leaving d y b` is the complex power leaving bus `b` into the network minus what is produced there net of demand, `limitedF`, `limitedT` the limited
quantity at the two ends of a branch (`Verif/Opf/AcProps.lean`); `PartialX F x k v`: `v` is the partial derivative of `F` at `x` with respect to variable `k`.
-/

open Matrix ComplexConjugate

namespace Verif.Ipopt

open Verif.Opf Verif.Network Verif.OpfNl Verif.OpfCost Verif.Pips Verif.Derivs Verif.Cost Verif.OpfModel

noncomputable section

variable {nb ng nl nA : ℕ}

theorem il_length (d : Case nb ng nl) : d.il.length = 0 ↔ ∀ l, d.rateA l = 0 ∨ 10 ^ 10 ≤ d.rateA l := by
  rw [List.length_eq_zero_iff, List.eq_nil_iff_forall_not_mem]
  refine forall_congr' fun l => ?_
  rw [mem_il]
  constructor
  · intro h
    by_contra h'
    push Not at h'
    exact h h'
  · rintro (h | h) ⟨h1, h2⟩
    · exact h1 h
    · linarith

/-- **C104**, values: with at least one limited branch `eval_g` returns, in this order, the active and the reactive mismatches, at the from and at the to ends of
the limited branches the square of the limited quantity minus the square of the limit, and the values of the linear constraints. -/
theorem C104_values (d : Case nb ng nl) (lim : Int) (c : AcData) (nx : ℕ) (A : Fin nA → ℕ → ℝ) (hb : d.base ≠ 0)
    (hl : ∃ l, d.rateA l ≠ 0 ∧ d.rateA l < 10 ^ 10) (x : ℕ → ℝ) :
    ∃ G, evalG d lim c nx A x = some G ∧
      (∀ b, G (.inl (.inl b)) = (leaving d x b).re ∧ G (.inl (.inr b)) = (leaving d x b).im) ∧
      (∀ i, G (.inr (.inl (.inl i))) = limitedF d lim x (d.il.get i) ^ 2 - (d.rateA (d.il.get i) / d.base) ^ 2 ∧
        G (.inr (.inl (.inr i))) = limitedT d lim x (d.il.get i) ^ 2 - (d.rateA (d.il.get i) / d.base) ^ 2) ∧
      ∀ r, G (.inr (.inr r)) = ∑ j ∈ Finset.range nx, A r j * x j := by
  have hne : d.il.length ≠ 0 := by
    rw [Ne, il_length]
    push Not
    exact hl
  unfold evalG
  rw [if_neg hne]
  refine ⟨_, rfl, fun b => acNl_g d lim c hb x b, fun i => ?_, fun r => rfl⟩
  obtain ⟨h1, h2⟩ := C74_dh_const (acNl d lim c) hb i ((mem_il d _).1 (List.get_mem d.il i)).1 x
  obtain ⟨e1, e2⟩ := acNl_limited d lim c x i
  rw [e1] at h1
  rw [e2] at h2
  exact ⟨(congrArg EReal.toReal h1).trans (EReal.toReal_coe _), (congrArg EReal.toReal h2).trans (EReal.toReal_coe _)⟩

/-- **C104**, Jacobian: the positions stored at the start never miss anything -- at every point with positive voltage magnitudes the matrix served by `eval_jac_g` is the
matrix of all first derivatives of the constraints, in the order of `C104_values`. -/
theorem C104_jacobian (d : Case nb ng nl) (lim : Int) (c : AcData) (nx : ℕ) (A : Fin nA → ℕ → ℝ) (hb : d.base ≠ 0)
    (hl : ∃ l, d.rateA l ≠ 0 ∧ d.rateA l < 10 ^ 10) (hon : ∀ p, (d.gen p).stat > 0) (x : ℕ → ℝ) (hm : ∀ b : Fin nb, 0 < x (nb + b)) :
    ∃ J, evalJac d lim c A x = some J ∧
      (∀ b k, PartialX (fun y => (leaving d y b).re) x k (J (.inl (.inl b)) k) ∧ PartialX (fun y => (leaving d y b).im) x k (J (.inl (.inr b)) k)) ∧
      (∀ i k, PartialX (fun y => limitedF d lim y (d.il.get i) ^ 2) x k (J (.inr (.inl (.inl i))) k) ∧
        PartialX (fun y => limitedT d lim y (d.il.get i) ^ 2) x k (J (.inr (.inl (.inr i))) k)) ∧
      ∀ r k, k < nx → PartialX (fun y => ∑ j ∈ Finset.range nx, A r j * y j) x k (J (.inr (.inr r)) k) := by
  have hne : d.il.length ≠ 0 := by
    rw [Ne, il_length]
    push Not
    exact hl
  have hJ : evalJac d lim c A x = some (jac d lim c A x) := by
    unfold evalJac
    rw [if_neg hne]
    congr 1
    funext r j
    split_ifs with h
    · rfl
    · exact (jac_supp d lim c A x r j (not_not.1 h)).symm
  refine ⟨_, hJ, fun b k => ?_, fun i k => ?_, fun r k hk => ?_⟩
  · have h1 := C74_dg (acNl d lim c) (acNl_layout d lim c) x hb hm hon (.inl b) k
    have h2 := C74_dg (acNl d lim c) (acNl_layout d lim c) x hb hm hon (.inr b) k
    simp only [(acNl_g d lim c hb _ b).1] at h1
    simp only [(acNl_g d lim c hb _ b).2] at h2
    exact ⟨h1, h2⟩
  · have h1 := C74_dh (acNl d lim c) (acNl_layout d lim c) x hm i k
    simp only [(acNl_limited d lim c _ i).1, (acNl_limited d lim c _ i).2] at h1
    exact h1
  · unfold PartialX
    have : ∀ t, ∑ j ∈ Finset.range nx, A r j * Function.update x k t j = A r k * t + ∑ j ∈ (Finset.range nx).erase k, A r j * x j := by
      intro t
      rw [← Finset.add_sum_erase _ _ (Finset.mem_range.2 hk), Function.update_self]
      congr 1
      exact Finset.sum_congr rfl fun j hj => by rw [Function.update_of_ne (Finset.ne_of_mem_erase hj)]
    simp only [this]
    refine HasDerivAt.add_const _ ?_
    show HasDerivAt (fun t => A r k * t) (A r k) (x k)
    simpa using (hasDerivAt_id' (x k)).const_mul (A r k)

/-- **C104** (negation): without a limited branch `eval_g` and `eval_jac_g` raise at every point, so no optimal power flow can be computed. -/
theorem C104_negation_unlimited (d : Case nb ng nl) (lim : Int) (c : AcData) (nx : ℕ) (A : Fin nA → ℕ → ℝ) (hl : ∀ l, d.rateA l = 0 ∨ 10 ^ 10 ≤ d.rateA l)
    (x : ℕ → ℝ) : evalG d lim c nx A x = none ∧ evalJac d lim c A x = none := by
  have h := (il_length d).2 hl
  unfold evalG evalJac
  rw [if_pos h, if_pos h]
  exact ⟨rfl, rfl⟩

/-! ## The Hessian -/

/-- The second derivative of the cost of generator `p` (with respect to MW) at the output of the point `x`; zero for piecewise linear costs. -/
def curvature (d : Case nb ng nl) (c : AcData) (x : ℕ → ℝ) (p : Fin ng) : ℝ :=
  if (c.row p).model = 2 then (rowPoly (c.row p)).derivative.derivative.eval (d.base * x (2 * nb + p)) else 0

theorem hs_diag (d : Case nb ng nl) (j k : ℕ) (h : 2 * nb ≤ j) : hsBase d j k = 0 := by
  unfold hsBase blocks
  rw [dif_neg (by omega), dif_neg (by omega)]

section
variable (d : Case nb ng nl) (lim : Int) (c : AcData) (hA : AcOk (acNl d lim c).cost) (hlen : c.gencost.length = ng) (huser : c.user = false) (hnw : c.P.nw = 0)
  (hk : c.kind ≠ .pyFloat ∨ ∃ i, i < c.gencost.length ∧ (c.row i).model = 2)
include hA hlen huser hnw hk

theorem costHess_spec (x : ℕ → ℝ) : ∃ f2, costHess (userdata d lim c).cost x = some f2 ∧ d2f (userdata d lim c).cost x = some f2 ∧
    (∀ p : Fin ng, f2 (2 * nb + p) (2 * nb + p) = d.base ^ 2 * curvature d c x p) ∧
    ∀ j k, (∀ p : Fin ng, j = 2 * nb + p → k ≠ 2 * nb + p) → f2 j k = 0 := by
  obtain ⟨p, hp, hget⟩ := d2fPg_spec (userdata d lim c).cost hA hlen x hk
  have hq : d2fQg (userdata d lim c).cost = some () := by
    unfold d2fQg
    exact if_neg (by show ¬ ng < c.gencost.length; omega)
  have hu : (userdata d lim c).cost.user = false := huser
  have hw : (userdata d lim c).cost.P.nw = 0 := hnw
  have hg : (userdata d lim c).cost.gencost.length = (userdata d lim c).cost.ng := hlen
  refine ⟨fun j k => (if j = k ∧ 2 * nb ≤ j ∧ j < 2 * nb + ng then p.getD (j - 2 * nb) 0 else 0) + 0, ?_, ?_, fun q => ?_, fun j k h => ?_⟩
  · unfold costHess
    rw [hp]
    simp only [Option.bind_eq_bind, Option.bind_some, hu, hw, lt_self_iff_false, and_false, hg, false_and, if_false]
    rfl
  · unfold d2f
    rw [hp, hq]
    simp only [Option.bind_eq_bind, Option.bind_some, hu]
    rfl
  · have := q.isLt
    simp only [true_and]
    rw [if_pos (by omega), add_zero, show 2 * nb + (q : ℕ) - 2 * nb = q by omega, hget q this]
    unfold curvature
    split_ifs with h1 h2 h3
    · rfl
    · exact absurd h1 h2
    · exact absurd h3 h1
    · simp
  · simp only [add_zero]
    refine if_neg fun hjk => ?_
    obtain ⟨rfl, h1, h2⟩ := hjk
    exact h ⟨j - 2 * nb, by omega⟩ (by simp; omega) (by simp; omega)

/-- **C104** (the part that holds), Hessian: with one (active power) cost row per generator, at least one limited branch and no user costs, after any start `x0` at which
no generator's curvature vanishes that does not vanish at `x`, the matrix served by `eval_h` at `x` is the lower triangle of the matrix of second derivatives of the
Lagrangian (`C75_gradient`), zero above the diagonal.
Missing: curvatures that vanish at the start, see `C104_negation_curvature`; reactive power costs and no limited branch, where the callback raises,
`C104_negation_raises`; user costs. -/
theorem C104_hessian_partial (hl : ∃ l, d.rateA l ≠ 0 ∧ d.rateA l < 10 ^ 10) (x0 x : ℕ → ℝ) (hm : ∀ b : Fin nb, 0 < x (nb + b))
    (hcur : ∀ p, curvature d c x0 p = 0 → curvature d c x p = 0) (lamP lamQ : Fin nb → ℝ) (muF muT : Fin d.il.length → ℝ) (objFactor : ℝ) :
    ∃ (H : ℕ → ℕ → ℝ) (grad : (ℕ → ℝ) → ℕ → ℝ), evalH d lim c x0 x lamP lamQ muF muT objFactor = some H ∧ (∀ y, (acNl d lim c).cost.df y = some (grad y)) ∧
      (∀ j k, k ≤ j → k < c.P.nx → PartialX (fun y => lagrangianGradient (acNl d lim c) (grad y) y lamP lamQ muF muT objFactor j) x k (H j k)) ∧
      ∀ j k, j < k → H j k = 0 := by
  have hne : d.il.length ≠ 0 := by
    rw [Ne, il_length]
    push Not
    exact hl
  obtain ⟨H, grad, hH, hg, hd⟩ := C75_partial (acNl d lim c) (acNl_layout d lim c) hA hlen hne hk x (fun h => by rw [show (acNl d lim c).cost.user = false from huser] at h; cases h) hm lamP lamQ muF muT objFactor
  obtain ⟨f0, h0, -, h0d, h0o⟩ := costHess_spec d lim c hA hlen huser hnw hk x0
  obtain ⟨f2, -, h2, h2d, h2o⟩ := costHess_spec d lim c hA hlen huser hnw hk x
  refine ⟨_, grad, by unfold evalH Hs; rw [h0]; simp only [Option.map_some, Option.bind_eq_bind, Option.bind_some]; rw [show (userdata d lim c).hess x lamP lamQ muF muT objFactor = some H from hH]; rfl, hg, fun j k hjk hkn => ?_, fun j k hjk => if_neg (by omega)⟩
  have key : f0 j k + hsBase d j k = 0 → H j k = 0 := by
    intro h
    have hHe : H = fun j k => f2 j k * objFactor + (userdata d lim c).d2G x lamP lamQ j k +
        (endH lim (userdata d lim c).f (userdata d lim c).Yf ((userdata d lim c).V x) muF j k +
          endH lim (userdata d lim c).t (userdata d lim c).Yt ((userdata d lim c).V x) muT j k) := by
      have h3 := hH
      unfold Nl.hess at h3
      rw [show d2f (acNl d lim c).cost x = some f2 from h2] at h3
      simp only [Option.bind_eq_bind, Option.bind_some, if_neg hne] at h3
      exact (Option.some_inj.1 h3).symm
    have hb0 : hsBase d j k = 0 ∧ f2 j k = 0 := by
      by_cases hc : ∃ p : Fin ng, j = 2 * nb + p ∧ k = 2 * nb + p
      · obtain ⟨p, rfl, rfl⟩ := hc
        have hz := hs_diag d (2 * nb + p) (2 * nb + p) (by omega)
        refine ⟨hz, ?_⟩
        rw [hz, add_zero, h0d] at h
        rw [h2d]
        rcases mul_eq_zero.1 h with h | h
        · rw [h, zero_mul]
        · rw [hcur p h, mul_zero]
      · have hc' : ∀ p : Fin ng, j = 2 * nb + p → k ≠ 2 * nb + p := fun p e1 e2 => hc ⟨p, e1, e2⟩
        rw [h0o j k hc', zero_add] at h
        exact ⟨h, h2o j k hc'⟩
    obtain ⟨g1, g2, g3⟩ := hess_supp d lim c x lamP lamQ muF muT j k hb0.1
    simp only [hHe, hb0.2, g1, g2, g3, zero_mul, add_zero]
  have := hd j k hkn
  by_cases h : f0 j k + hsBase d j k = 0
  · rw [key h] at this
    simpa [h] using this
  · simpa [h, hjk] using this

/-- **C104**, corollary: with at most quadratic costs (one row per generator) the served Hessian is exact at every point, whatever the start. -/
theorem C104_hessian_quadratic_partial (hl : ∃ l, d.rateA l ≠ 0 ∧ d.rateA l < 10 ^ 10) (hq : ∀ p : Fin ng, (c.row p).model = 2 → (rowPoly (c.row p)).natDegree ≤ 2)
    (x0 x : ℕ → ℝ) (hm : ∀ b : Fin nb, 0 < x (nb + b)) (lamP lamQ : Fin nb → ℝ) (muF muT : Fin d.il.length → ℝ) (objFactor : ℝ) :
    ∃ (H : ℕ → ℕ → ℝ) (grad : (ℕ → ℝ) → ℕ → ℝ), evalH d lim c x0 x lamP lamQ muF muT objFactor = some H ∧ (∀ y, (acNl d lim c).cost.df y = some (grad y)) ∧
      (∀ j k, k ≤ j → k < c.P.nx → PartialX (fun y => lagrangianGradient (acNl d lim c) (grad y) y lamP lamQ muF muT objFactor j) x k (H j k)) ∧
      ∀ j k, j < k → H j k = 0 := by
  refine C104_hessian_partial d lim c hA hlen huser hnw hk hl x0 x hm (fun p => ?_) lamP lamQ muF muT objFactor
  unfold curvature
  split_ifs with h
  · have h1 : (rowPoly (c.row p)).derivative.derivative.natDegree = 0 := by
      have := Polynomial.natDegree_derivative_le (rowPoly (c.row p))
      have h2 := Polynomial.natDegree_derivative_le (rowPoly (c.row p)).derivative
      have := hq p h
      omega
    rw [Polynomial.eq_C_of_natDegree_eq_zero h1]
    simp
  · exact id

/-- **C104** (negation), Hessian: if the curvature of some generator's cost vanishes at the starting point (the middle of its limits), its second derivative is
left out at every point: wherever the curvature does not vanish the served entry is not the second derivative of the Lagrangian. -/
theorem C104_negation_curvature (hl : ∃ l, d.rateA l ≠ 0 ∧ d.rateA l < 10 ^ 10) (hb : d.base ≠ 0) (x0 x : ℕ → ℝ) (hm : ∀ b : Fin nb, 0 < x (nb + b)) (p : Fin ng)
    (h0 : curvature d c x0 p = 0) (h1 : curvature d c x p ≠ 0) (lamP lamQ : Fin nb → ℝ) (muF muT : Fin d.il.length → ℝ) (objFactor : ℝ) (ho : objFactor ≠ 0) :
    ∃ (H : ℕ → ℕ → ℝ) (grad : (ℕ → ℝ) → ℕ → ℝ), evalH d lim c x0 x lamP lamQ muF muT objFactor = some H ∧ (∀ y, (acNl d lim c).cost.df y = some (grad y)) ∧
      H (2 * nb + p) (2 * nb + p) = 0 ∧
      ¬ PartialX (fun y => lagrangianGradient (acNl d lim c) (grad y) y lamP lamQ muF muT objFactor (2 * nb + p)) x (2 * nb + p) (H (2 * nb + p) (2 * nb + p)) := by
  have hne : d.il.length ≠ 0 := by
    rw [Ne, il_length]
    push Not
    exact hl
  obtain ⟨H, grad, hH, hg, hd⟩ := C75_partial (acNl d lim c) (acNl_layout d lim c) hA hlen hne hk x (fun h => by rw [show (acNl d lim c).cost.user = false from huser] at h; cases h) hm lamP lamQ muF muT objFactor
  obtain ⟨f0, e0, -, h0d, h0o⟩ := costHess_spec d lim c hA hlen huser hnw hk x0
  obtain ⟨f2, -, h2, h2d, h2o⟩ := costHess_spec d lim c hA hlen huser hnw hk x
  have hz := hs_diag d (2 * nb + p) (2 * nb + p) (by omega)
  have hH0 : (fun j k => if k ≤ j ∧ f0 j k + hsBase d j k ≠ 0 then H j k else 0) (2 * nb + p) (2 * nb + p) = 0 := by
    simp only [hz, h0d, h0]
    simp
  refine ⟨_, grad, by unfold evalH Hs; rw [e0]; simp only [Option.map_some, Option.bind_eq_bind, Option.bind_some]; rw [show (userdata d lim c).hess x lamP lamQ muF muT objFactor = some H from hH]; rfl, hg, hH0, ?_⟩
  intro hp
  replace hp := hp.congr_deriv hH0
  have hkn : 2 * nb + p < (acNl d lim c).cost.P.nx := by
    have := hA.hP
    have := p.isLt
    have e1 : (acNl d lim c).cost.iPg = 2 * nb := rfl
    have e2 : (acNl d lim c).cost.ng = ng := rfl
    omega
  have hu := (hd (2 * nb + p) (2 * nb + p) hkn).unique hp
  obtain ⟨g1, g2, g3⟩ := hess_supp d lim c x lamP lamQ muF muT _ _ hz
  have hHe : H (2 * nb + p) (2 * nb + p) = f2 (2 * nb + p) (2 * nb + p) * objFactor := by
    have h3 := hH
    unfold Nl.hess at h3
    rw [show d2f (acNl d lim c).cost x = some f2 from h2] at h3
    simp only [Option.bind_eq_bind, Option.bind_some, if_neg hne] at h3
    rw [← Option.some_inj.1 h3]
    show _ + (userdata d lim c).d2G x lamP lamQ _ _ + (endH lim (userdata d lim c).f (userdata d lim c).Yf ((userdata d lim c).V x) muF _ _ +
          endH lim (userdata d lim c).t (userdata d lim c).Yt ((userdata d lim c).V x) muT _ _) = _
    rw [g1, g2, g3, add_zero, add_zero, add_zero]
  rw [hHe, h2d] at hu
  exact mul_ne_zero (mul_ne_zero (pow_ne_zero 2 hb) h1) ho hu

end

/-- **C104** (negation): `eval_h` raises at every point with reactive power costs, and without a limited branch. -/
theorem C104_negation_raises (d : Case nb ng nl) (lim : Int) (c : AcData)
    (hbad : (∀ l, d.rateA l = 0 ∨ 10 ^ 10 ≤ d.rateA l) ∨ (ng ≠ 0 ∧ ng < c.gencost.length)) (x0 x : ℕ → ℝ) (lamP lamQ : Fin nb → ℝ)
    (muF muT : Fin d.il.length → ℝ) (objFactor : ℝ) : evalH d lim c x0 x lamP lamQ muF muT objFactor = none := by
  have : (userdata d lim c).hess x lamP lamQ muF muT objFactor = none := by
    rcases hbad with h | ⟨h1, h2⟩
    · unfold Nl.hess
      cases d2f (userdata d lim c).cost x with
      | none => rfl
      | some v => simp only [Option.bind_eq_bind, Option.bind_some, if_pos ((il_length d).2 h)]
    · exact C75_negation_qcost (acNl d lim c) (acNl_layout d lim c) h1 h2 x lamP lamQ muF muT objFactor
  unfold evalH
  rw [this]
  cases Hs d lim c x0 <;> rfl

/-! Non-vacuity: the two-bus case of `DcProps.lean`; with a quadratic cost, and with a cubic one whose curvature vanishes in the middle of the limits 10 and 200 MW. -/

def exPt (j : ℕ) : ℝ := if j = 2 ∨ j = 3 then 1 else 0

theorem exPt_pos (b : Fin 2) : 0 < exPt (2 + b) := by fin_cases b <;> simp [exPt]

theorem ex_limited : ∃ l, exCase.rateA l ≠ 0 ∧ exCase.rateA l < 10 ^ 10 := ⟨0, by norm_num [exCase]⟩

example (A : Fin 1 → ℕ → ℝ) : ∃ J, evalJac exCase 0 exCost A exPt = some J :=
  (C104_jacobian exCase 0 exCost 6 A (by norm_num [exCase]) ex_limited (fun _ => by norm_num [exCase]) exPt exPt_pos).imp fun _ h => h.1

theorem ex_degree (p : Fin 1) (_ : (exCost.row p).model = 2) : (rowPoly (exCost.row p)).natDegree ≤ 2 := by
  have : rowPoly (exCost.row p) = Polynomial.C 1 * Polynomial.X ^ 2 + Polynomial.C 2 * Polynomial.X ^ 1 + Polynomial.C 3 * Polynomial.X ^ 0 := by
    fin_cases p
    simp [rowPoly, exCost, AcData.row, Finset.sum_range_succ]
  rw [this]
  refine (Polynomial.natDegree_add_le _ _).trans (max_le ((Polynomial.natDegree_add_le _ _).trans (max_le ?_ ?_)) ?_) <;>
    exact (Polynomial.natDegree_C_mul_X_pow_le _ _).trans (by norm_num)

example (lamP lamQ : Fin 2 → ℝ) (muF muT : Fin exCase.il.length → ℝ) : ∃ H, evalH exCase 0 exCost 0 exPt lamP lamQ muF muT 1 = some H :=
  (C104_hessian_quadratic_partial exCase 0 exCost exCost_ok rfl rfl rfl (Or.inr ⟨0, by simp [exCost], rfl⟩) ex_limited ex_degree 0 exPt exPt_pos lamP lamQ muF muT 1).imp
    fun _ ⟨_, h, _⟩ => h

/-- `(P - 105)^3`. -/
def exCubic : AcData := { exCost with gencost := [⟨2, 4, [1, -315, 33075, -1157625]⟩] }

theorem exCubic_ok : AcOk (acNl exCase 0 exCubic).cost where
  len := by simp [exCubic, nlOf]
  poly := by
    intro r hr hm
    simp only [exCubic, nlOf, List.mem_cons, List.not_mem_nil, or_false] at hr
    rw [hr]
    exact ⟨rfl, by simp, by simp⟩
  hP := by simp [exCubic, exCost, nlOf]
  hQ := by simp [exCubic, exCost, nlOf]
  hy := by simp [exCubic, exCost, nlOf]
  disj := by simp [nlOf]

theorem exCubic_curvature (x : ℕ → ℝ) : curvature exCase exCubic x 0 = 6 * (100 * x 4 - 105) := by
  have : rowPoly (exCubic.row 0) = Polynomial.C 1 * Polynomial.X ^ 3 + Polynomial.C (-315) * Polynomial.X ^ 2 + Polynomial.C 33075 * Polynomial.X ^ 1 +
      Polynomial.C (-1157625) * Polynomial.X ^ 0 := by
    simp [rowPoly, exCubic, AcData.row, Finset.sum_range_succ]
  unfold curvature
  rw [Fin.val_zero, if_pos (show (exCubic.row 0).model = 2 from rfl), this]
  simp only [Polynomial.derivative_add, Polynomial.derivative_mul, Polynomial.derivative_C, Polynomial.derivative_X_pow, Polynomial.eval_add, Polynomial.eval_mul,
    Polynomial.eval_C, Polynomial.eval_pow, Polynomial.eval_X, exCase]
  simp
  ring

/-- Started at 105 MW, the midpoint, IPOPT is told at 0 MW that the cost has no curvature. -/
example : (∃ x0 : ℕ → ℝ, x0 4 = (exCase.pmin 0 / 100 + exCase.pmax 0 / 100) / 2 ∧ curvature exCase exCubic x0 0 = 0) ∧ curvature exCase exCubic exPt 0 ≠ 0 := by
  refine ⟨⟨fun _ => 1.05, by norm_num [exCase], ?_⟩, ?_⟩
  · rw [exCubic_curvature]; norm_num
  · rw [exCubic_curvature]; norm_num [exPt]

end

end Verif.Ipopt
