import Verif.Derivs.Props
import Verif.Network.Props
import Verif.OpfCost.AcProps
import Verif.OpfNl.Spec

/-!
# Lemmas: voltages under a change of one variable, rows of the Jacobian
-/

open Matrix ComplexConjugate

namespace Verif.OpfNl

open Verif.Derivs Verif.Network Verif.OpfCost

noncomputable section

variable {nb ng nl : Nat}

def Nl.m (d : Nl nb ng nl) (x : Nat → ℝ) (b : Fin nb) : ℝ := x (d.iVm + b)
def Nl.a (d : Nl nb ng nl) (x : Nat → ℝ) (b : Fin nb) : ℝ := x (d.iVa + b)

theorem V_eq (d : Nl nb ng nl) (x : Nat → ℝ) : d.V x = volt (d.m x) (d.a x) := rfl

theorem V_update_a {d : Nl nb ng nl} (h : Layout d) (x : Nat → ℝ) (b : Fin nb) (t : ℝ) :
    d.V (Function.update x (d.iVa + b) t) = volt (d.m x) (Function.update (d.a x) b t) := by
  rw [V_eq]
  congr 1
  · funext c
    have := c.2; have := b.2; have := h.va; have := h.vm
    simp only [Nl.m]
    rw [Function.update_of_ne (by omega)]
  · funext c
    simp only [Nl.a]
    by_cases hc : c = b
    · subst hc; simp
    · rw [Function.update_of_ne hc, Function.update_of_ne (fun he => hc (Fin.ext (by omega)))]
      rfl

theorem V_update_m {d : Nl nb ng nl} (h : Layout d) (x : Nat → ℝ) (b : Fin nb) (t : ℝ) :
    d.V (Function.update x (d.iVm + b) t) = volt (Function.update (d.m x) b t) (d.a x) := by
  rw [V_eq]
  congr 1
  · funext c
    simp only [Nl.m]
    by_cases hc : c = b
    · subst hc; simp
    · rw [Function.update_of_ne hc, Function.update_of_ne (fun he => hc (Fin.ext (by omega)))]
      rfl
  · funext c
    have := c.2; have := b.2; have := h.va; have := h.vm
    simp only [Nl.a]
    rw [Function.update_of_ne (by omega)]

theorem V_update_other {d : Nl nb ng nl} (h : Layout d) (x : Nat → ℝ) {k : Nat} (hk : 2 * nb ≤ k) (t : ℝ) :
    d.V (Function.update x k t) = d.V x := by
  funext c
  have := c.2; have := h.va; have := h.vm
  simp only [Nl.V]
  rw [Function.update_of_ne (by omega), Function.update_of_ne (by omega)]

theorem partial_a {d : Nl nb ng nl} (h : Layout d) {F : (Fin nb → ℂ) → ℝ} {x : Nat → ℝ} {b : Fin nb} {r : ℝ}
    (hF : PartialVa F (d.m x) (d.a x) b r) : PartialX (fun y => F (d.V y)) x (d.iVa + b) r := by
  unfold PartialX
  simp only [V_update_a h]
  exact hF

theorem partial_m {d : Nl nb ng nl} (h : Layout d) {F : (Fin nb → ℂ) → ℝ} {x : Nat → ℝ} {b : Fin nb} {r : ℝ}
    (hF : PartialVm F (d.m x) (d.a x) b r) : PartialX (fun y => F (d.V y)) x (d.iVm + b) r := by
  unfold PartialX
  simp only [V_update_m h]
  exact hF

theorem partial_other {d : Nl nb ng nl} (h : Layout d) (F : (Fin nb → ℂ) → ℝ) (x : Nat → ℝ) {k : Nat} (hk : 2 * nb ≤ k) :
    PartialX (fun y => F (d.V y)) x k 0 := by
  unfold PartialX
  simp only [V_update_other h x hk]
  exact hasDerivAt_const _ _

/-- Every variable is an angle, a magnitude, an active output, a reactive output, or something else. -/
theorem kinds (d : Nl nb ng nl) (h : Layout d) (j : Nat) :
    (∃ b : Fin nb, j = d.iVa + b) ∨ (∃ b : Fin nb, j = d.iVm + b) ∨ (∃ g : Fin ng, j = d.cost.iPg + g) ∨ (∃ g : Fin ng, j = d.cost.iQg + g) ∨
      2 * nb + 2 * ng ≤ j := by
  rcases h with ⟨h1, h2, h3, h4, -⟩
  by_cases c1 : j < nb
  · exact .inl ⟨⟨j, c1⟩, by simp [h1]⟩
  by_cases c2 : j < 2 * nb
  · exact .inr (.inl ⟨⟨j - nb, by omega⟩, by simp; omega⟩)
  by_cases c3 : j < 2 * nb + ng
  · exact .inr (.inr (.inl ⟨⟨j - 2 * nb, by omega⟩, by simp; omega⟩))
  by_cases c4 : j < 2 * nb + 2 * ng
  · exact .inr (.inr (.inr (.inl ⟨⟨j - (2 * nb + ng), by omega⟩, by simp; omega⟩)))
  · exact .inr (.inr (.inr (.inr (by omega))))

section place
variable {d : Nl nb ng nl} (h : Layout d) (a m : Fin nb → ℝ) (p q : Fin ng → ℝ)
include h

theorem place_a (b : Fin nb) : d.place a m p q (d.iVa + b) = a b := by
  rcases h with ⟨h1, h2, h3, h4, -⟩
  have := b.2
  unfold Nl.place
  rw [dif_neg (by omega), dif_neg (by omega), dif_neg (by omega), dif_pos (by omega)]
  congr 1; ext; simp

theorem place_m (b : Fin nb) : d.place a m p q (d.iVm + b) = m b := by
  rcases h with ⟨h1, h2, h3, h4, -⟩
  have := b.2
  unfold Nl.place
  rw [dif_neg (by omega), dif_neg (by omega), dif_pos (by omega)]
  congr 1; ext; simp

theorem place_p (g : Fin ng) : d.place a m p q (d.cost.iPg + g) = p g := by
  rcases h with ⟨h1, h2, h3, h4, -⟩
  have := g.2
  unfold Nl.place
  rw [dif_neg (by omega), dif_pos (by omega)]
  congr 1; ext; simp

theorem place_q (g : Fin ng) : d.place a m p q (d.cost.iQg + g) = q g := by
  rcases h with ⟨h1, h2, h3, h4, -⟩
  have := g.2
  unfold Nl.place
  rw [dif_pos (by omega)]
  congr 1; ext; simp

theorem place_other {j : Nat} (hj : 2 * nb + 2 * ng ≤ j) : d.place a m p q j = 0 := by
  rcases h with ⟨h1, h2, h3, h4, -⟩
  unfold Nl.place
  rw [dif_neg (by omega), dif_neg (by omega), dif_neg (by omega), dif_neg (by omega)]

theorem placeV_a (b : Fin nb) : d.placeV a m (d.iVa + b) = a b := by
  rcases h with ⟨h1, h2, h3, h4, -⟩
  have := b.2
  unfold Nl.placeV
  rw [dif_neg (by omega), dif_pos (by omega)]
  congr 1; ext; simp

theorem placeV_m (b : Fin nb) : d.placeV a m (d.iVm + b) = m b := by
  rcases h with ⟨h1, h2, h3, h4, -⟩
  have := b.2
  unfold Nl.placeV
  rw [dif_pos (by omega)]
  congr 1; ext; simp

theorem placeV_other {j : Nat} (hj : 2 * nb ≤ j) : d.placeV a m j = 0 := by
  rcases h with ⟨h1, h2, h3, h4, -⟩
  unfold Nl.placeV
  rw [dif_neg (by omega), dif_neg (by omega)]

end place

/-! ## Injections -/

theorem sbus_eq (d : Nl nb ng nl) (x : Nat → ℝ) (hb : d.cost.base ≠ 0) (b : Fin nb) :
    makeSbus d.cost.base d.bus (d.genAt x) b = injection d x b := by
  rw [C27_injections]
  unfold injection Nl.genAt
  have hb' : (d.cost.base : ℂ) ≠ 0 := by exact_mod_cast hb
  rw [sub_div, div_eq_mul_inv, Finset.sum_mul]
  congr 1
  refine Finset.sum_congr rfl fun g _ => ?_
  simp only
  push_cast
  field_simp

theorem mis_eq (d : Nl nb ng nl) (x : Nat → ℝ) (hb : d.cost.base ≠ 0) (b : Fin nb) :
    d.mis x b = d.V x b * conj (∑ c, d.Y b c * d.V x c) - injection d x b := by
  unfold Nl.mis
  rw [sbus_eq d x hb]; rfl

theorem injection_re (d : Nl nb ng nl) (x : Nat → ℝ) (b : Fin nb) (hon : ∀ g, (d.gen g).stat > 0) :
    (injection d x b).re = (∑ g, if (d.gen g).bus = b then x (d.cost.iPg + g) else 0) - (d.bus b).PD / d.cost.base := by
  unfold injection
  rw [Complex.sub_re, Complex.re_sum, Finset.sum_filter]
  congr 1
  · refine Finset.sum_congr rfl fun g _ => ?_
    simp [hon g]
  · rw [Complex.div_ofReal_re]; simp

theorem injection_im (d : Nl nb ng nl) (x : Nat → ℝ) (b : Fin nb) (hon : ∀ g, (d.gen g).stat > 0) :
    (injection d x b).im = (∑ g, if (d.gen g).bus = b then x (d.cost.iQg + g) else 0) - (d.bus b).QD / d.cost.base := by
  unfold injection
  rw [Complex.sub_im, Complex.im_sum, Finset.sum_filter]
  congr 1
  · refine Finset.sum_congr rfl fun g _ => ?_
    simp [hon g]
  · rw [Complex.div_ofReal_im]; simp

theorem negCg_apply (d : Nl nb ng nl) (b : Fin nb) (g : Fin ng) : d.negCg b g = if (d.gen g).bus = b then -1 else 0 := by
  unfold Nl.negCg coo
  rw [Finset.sum_eq_single g]
  · simp
  · intro k _ hk; simp [hk]
  · intro h; exact absurd (Finset.mem_univ g) h

/-- Derivative of one variable with respect to another. -/
theorem update_deriv (x : Nat → ℝ) (i k : Nat) : HasDerivAt (fun t => Function.update x k t i) (if i = k then 1 else 0) (x k) := by
  by_cases h : i = k
  · subst h; simp only [Function.update_self, if_true]; exact hasDerivAt_id' (x i)
  · simp only [h, if_false]
    simp only [Function.update_of_ne h]
    exact hasDerivAt_const _ _

/-- Derivative of the sum of outputs at a bus. -/
theorem gensum_deriv (d : Nl nb ng nl) (x : Nat → ℝ) (o k : Nat) (b : Fin nb) :
    HasDerivAt (fun t => ∑ g : Fin ng, if (d.gen g).bus = b then Function.update x k t (o + g) else 0)
      (∑ g : Fin ng, if (d.gen g).bus = b then (if o + (g : Nat) = k then 1 else 0) else 0) (x k) := by
  refine HasDerivAt.fun_sum fun g _ => ?_
  by_cases h : (d.gen g).bus = b
  · simp only [h, if_true]; exact update_deriv _ _ _
  · simp only [h, if_false]; exact hasDerivAt_const _ _

theorem gensum_zero (d : Nl nb ng nl) {o k : Nat} (b : Fin nb) (h : ∀ g : Fin ng, o + (g : Nat) ≠ k) :
    (∑ g : Fin ng, if (d.gen g).bus = b then (if o + (g : Nat) = k then (1 : ℝ) else 0) else 0) = 0 :=
  Finset.sum_eq_zero fun g _ => by simp [h g]

theorem gensum_one (d : Nl nb ng nl) {o : Nat} (b : Fin nb) (g : Fin ng) :
    (∑ g' : Fin ng, if (d.gen g').bus = b then (if o + (g' : Nat) = o + g then (1 : ℝ) else 0) else 0) = - d.negCg b g := by
  rw [Finset.sum_eq_single g, negCg_apply]
  · rw [if_pos rfl]; split_ifs <;> simp
  · intro g' _ hg
    have : o + (g' : Nat) ≠ o + g := fun he => hg (Fin.ext (by omega))
    rw [if_neg this, ite_self]
  · intro h; exact absurd (Finset.mem_univ g) h

end

end Verif.OpfNl
