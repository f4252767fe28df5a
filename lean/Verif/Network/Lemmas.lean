import Mathlib.Tactic.Ring
import Mathlib.Tactic.Linarith
import Mathlib.Tactic.FieldSimp
import Verif.Network.Model

set_option linter.unusedSectionVars false

namespace Verif.Network
open Matrix Complex ComplexConjugate

variable {B L G : Type} [Fintype B] [Fintype L] [Fintype G] [DecidableEq B] [DecidableEq L] [DecidableEq G]

theorem coo_id_left {n K : Type} [DecidableEq n] [AddCommMonoid K] (c : L → n) (v : L → K) (i : L) (j : n) :
    coo id c v i j = if c i = j then v i else 0 := by
  unfold coo
  rw [Finset.sum_eq_single i]
  · simp
  · intro k _ hk; simp [hk]
  · intro h; exact absurd (Finset.mem_univ i) h

theorem coo_id_id {K : Type} [AddCommMonoid K] (v : B → K) : coo id id v = Matrix.diagonal v := by
  ext i j
  rw [coo_id_left, Matrix.diagonal_apply]; rfl

/-- Row of a matrix with one entry, times a vector. -/
theorem coo_mulVec {K : Type} [Semiring K] (c : L → B) (v : L → K) (V : B → K) (l : L) :
    (coo id c v *ᵥ V) l = v l * V (c l) := by
  simp [Matrix.mulVec, dotProduct, coo_id_left]

/-- Transposed connection matrix times a vector: the sum over the entries attached to the bus. -/
theorem coo_transpose_mulVec {K : Type} [Semiring K] (c : L → B) (v : L → K) (x : L → K) (i : B) :
    ((coo id c v)ᵀ *ᵥ x) i = ∑ l, if c l = i then v l * x l else 0 := by
  simp [Matrix.mulVec, dotProduct, coo_id_left]

theorem Yf_mulVec (branch : L → Branch B) (V : B → ℂ) (l : L) :
    (Yf branch *ᵥ V) l = Yff (branch l) * V (branch l).f + Yft (branch l) * V (branch l).t := by
  simp [Yf, Matrix.add_mulVec, coo_mulVec]

theorem Yt_mulVec (branch : L → Branch B) (V : B → ℂ) (l : L) :
    (Yt branch *ᵥ V) l = Ytf (branch l) * V (branch l).f + Ytt (branch l) * V (branch l).t := by
  simp [Yt, Matrix.add_mulVec, coo_mulVec]

theorem Ybus_mulVec (baseMVA : ℝ) (bus : B → Bus) (branch : L → Branch B) (V : B → ℂ) (i : B) :
    (Ybus baseMVA bus branch *ᵥ V) i =
      (∑ l, if (branch l).f = i then (Yf branch *ᵥ V) l else 0) + (∑ l, if (branch l).t = i then (Yt branch *ᵥ V) l else 0) +
        Ysh baseMVA bus i * V i := by
  rw [Ybus, Matrix.add_mulVec, Matrix.add_mulVec, ← Matrix.mulVec_mulVec, ← Matrix.mulVec_mulVec, coo_id_id]
  simp only [Pi.add_apply, Matrix.mulVec_diagonal]
  rw [Cf, Ct, coo_transpose_mulVec, coo_transpose_mulVec]
  simp

theorem Ybus_apply (baseMVA : ℝ) (bus : B → Bus) (branch : L → Branch B) (i j : B) :
    Ybus baseMVA bus branch i j =
      (∑ l, if (branch l).f = i then (if (branch l).f = j then Yff (branch l) else 0) + (if (branch l).t = j then Yft (branch l) else 0) else 0) +
      (∑ l, if (branch l).t = i then (if (branch l).f = j then Ytf (branch l) else 0) + (if (branch l).t = j then Ytt (branch l) else 0) else 0) +
        (if i = j then Ysh baseMVA bus i else 0) := by
  simp only [Ybus, Matrix.add_apply, Matrix.mul_apply, Matrix.transpose_apply, Cf, Ct, Yf, Yt, coo_id_left, coo_id_id, Matrix.diagonal_apply]
  simp

theorem exp_shift_conj (θ : ℝ) : exp (I * Real.pi / 180 * θ) * conj (exp (I * Real.pi / 180 * θ)) = 1 := by
  rw [← Complex.exp_conj, ← Complex.exp_add]
  have : I * (Real.pi : ℂ) / 180 * θ + conj (I * (Real.pi : ℂ) / 180 * θ) = 0 := by
    simp [map_ofNat]
    ring
  rw [this, Complex.exp_zero]

theorem tapRatio_ne (br : Branch B) : tapRatio br ≠ 0 := by
  unfold tapRatio; split
  · norm_num
  · assumption

theorem ctap_ne (br : Branch B) : ctap br ≠ 0 := by
  unfold ctap
  exact mul_ne_zero (by exact_mod_cast tapRatio_ne br) (Complex.exp_ne_zero _)

theorem Bf_mulVec (branch : L → Branch B) (θ : B → ℝ) (l : L) :
    (Bf branch *ᵥ θ) l = bdc (branch l) * (θ (branch l).f - θ (branch l).t) := by
  simp [Bf, Matrix.add_mulVec, coo_mulVec]; ring

theorem CftT_mulVec (branch : L → Branch B) (x : L → ℝ) (i : B) :
    ((Cft branch)ᵀ *ᵥ x) i = (∑ l, if (branch l).f = i then x l else 0) - ∑ l, if (branch l).t = i then x l else 0 := by
  rw [Cft, Matrix.transpose_add, Matrix.add_mulVec, Pi.add_apply, coo_transpose_mulVec, coo_transpose_mulVec, sub_eq_add_neg,
    ← Finset.sum_neg_distrib]
  congr 1
  · simp
  · apply Finset.sum_congr rfl; intro l _; split <;> simp

theorem Bbus_mulVec (branch : L → Branch B) (θ : B → ℝ) : Bbus branch *ᵥ θ = (Cft branch)ᵀ *ᵥ (Bf branch *ᵥ θ) := by
  rw [Bbus, Matrix.mulVec_mulVec]

theorem Cft_apply (branch : L → Branch B) (l : L) (i : B) :
    Cft branch l i = (if (branch l).f = i then 1 else 0) + (if (branch l).t = i then -1 else 0) := by
  simp [Cft, coo_id_left]

theorem Bf_apply (branch : L → Branch B) (l : L) (i : B) : Bf branch l i = bdc (branch l) * Cft branch l i := by
  simp only [Bf, Cft_apply, Matrix.add_apply, coo_id_left]
  by_cases h1 : (branch l).f = i <;> by_cases h2 : (branch l).t = i <;> simp [h1, h2]

theorem sum_CftT (branch : L → Branch B) (x : L → ℝ) : ∑ i, ((Cft branch)ᵀ *ᵥ x) i = 0 := by
  simp only [CftT_mulVec, Finset.sum_sub_distrib]
  rw [Finset.sum_comm, Finset.sum_comm (f := fun i l => if (branch l).t = i then x l else 0)]
  simp

end Verif.Network
