import Verif.OpfCost.DcModel
import Verif.Cost.Spec
import Mathlib.Algebra.Polynomial.Eval.Degree
import Mathlib.LinearAlgebra.Matrix.Symmetric
import Mathlib.Tactic.Linarith
import Mathlib.Tactic.NormNum

/-!
# The DC OPF objective (property C18 of `properties.jsonl`)
-/

set_option linter.unusedSectionVars false

open Matrix

namespace Verif.OpfCost

open Verif.Cost

variable {X Q W : Type*} [Fintype X] [Fintype Q] [Fintype W] [DecidableEq X] [DecidableEq Q] [DecidableEq W]

/-- Specification: the total cost at `x` — polynomial generator costs at the output in MW, the piecewise linear helper variables, and
the user costs `½ w'Hw + Cw'w`, `w = mm (Nx - rh)`. -/
noncomputable def userW (d : DcData X Q W) (x : X → ℝ) (w : W) : ℝ := d.mm w * (∑ j, d.N w j * x j - d.rh w)

noncomputable def genCost (d : DcData X Q W) (x : X → ℝ) (q : Q) : ℝ := (rowPoly (d.row q)).eval (d.base * x (d.pg q))

noncomputable def totalCost (d : DcData X Q W) (x : X → ℝ) : ℝ :=
  ∑ q, genCost d x q + ∑ j ∈ d.y, x j +
    (1 / 2 * ∑ a, ∑ b, userW d x a * d.H a b * userW d x b + ∑ a, d.Cw a * userW d x a)

theorem MN_mulVec (d : DcData X Q W) (x : X → ℝ) (r : R d Q W) :
    (MN d *ᵥ x) r = match r with
      | .inl _ => ∑ j ∈ d.y, x j
      | .inr (.inl q) => x (d.pg q)
      | .inr (.inr w) => d.mm w * ∑ j, d.N w j * x j := by
  unfold MN
  rw [← mulVec_mulVec, mulVec_diagonal]
  rcases r with u | q | w
  · simp [mmAll, mulVec, dotProduct, NN, Finset.sum_ite_mem]
  · simp [mmAll, mulVec, dotProduct, NN]
  · simp [mmAll, mulVec, dotProduct, NN]

theorem MR_apply (d : DcData X Q W) (r : R d Q W) :
    MR d r = match r with
      | .inr (.inr w) => d.mm w * d.rh w
      | _ => 0 := by
  unfold MR
  rw [mulVec_diagonal]
  rcases r with u | q | w <;> simp [mmAll, rhAll]

theorem dcObjective_eq (d : DcData X Q W) (x : X → ℝ) :
    dcObjective d x = 1 / 2 * ((MN d *ᵥ x) ⬝ᵥ (HHw d *ᵥ (MN d *ᵥ x))) + (CCw d - HHw d *ᵥ MR d) ⬝ᵥ (MN d *ᵥ x) + C0 d := by
  unfold dcObjective HH CC
  congr 2
  · congr 1
    rw [← mulVec_mulVec, ← mulVec_mulVec, mulVec_transpose, dotProduct_comm, ← dotProduct_mulVec, dotProduct_comm]
  · rw [mulVec_transpose, ← dotProduct_mulVec]

/-- The part of the cost of polynomial row `q` that reaches the solver: everything if `NCOST` is 2 or 3, nothing otherwise. -/
theorem polycf_value (d : DcData X Q W) (x : X → ℝ) (q : Q) :
    (polycf d q).1 * x (d.pg q) ^ 2 + (polycf d q).2.1 * x (d.pg q) + (polycf d q).2.2 =
      if (d.row q).ncost = 2 ∨ (d.row q).ncost = 3 then genCost d x q else 0 := by
  unfold polycf genCost rowPoly
  by_cases h3 : (d.row q).ncost = 3
  · simp only [h3, if_true]
    simp [Finset.sum_range_succ]
    ring
  · by_cases h2 : (d.row q).ncost = 2
    · simp only [h2]
      simp [Finset.sum_range_succ]
      ring
    · simp [h2, h3]

theorem HHw_mulVec (d : DcData X Q W) (v : R d Q W → ℝ) (r : R d Q W) :
    (HHw d *ᵥ v) r = match r with
      | .inl _ => 0
      | .inr (.inl q) => 2 * (polycf d q).1 * v (.inr (.inl q))
      | .inr (.inr w) => ∑ b, d.H w b * v (.inr (.inr b)) := by
  rcases r with u | q | w
  · simp [mulVec, dotProduct, HHw]
  · simp [mulVec, dotProduct, HHw]
  · simp [mulVec, dotProduct, HHw]

theorem sum_unit (d : DcData X Q W) (x : X → ℝ) :
    ∑ _u : {_u : Unit // d.y.Nonempty}, ∑ j ∈ d.y, x j = ∑ j ∈ d.y, x j := by
  by_cases hy : d.y.Nonempty
  · have : (Finset.univ : Finset {_u : Unit // d.y.Nonempty}) = {⟨(), hy⟩} := by
      ext u; simp
    rw [this]; simp
  · have h0 : ∑ j ∈ d.y, x j = 0 := by
      rw [Finset.not_nonempty_iff_eq_empty.1 hy]; simp
    rw [h0]; simp

/-- The exact relation between the objective the DC OPF minimises (and reports) and the total cost, for a symmetric user matrix `H`:
the costs of polynomial rows with `NCOST` other than 2 and 3 are missing, and the linear user cost is off by `Cw'(mm rh)`. -/
theorem dcObjective_exact (d : DcData X Q W) (hH : ∀ a b, d.H a b = d.H b a) (x : X → ℝ) :
    dcObjective d x = totalCost d x
      - ∑ q, (if (d.row q).ncost = 2 ∨ (d.row q).ncost = 3 then 0 else genCost d x q)
      + ∑ w, d.Cw w * (d.mm w * d.rh w) := by
  rw [dcObjective_eq]
  unfold C0 totalCost
  simp only [dotProduct, Fintype.sum_sum_type, HHw_mulVec, MN_mulVec, MR_apply, CCw, Pi.sub_apply, one_mul, sub_zero, mul_zero,
    Finset.sum_const_zero, zero_add, sum_unit]
  have hq : ∑ q, (if (d.row q).ncost = 2 ∨ (d.row q).ncost = 3 then 0 else genCost d x q) =
      ∑ q, genCost d x q - ∑ q, ((polycf d q).1 * x (d.pg q) ^ 2 + (polycf d q).2.1 * x (d.pg q) + (polycf d q).2.2) := by
    rw [← Finset.sum_sub_distrib]
    refine Finset.sum_congr rfl fun q _ => ?_
    rw [polycf_value]
    split_ifs <;> ring
  rw [hq]
  set n : W → ℝ := fun w => d.mm w * ∑ j, d.N w j * x j with hn
  set m : W → ℝ := fun w => d.mm w * d.rh w with hm
  have hu : ∀ w, userW d x w = n w - m w := fun w => by simp only [userW, hn, hm]; ring
  have hc : ∑ a, ∑ b, n a * d.H a b * m b = ∑ a, ∑ b, m a * d.H a b * n b := by
    rw [Finset.sum_comm]
    exact Finset.sum_congr rfl fun a _ => Finset.sum_congr rfl fun b _ => by rw [hH]; ring
  have h1 : ∑ a, ∑ b, userW d x a * d.H a b * userW d x b =
      ∑ a, ∑ b, n a * d.H a b * n b - 2 * ∑ a, ∑ b, n a * d.H a b * m b + ∑ a, ∑ b, m a * d.H a b * m b := by
    have : ∑ a, ∑ b, userW d x a * d.H a b * userW d x b =
        ∑ a, ∑ b, n a * d.H a b * n b - ∑ a, ∑ b, n a * d.H a b * m b - ∑ a, ∑ b, m a * d.H a b * n b
          + ∑ a, ∑ b, m a * d.H a b * m b := by
      simp only [← Finset.sum_sub_distrib, ← Finset.sum_add_distrib, hu]
      exact Finset.sum_congr rfl fun a _ => Finset.sum_congr rfl fun b _ => by ring
    rw [this, ← hc]; ring
  have h2 : ∑ a, d.Cw a * userW d x a = ∑ a, d.Cw a * n a - ∑ a, d.Cw a * m a := by
    simp only [← Finset.sum_sub_distrib, hu]
    exact Finset.sum_congr rfl fun a _ => by ring
  have e1 : ∑ a, n a * ∑ b, d.H a b * n b = ∑ a, ∑ b, n a * d.H a b * n b :=
    Finset.sum_congr rfl fun a _ => by rw [Finset.mul_sum]; exact Finset.sum_congr rfl fun b _ => by ring
  have e2 : ∑ a, m a * ∑ b, d.H a b * m b = ∑ a, ∑ b, m a * d.H a b * m b :=
    Finset.sum_congr rfl fun a _ => by rw [Finset.mul_sum]; exact Finset.sum_congr rfl fun b _ => by ring
  have e3 : ∑ a, (d.Cw a - ∑ b, d.H a b * m b) * n a = ∑ a, d.Cw a * n a - ∑ a, ∑ b, n a * d.H a b * m b := by
    rw [← Finset.sum_sub_distrib]
    refine Finset.sum_congr rfl fun a _ => ?_
    rw [sub_mul, Finset.sum_mul]
    congr 1
    exact Finset.sum_congr rfl fun b _ => by ring
  have e4 : ∑ q, ((polycf d q).1 * x (d.pg q) ^ 2 + (polycf d q).2.1 * x (d.pg q) + (polycf d q).2.2) =
      1 / 2 * ∑ q, x (d.pg q) * (2 * (polycf d q).1 * x (d.pg q)) + ∑ q, (polycf d q).2.1 * x (d.pg q) + ∑ q, (polycf d q).2.2 := by
    rw [Finset.mul_sum, ← Finset.sum_add_distrib, ← Finset.sum_add_distrib]
    exact Finset.sum_congr rfl fun q _ => by ring
  rw [e1, e2, e3, e4, h1, h2]
  ring

/-- **C18** (the part that holds). Without user offsets (`rh = 0`; without user costs this is automatic) and with every polynomial row
linear or quadratic (`NCOST` 2 or 3), the objective of the DC OPF is the total cost at every point.
Missing: other `NCOST` values and nonzero `rh` (see `C18_negation`). -/
theorem C18_partial (d : DcData X Q W) (hrh : ∀ w, d.rh w = 0) (hnc : ∀ q, (d.row q).ncost = 2 ∨ (d.row q).ncost = 3) (x : X → ℝ) :
    dcObjective d x = totalCost d x := by
  rw [dcObjective_eq]
  unfold C0 totalCost
  simp only [dotProduct, Fintype.sum_sum_type, HHw_mulVec, MN_mulVec, MR_apply, CCw, Pi.sub_apply, one_mul, sub_zero, mul_zero,
    Finset.sum_const_zero, zero_add, sum_unit, hrh, userW, add_zero]
  have e4 : ∑ q, genCost d x q =
      1 / 2 * ∑ q, x (d.pg q) * (2 * (polycf d q).1 * x (d.pg q)) + ∑ q, (polycf d q).2.1 * x (d.pg q) + ∑ q, (polycf d q).2.2 := by
    rw [Finset.mul_sum, ← Finset.sum_add_distrib, ← Finset.sum_add_distrib]
    refine Finset.sum_congr rfl fun q _ => ?_
    have := polycf_value d x q
    rw [if_pos (hnc q)] at this
    rw [← this]; ring
  rw [e4]
  have e1 : ∑ a, (d.mm a * ∑ j, d.N a j * x j) * ∑ b, d.H a b * (d.mm b * ∑ j, d.N b j * x j) =
      ∑ a, ∑ b, (d.mm a * ∑ j, d.N a j * x j) * d.H a b * (d.mm b * ∑ j, d.N b j * x j) :=
    Finset.sum_congr rfl fun a _ => by rw [Finset.mul_sum]; exact Finset.sum_congr rfl fun b _ => by ring
  rw [e1]
  ring

/-- **C18** (negation): the objective differs from the total cost (1) by the linear user cost of the offset, whenever that is not zero, and
(2) by the whole cost of a row with a constant only (`NCOST = 1`) or of order three and above. -/
theorem C18_negation (d : DcData X Q W) (hH : ∀ a b, d.H a b = d.H b a) (x : X → ℝ) :
    ((∀ q, (d.row q).ncost = 2 ∨ (d.row q).ncost = 3) → ∑ w, d.Cw w * (d.mm w * d.rh w) ≠ 0 → dcObjective d x ≠ totalCost d x) ∧
    (∀ q, (∀ w, d.rh w = 0) → (∀ q', q' ≠ q → (d.row q').ncost = 2 ∨ (d.row q').ncost = 3) →
      (d.row q).ncost ≠ 2 → (d.row q).ncost ≠ 3 → genCost d x q ≠ 0 → dcObjective d x ≠ totalCost d x) := by
  refine ⟨fun hnc hne h => ?_, fun q hrh hnc h2 h3 hne h => ?_⟩
  · rw [dcObjective_exact d hH] at h
    simp only [hnc, if_true, Finset.sum_const_zero, sub_zero] at h
    exact hne (by linarith)
  · rw [dcObjective_exact d hH, Finset.sum_eq_single q] at h
    · simp only [h2, h3, or_self, if_false, hrh, mul_zero, Finset.sum_const_zero, add_zero] at h
      exact hne (by linarith)
    · intro q' _ hq'
      rw [if_pos (hnc q' hq')]
    · intro hn; exact absurd (Finset.mem_univ q) hn

/-- A system with one quadratic generator and one user cost with a nonzero offset: hypotheses of both parts can be met. -/
noncomputable def exD (rh : ℝ) (n : Nat) : DcData (Fin 2) (Fin 1) (Fin 1) :=
  ⟨100, fun _ => ⟨2, n, [0.01, 20, 5]⟩, fun _ => 0, {1}, fun _ _ => 1, fun _ _ => 2, fun _ => 3, fun _ => rh, fun _ => 1⟩

example : (∀ w, (exD 0 3).rh w = 0) ∧ (∀ q, ((exD 0 3).row q).ncost = 2 ∨ ((exD 0 3).row q).ncost = 3) := by simp [exD]

example (x : Fin 2 → ℝ) : dcObjective (exD 1 3) x ≠ totalCost (exD 1 3) x :=
  (C18_negation (exD 1 3) (by simp [exD]) x).1 (by simp [exD]) (by simp [exD])

example : dcObjective (exD 0 1) 0 ≠ totalCost (exD 0 1) 0 :=
  (C18_negation (exD 0 1) (by simp [exD]) 0).2 0 (by simp [exD]) (by intro q' h; exact absurd (Subsingleton.elim q' 0) h)
    (by simp [exD]) (by simp [exD]) (by simp [exD, genCost, rowPoly]; norm_num)

end Verif.OpfCost
