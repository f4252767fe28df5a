import Mathlib.Analysis.Calculus.Deriv.Add
import Mathlib.Analysis.Calculus.Deriv.Mul
import Mathlib.Analysis.Calculus.Deriv.Polynomial
import Mathlib.Analysis.Calculus.Deriv.Comp
import Mathlib.Topology.Order.OrderClosed
import Mathlib.Topology.Instances.Real.Lemmas
import Mathlib.Tactic.Linarith
import Verif.OpfCost.AcModel
import Verif.NumPyLemmas
import Verif.Cost.Lemmas

/-!
# Lemmas for the AC OPF cost function
-/

namespace Verif.OpfCost

open Verif.Cost Verif.NumPy OpfModel

/-! ## User costs -/

/-- `w_i` as a function of the residual `r_i`. -/
noncomputable def wOf (P : Params) (i : Nat) (r : ℝ) : ℝ :=
  ((if r < -P.kk i then P.mm i else 0) + (if r = 0 ∧ P.kk i = 0 then P.mm i else 0) + (if r > P.kk i then P.mm i else 0)) *
    (((if P.dd i = 1 then 1 else 0) + (if P.dd i = 2 then 1 else 0) *
      (r + ((if r < -P.kk i then 1 else 0) + (if r = 0 ∧ P.kk i = 0 then 0 else 0) + (if r > P.kk i then -1 else 0)) * P.kk i)) *
      (r + ((if r < -P.kk i then 1 else 0) + (if r = 0 ∧ P.kk i = 0 then 0 else 0) + (if r > P.kk i then -1 else 0)) * P.kk i))

theorem w_eq (P : Params) (x : Nat → ℝ) (i : Nat) : P.w x i = wOf P i (P.r x i) := rfl

theorem smooth (m l q k r : ℝ) : HasDerivAt (fun r => m * ((l + q * (r + k)) * (r + k))) (m * (l + 2 * q * (r + k))) r := by
  have h1 : HasDerivAt (fun r : ℝ => r + k) 1 r := (hasDerivAt_id r).add_const k
  have h2 : HasDerivAt (fun r : ℝ => l + q * (r + k)) (q * 1) r := (h1.const_mul q).const_add l
  have h3 := (h2.fun_mul h1).const_mul m
  exact h3.congr_deriv (by ring)

theorem wOf_deriv (P : Params) (x : Nat → ℝ) (i : Nat) (hk : 0 ≤ P.kk i) (hb : P.kk i = 0 ∨ |P.r x i| ≠ P.kk i) :
    HasDerivAt (wOf P i) (P.M x i * ((if P.dd i = 1 then 1 else 0) + 2 * (if P.dd i = 2 then 1 else 0) * P.rr x i)) (P.r x i) := by
  set r0 := P.r x i with hr0
  set l : ℝ := if P.dd i = 1 then 1 else 0
  set q : ℝ := if P.dd i = 2 then 1 else 0
  rcases hk.eq_or_lt with h0 | hpos
  · have hfun : wOf P i = fun r => P.mm i * ((l + q * (r + 0)) * (r + 0)) := by
      funext r
      unfold wOf
      rw [← h0]
      rcases lt_trichotomy r 0 with h | h | h
      · simp [h, h.ne, not_lt.2 h.le, l, q]
      · simp [h]
      · simp [h, h.ne', not_lt.2 h.le, l, q]
    have hM : P.M x i = P.mm i := by
      unfold Params.M
      rw [← hr0, ← h0]
      rcases lt_trichotomy r0 0 with h | h | h
      · simp [h, h.ne, not_lt.2 h.le]
      · simp [h]
      · simp [h, h.ne', not_lt.2 h.le]
    have hrr : P.rr x i = r0 + 0 := by
      unfold Params.rr
      rw [← hr0, ← h0]; simp
    rw [hfun, hM, hrr]
    exact smooth _ _ _ _ _
  · have hb' : |r0| ≠ P.kk i := by
      rcases hb with h | h
      · exact absurd h hpos.ne'
      · exact h
    rcases lt_or_gt_of_ne hb' with hin | hout
    · obtain ⟨h1, h2⟩ := abs_lt.1 hin
      have hM : P.M x i = 0 := by
        unfold Params.M
        rw [← hr0]
        simp [not_lt.2 h1.le, not_lt.2 h2.le, hpos.ne']
      rw [hM, zero_mul]
      have : wOf P i =ᶠ[nhds r0] fun _ => 0 := by
        filter_upwards [lt_mem_nhds h1, gt_mem_nhds h2] with r a b
        unfold wOf
        simp [not_lt.2 a.le, not_lt.2 b.le, hpos.ne']
      exact (hasDerivAt_const r0 (0 : ℝ)).congr_of_eventuallyEq this
    · rcases lt_abs.1 hout with h | h
      · have hM : P.M x i = P.mm i := by
          unfold Params.M
          rw [← hr0]
          have : ¬ r0 < -P.kk i := by linarith
          simp [this, h, hpos.ne']
        have hrr : P.rr x i = r0 + -P.kk i := by
          unfold Params.rr
          rw [← hr0]
          have : ¬ r0 < -P.kk i := by linarith
          simp [this, h]
        have : wOf P i =ᶠ[nhds r0] fun r => P.mm i * ((l + q * (r + -P.kk i)) * (r + -P.kk i)) := by
          filter_upwards [lt_mem_nhds h] with r a
          unfold wOf
          have : ¬ r < -P.kk i := by linarith
          simp [this, a, hpos.ne', l, q]
        rw [hM, hrr]
        exact (smooth _ _ _ _ _).congr_of_eventuallyEq this
      · have h' : r0 < -P.kk i := by linarith
        have hM : P.M x i = P.mm i := by
          unfold Params.M
          rw [← hr0]
          have : ¬ P.kk i < r0 := by linarith
          simp [this, h', hpos.ne']
        have hrr : P.rr x i = r0 + P.kk i := by
          unfold Params.rr
          rw [← hr0]
          have : ¬ P.kk i < r0 := by linarith
          simp [this, h']
        have : wOf P i =ᶠ[nhds r0] fun r => P.mm i * ((l + q * (r + P.kk i)) * (r + P.kk i)) := by
          filter_upwards [gt_mem_nhds h'] with r a
          unfold wOf
          have : ¬ P.kk i < r := by linarith
          simp [this, a, hpos.ne', l, q]
        rw [hM, hrr]
        exact (smooth _ _ _ _ _).congr_of_eventuallyEq this

/-- Moving from `x` in direction `e`. -/
def along (x e : Nat → ℝ) (t : ℝ) (j : Nat) : ℝ := x j + t * e j

theorem along_zero (x e : Nat → ℝ) : along x e 0 = x := by funext j; simp [along]

theorem along_deriv (x e : Nat → ℝ) (j : Nat) : HasDerivAt (fun t => along x e t j) (e j) 0 := by
  have := ((hasDerivAt_id (0 : ℝ)).mul_const (e j)).const_add (x j)
  simpa [along] using this

theorem r_deriv (P : Params) (x e : Nat → ℝ) (i : Nat) :
    HasDerivAt (fun t => P.r (along x e t) i) (∑ j ∈ Finset.range P.nx, P.N i j * e j) 0 := by
  unfold Params.r
  refine HasDerivAt.sub_const (c := P.rh i) ?_
  exact HasDerivAt.fun_sum fun j _ => (along_deriv x e j).const_mul _

theorem w_deriv (P : Params) (x e : Nat → ℝ) (i : Nat) (hk : 0 ≤ P.kk i) (hb : P.kk i = 0 ∨ |P.r x i| ≠ P.kk i) :
    HasDerivAt (fun t => P.w (along x e t) i)
      (P.M x i * ((if P.dd i = 1 then 1 else 0) + 2 * (if P.dd i = 2 then 1 else 0) * P.rr x i) *
        ∑ j ∈ Finset.range P.nx, P.N i j * e j) 0 := by
  simp only [w_eq]
  have h := wOf_deriv P x i hk hb
  have h2 := r_deriv P x e i
  rw [show P.r x i = P.r (along x e 0) i by rw [along_zero]] at h
  exact h.comp (0 : ℝ) h2

/-- Directional derivative of the user costs. -/
theorem userf_deriv (P : Params) (x e : Nat → ℝ) (hk : ∀ i, i < P.nw → 0 ≤ P.kk i)
    (hb : ∀ i, i < P.nw → P.kk i = 0 ∨ |P.r x i| ≠ P.kk i) (hH : ∀ a b, a < P.nw → b < P.nw → P.H a b = P.H b a) :
    HasDerivAt (fun t => P.f (along x e t)) (∑ j ∈ Finset.range P.nx, AAHwC P x j * e j) 0 := by
  set w' : Nat → ℝ := fun i => P.M x i * ((if P.dd i = 1 then 1 else 0) + 2 * (if P.dd i = 2 then 1 else 0) * P.rr x i) *
        ∑ j ∈ Finset.range P.nx, P.N i j * e j with hw'
  have hw : ∀ i, i ∈ Finset.range P.nw → HasDerivAt (fun t => P.w (along x e t) i) (w' i) 0 := fun i hi =>
    w_deriv P x e i (hk i (Finset.mem_range.1 hi)) (hb i (Finset.mem_range.1 hi))
  have h1 : HasDerivAt (fun t => P.f (along x e t))
      ((∑ b ∈ Finset.range P.nw, ((∑ a ∈ Finset.range P.nw, w' a * P.H a b) * P.w (along x e 0) b +
        (∑ a ∈ Finset.range P.nw, P.w (along x e 0) a * P.H a b) * w' b)) / 2 + ∑ i ∈ Finset.range P.nw, P.Cw i * w' i) 0 := by
    unfold Params.f
    refine HasDerivAt.add (HasDerivAt.div_const (HasDerivAt.fun_sum fun b hb' => ?_) 2) (HasDerivAt.fun_sum fun i hi => (hw i hi).const_mul _)
    exact (HasDerivAt.fun_sum fun a ha => (hw a ha).mul_const _).mul (hw b hb')
  convert h1 using 1
  rw [along_zero]
  have e1 : ∑ b ∈ Finset.range P.nw, (∑ a ∈ Finset.range P.nw, w' a * P.H a b) * P.w x b =
      ∑ i ∈ Finset.range P.nw, w' i * ∑ b ∈ Finset.range P.nw, P.H i b * P.w x b := by
    simp only [Finset.sum_mul, Finset.mul_sum]
    rw [Finset.sum_comm]
    exact Finset.sum_congr rfl fun _ _ => Finset.sum_congr rfl fun _ _ => by ring
  have e2 : ∑ b ∈ Finset.range P.nw, (∑ a ∈ Finset.range P.nw, P.w x a * P.H a b) * w' b =
      ∑ i ∈ Finset.range P.nw, w' i * ∑ b ∈ Finset.range P.nw, P.H i b * P.w x b := by
    refine Finset.sum_congr rfl fun i hi => ?_
    rw [mul_comm]
    congr 1
    refine Finset.sum_congr rfl fun b hb' => ?_
    rw [hH i b (Finset.mem_range.1 hi) (Finset.mem_range.1 hb')]; ring
  rw [Finset.sum_add_distrib, e1, e2]
  have e3 : ∑ i ∈ Finset.range P.nw, w' i * HwC P x i =
      (∑ i ∈ Finset.range P.nw, w' i * ∑ b ∈ Finset.range P.nw, P.H i b * P.w x b) + ∑ i ∈ Finset.range P.nw, P.Cw i * w' i := by
    rw [← Finset.sum_add_distrib]
    refine Finset.sum_congr rfl fun i _ => ?_
    unfold HwC; ring
  have e4 : ∑ j ∈ Finset.range P.nx, AAHwC P x j * e j = ∑ i ∈ Finset.range P.nw, w' i * HwC P x i := by
    unfold AAHwC
    simp only [Finset.sum_mul]
    rw [Finset.sum_comm]
    refine Finset.sum_congr rfl fun i _ => ?_
    simp only [hw', Finset.mul_sum, Finset.sum_mul]
    exact Finset.sum_congr rfl fun j _ => by ring
  rw [e4, e3]
  ring

/-! ## Generator costs -/

theorem gather_eq_map {α : Type _} (xs : List α) (g : Nat → α) (idx : List Nat) (h : ∀ i ∈ idx, xs[i]? = some (g i)) :
    gather xs idx = some (idx.map g) := by
  induction idx with
  | nil => rfl
  | cons i is ih =>
    simp only [gather, h i (by simp), ih fun j hj => h j (by simp [hj]), List.map_cons]

theorem block_sum (g e : Nat → ℝ) (a m n : Nat) (h : a + m ≤ n) :
    ∑ j ∈ Finset.range n, (if a ≤ j ∧ j < a + m then g (j - a) else 0) * e j = ∑ k ∈ Finset.range m, g k * e (a + k) := by
  obtain ⟨c, rfl⟩ := Nat.exists_eq_add_of_le h
  rw [Finset.sum_range_add, Finset.sum_range_add]
  have h1 : ∑ j ∈ Finset.range a, (if a ≤ j ∧ j < a + m then g (j - a) else 0) * e j = 0 :=
    Finset.sum_eq_zero fun j hj => by
      have := Finset.mem_range.1 hj
      rw [if_neg (by omega), zero_mul]
  have h3 : ∑ k ∈ Finset.range c, (if a ≤ a + m + k ∧ a + m + k < a + m then g (a + m + k - a) else 0) * e (a + m + k) = 0 :=
    Finset.sum_eq_zero fun j hj => by rw [if_neg (by omega), zero_mul]
  rw [h1, h3, zero_add, add_zero]
  refine Finset.sum_congr rfl fun k hk => ?_
  have := Finset.mem_range.1 hk
  rw [if_pos (by omega)]
  simp

end Verif.OpfCost
