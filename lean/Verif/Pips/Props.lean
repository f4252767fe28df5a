import Verif.Pips.Model
import Mathlib.Algebra.Order.Chebyshev
import Mathlib.Tactic.Linarith
import Mathlib.Tactic.Positivity
import Mathlib.Tactic.FieldSimp
import Mathlib.Tactic.LinearCombination
import Mathlib.Tactic.NormNum

/-!
# Interior point solver: strict interiority, meaning of success, Newton direction

Properties C34, C35 and C68 of `properties.jsonl`.
-/

set_option linter.unusedSectionVars false

open Matrix

namespace Verif.Pips

variable {X E I : Type*} [Fintype X] [Fintype E] [Fintype I] [DecidableEq X] [DecidableEq E] [DecidableEq I]

/-- Strictly interior: every slack and every inequality multiplier is positive. -/
def Interior (s : St X E I) : Prop := (∀ i, 0 < s.z i) ∧ (∀ i, 0 < s.mu i)

/-! ### The step-length rule -/

theorem stepLen_pos (z dz : I → ℝ) (hz : ∀ i, 0 < z i) : 0 < stepLen z dz := by
  unfold stepLen
  split_ifs with hk
  · refine lt_min (mul_pos (by norm_num [xi]) ?_) one_pos
    rw [Finset.lt_inf'_iff]
    intro i hi
    have : dz i < 0 := (Finset.mem_filter.1 hi).2
    exact div_pos (hz i) (by linarith)
  · exact one_pos

theorem stepLen_le_one (z dz : I → ℝ) : stepLen z dz ≤ 1 := by
  unfold stepLen
  split_ifs with hk
  · exact min_le_right _ _
  · exact le_refl _

/-- Fraction-to-the-boundary rule: after the step every component keeps more than `(1 - xi)` of its value. -/
theorem stepLen_keeps (z dz : I → ℝ) (hz : ∀ i, 0 < z i) (i : I) :
    (1 - xi) * z i ≤ z i + stepLen z dz * dz i := by
  have hpos := stepLen_pos z dz hz
  have hxi : xi < 1 := by norm_num [xi]
  have hxi0 : 0 < xi := by norm_num [xi]
  by_cases hd : dz i < 0
  · have hmem : i ∈ Finset.univ.filter (fun i => dz i < 0) := by simp [hd]
    have hk : (Finset.univ.filter (fun i => dz i < 0)).Nonempty := ⟨i, hmem⟩
    have h1 : stepLen z dz ≤ xi * (z i / -dz i) := by
      unfold stepLen
      rw [dif_pos (by convert hk)]
      refine (min_le_left _ _).trans (mul_le_mul_of_nonneg_left ?_ hxi0.le)
      exact Finset.inf'_le (f := fun i => z i / -dz i) (by simp [hd])
    have h2 : stepLen z dz * -dz i ≤ xi * z i := by
      have h3 : stepLen z dz * -dz i ≤ xi * (z i / -dz i) * -dz i :=
        mul_le_mul_of_nonneg_right h1 (by linarith)
      have h4 : xi * (z i / -dz i) * -dz i = xi * z i := by
        have : -dz i ≠ 0 := by linarith
        rw [mul_assoc, div_mul_cancel₀ _ this]
      linarith
    linarith
  · have h1 : 0 ≤ stepLen z dz * dz i := mul_nonneg hpos.le (not_lt.1 hd)
    have := hz i
    nlinarith

theorem update_interior (s : St X E I) (d : Dir X E I) (hs : Interior s) : Interior (update s d) := by
  have hxi : (0 : ℝ) < 1 - xi := by norm_num [xi]
  constructor
  · intro i
    have h := stepLen_keeps s.z d.dz hs.1 i
    have h2 : 0 < (1 - xi) * s.z i := mul_pos hxi (hs.1 i)
    simpa [update] using lt_of_lt_of_le h2 h
  · intro i
    have h := stepLen_keeps s.mu d.dmu hs.2 i
    have h2 : 0 < (1 - xi) * s.mu i := mul_pos hxi (hs.2 i)
    simpa [update] using lt_of_lt_of_le h2 h

theorem init_interior (P : Problem X E I) (o : Opt) (x0 : X → ℝ) : Interior (init P o x0) := by
  constructor
  · intro i
    simp only [init, initZ]
    split_ifs with h
    · linarith
    · exact one_pos
  · intro i
    simp only [init, initMu]
    split_ifs with h
    · linarith
    · exact one_pos

/-- **C34.**  Start `pips` at any point of any problem and let the search directions be arbitrary: every state the loop can
reach has strictly positive slacks and multipliers. -/
theorem C34_positive (P : Problem X E I) (o : Opt) (x0 : X → ℝ) (s : St X E I) (h : Reach (init P o x0) s) :
    (∀ i, 0 < s.z i) ∧ (∀ i, 0 < s.mu i) := by
  induction h with
  | start => exact init_interior P o x0
  | step d f0 _ ih => exact update_interior _ d ih

/-- Every state left behind by the loop is reachable in the sense of `Reach`. -/
theorem loop_reach (P : Problem X E I) (o : Opt) (solve : Solver X E) (s0 : St X E I) :
    ∀ (fuel i : ℕ) (s : St X E I), Reach s0 s → Reach s0 (loop P o solve fuel i s).st := by
  intro fuel
  induction fuel with
  | zero => intro i s h; exact h
  | succ n ih =>
    intro i s h
    have hstep : ∀ d, Reach s0 (update s d) := fun d => Reach.step (s := s) d s.f0 h
    rw [loop]
    split
    · exact h
    · next d _ =>
      split_ifs
      · exact hstep d
      · exact hstep d
      · exact ih _ _ (Reach.step d _ h)

/-- The state at the end of a run is reachable, so C34 applies to what is returned. -/
theorem run_reach (P : Problem X E I) (o : Opt) (solve : Solver X E) (x0 : X → ℝ) :
    Reach (init P o x0) (run P o solve x0).st := by
  unfold run
  split_ifs
  · exact Reach.start
  · exact loop_reach P o solve _ _ _ _ Reach.start

/-- **C34 (returned multipliers).**  With a positive cost multiplier the inequality multipliers handed to the caller are
non-negative, whatever the linear solver did and however the run ended. -/
theorem C34_returned_nonneg (P : Problem X E I) (o : Opt) (solve : Solver X E) (x0 : X → ℝ) (hc : 0 < o.costMult) (i : I) :
    0 ≤ (pips P o solve x0).mu i := by
  have h := (C34_positive P o x0 _ (run_reach P o solve x0)).2 i
  simp only [pips, finalMu]
  split_ifs
  · simp
  · exact (div_pos h hc).le

/-- **C34 (barrier parameter).**  Along the whole run the barrier coefficient stays positive. -/
theorem C34_gamma (P : Problem X E I) (o : Opt) (x0 : X → ℝ) (s : St X E I) (h : Reach (init P o x0) s) : 0 < s.gamma := by
  have hI := C34_positive P o x0
  induction h with
  | start => simp [init]
  | @step s d f0 hr ih =>
    have hi := update_interior s d (hI s hr)
    by_cases hc : 0 < Fintype.card I
    · have hne : (Finset.univ : Finset I).Nonempty := Finset.univ_nonempty_iff.2 (Fintype.card_pos_iff.1 hc)
      have hdot : 0 < (update s d).z ⬝ᵥ (update s d).mu :=
        Finset.sum_pos (fun i _ => mul_pos (hi.1 i) (hi.2 i)) hne
      have hg : (update s d).gamma = sigma * ((update s d).z ⬝ᵥ (update s d).mu) / Fintype.card I := by
        simp [update, hc]
      show 0 < (update s d).gamma
      rw [hg]
      exact div_pos (mul_pos (by norm_num [sigma]) hdot) (by exact_mod_cast hc)
    · simpa [update, hc] using ih

/-! ### Meaning of the reported status -/

theorem loop_iters (P : Problem X E I) (o : Opt) (solve : Solver X E) :
    ∀ (fuel i : ℕ) (s : St X E I), (loop P o solve fuel i s).iters ≤ i + fuel ∧ i ≤ (loop P o solve fuel i s).iters := by
  intro fuel
  induction fuel with
  | zero => intro i s; simp [loop]
  | succ n ih =>
    intro i s
    rw [loop]
    split
    · constructor <;> simp
    · next d _ =>
      split_ifs
      · constructor <;> simp
      · constructor <;> simp
      · have := ih (i + 1) { update s d with f0 := cost P o (update s d).x }
        omega

theorem loop_conv (P : Problem X E I) (o : Opt) (solve : Solver X E) :
    ∀ (fuel i : ℕ) (s : St X E I), (loop P o solve fuel i s).exit = .converged → conv P o (loop P o solve fuel i s).st := by
  intro fuel
  induction fuel with
  | zero => intro i s h; simp [loop] at h
  | succ n ih =>
    intro i s h
    rw [loop] at h ⊢
    split at h
    · simp at h
    · next d hd =>
      split_ifs at h ⊢ with h1 h2
      · exact h1
      · exact ih _ _ h

theorem loop_maxIter (P : Problem X E I) (o : Opt) (solve : Solver X E) :
    ∀ (fuel i : ℕ) (s : St X E I), (loop P o solve fuel i s).exit = .maxIter → (loop P o solve fuel i s).iters = i + fuel := by
  intro fuel
  induction fuel with
  | zero => intro i s h; simp [loop]
  | succ n ih =>
    intro i s h
    rw [loop] at h ⊢
    split at h
    · simp at h
    · next d hd =>
      split_ifs at h ⊢ with h1 h2
      · have := ih _ _ h
        omega

/-- A run that stops because of a failure did see one: the linear solver returned NaN, or a step length or the barrier
coefficient left its range. -/
theorem loop_failed (P : Problem X E I) (o : Opt) (solve : Solver X E) :
    ∀ (fuel i : ℕ) (s : St X E I), (loop P o solve fuel i s).exit = .failed →
      (direction P o solve (loop P o solve fuel i s).st = none) ∨
      (∃ s' d, (loop P o solve fuel i s).st = update s' d ∧ direction P o solve s' = some d ∧ numFail s' d ∧
        ¬ conv P o (update s' d)) := by
  intro fuel
  induction fuel with
  | zero => intro i s h; simp [loop] at h
  | succ n ih =>
    intro i s h
    rw [loop] at h ⊢
    split at h
    · next hd => left; exact hd
    · next d hd =>
      split_ifs at h ⊢ with h1 h2
      · right; exact ⟨s, d, rfl, hd, h2, h1⟩
      · exact ih _ _ h

theorem le_maxh (h : I → ℝ) (i : I) : h i ≤ maxh h := by
  unfold maxh
  rw [dif_pos ⟨i, Finset.mem_univ i⟩]
  exact Finset.le_sup' h (Finset.mem_univ i)

/-- **C35 (success).**  If `pips` reports success (`eflag`), then at the returned `x`, with the slacks `z` and (scaled)
multipliers `lam`, `mu` of the last state:
every equality residual is below `feastol` and every inequality violated by less than `feastol`, relative to `1 + max(‖x‖,‖z‖)`;
every component of the Lagrangian gradient `df + dg·lam + dh·mu` is below `gradtol` relative to `1 + max(‖lam‖,‖mu‖)`;
the complementarity `Σ zᵢ muᵢ` is below `comptol (1 + ‖x‖)`, slacks and multipliers being positive;
and the last relative cost change is below `costtol`. -/
theorem C35_success (P : Problem X E I) (o : Opt) (solve : Solver X E) (x0 : X → ℝ)
    (h : (pips P o solve x0).eflag = true) :
    ∃ (z : I → ℝ) (lam : E → ℝ) (mu : I → ℝ) (f0 : ℝ),
      let x := (pips P o solve x0).x
      (z = (run P o solve x0).st.z ∧ lam = (run P o solve x0).st.lam ∧ mu = (run P o solve x0).st.mu ∧ f0 = (run P o solve x0).st.f0) ∧
      (∀ i, 0 < z i) ∧ (∀ i, 0 < mu i) ∧
      (∀ j, |P.g x j| < o.feastol * (1 + max ‖x‖ ‖z‖)) ∧
      (∀ i, P.h x i < o.feastol * (1 + max ‖x‖ ‖z‖)) ∧
      (∀ v, |P.df x v * o.costMult + ∑ j, P.dg x v j * lam j + ∑ i, P.dh x v i * mu i| < o.gradtol * (1 + max ‖lam‖ ‖mu‖)) ∧
      ∑ i, z i * mu i < o.comptol * (1 + ‖x‖) ∧
      |P.f x * o.costMult - f0| < o.costtol * (1 + |f0|) ∧
      (∀ j, (pips P o solve x0).lam j = lam j / o.costMult) ∧
      (∀ i, (pips P o solve x0).mu i = mu i / o.costMult ∨
        ((pips P o solve x0).mu i = 0 ∧ P.h x i < -o.feastol ∧ mu i < 1 / 10 ^ 5)) := by
  have hc : (run P o solve x0).exit = .converged := by simpa [pips] using h
  have hconv : conv P o (run P o solve x0).st := by
    unfold run at hc ⊢
    split_ifs at hc ⊢ with h0
    · exact h0
    · exact loop_conv P o solve _ _ _ hc
  obtain ⟨hz, hm⟩ := C34_positive P o x0 _ (run_reach P o solve x0)
  set s := (run P o solve x0).st with hs
  obtain ⟨h1, h2, h3, h4⟩ := hconv
  have hx : (pips P o solve x0).x = s.x := rfl
  have p1 : 0 < 1 + max ‖s.x‖ ‖s.z‖ := by positivity
  have p2 : 0 < 1 + max ‖s.lam‖ ‖s.mu‖ := by positivity
  have p3 : 0 < 1 + ‖s.x‖ := by positivity
  have p4 : 0 < 1 + |s.f0| := by positivity
  rw [feascond, div_lt_iff₀ p1] at h1
  rw [gradcond, div_lt_iff₀ p2] at h2
  rw [compcond, div_lt_iff₀ p3] at h3
  rw [costcond, div_lt_iff₀ p4] at h4
  refine ⟨s.z, s.lam, s.mu, s.f0, ⟨rfl, rfl, rfl, rfl⟩, hz, hm, ?_, ?_, ?_, h3, h4, fun j => rfl, ?_⟩
  · intro j
    rw [hx]
    exact lt_of_le_of_lt ((norm_le_pi_norm (P.g s.x) j).trans (le_max_left _ _)) h1
  · intro i
    rw [hx]
    exact lt_of_le_of_lt ((le_maxh (P.h s.x) i).trans (le_max_right _ _)) h1
  · intro v
    rw [hx]
    exact lt_of_le_of_lt (norm_le_pi_norm (Lx P o s.x s.lam s.mu) v) h2
  · intro i
    show finalMu P o s i = _ ∨ (finalMu P o s i = 0 ∧ P.h s.x i < _ ∧ _)
    unfold finalMu
    split_ifs with hb
    · right; exact ⟨by simp, hb.1, hb.2⟩
    · left; rfl

/-- **C35 (iteration bound and failure reports).**  The number of iterations never exceeds `max_it`; `eflag` is true exactly
when the exit message is "Converged"; "Did not converge" is only reported after exactly `max_it` iterations. -/
theorem C35_status (P : Problem X E I) (o : Opt) (solve : Solver X E) (x0 : X → ℝ) :
    (pips P o solve x0).iterations ≤ o.maxIt ∧
    ((pips P o solve x0).eflag = true ↔ (pips P o solve x0).exit = .converged) ∧
    ((pips P o solve x0).exit = .maxIter → (pips P o solve x0).iterations = o.maxIt) := by
  refine ⟨?_, by simp [pips], ?_⟩
  · show (run P o solve x0).iters ≤ _
    unfold run
    split_ifs
    · simp
    · simpa using (loop_iters P o solve o.maxIt 0 (init P o x0)).1
  · intro h
    change (run P o solve x0).exit = _ at h
    show (run P o solve x0).iters = _
    unfold run at h ⊢
    split_ifs at h ⊢
    simpa using loop_maxIter P o solve o.maxIt 0 (init P o x0) h

/-- **C35 (numerical failure).**  "Numerically failed" is only reported when the linear solver returned NaN at the returned
point, or when after the last update a step length was below `1e-8` or the barrier coefficient outside `[EPS, 1/EPS]` and the convergence
test did not hold. -/
theorem C35_failure (P : Problem X E I) (o : Opt) (solve : Solver X E) (x0 : X → ℝ)
    (h : (pips P o solve x0).exit = .failed) :
    (solve (newtonMat P o (run P o solve x0).st) (newtonRhs P o (run P o solve x0).st) = none) ∨
    (∃ s' d, (run P o solve x0).st = update s' d ∧ ¬ conv P o (update s' d) ∧
      (stepLen s'.z d.dz < 1 / 10 ^ 8 ∨ stepLen s'.mu d.dmu < 1 / 10 ^ 8 ∨
        (update s' d).gamma < 1 / 2 ^ 52 ∨ (2 : ℝ) ^ 52 < (update s' d).gamma)) := by
  change (run P o solve x0).exit = _ at h
  have hr : ¬ conv P o (init P o x0) := by
    intro hc
    simp [run, hc] at h
  have e : run P o solve x0 = loop P o solve o.maxIt 0 (init P o x0) := by simp [run, hr]
  rw [e] at h ⊢
  rcases loop_failed P o solve _ _ _ h with h1 | ⟨s', d, h1, _, h2, h3⟩
  · left
    simpa [direction] using h1
  · right
    refine ⟨s', d, h1, h3, ?_⟩
    rcases h2 with h2 | h2 | h2 | h2
    · exact Or.inl h2
    · exact Or.inr (Or.inl h2)
    · exact Or.inr (Or.inr (Or.inl h2))
    · refine Or.inr (Or.inr (Or.inr ?_))
      have : (1 : ℝ) / eps = 2 ^ 52 := by norm_num [eps]
      rw [← this]; exact h2

/-! ### The Newton direction -/

/-- **C68.**  If the linear solver solves the reduced system it is given, the full direction `(dx, dlam, dz, dmu)` is the Newton
direction of the perturbed KKT conditions: it solves the linearisations of `Lx = 0`, `g = 0`, `h + z = 0` and
`z·mu = gamma`. -/
theorem C68_newton (P : Problem X E I) (o : Opt) (s : St X E I) (hz : ∀ i, s.z i ≠ 0) (sol : X ⊕ E → ℝ)
    (hsol : newtonMat P o s *ᵥ sol = newtonRhs P o s) :
    let d := rawDir P s sol
    P.hess s.x s.lam s.mu o.costMult *ᵥ d.dx + P.dg s.x *ᵥ d.dlam + P.dh s.x *ᵥ d.dmu
        = -(fun v => P.df s.x v * o.costMult + (P.dg s.x *ᵥ s.lam) v + (P.dh s.x *ᵥ s.mu) v) ∧
    (P.dg s.x)ᵀ *ᵥ d.dx = -P.g s.x ∧
    (P.dh s.x)ᵀ *ᵥ d.dx + d.dz = -(P.h s.x + s.z) ∧
    (∀ i, s.z i * d.dmu i + s.mu i * d.dz i = s.gamma - s.z i * s.mu i) := by
  intro d
  have hsplit : sol = Sum.elim d.dx d.dlam := by
    funext i; cases i <;> rfl
  rw [hsplit, newtonMat, newtonRhs, fromBlocks_mulVec] at hsol
  have e1 := congrArg (fun v => fun i => v (Sum.inl i)) hsol
  have e2 := congrArg (fun v => fun i => v (Sum.inr i)) hsol
  simp only [Sum.elim_inl, Sum.elim_inr, Function.comp_def] at e1 e2
  have hdmu : ∀ i, s.z i * d.dmu i + s.mu i * d.dz i = s.gamma - s.z i * s.mu i := by
    intro i
    have : d.dmu i = -s.mu i + 1 / s.z i * (s.gamma - s.mu i * d.dz i) := rfl
    rw [this]
    have := hz i
    field_simp
    ring
  have hdz : d.dz = -P.h s.x - s.z - (P.dh s.x)ᵀ *ᵥ d.dx := rfl
  refine ⟨?_, ?_, ?_, hdmu⟩
  · have hmu : d.dmu = (fun i => 1 / s.z i * (s.mu i * ((P.dh s.x)ᵀ *ᵥ d.dx) i)) +
        (fun i => 1 / s.z i * (s.mu i * P.h s.x i + s.gamma)) := by
      funext i
      have h1 : d.dmu i = -s.mu i + 1 / s.z i * (s.gamma - s.mu i * d.dz i) := rfl
      rw [h1, hdz]
      have := hz i
      simp only [Pi.sub_apply, Pi.neg_apply, Pi.add_apply]
      field_simp
      ring
    have hA : (P.dh s.x * diagonal (fun i => 1 / s.z i) * diagonal s.mu * (P.dh s.x)ᵀ) *ᵥ d.dx
        = P.dh s.x *ᵥ (fun i => 1 / s.z i * (s.mu i * ((P.dh s.x)ᵀ *ᵥ d.dx) i)) := by
      rw [← mulVec_mulVec, ← mulVec_mulVec, ← mulVec_mulVec]
      congr 1
      funext i
      rw [mulVec_diagonal, mulVec_diagonal]
    have hB : (P.dh s.x * diagonal (fun i => 1 / s.z i)) *ᵥ (fun i => s.mu i * P.h s.x i + s.gamma)
        = P.dh s.x *ᵥ (fun i => 1 / s.z i * (s.mu i * P.h s.x i + s.gamma)) := by
      rw [← mulVec_mulVec]
      congr 1
      funext i
      rw [mulVec_diagonal]
    rw [hmu, mulVec_add]
    have e1' : (P.hess s.x s.lam s.mu o.costMult +
        P.dh s.x * diagonal (fun i => 1 / s.z i) * diagonal s.mu * (P.dh s.x)ᵀ) *ᵥ d.dx + P.dg s.x *ᵥ d.dlam =
        -(Lx P o s.x s.lam s.mu + (P.dh s.x * diagonal (fun i => 1 / s.z i)) *ᵥ
          (fun i => s.mu i * P.h s.x i + s.gamma)) := by
      exact e1
    rw [add_mulVec, hA, hB] at e1'
    have hL : (fun v => P.df s.x v * o.costMult + (P.dg s.x *ᵥ s.lam) v + (P.dh s.x *ᵥ s.mu) v)
        = Lx P o s.x s.lam s.mu := rfl
    rw [hL]
    funext v
    have := congrFun e1' v
    simp only [Pi.add_apply, Pi.neg_apply] at this ⊢
    linarith
  · have e2' : (P.dg s.x)ᵀ *ᵥ d.dx + (0 : Matrix E E ℝ) *ᵥ d.dlam = -P.g s.x := by
      exact e2
    simpa using e2'
  · rw [hdz]
    funext i
    simp only [Pi.add_apply, Pi.sub_apply, Pi.neg_apply]
    ring

/-! ### Non-vacuity -/

/-- A problem with one variable: minimise `x²` subject to `1 - x ≤ 0`. -/
noncomputable def exP : Problem (Fin 1) (Fin 0) (Fin 1) where
  f := fun x => x 0 ^ 2
  df := fun x _ => 2 * x 0
  g := fun _ i => i.elim0
  dg := fun _ => 0
  h := fun x _ => 1 - x 0
  dh := fun _ => Matrix.of fun _ _ => -1
  hess := fun _ _ _ c => Matrix.of fun _ _ => 2 * c

/-- Default options. -/
noncomputable def exO : Opt := ⟨1, 1, 2, 1, 150, 20, false, 1⟩

/-- A problem on which success is really reported, at the starting point `x0 = 1` of `exP` with loose tolerances. -/
example : (pips exP exO (fun _ _ => none) (fun _ => 1)).eflag = true := by
  have hz : initZ exP (fun _ => (1 : ℝ)) = fun _ => 1 := by
    funext i; simp [initZ, exP]
  have hm : initMu (initZ exP (fun _ => (1 : ℝ))) = fun _ => 1 := by
    rw [hz]; funext i; simp [initMu]
  have hc : conv exP exO (init exP exO (fun _ => 1)) := by
    refine ⟨?_, ?_, ?_, ?_⟩
    · have h1 : exP.h (fun _ => (1 : ℝ)) = fun _ => 0 := by funext i; simp [exP]
      have h2 : ‖exP.g (fun _ => (1 : ℝ))‖ = 0 := by simp [Pi.norm_def]
      simp only [init, feascond, h1, h2, hz, maxh, exO]
      norm_num
    · have h1 : Lx exP exO (fun _ => (1 : ℝ)) (fun _ => 0) (fun _ => 1) = fun _ => 1 := by
        funext v
        simp [Lx, grad, exP, exO, mulVec, dotProduct]
        norm_num
      have h2 : ‖(fun _ : Fin 0 => (0 : ℝ))‖ = 0 := by simp [Pi.norm_def]
      simp only [init, hm, gradcond, h1, h2]
      norm_num [exO]
    · simp only [init, hm]
      simp only [hz]
      norm_num [compcond, dotProduct, exO]
    · simp [init, costcond, exO]
  simp [pips, run, hc]

/-- The hypothesis of `C68_newton` is met by a genuine solution: for `exP` at `x = 0`, `z = mu = gamma = 1`, `dx = 1`. -/
example : ∃ (s : St (Fin 1) (Fin 0) (Fin 1)) (sol : Fin 1 ⊕ Fin 0 → ℝ),
    (∀ i, s.z i ≠ 0) ∧ newtonMat exP exO s *ᵥ sol = newtonRhs exP exO s ∧ sol ≠ 0 := by
  refine ⟨⟨fun _ => 0, fun _ => 1, fun i => i.elim0, fun _ => 1, 1, 0⟩, Sum.elim (fun _ => 1) (fun i => i.elim0), by simp, ?_, ?_⟩
  · funext i
    rcases i with i | i
    · have e1 : (diagonal (fun _ : Fin 1 => (1 : ℝ))) = 1 := diagonal_one
      simp only [newtonMat, newtonRhs, fromBlocks_mulVec, exP, exO, Lx, Sum.elim_inl, div_one, e1, mul_one]
      simp [mulVec, dotProduct, Matrix.mul_apply, Matrix.one_apply, grad]
      norm_num
    · exact i.elim0
  · intro h
    have := congrFun h (Sum.inl 0)
    simp at this

end Verif.Pips
