import Verif.Cpf.Model
import Verif.Solvers.Props
import Verif.Solvers.NewtonStep

/-!
# C61, C62: corrector and parameterisation of the continuation power flow
-/

open Matrix ComplexConjugate

namespace Verif.Cpf

open Verif.Solvers

set_option linter.unusedSectionVars false

noncomputable section

variable {B : Type} [Fintype B] [DecidableEq B]

/-! ## Specification -/

/-- How far a point is from the previous one, as each parameterisation measures it: change of lambda; squared distance in (angles at PV and PQ
buses, magnitudes at PQ buses, lambda); projection of the change on the tangent. -/
def distance (par : Par) (z : Tan B) (pv pq : List B) (p prv : Pt B) : ℝ :=
  match par with
  | .natural => |p.2 - prv.2|
  | .arc => ((pv ++ pq).map fun b => ((p.1 b).arg - (prv.1 b).arg) ^ 2).sum + (pq.map fun b => (‖p.1 b‖ - ‖prv.1 b‖) ^ 2).sum + (p.2 - prv.2) ^ 2
  | .pseudo => ((pv ++ pq).map fun b => z.a b * ((p.1 b).arg - (prv.1 b).arg)).sum + (pq.map fun b => z.m b * (‖p.1 b‖ - ‖prv.1 b‖)).sum
      + z.l * (p.2 - prv.2)

/-- What the distance should be: the step, for the arc length its square. -/
def required (par : Par) (step : ℝ) : ℝ :=
  match par with
  | .arc => step ^ 2
  | _ => step

/-- The point is on the curve: power balance with the injections of the base case plus lambda times the transfer. -/
def OnCurve (Y : Matrix B B ℂ) (S X : B → ℂ) (pv pq : List B) (tol : ℝ) (p : Pt B) : Prop :=
  Solved Y (fun b => S b + (p.2 : ℂ) * X b) pv pq tol p.1

/-! ## C62 -/

/-- **C62, value.** The parameterisation function is the distance from the previous point minus the required one. -/
theorem C62_value (par : Par) (step : ℝ) (z : Tan B) (p prv : Pt B) (pv pq : List B) :
    cpfP par step z p.1 p.2 prv.1 prv.2 pv pq = distance par z pv pq p prv - required par step := by
  cases par with
  | natural =>
    unfold cpfP distance required
    by_cases h : prv.2 ≤ p.2
    · simp only [h, decide_true, if_true]
      rw [abs_of_nonneg (by linarith)]
    · simp only [h, decide_false, Bool.false_eq_true, if_false]
      rw [abs_of_neg (by linarith)]
      ring
  | arc => simp only [cpfP, distance, required, List.sum_append, List.sum_cons, List.sum_nil, add_zero]
  | pseudo => simp only [cpfP, distance, required, List.sum_append, List.sum_cons, List.sum_nil, add_zero]

/-- A straight line in angles and magnitudes. -/
def line (V : B → ℂ) (da dm : B → ℝ) (t : ℝ) : B → ℂ := polar (fun b => ‖V b‖ + t * dm b) fun b => (V b).arg + t * da b

theorem line_pos (x d : ℝ) (h : 0 < x) : ∀ᶠ t : ℝ in nhds 0, 0 < x + t * d := by
  have hc : ContinuousAt (fun t : ℝ => x + t * d) 0 := by fun_prop
  exact hc.eventually (lt_mem_nhds (by simpa using h))

theorem lin_deriv (x d : ℝ) : HasDerivAt (fun t : ℝ => x + t * d) d 0 := by
  simpa using ((hasDerivAt_id (0 : ℝ)).mul_const d).const_add x

theorem norm_line (V : B → ℂ) (da dm : B → ℝ) (b : B) (h : V b ≠ 0) : HasDerivAt (fun t : ℝ => ‖line V da dm t b‖) (dm b) 0 := by
  refine (lin_deriv ‖V b‖ (dm b)).congr_of_eventuallyEq ?_
  filter_upwards [line_pos ‖V b‖ (dm b) (norm_pos_iff.2 h)] with t ht
  rw [line, polar_norm, abs_of_pos ht]

theorem arg_line (V : B → ℂ) (da dm : B → ℝ) (b : B) (h : V b ∈ Complex.slitPlane) : HasDerivAt (fun t : ℝ => (line V da dm t b).arg) (da b) 0 := by
  refine (lin_deriv (V b).arg (da b)).congr_of_eventuallyEq ?_
  have h0 : V b ≠ 0 := Complex.slitPlane_ne_zero h
  have hlt : (V b).arg < Real.pi := lt_of_le_of_ne (Complex.arg_le_pi _) (Complex.mem_slitPlane_iff_arg.1 h).1
  have h1 := line_pos ((V b).arg + Real.pi) (da b) (by linarith [Complex.neg_pi_lt_arg (V b)])
  have h2 := line_pos (Real.pi - (V b).arg) (-da b) (by linarith)
  filter_upwards [line_pos ‖V b‖ (dm b) (norm_pos_iff.2 h0), h1, h2] with t ht ht1 ht2
  have he : line V da dm t b = (((‖V b‖ + t * dm b : ℝ)) : ℂ) *
      (Complex.cos (((V b).arg + t * da b : ℝ) : ℂ) + Complex.sin (((V b).arg + t * da b : ℝ) : ℂ) * Complex.I) := by
    rw [line, polar, mul_comm Complex.I, Complex.exp_mul_I]
  rw [he, Complex.arg_mul_cos_add_sin_mul_I ht ⟨by linarith, by linarith⟩]

theorem line_zero (V : B → ℂ) (da dm : B → ℝ) : line V da dm 0 = V := by
  funext b
  rw [← polar_arg V b]
  simp [line, polar]

theorem sq_deriv {f : ℝ → ℝ} {f' : ℝ} (h : HasDerivAt f f' 0) : HasDerivAt (fun t => f t ^ 2) (2 * f 0 * f') 0 := by
  have := h.fun_mul h
  simp only [pow_two]
  exact this.congr_deriv (by ring)

theorem sum_deriv {ι : Type*} (l : List ι) (f : ι → ℝ → ℝ) (f' : ι → ℝ) (h : ∀ i ∈ l, HasDerivAt (f i) (f' i) 0) :
    HasDerivAt (fun t => (l.map fun i => f i t).sum) (l.map f').sum 0 := by
  induction l with
  | nil => simpa using hasDerivAt_const (0 : ℝ) (0 : ℝ)
  | cons i l ih =>
    simp only [List.map_cons, List.sum_cons]
    exact (h i (by simp)).fun_add (ih fun j hj => h j (by simp [hj]))

theorem zip_sum {ι : Type*} (l : List ι) (f g : ι → ℝ) : (List.zipWith (· * ·) (l.map f) (l.map g)).sum = (l.map fun i => f i * g i).sum := by
  induction l with
  | nil => rfl
  | cons i l ih => simp

/-- The coordinates the Jacobian row refers to: angles at PV and PQ buses, magnitudes at PQ buses. -/
def coords (pv pq : List B) (da dm : B → ℝ) : List ℝ := (pv ++ pq).map da ++ pq.map dm

/-- **C62, derivatives (partial).** At a point where lambda has moved (or with the pseudo arc length parameterisation always), whose voltages at PV
and PQ buses are not zero nor at the angle 180 degrees, where the angle jumps, the reported partial derivatives are those of the
parameterisation function: they give its derivative in every direction. Missing: lambda not moved, see `C62_arc_negation`. -/
theorem C62_derivative_partial (par : Par) (step : ℝ) (z : Tan B) (p prv : Pt B) (pv pq : List B)
    (hl : par = .pseudo ∨ p.2 ≠ prv.2) (hs : ∀ b, b ∈ pv ∨ b ∈ pq → p.1 b ∈ Complex.slitPlane) (da dm : B → ℝ) (dl : ℝ) :
    HasDerivAt (fun t : ℝ => cpfP par step z (line p.1 da dm t) (p.2 + t * dl) prv.1 prv.2 pv pq)
      ((List.zipWith (· * ·) (dPdV par z p.1 prv.1 pv pq) (coords pv pq da dm)).sum + dPdlam par z p.2 prv.2 * dl) 0 := by
  have hL := lin_deriv p.2 dl
  have hA : ∀ b ∈ pv ++ pq, HasDerivAt (fun t : ℝ => (line p.1 da dm t b).arg - (prv.1 b).arg) (da b) 0 := fun b hb =>
    (arg_line p.1 da dm b (hs b (List.mem_append.1 hb))).sub_const _
  have hM : ∀ b ∈ pq, HasDerivAt (fun t : ℝ => ‖line p.1 da dm t b‖ - ‖prv.1 b‖) (dm b) 0 := fun b hb =>
    (norm_line p.1 da dm b (Complex.slitPlane_ne_zero (hs b (Or.inr hb)))).sub_const _
  cases par with
  | natural =>
    rcases hl with h | h
    · cases h
    · have hz : (List.zipWith (· * ·) (dPdV .natural z p.1 prv.1 pv pq) (coords pv pq da dm)).sum = 0 := by
        apply List.sum_eq_zero
        intro x hx
        unfold dPdV at hx
        rw [List.mem_iff_getElem] at hx
        obtain ⟨i, hi, rfl⟩ := hx
        simp
      rw [hz, zero_add]
      unfold dPdlam cpfP
      rcases lt_or_gt_of_ne h with h | h
      · have hn : ¬ prv.2 ≤ p.2 := not_le.2 h
        simp only [hn, decide_false, Bool.false_eq_true, if_false]
        have hd : HasDerivAt (fun t : ℝ => prv.2 - (p.2 + t * dl) - step) (-1 * dl) 0 := by
          refine ((hL.const_sub prv.2).sub_const step).congr_deriv ?_
          ring
        refine hd.congr_of_eventuallyEq ?_
        filter_upwards [line_pos (prv.2 - p.2) (-dl) (by linarith)] with t ht
        have : ¬ prv.2 ≤ p.2 + t * dl := by linarith
        simp [this]
      · have hn : prv.2 ≤ p.2 := h.le
        simp only [hn, decide_true, if_true]
        have hd : HasDerivAt (fun t : ℝ => p.2 + t * dl - prv.2 - step) (1 * dl) 0 := by
          refine ((hL.sub_const prv.2).sub_const step).congr_deriv ?_
          ring
        refine hd.congr_of_eventuallyEq ?_
        filter_upwards [line_pos (p.2 - prv.2) dl (by linarith)] with t ht
        have : prv.2 ≤ p.2 + t * dl := by linarith
        simp [this]
  | arc =>
    rcases hl with h | h
    · cases h
    · have e0 : line p.1 da dm 0 = p.1 := line_zero p.1 da dm
      have h1 := sum_deriv (pv ++ pq) (fun b t => ((line p.1 da dm t b).arg - (prv.1 b).arg) ^ 2)
        (fun b => 2 * ((p.1 b).arg - (prv.1 b).arg) * da b) (fun b hb => by
          have := sq_deriv (hA b hb)
          rw [e0] at this
          simpa using this)
      have h2 := sum_deriv pq (fun b t => (‖line p.1 da dm t b‖ - ‖prv.1 b‖) ^ 2)
        (fun b => 2 * (‖p.1 b‖ - ‖prv.1 b‖) * dm b) (fun b hb => by
          have := sq_deriv (hM b hb)
          rw [e0] at this
          simpa using this)
      have h3 : HasDerivAt (fun t : ℝ => (p.2 + t * dl - prv.2) ^ 2) (2 * (p.2 - prv.2) * dl) 0 := by
        have := sq_deriv (hL.sub_const prv.2)
        simpa using this
      have := ((h1.fun_add h2).fun_add h3).sub_const (step ^ 2)
      have hval := fun t : ℝ => C62_value .arc step z (line p.1 da dm t, p.2 + t * dl) prv pv pq
      simp only [distance, required] at hval
      simp only [hval]
      refine this.congr_deriv ?_
      unfold dPdV coords dPdlam
      simp only [h, decide_false, Bool.false_eq_true, if_false]
      rw [List.zipWith_append (by simp), List.sum_append, zip_sum, zip_sum]
  | pseudo =>
    have h1 := sum_deriv (pv ++ pq) (fun b t => z.a b * ((line p.1 da dm t b).arg - (prv.1 b).arg)) (fun b => z.a b * da b)
      (fun b hb => (hA b hb).const_mul _)
    have h2 := sum_deriv pq (fun b t => z.m b * (‖line p.1 da dm t b‖ - ‖prv.1 b‖)) (fun b => z.m b * dm b) (fun b hb => (hM b hb).const_mul _)
    have h3 : HasDerivAt (fun t : ℝ => z.l * (p.2 + t * dl - prv.2)) (z.l * dl) 0 := (hL.sub_const prv.2).const_mul _
    have := ((h1.fun_add h2).fun_add h3).sub_const step
    have hval := fun t : ℝ => C62_value .pseudo step z (line p.1 da dm t, p.2 + t * dl) prv pv pq
    simp only [distance, required] at hval
    simp only [hval]
    refine this.congr_deriv ?_
    unfold dPdV coords dPdlam
    rw [List.zipWith_append (by simp), List.sum_append, zip_sum, zip_sum]

/-- **C62, negation.** With the arc length parameterisation and lambda not moved the reported derivative with respect to lambda is 1; the true one is
0. -/
theorem C62_arc_negation (step : ℝ) (z : Tan B) (p prv : Pt B) (pv pq : List B) (h : p.2 = prv.2) :
    dPdlam .arc z p.2 prv.2 = 1 ∧ HasDerivAt (fun t : ℝ => cpfP .arc step z p.1 (p.2 + t) prv.1 prv.2 pv pq) 0 0 := by
  refine ⟨by simp [dPdlam, h], ?_⟩
  have h3 : HasDerivAt (fun t : ℝ => (p.2 + t - prv.2) ^ 2) 0 0 := by
    have := sq_deriv (((hasDerivAt_id (0 : ℝ)).const_add p.2).sub_const prv.2)
    simpa [h] using this
  have hval := fun t : ℝ => C62_value .arc step z (p.1, p.2 + t) prv pv pq
  simp only [distance, required] at hval
  simp only [hval]
  exact (h3.const_add _).sub_const _

/-! ## C61 -/

theorem misL_eq (Y : Matrix B B ℂ) (S X V : B → ℂ) (lam : ℝ) (b : B) : misL Y S X V lam b = mis Y (fun b => S b + (lam : ℂ) * X b) V b := by
  unfold misL mis; ring

theorem corrOk_iff (n : Net B) (q : Param B) (p : Pt B) :
    corrOk n q (some p) ↔ OnCurve n.Y n.S n.X n.pv n.pq n.tol p ∧ |distance q.par q.z n.pv n.pq p q.prv - required q.par q.step| < n.tol := by
  show normInf (Faug n.Y n.S n.X n.pv n.pq p.1 p.2 (q.P n p)) < n.tol ↔ _
  have hF : Faug n.Y n.S n.X n.pv n.pq p.1 p.2 (q.P n p) = Fvec n.Y (fun b => n.S b + (p.2 : ℂ) * n.X b) n.pv n.pq p.1 ++ [q.P n p] := by
    simp only [Faug, Fvec, misL_eq, List.map_append]
  have hP : q.P n p = distance q.par q.z n.pv n.pq p q.prv - required q.par q.step := C62_value _ _ _ _ _ _ _
  rw [hF, normInf_lt, hP]
  have hsol : (∀ x ∈ Fvec n.Y (fun b => n.S b + (p.2 : ℂ) * n.X b) n.pv n.pq p.1, |x| < n.tol) ↔ OnCurve n.Y n.S n.X n.pv n.pq n.tol p := by
    rw [Fvec_lt]
    simp only [List.mem_append]
    rfl
  rw [← hsol]
  simp only [List.mem_append, List.mem_singleton]
  constructor
  · rintro ⟨h0, h⟩
    exact ⟨fun x hx => h x (Or.inl hx), h _ (Or.inr rfl)⟩
  · rintro ⟨h1, h2⟩
    refine ⟨lt_of_le_of_lt (abs_nonneg _) h2, ?_⟩
    rintro x (hx | rfl)
    · exact h1 x hx
    · exact h2

/-- **C61.** Whatever the linear solver returns: if the corrector reports convergence the returned voltages and lambda are finite, solve the power balance
at loading lambda and are at the required distance from the previous point, all within tolerance; otherwise `PF_MAX_IT` iterations were made and
they do not; never more than `PF_MAX_IT` updates are made; reference voltages and magnitudes at PV buses are those of the prediction. -/
theorem C61 (n : Net B) (q : Param B) (p0 : Pt B) (r : Option (Pt B)) (conv : Bool) (i : Nat) (h : corrector n q (some p0) = (r, conv, i)) :
    (conv = true → ∃ p, r = some p ∧ OnCurve n.Y n.S n.X n.pv n.pq n.tol p
      ∧ |distance q.par q.z n.pv n.pq p q.prv - required q.par q.step| < n.tol) ∧
    (conv = false → i = n.maxIt ∧ ∀ p, r = some p → ¬ (OnCurve n.Y n.S n.X n.pv n.pq n.tol p
      ∧ |distance q.par q.z n.pv n.pq p q.prv - required q.par q.step| < n.tol)) ∧
    i ≤ n.maxIt ∧
    (∀ p, r = some p → (∀ b, b ∉ n.pv → b ∉ n.pq → p.1 b = p0.1 b) ∧ ∀ b, b ∉ n.pq → ‖p.1 b‖ = ‖p0.1 b‖) := by
  unfold corrector at h
  obtain ⟨k, hk, he, -, hn⟩ := loop_spec (corrOk n q) (fun s => s.bind (corrStep n q)) n.maxIt 0 (some p0)
  rw [he] at h
  have h1 := congrArg Prod.fst h
  have h2 := congrArg (fun x => x.2.1) h
  have h3 := congrArg (fun x => x.2.2) h
  dsimp only at h1 h2 h3
  have hinv := iterate_inv (fun s : Option (Pt B) => s.bind (corrStep n q))
    (fun W => ∀ p, W = some p → (∀ b, b ∉ n.pv → b ∉ n.pq → p.1 b = p0.1 b) ∧ ∀ b, b ∉ n.pq → ‖p.1 b‖ = ‖p0.1 b‖)
    (by
      intro W hW p hp
      simp only [Option.bind_eq_some_iff, corrStep, Option.map_eq_some_iff] at hp
      obtain ⟨W', hW', x, -, rfl⟩ := hp
      obtain ⟨h1, h2⟩ := hW W' hW'
      exact ⟨fun b hb hb' => (newtonUpdate_frame _ _ W'.1 x b hb hb').trans (h1 b hb hb'),
        fun b hb => (newtonUpdate_norm _ _ W'.1 x b hb).trans (h2 b hb)⟩)
    (some p0) (by
      intro p hp
      injection hp with hp
      subst hp
      exact ⟨fun _ _ _ => rfl, fun _ _ => rfl⟩) k
  rw [h1] at hinv h2 hn
  refine ⟨fun hc => ?_, fun hc => ?_, by omega, hinv⟩
  · rw [hc] at h2
    have hok := (@decide_eq_true_iff _ (Classical.dec _)).1 h2
    cases r with
    | none => exact hok.elim
    | some p => exact ⟨p, rfl, (corrOk_iff n q p).1 hok⟩
  · rw [hc] at h2
    have hok := (@decide_eq_false_iff_not _ (Classical.dec _)).1 h2
    refine ⟨by rw [← h3, hn hok]; omega, ?_⟩
    rintro p rfl hp
    exact hok ((corrOk_iff n q p).2 hp)

end

end Verif.Cpf
