import Verif.Pips.FullProps

/-!
# C82: for a convex problem, success means a global minimum up to the tolerances

The convergence test of `pips` looks at feasibility, gradient, complementarity and cost change, but never at `h + z`.  That a small complementarity
`∑ zᵢ muᵢ` nevertheless bounds the duality gap is an invariant of the run: for convex inequality constraints the slacks are at least `-h` at every iteration.
-/

open Matrix

namespace Verif.Pips

/-! ### Specification -/

/-- `f` lies above its tangent at `x`, with slope `df`: convexity, seen from `x`. -/
def AboveTangent {X : Type*} [Fintype X] (f : (X → ℝ) → ℝ) (df : X → ℝ) (x : X → ℝ) : Prop :=
  ∀ y, f x + ∑ v, df v * (y v - x v) ≤ f y

section
variable {X E I : Type*} [Fintype X] [Fintype E] [Fintype I] [DecidableEq X] [DecidableEq E] [DecidableEq I]

/-- The inequality constraints are convex, with derivative `dh`. -/
def Problem.ConvexH (P : Problem X E I) : Prop := ∀ i x, AboveTangent (fun y => P.h y i) (fun v => P.dh x v i) x

/-- The equality constraints are affine, with derivative `dg`. -/
def Problem.AffineG (P : Problem X E I) : Prop := ∀ j x y, P.g y j = P.g x j + ∑ v, P.dg x v j * (y v - x v)

/-! ### Lemmas -/

omit [DecidableEq X] [DecidableEq E] in
/-- An invariant of the loop body is an invariant of the loop. -/
theorem loop_inv (P : Problem X E I) (o : Opt) (solve : Solver X E) (J : St X E I → Prop)
    (hstep : ∀ s d f0, J s → direction P o solve s = some d → J { update s d with f0 := f0 }) :
    ∀ (fuel i : ℕ) (s : St X E I), J s → J (loop P o solve fuel i s).st := by
  intro fuel
  induction fuel with
  | zero => intro i s h; exact h
  | succ n ih =>
    intro i s h
    rw [loop]
    split
    · exact h
    · next d hd =>
      have h1 := hstep s d s.f0 h hd
      split_ifs
      · exact h1
      · exact h1
      · exact ih _ _ (hstep s d _ h hd)

omit [DecidableEq X] [DecidableEq E] [DecidableEq I] in
theorem halve_range (P : Problem X E I) (o : Opt) (s : St X E I) (dx : X → ℝ) :
    ∀ (fuel : ℕ) (a : ℝ), 0 ≤ a → a ≤ 1 → 0 ≤ halve P o s dx fuel a ∧ halve P o s dx fuel a ≤ 1 := by
  intro fuel
  induction fuel with
  | zero => intro a h0 h1; exact ⟨h0, h1⟩
  | succ n ih =>
    intro a h0 h1
    rw [halve]
    split_ifs
    · exact ⟨h0, h1⟩
    · exact ih _ (by linarith) (by linarith)

omit [DecidableEq X] [DecidableEq E] [DecidableEq I] in
theorem scAlpha_range (P : Problem X E I) (o : Opt) (s : St X E I) (dx : X → ℝ) : 0 ≤ scAlpha P o s dx ∧ scAlpha P o s dx ≤ 1 := by
  unfold scAlpha
  split_ifs
  · exact halve_range P o s dx _ 1 zero_le_one le_rfl
  · exact ⟨zero_le_one, le_rfl⟩

/-- The slacks never fall below `-h`: `dz = -h - z - dhᵀ dx` cancels the residual to first order, and convexity does the rest. -/
theorem slack_ge (P : Problem X E I) (i : I) (hP : ∀ x, AboveTangent (fun y => P.h y i) (fun v => P.dh x v i) x) (o : Opt) (solve : Solver X E) (x0 : X → ℝ) :
    0 ≤ P.h (run P o solve x0).st.x i + (run P o solve x0).st.z i := by
  let J : St X E I → Prop := fun s => (∀ i, 0 < s.z i) ∧ (∀ i, 0 < s.mu i) ∧ 0 ≤ P.h s.x i + s.z i
  have hinit : J (init P o x0) := by
    refine ⟨(init_interior P o x0).1, (init_interior P o x0).2, ?_⟩
    simp only [init, initZ]
    split_ifs with h <;> linarith
  have hstep : ∀ s d f0, J s → direction P o solve s = some d → J { update s d with f0 := f0 } := by
    intro s d f0 ⟨h1, h2, h3⟩ hd
    obtain ⟨u1, u2⟩ := update_interior s d ⟨h1, h2⟩
    refine ⟨u1, u2, ?_⟩
    unfold direction at hd
    rw [Option.map_eq_some_iff] at hd
    obtain ⟨sol, -, rfl⟩ := hd
    set a := scAlpha P o s (rawDir P s sol).dx with ha
    obtain ⟨a0, a1⟩ := scAlpha_range P o s (rawDir P s sol).dx
    rw [← ha] at a0 a1
    set D := (rawDir P s sol).scale a with hD
    have p0 := (stepLen_pos s.z D.dz h1).le
    have p1 := stepLen_le_one s.z D.dz
    set ap := stepLen s.z D.dz with hap
    have tangent := hP s.x (s.x + ap • D.dx)
    have ed : ∑ v, P.dh s.x v i * ((s.x + ap • D.dx) v - s.x v) = ap * a * ((P.dh s.x)ᵀ *ᵥ (rawDir P s sol).dx) i := by
      simp only [mulVec, dotProduct, transpose_apply, Finset.mul_sum]
      refine Finset.sum_congr rfl fun v _ => ?_
      simp only [hD, Dir.scale, Pi.add_apply, Pi.smul_apply, smul_eq_mul]
      ring
    have ez : (s.z + ap • D.dz) i = s.z i + ap * a * (-P.h s.x i - s.z i - ((P.dh s.x)ᵀ *ᵥ (rawDir P s sol).dx) i) := by
      simp only [hD, Dir.scale, Pi.add_apply, Pi.smul_apply, smul_eq_mul]
      simp only [rawDir, Pi.sub_apply, Pi.neg_apply]
      ring
    show 0 ≤ P.h (s.x + ap • D.dx) i + (s.z + ap • D.dz) i
    beta_reduce at tangent
    rw [ed] at tangent
    rw [ez]
    have hprod : ap * a ≤ 1 := mul_le_one₀ p1 a0 a1
    have := mul_nonneg (sub_nonneg.2 hprod) h3
    nlinarith
  have : J (run P o solve x0).st := by
    unfold run
    split_ifs
    · exact hinit
    · exact loop_inv P o solve J hstep _ _ _ hinit
  exact this.2.2

/-- **C82 (iteration).**  For a convex cost, convex inequality constraints and affine equality constraints a successful run ends at a point whose cost is at most
that of every (nearly) feasible point `y`, up to the tolerances. -/
theorem optimal_iter (P : Problem X E I) (hH : P.ConvexH) (hG : P.AffineG) (o : Opt) (solve : Solver X E) (x0 : X → ℝ) (hc : 0 < o.costMult)
    (h : (pips P o solve x0).eflag = true) (hf : AboveTangent P.f (P.df (pips P o solve x0).x) (pips P o solve x0).x)
    (y : X → ℝ) (δ : ℝ) (hy : ∀ j, |P.g y j| ≤ δ) (hy' : ∀ i, P.h y i ≤ 0) :
    o.costMult * (P.f (pips P o solve x0).x - P.f y) ≤
      o.gradtol * (1 + max ‖(run P o solve x0).st.lam‖ ‖(run P o solve x0).st.mu‖) * ∑ v, |y v - (pips P o solve x0).x v| +
        Fintype.card E * (‖(run P o solve x0).st.lam‖ * (o.feastol * (1 + max ‖(pips P o solve x0).x‖ ‖(run P o solve x0).st.z‖) + δ)) +
        o.comptol * (1 + ‖(pips P o solve x0).x‖) := by
  obtain ⟨z, lam, mu, f0, ⟨hz, hl, hm, -⟩, zpos, mpos, h1, -, h3, h4, -⟩ := C35_success P o solve x0 h
  rw [← hz, ← hl, ← hm]
  have hsl := fun i => slack_ge P i (hH i) o solve x0
  have hx : (run P o solve x0).st.x = (pips P o solve x0).x := rfl
  rw [hx, ← hz] at hsl
  set x := (pips P o solve x0).x with hxdef
  set t := o.feastol * (1 + max ‖x‖ ‖z‖) with ht
  set G := o.gradtol * (1 + max ‖lam‖ ‖mu‖) with hGdef
  have tang := hf y
  -- the gradient condition, along `y - x`
  have a1 : ∑ v, (P.df x v * o.costMult + ∑ j, P.dg x v j * lam j + ∑ i, P.dh x v i * mu i) * (x v - y v) ≤ G * ∑ v, |y v - x v| := by
    rw [Finset.mul_sum]
    refine Finset.sum_le_sum fun v _ => (le_abs_self _).trans ?_
    rw [abs_mul, abs_sub_comm (x v)]
    exact mul_le_mul_of_nonneg_right (h3 v).le (abs_nonneg _)
  have e1 : ∑ v, (P.df x v * o.costMult + ∑ j, P.dg x v j * lam j + ∑ i, P.dh x v i * mu i) * (x v - y v) =
      -(o.costMult * ∑ v, P.df x v * (y v - x v)) - ∑ j, lam j * ∑ v, P.dg x v j * (y v - x v) - ∑ i, mu i * ∑ v, P.dh x v i * (y v - x v) := by
    simp only [add_mul, Finset.sum_add_distrib, Finset.sum_mul, Finset.mul_sum]
    rw [Finset.sum_comm (f := fun v j => P.dg x v j * lam j * (x v - y v)), Finset.sum_comm (f := fun v i => P.dh x v i * mu i * (x v - y v))]
    rw [sub_eq_add_neg, sub_eq_add_neg]
    simp only [← Finset.sum_neg_distrib]
    refine congrArg₂ _ (congrArg₂ _ ?_ ?_) ?_
    · exact Finset.sum_congr rfl fun v _ => by ring
    · exact Finset.sum_congr rfl fun j _ => Finset.sum_congr rfl fun v _ => by ring
    · exact Finset.sum_congr rfl fun i _ => Finset.sum_congr rfl fun v _ => by ring
  -- equality constraints
  have a2 : ∑ j, lam j * ∑ v, P.dg x v j * (y v - x v) ≤ Fintype.card E * (‖lam‖ * (t + δ)) := by
    rw [← nsmul_eq_mul, ← Finset.card_univ]
    refine Finset.sum_le_card_nsmul _ _ _ fun j _ => (le_abs_self _).trans ?_
    rw [abs_mul]
    refine mul_le_mul (norm_le_pi_norm lam j) ?_ (abs_nonneg _) (norm_nonneg _)
    have e : ∑ v, P.dg x v j * (y v - x v) = P.g y j - P.g x j := by rw [hG j x y]; ring
    rw [e]
    refine (abs_sub _ _).trans ?_
    have := (h1 j).le
    have := hy j
    linarith
  -- inequality constraints
  have a3 : ∑ i, mu i * ∑ v, P.dh x v i * (y v - x v) ≤ ∑ i, z i * mu i := by
    refine Finset.sum_le_sum fun i _ => ?_
    have t1 := hH i x y
    beta_reduce at t1
    have t2 := hsl i
    have t3 := hy' i
    rw [mul_comm (z i)]
    exact mul_le_mul_of_nonneg_left (by linarith) (mpos i).le
  have a4 := mul_le_mul_of_nonneg_left tang hc.le
  rw [e1] at a1
  nlinarith
end

/-! ### The solver with bounds and linear constraints -/

variable {n : ℕ} {E I : Type} [Fintype E] [Fintype I] [DecidableEq E] [DecidableEq I]

/-- A point that satisfies all constraints of the problem. -/
structure Feasible (c : Callbacks n E I) (q : Linear) (y : Fin n → ℝ) : Prop where
  eq : ∀ e, c.g y e = 0
  ineq : ∀ i, c.h y i ≤ 0
  box : ∀ j : Fin n, q.xmin j ≤ (y j : EReal) ∧ (y j : EReal) ≤ q.xmax j
  rows : ∀ k < q.nA, q.l k ≤ ((∑ j : Fin n, q.A k j * y j : ℝ) : EReal) ∧ ((∑ j : Fin n, q.A k j * y j : ℝ) : EReal) ≤ q.u k

/-- A convex problem: affine equality constraints and convex inequality constraints, with the given derivatives. -/
structure ConvexCons (c : Callbacks n E I) : Prop where
  affine : ∀ e x y, c.g y e = c.g x e + ∑ v, c.dg x v e * (y v - x v)
  convex : ∀ i x, AboveTangent (fun y => c.h y i) (fun v => c.dh x v i) x

/-- How far from optimal a successful result can be: gradient tolerance times the distance, equality residuals times their multipliers, and complementarity. -/
noncomputable def gap (o : Opt) (neq : ℕ) (nrm dual tol dist : ℝ) : ℝ :=
  (o.gradtol * (1 + dual) * dist + neq * (dual * (tol + 1 / 2 ^ 52)) + o.comptol * (1 + nrm)) / o.costMult

theorem val_sub (q : Linear) (k : ℕ) (x y : Fin n → ℝ) : q.val k y = q.val k x + ∑ v, q.AA k v * (y v - x v) := by
  unfold Linear.val
  rw [← Finset.sum_add_distrib]
  exact Finset.sum_congr rfl fun v _ => by ring

omit [Fintype E] [Fintype I] [DecidableEq E] [DecidableEq I] in
theorem Feasible.val {c : Callbacks n E I} {q : Linear} {y : Fin n → ℝ} (h : Feasible c q y) (k : ℕ) (hk : k < n + q.nA) :
    q.ll n k ≤ (q.val k y : EReal) ∧ (q.val k y : EReal) ≤ q.uu n k := by
  unfold Linear.ll Linear.uu
  by_cases hkn : k < n
  · simp only [if_pos hkn]
    have := val_var q y ⟨k, hkn⟩
    simp only at this
    rw [this]
    exact h.box ⟨k, hkn⟩
  · simp only [if_neg hkn]
    have := val_row q y (k - n)
    rw [Nat.add_sub_cancel' (not_lt.1 hkn)] at this
    rw [this]
    exact h.rows (k - n) (by omega)

/-- **C82 (global minimum).**  For a convex problem with sensible bounds, success of `pips` means that no feasible point is cheaper than the returned one by more than `gap`,
which vanishes with the tolerances. -/
theorem C82_optimal (c : Callbacks n E I) (hcc : ConvexCons c) (q : Linear) (hq : q.OK n) (o : Opt)
    (solve : Solver (Fin n) (E ⊕ Fin (q.eqRows n).length)) (x0 : Fin n → ℝ) (hc : 0 < o.costMult) (hft : 0 ≤ o.feastol)
    (r : Result n E I) (hr : pipsFull c q o solve x0 = some r) (hs : r.eflag = true) (hf : AboveTangent c.f (c.df r.x) r.x)
    (y : Fin n → ℝ) (hy : Feasible c q y) :
    r.f ≤ c.f y + gap o (Fintype.card E + (n + q.nA)) ‖r.x‖ r.dual (r.tol o) (∑ v, |y v - r.x v|) := by
  have hobj := C76_objective c q o solve x0 hc r hr
  obtain ⟨ex, ef, -, -, -, es, ed, -⟩ := ofFull hr
  have hsuc : (pips (problem c q) o solve x0).eflag = true := by rw [← ef]; exact hs
  have hH : (problem c q).ConvexH := by
    intro i x y
    rcases i with i | p
    · exact hcc.convex i x y
    · simp only [problem, Sum.elim_inr, Matrix.of_apply]
      rw [val_sub q _ x y, mul_add, Finset.mul_sum]
      refine le_of_eq ?_
      rw [Finset.sum_congr rfl fun v _ => (mul_assoc _ _ _)]
      ring
  have hG : (problem c q).AffineG := by
    intro j x y
    rcases j with e | p
    · exact hcc.affine e x y
    · simp only [problem, Sum.elim_inr, Matrix.of_apply]
      rw [val_sub q _ x y]
      ring
  have hy1 : ∀ j, |(problem c q).g y j| ≤ 1 / 2 ^ 52 := by
    intro j
    rcases j with e | p
    · simp only [problem, Sum.elim_inl, hy.eq e, abs_zero]; positivity
    · simp only [problem, Sum.elim_inr]
      set k := (q.eqRows n).get p with hk
      have hmem : k ∈ q.eqRows n := List.get_mem _ _
      obtain ⟨hlt, hnear⟩ := mem_ieq.1 hmem
      obtain ⟨l, u, hl, hu, hlu⟩ := (near_iff _ _).1 hnear
      obtain ⟨v1, v2⟩ := hy.val k hlt
      rw [hl, EReal.coe_le_coe_iff] at v1
      rw [hu, EReal.coe_le_coe_iff] at v2
      rw [hu, EReal.toReal_coe]
      rw [abs_le] at hlu ⊢
      constructor <;> linarith
  have hy2 : ∀ i, (problem c q).h y i ≤ 0 := by
    intro i
    rcases i with i | p
    · exact hy.ineq i
    · simp only [problem, Sum.elim_inr]
      set s := (q.inRows n).get p with hk
      have hmem : s ∈ q.inRows n := List.get_mem _ _
      have hlt := iRows_row_lt hmem
      obtain ⟨v1, v2⟩ := hy.val s.2 hlt
      obtain ⟨s1, s2, s3, s4⟩ := hq.sane s.2 hlt
      obtain ⟨b1, b2⟩ := iRows_bound hmem
      unfold Linear.bound sgn
      cases hb : s.1
      · have := toReal_of_gt_big s3 (b2 hb)
        rw [← this, EReal.coe_le_coe_iff] at v1
        simp only [Bool.false_eq_true, if_false]
        linarith
      · have := toReal_of_lt_big s2 (b1 hb)
        rw [← this, EReal.coe_le_coe_iff] at v2
        simp only [if_true]
        linarith
  have main := optimal_iter (problem c q) hH hG o solve x0 hc hsuc (by rw [← ex]; exact hf) y (1 / 2 ^ 52) hy1 hy2
  rw [← ex, ← ed, ← es] at main
  have hlam : ‖(run (problem c q) o solve x0).st.lam‖ ≤ r.dual := by rw [ed]; exact le_max_left _ _
  have hcard : (Fintype.card (E ⊕ Fin (q.eqRows n).length) : ℝ) ≤ ((Fintype.card E + (n + q.nA) : ℕ) : ℝ) := by
    rw [Fintype.card_sum, Fintype.card_fin]
    have : (q.eqRows n).length ≤ n + q.nA := by
      have := List.length_filter_le (fun k => @decide _ (Classical.propDecidable (near (q.ll n k) (q.uu n k)))) (List.range (n + q.nA))
      rw [List.length_range] at this
      exact this
    exact_mod_cast Nat.add_le_add_left this _
  have htol : 0 ≤ r.tol o + 1 / 2 ^ 52 := by
    unfold Result.tol
    have : 0 ≤ max ‖r.x‖ r.slack := (norm_nonneg _).trans (le_max_left _ _)
    positivity
  have hd : 0 ≤ r.dual := (norm_nonneg _).trans hlam
  have b : (Fintype.card (E ⊕ Fin (q.eqRows n).length) : ℝ) * (‖(run (problem c q) o solve x0).st.lam‖ * (o.feastol * (1 + max ‖r.x‖ r.slack) + 1 / 2 ^ 52)) ≤
      ((Fintype.card E + (n + q.nA) : ℕ) : ℝ) * (r.dual * (r.tol o + 1 / 2 ^ 52)) :=
    mul_le_mul hcard (mul_le_mul_of_nonneg_right hlam htol) (mul_nonneg (norm_nonneg _) htol) (Nat.cast_nonneg _)
  rw [hobj, ← sub_le_iff_le_add', gap, le_div_iff₀ hc]
  have e : (problem c q).f = c.f := rfl
  rw [e] at main
  linarith

/-! ### Non-vacuity -/

/-- Minimise `x²` over `1 ≤ x ≤ 3` with `2 x = 4`: convex, feasible, successful. -/
example : ∃ (o : Opt) (r : Result 1 (Fin 0) (Fin 0)) (y : Fin 1 → ℝ), ConvexCons exC ∧ exQ.OK 1 ∧ 0 < o.costMult ∧ 0 ≤ o.feastol ∧
    pipsFull exC exQ o (fun _ _ => none) (fun _ => 2) = some r ∧ r.eflag = true ∧ AboveTangent exC.f (exC.df r.x) r.x ∧ Feasible exC exQ y := by
  obtain ⟨o, h1, h1', h2⟩ := exists_success (problem exC exQ) (fun _ => 2)
  obtain ⟨r, hr⟩ := C76_returns exC exQ o (fun _ _ => none) (fun _ => 2) exQ_ok
  refine ⟨o, r, fun _ => 2, ⟨fun e => e.elim0, fun i => i.elim0⟩, exQ_ok, h1, h1'.le, hr, by rw [(ofFull hr).2.1]; exact h2 _, ?_, ?_⟩
  · intro y
    simp only [exC, Finset.univ_unique, Finset.sum_singleton, Fin.default_eq_zero]
    nlinarith [sq_nonneg (y 0 - r.x 0)]
  · refine ⟨fun e => e.elim0, fun i => i.elim0, fun j => ?_, fun k _ => ?_⟩
    · simp only [exQ]
      constructor <;> exact EReal.coe_le_coe_iff.2 (by norm_num)
    · simp only [exQ, Finset.univ_unique, Finset.sum_singleton]
      constructor <;> exact EReal.coe_le_coe_iff.2 (by norm_num)

end Verif.Pips
