import Verif.Qps.Lemmas

/-!
# C124: the quadratic programme solver solves the problem it is given
-/

open Matrix

namespace Verif.Qps

open Verif.Pips Verif.Opf

variable {m n : ℕ}

/-- **C124** (partial: `H` is required to be symmetric, see `C124_asymmetric`).  When `qps_pips` reports success on a convex problem, the returned point meets all bounds and
constraints up to the tolerance, the returned objective is the objective there, and no point that meets them is cheaper by more than `gap`, which vanishes with the
tolerances. -/
theorem C124_optimal_partial (solve : AnySolver) (p : Prob PipsOpt m n) (hp : p.Sensible) (hH : ConvexSymm p.Hm) (hc : 0 < p.options.costMult)
    (hf : 0 ≤ p.options.feastol) (r : Result n (Fin 0) (Fin 0)) (hr : qpsPips solve p = .result r) (hs : r.eflag = true) :
    p.Nearly r.x (r.tol p.options) ∧ r.f = p.objective r.x ∧
    ∀ y, p.Meets y → p.objective r.x ≤ p.objective y + gap p.options (n + p.nRows) ‖r.x‖ r.dual (r.tol p.options) (∑ j, |y j - r.x j|) := by
  have h := result_pips hr
  have hq := linear_ok p hp
  have hobj := C76_objective _ _ _ _ _ hc r h
  obtain ⟨-, -, hbox, hrows⟩ := C76_feasible _ _ _ _ _ hq r h hs
  refine ⟨⟨fun j => ?_, fun a ha k => ?_⟩, hobj, fun y hy => ?_⟩
  · rw [← fill_bound, ← fill_bound]; exact hbox j
  · rw [← fill_bound, ← fill_bound, ← linear_rows p ha]; exact hrows k (rows_lt p ha k)
  · have := C82_optimal (qp p.Hm p.cv) (qp_convexCons _ _) p.linear hq p.options (solve _ _) p.start hc hf r h hs
      (qp_tangent _ _ (fun x y => by rw [dotProduct_mulVec, ← mulVec_transpose, hH.symm, dotProduct_comm]) hH.psd _) y (meets_feasible p hy)
    rw [linear_nA, Fintype.card_fin, Nat.zero_add] at this
    rw [hobj] at this
    exact this

/-- Multipliers: nonnegative whether or not the run succeeds, zero for bounds that are not given; after success they balance the gradient `H x + c` up to the tolerances. -/
theorem C124_multipliers (solve : AnySolver) (p : Prob PipsOpt m n) (hp : p.Sensible) (hc : 0 < p.options.costMult) (r : Result n (Fin 0) (Fin 0))
    (hr : qpsPips solve p = .result r) :
    (∀ k, 0 ≤ r.lower k ∧ 0 ≤ r.upper k ∧ 0 ≤ r.mu_l k ∧ 0 ≤ r.mu_u k) ∧
    (∀ j : Fin n, (bound ⊥ p.xmin j = ⊥ → r.lower j = 0) ∧ (bound ⊤ p.xmax j = ⊤ → r.upper j = 0)) ∧
    (∀ a, p.A.get? = some a → ∀ k : Fin m, (bound ⊥ p.l k = ⊥ → r.mu_l k = 0) ∧ (bound ⊤ p.u k = ⊤ → r.mu_u k = 0)) ∧
    (r.eflag = true → ∀ j : Fin n,
      (p.A.get? = none → |(p.Hm *ᵥ r.x + p.cv) j + (r.upper j - r.lower j)| ≤
        (p.options.gradtol * (1 + r.dual) + 2 / 10 ^ 5) / p.options.costMult) ∧
      ∀ a, p.A.get? = some a → |(p.Hm *ᵥ r.x + p.cv) j + (r.upper j - r.lower j) + ∑ k : Fin m, a.mat k j * (r.mu_u k - r.mu_l k)| ≤
        (p.options.gradtol * (1 + r.dual) + 2 / 10 ^ 5 * (1 + ∑ k : Fin m, |a.mat k j|)) / p.options.costMult) := by
  have h := result_pips hr
  have hq := linear_ok p hp
  have habs := C76_absent _ _ _ _ _ hq r h
  refine ⟨(C76_signs _ _ _ _ _ hq hc r h).2, fun j => ⟨fun hb => (habs.1 j j.2).1 ?_, fun hb => (habs.1 j j.2).2 ?_⟩,
    fun a ha k => ⟨fun hb => (habs.2 k (rows_lt p ha k)).1 ?_, fun hb => (habs.2 k (rows_lt p ha k)).2 ?_⟩, fun hs j => ?_⟩
  · change fill ⊥ p.xmin j ≤ _; rw [fill_bound, hb]; exact bot_le
  · change _ ≤ fill ⊤ p.xmax j; rw [fill_bound, hb]; exact le_top
  · change fill ⊥ p.l k ≤ _; rw [fill_bound, hb]; exact bot_le
  · change _ ≤ fill ⊤ p.u k; rw [fill_bound, hb]; exact le_top
  · have hst := C76_stationary _ _ _ _ _ hq hc r h hs j
    simp only [Finset.univ_eq_empty, Finset.sum_empty, add_zero, zero_add] at hst
    refine ⟨fun hA => ?_, fun a ha => ?_⟩
    · have h0 : p.linear.nA = 0 := by rw [linear_nA, Prob.nRows]; simp [hA]
      rw [h0] at hst
      simp only [Finset.range_zero, Finset.sum_empty, add_zero] at hst
      refine hst.trans (le_of_eq ?_)
      congr 2; ring
    · have h0 : p.linear.nA = m := by rw [linear_nA, Prob.nRows]; simp [ha]
      have hA : p.A = .val a := by
        cases h : p.A <;> rw [h] at ha <;> simp_all [Key.get?]
      have e : ∀ k : Fin m, p.linear.A k j = a.mat k j := fun k => by simp [Prob.linear, hA]
      rw [h0, Finset.sum_range, Finset.sum_range] at hst
      simp only [e] at hst
      refine hst.trans (le_of_eq ?_)
      congr 2; ring

/-- Which problems are accepted: with sensible bounds a result is returned exactly if the costs have a key, the start is not `None`, there is no bound of rows without rows,
and there is a matrix `H` or else a matrix `A` with entries or with bounds of the variables. -/
theorem C124_accepted (solve : AnySolver) (p : Prob PipsOpt m n) (hp : p.Sensible) :
    (∃ r, qpsPips solve p = .result r) ↔
      p.c.present = true ∧ (p.x0.present = true → p.x0.get? ≠ none) ∧ (p.A.get? = none → p.l.full = false ∧ p.u.full = false) ∧
      (p.H.get? = none → ∃ a, p.A.get? = some a ∧ (a.nnz ≠ 0 ∨ p.xmin.present = true ∨ p.xmax.present = true)) := by
  have hq := linear_ok p hp
  have key : ∀ H : Matrix (Fin n) (Fin n) ℝ, (∃ r, solveQp solve H p = .result r) ↔
      p.c.present = true ∧ (p.x0.present = true → p.x0.get? ≠ none) ∧ (p.A.get? = none → p.l.full = false ∧ p.u.full = false) := by
    intro H
    obtain ⟨r, hr⟩ := C76_returns (qp H (p.c.get?.getD 0)) p.linear (p.opt.get?.getD .empty).full (solve _ _) (p.x0.get?.getD 0) hq
    unfold solveQp
    rw [hr]
    cases hc : p.c <;> cases hx : p.x0 <;> cases hA : p.A <;> simp [Key.present, Key.get?] <;>
      cases p.l.full <;> cases p.u.full <;> simp
  unfold qpsPips
  cases hH : p.H.get? with
  | some H => simp [key H]
  | none =>
    cases hA : p.A with
    | missing => simp [Key.get?]
    | none => simp [Key.get?]
    | val a =>
      simp only [Key.get?, reduceCtorEq, false_implies, true_and, Option.some.injEq, exists_eq_left', forall_const]
      have k0 := key 0
      rw [hA] at k0
      simp only [Key.get?, reduceCtorEq, false_implies, and_true] at k0
      split_ifs with hif
      · simp [hif]
      · rw [k0]
        have : a.nnz ≠ 0 ∨ p.xmin.present = true ∨ p.xmax.present = true := by
          by_contra hh
          push Not at hh
          exact hif ⟨hh.1, by simpa using hh.2.1, by simpa using hh.2.2⟩
        simp [this]

/-- A linear programme with bounds of the variables and no rows is refused, whatever the bounds. -/
theorem C124_bounds_only (solve : AnySolver) (a : Args PipsOpt m n) (hH : a.H = none) (hA : a.A = none) : qpsPips solve a.prob = .refused := by
  simp [qpsPips, Args.prob, Key.ofArg, Key.get?, hH, hA]

/-- The form does not matter: dictionaries that pose the same problem with the same start and options give the same result, if both give one. -/
theorem C124_same (solve : AnySolver) (p q : Prob PipsOpt m n) (h : Same p q) (r s : Result n (Fin 0) (Fin 0)) (hp : qpsPips solve p = .result r)
    (hq : qpsPips solve q = .result s) : r = s := by
  have e : p.linear = q.linear := by
    have fe : ∀ {k : ℕ} {d : EReal} {b b' : Key (Arr k)}, bound d b = bound d b' → fill d b = fill d b' := by
      intro k d b b' hb
      funext i
      by_cases hi : i < k
      · have := congrFun hb ⟨i, hi⟩
        rw [← fill_bound, ← fill_bound] at this
        exact this
      · unfold fill
        rcases b with _ | _ | (_ | v) <;> rcases b' with _ | _ | (_ | v') <;> simp [hi]
    have hA := h.A
    unfold Prob.linear
    rw [fe h.l, fe h.u, fe h.xmin, fe h.xmax]
    cases h1 : p.A <;> cases h2 : q.A <;> rw [h1, h2] at hA <;> simp_all [Key.get?]
  have h1 := result_pips hp
  have h2 := result_pips hq
  rw [h.H, h.c, h.options, h.start, e] at h1
  exact Option.some.inj (h1.symm.trans h2)

/-- Solving the dictionary again, with all that the first run wrote into it, gives the same result. -/
theorem C124_again (solve : AnySolver) (p : Prob PipsOpt m n) (r : Result n (Fin 0) (Fin 0)) (h : qpsPips solve p = .result r) :
    qpsPips solve p.after = .result r := by
  have h0 := qpsPips_result h
  have ho : p.after.options = p.options := by
    unfold Prob.options Prob.after
    cases p.opt <;> rfl
  have hl : p.after.linear = p.linear := by
    have : ∀ {k : ℕ} (d : EReal) (b : Key (Arr k)), fill d (b.orBounds d) = fill d b := by
      intro k d b
      funext i
      cases b <;> simp [fill, Key.orBounds]
    unfold Prob.linear
    simp only [Prob.after, this]
  have h1 : solveQp solve p.Hm p.after = .result r := by
    unfold solveQp at h0 ⊢
    have e1 : p.after.c = .val (p.c.get?.getD 0) := rfl
    have e2 : p.after.x0 = .val (p.x0.get?.getD 0) := rfl
    have e3 : p.after.A = p.A := rfl
    have e4 : p.after.l = p.l := rfl
    have e5 : p.after.u = p.u := rfl
    have e6 : (p.after.opt.get?.getD .empty).full = (p.opt.get?.getD .empty).full := ho
    rw [e6, hl, e1, e2, e3, e4, e5]
    split at h0
    · cases h0
    · cases h0
    · simpa [Key.get?] using h0
  unfold qpsPips
  have : p.after.H.get? = some p.Hm := rfl
  rw [this]
  exact h1

/-- `H` that is not symmetric: the objective is convex, every tolerance is met, success is reported, and yet the returned point is not near the minimum; the gradient
that is used is that of another function. -/
theorem C124_asymmetric (solve : AnySolver) (o : PipsOpt) (h1 : 0 < o.full.feastol) (h2 : 0 < o.full.gradtol) (h3 : 0 < o.full.comptol) (h4 : 0 < o.full.costtol)
    (h5 : 0 < o.full.costMult) :
    let p : Prob PipsOpt 0 2 := ⟨.val !![2, 2; 0, 2], .val ![-2, 0], .none, .none, .none, .missing, .missing, .val ![1, 0], .val o⟩
    p.Sensible ∧ (∀ v : Fin 2 → ℝ, 0 ≤ v ⬝ᵥ (p.Hm *ᵥ v)) ∧
    ∃ r, qpsPips solve p = .result r ∧ r.eflag = true ∧ r.f = -1 ∧ p.Meets ![4 / 3, -2 / 3] ∧ p.objective ![4 / 3, -2 / 3] = -4 / 3 := by
  intro p
  have hs : p.Sensible := by
    refine ⟨fun j => ?_, fun a ha => by cases ha⟩
    refine ⟨bot_le, by simp [p, bound, Key.get?], by simp [p, bound, Key.get?], fun h => ?_⟩
    simp [p, bound, Key.get?, Pips.Equal] at h
  refine ⟨hs, fun v => ?_, ?_⟩
  · have : v ⬝ᵥ (p.Hm *ᵥ v) = v 0 ^ 2 + v 1 ^ 2 + (v 0 + v 1) ^ 2 := by
      simp [p, Prob.Hm, Key.get?, Matrix.mulVec, dotProduct, Fin.sum_univ_two]; ring
    rw [this]; positivity
  obtain ⟨r, hr⟩ := (C124_accepted solve p hs).2 ⟨rfl, fun _ => by simp [p, Key.get?], fun _ => ⟨rfl, rfl⟩, fun h => by simp [p, Key.get?] at h⟩
  refine ⟨r, hr, ?_⟩
  have h := result_pips hr
  obtain ⟨ex, ee, ef, -⟩ := ofFull h
  have hll : ∀ k, p.linear.ll 2 k = ⊥ := fun k => by unfold Linear.ll; split_ifs <;> rfl
  have huu : ∀ k, p.linear.uu 2 k = ⊤ := fun k => by unfold Linear.uu; split_ifs <;> rfl
  have hE : p.linear.eqRows 2 = [] := by
    simp [ieq, hll, huu, near, epsE]
  have hI : p.linear.inRows 2 = [] := by
    simp [iRows, ilt, igt, ibx, hll, huu, big]
  have hE' : IsEmpty (Fin 0 ⊕ Fin (p.linear.eqRows 2).length) := by rw [hE]; exact isEmpty_sum.2 ⟨Fin.isEmpty, Fin.isEmpty⟩
  have hI' : IsEmpty (Fin 0 ⊕ Fin (p.linear.inRows 2).length) := by rw [hI]; exact isEmpty_sum.2 ⟨Fin.isEmpty, Fin.isEmpty⟩
  have hc : conv (problem (qp p.Hm p.cv) p.linear) p.options (init (problem (qp p.Hm p.cv) p.linear) p.options p.start) := by
    refine conv_start _ _ _ ?_ h1 h2 h3 h4
    funext j
    fin_cases j <;> simp [problem, qp, p, Prob.Hm, Prob.cv, Prob.start, Key.get?, Matrix.mulVec, dotProduct, Fin.sum_univ_two]
  have hx : (pips (problem (qp p.Hm p.cv) p.linear) p.options (solve _ _) p.start).x = p.start := by simp [pips, run, hc]; rfl
  refine ⟨by rw [ee]; simp [pips, run, hc], ?_, ⟨fun j => ⟨by simp [p, bound, Key.get?], by simp [p, bound, Key.get?]⟩, fun a ha => by cases ha⟩, ?_⟩
  · rw [C76_objective _ _ _ _ _ h5 r h, ex, hx]
    simp [qp, p, Prob.Hm, Prob.cv, Prob.start, Key.get?, Matrix.mulVec, dotProduct, Fin.sum_univ_two]; norm_num
  · simp [Prob.objective, p, Prob.Hm, Prob.cv, Key.get?, Matrix.mulVec, dotProduct, Fin.sum_univ_two]; norm_num

/-! ### `qps_pypower` -/

/-- **C124** for `qps_pypower` (partial: `H` symmetric, and a key of the dictionary if the problem is one, see `C124_options_ignored`): the same with the options asked
for. -/
theorem C124_pypower_partial (av : Dispatch.Avail) (solve : AnySolver) (k : Call m n) (hk : k.hasH) (hp : k.posed.Sensible) (hH : ConvexSymm k.posed.Hm)
    (hc : 0 < k.documented.costMult) (hf : 0 ≤ k.documented.feastol) (r : Result n (Fin 0) (Fin 0)) (hr : qpsPypower av solve k = .result r) (hs : r.eflag = true) :
    k.posed.Nearly r.x (r.tol k.documented) ∧ r.f = k.posed.objective r.x ∧
    ∀ y, k.posed.Meets y →
      k.posed.objective r.x ≤ k.posed.objective y + gap k.documented (n + k.posed.nRows) ‖r.x‖ r.dual (r.tol k.documented) (∑ j, |y j - r.x j|) := by
  obtain ⟨q, hq, ho, e1, e2, -, e4, e5, e6, e7, e8⟩ := pypower_result hk hr
  have b5 := bound_congr (d := ⊥) e5
  have b6 := bound_congr (d := ⊤) e6
  have b7 := bound_congr (d := ⊥) e7
  have b8 := bound_congr (d := ⊤) e8
  have hq' : q.Sensible := ⟨fun j => by rw [b7, b8]; exact hp.box j, fun a ha j => by rw [b5, b6]; exact hp.rows a (e4 ▸ ha) j⟩
  have eo : q.objective = k.posed.objective := by funext x; unfold Prob.objective; rw [e1, e2]
  have en : q.nRows = k.posed.nRows := by unfold Prob.nRows; rw [e4]
  obtain ⟨h1, h2, h3⟩ := C124_optimal_partial solve q hq' (e1 ▸ hH) (ho ▸ hc) (ho ▸ hf) r hq hs
  rw [eo, en, ho] at h3
  rw [ho] at h1
  rw [eo] at h2
  refine ⟨⟨fun j => ?_, fun a ha j => ?_⟩, h2, fun y hy => h3 y ⟨fun j => ?_, fun a ha j => ?_⟩⟩
  · have := h1.box j; rwa [b7, b8] at this
  · have := h1.rows a (e4 ▸ ha) j; rwa [b5, b6] at this
  · rw [b7, b8]; exact hy.box j
  · rw [b5, b6]; exact hy.rows a (e4 ▸ ha) j

/-- A linear programme given as a dictionary without `H`: neither the options for PIPS nor the choice between the two variants of PIPS has any effect. -/
theorem C124_options_ignored (av : Dispatch.Avail) (solve : AnySolver) (p : Prob QOpt m n) (hH : p.H = .missing) (x y : Option PipsOpt) (top : PipsOpt) (i j : ℤ)
    (hi : i = 200 ∨ i = 250) (hj : j = 200 ∨ j = 250) :
    qpsPypower av solve (.dict { p with opt := .val ⟨some i, x, top⟩ }) = qpsPypower av solve (.dict { p with opt := .val ⟨some j, y, top⟩ }) := by
  rcases hi with rfl | rfl <;> rcases hj with rfl | rfl <;>
    simp [qpsPypower, Call.asserted, Call.opt, Key.get?, Dispatch.qps, Dispatch.dispatchAlg, callPips, hH]

/-- `max_it` zero does not stand for the default: no iteration is made and the start is returned. -/
theorem C124_max_it (av : Dispatch.Avail) (solve : AnySolver) (k : Call m n) (hk : k.hasH) (hz : k.opt.top.maxIt = some 0) (r : Result n (Fin 0) (Fin 0))
    (hr : qpsPypower av solve k = .result r) : r.x = k.posed.start := by
  obtain ⟨q, hq, ho, -, -, e3, -⟩ := pypower_result hk hr
  obtain ⟨ex, -⟩ := ofFull (result_pips hq)
  have hm : q.options.maxIt = 0 := by rw [ho]; simp [Call.documented, hz]
  rw [ex, ← e3]
  unfold pips run
  split_ifs
  · rfl
  · rw [hm]; rfl

/-- A linear programme with bounds of the variables and no rows raises. -/
theorem C124_bounds_only_pypower (av : Dispatch.Avail) (solve : AnySolver) (a : Args QOpt m n) (hH : a.H = none) (hA : a.A = none)
    (hv : ∃ sc, Dispatch.qps av ((Call.args a).opt.alg.getD 0) = some (.pips sc)) : qpsPypower av solve (.args a) = .raised := by
  obtain ⟨sc, hsc⟩ := hv
  unfold qpsPypower
  split_ifs
  · rfl
  · rw [hsc]
    simp only [callPips]
    rw [C124_bounds_only solve _ hH hA]
    rfl

/-! ### Examples -/

/-- Minimise `x² - 2x` for `0 ≤ x ≤ 3` and `2x ≥ 1`, with `l` given and `u` left out. -/
noncomputable def exProb (o : PipsOpt) : Prob PipsOpt 1 1 :=
  ⟨.val !![2], .val ![-2], .val ⟨1, !![2]⟩, .val (some fun _ => ((1 : ℝ) : EReal)), .none, .val (some fun _ => ((0 : ℝ) : EReal)),
    .val (some fun _ => ((3 : ℝ) : EReal)), .missing, .val o⟩

theorem exProb_sensible (o : PipsOpt) : (exProb o).Sensible := by
  refine ⟨fun j => ?_, fun a _ k => ?_⟩
  · refine ⟨?_, ?_, ?_, fun _ => ⟨?_, ?_⟩⟩ <;> simp only [exProb, bound, Key.get?]
    · exact EReal.coe_le_coe_iff.2 (by norm_num)
    · exact EReal.coe_ne_bot _
    · exact EReal.coe_ne_top _
    · exact EReal.coe_lt_coe_iff.2 (by norm_num)
    · exact EReal.coe_lt_coe_iff.2 (by norm_num)
  · refine ⟨le_top, by simp [exProb, bound, Key.get?], ?_, fun h => ?_⟩
    · simp only [exProb, bound, Key.get?]; exact EReal.coe_ne_top _
    · simp only [exProb, bound, Key.get?, Pips.Equal] at h
      obtain ⟨_, b, _, hb, _⟩ := h
      exact absurd hb.symm (EReal.coe_ne_top b)

theorem exProb_convex (o : PipsOpt) : ConvexSymm (exProb o).Hm := by
  refine ⟨by ext i j; fin_cases i; fin_cases j; rfl, fun v => ?_⟩
  have : v ⬝ᵥ ((exProb o).Hm *ᵥ v) = 2 * v 0 ^ 2 := by simp [exProb, Prob.Hm, Key.get?, Matrix.mulVec, dotProduct]; ring
  rw [this]; positivity

/-- Every problem of that kind meets the hypotheses with suitable options, and 1 is a competitor. -/
example : ∃ (o : PipsOpt) (r : Result 1 (Fin 0) (Fin 0)), (exProb o).Sensible ∧ ConvexSymm (exProb o).Hm ∧ 0 < (exProb o).options.costMult ∧
    0 ≤ (exProb o).options.feastol ∧ qpsPips (fun _ _ _ _ => none) (exProb o) = .result r ∧ r.eflag = true ∧ (exProb o).Meets ![1] := by
  obtain ⟨o, h1, h2, h3⟩ := exists_success (problem (qp (exProb .empty).Hm (exProb .empty).cv) (exProb .empty).linear) (exProb .empty).start
  let q : PipsOpt := ⟨some o.feastol, some o.gradtol, some o.comptol, some o.costtol, some o.maxIt, some o.maxRed, some o.stepControl, some o.costMult⟩
  obtain ⟨r, hr⟩ := (C124_accepted (fun _ _ _ _ => none) (exProb q) (exProb_sensible q)).2
    ⟨rfl, fun h => (Bool.false_ne_true h).elim, fun h => by simp [exProb, Key.get?] at h, fun h => by simp [exProb, Key.get?] at h⟩
  refine ⟨q, r, exProb_sensible q, exProb_convex q, h1, h2.le, hr, ?_, ⟨fun j => ?_, fun a ha k => ?_⟩⟩
  · rw [(ofFull (result_pips hr)).2.1]
    exact h3 _
  · fin_cases j
    exact ⟨EReal.coe_le_coe_iff.2 (by norm_num), EReal.coe_le_coe_iff.2 (by norm_num)⟩
  · have ha' : a = ⟨1, !![2]⟩ := by simpa [exProb, Key.get?] using ha.symm
    subst ha'
    fin_cases k
    refine ⟨?_, le_top⟩
    simp only [exProb, bound, Key.get?]
    exact EReal.coe_le_coe_iff.2 (by norm_num [Matrix.mulVec, dotProduct])

/-- A call of `qps_pypower` with a dictionary that has `H`, and one without. -/
example : (Call.dict ⟨.val !![2], .missing, .missing, .missing, .missing, .missing, .missing, .missing, .missing⟩ : Call 0 1).hasH ∧
    ¬ (Call.dict ⟨.missing, .val ![1], .val ⟨1, !![1]⟩, .val (some fun _ => 0), .missing, .missing, .missing, .missing, .missing⟩ : Call 1 1).hasH := by
  simp [Call.hasH, Key.present]

end Verif.Qps
