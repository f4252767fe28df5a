import Verif.Opf.EconProps

/-!
# Feasible points are accepted

The convergence test of `pips` (pips.py:353-358) does not reject a point that satisfies all constraints: started at it, `pips` reports success at once for every feasibility tolerance above
rounding (with the other tolerances wide enough).  Lemmas for C96, C109 and C110.
-/

open Matrix Verif Verif.Pips Verif.OpfModel

namespace Verif.Pips

/-- The residuals of a feasible point. -/
theorem Feasible.residuals {n : ℕ} {E I : Type} {c : Callbacks n E I} {q : Linear} (hq : q.OK n) {y : Fin n → ℝ} (hy : Feasible c q y) :
    (∀ j, |(problem c q).g y j| ≤ 1 / 2 ^ 52) ∧ ∀ i, (problem c q).h y i ≤ 0 := by
  constructor
  · intro j
    rcases j with e | p
    · simp only [problem, Sum.elim_inl, hy.eq e, abs_zero]; positivity
    · simp only [problem, Sum.elim_inr]
      set k := (q.eqRows n).get p with hk
      have hmem : k ∈ q.eqRows n := List.get_mem _ _
      obtain ⟨hlt, hnear⟩ := mem_ieq.1 hmem
      obtain ⟨l, u, hl, hu, hlu⟩ := (near_iff _ _).1 hnear
      obtain ⟨v1, v2⟩ := hy.val k hlt
      rw [hl, EReal.coe_le_coe_iff] at v1
      rw [hu, EReal.coe_le_coe_iff] at v2
      rw [hu, EReal.toReal_coe]
      rw [abs_le] at hlu ⊢
      constructor <;> linarith
  · intro i
    rcases i with i | p
    · exact hy.ineq i
    · simp only [problem, Sum.elim_inr]
      set s := (q.inRows n).get p with hk
      have hmem : s ∈ q.inRows n := List.get_mem _ _
      have hlt := iRows_row_lt hmem
      obtain ⟨v1, v2⟩ := hy.val s.2 hlt
      obtain ⟨s1, s2, s3, s4⟩ := hq.sane s.2 hlt
      obtain ⟨b1, b2⟩ := iRows_bound hmem
      unfold Linear.bound sgn
      cases hb : s.1
      · have := toReal_of_gt_big s3 (b2 hb)
        rw [← this, EReal.coe_le_coe_iff] at v1
        simp only [Bool.false_eq_true, if_false]
        linarith
      · have := toReal_of_lt_big s2 (b1 hb)
        rw [← this, EReal.coe_le_coe_iff] at v2
        simp only [if_true]
        linarith

/-- A point without violations is accepted with any absolute feasibility tolerance above its residuals. -/
theorem accepted {X Q I : Type} [Fintype X] [Fintype Q] [Fintype I] [DecidableEq X] [DecidableEq I] (P : Problem X Q I) (x0 : X → ℝ) (e δ : ℝ) (he : 0 ≤ e) (hδ : e < δ)
    (hg : ∀ j, |P.g x0 j| ≤ e) (hh : ∀ i, P.h x0 i ≤ 0) :
    ∃ o : Opt, 0 < o.costMult ∧ 0 < o.feastol ∧ 0 < o.gradtol ∧ 0 < o.comptol ∧ ∀ solve : Solver X Q, (pips P o solve x0).eflag = true ∧ (pips P o solve x0).x = x0 ∧
      o.feastol * (1 + max ‖x0‖ ‖(run P o solve x0).st.z‖) = δ := by
  let o1 : Opt := ⟨0, 0, 0, 0, 0, 0, false, 1⟩
  let s := Pips.init P o1 x0
  have hpos : 0 < 1 + max ‖x0‖ ‖s.z‖ := by have := (norm_nonneg x0).trans (le_max_left _ ‖s.z‖); linarith
  have hδ0 : 0 < δ := lt_of_le_of_lt he hδ
  let o : Opt := ⟨δ / (1 + max ‖x0‖ ‖s.z‖), |gradcond P o1 s.x s.lam s.mu| + 1, |compcond s.x s.z s.mu| + 1, costcond (Pips.cost P o1 s.x) s.f0 + 1, 0, 0, false, 1⟩
  have hc : conv P o (Pips.init P o x0) := by
    refine ⟨?_, ?_, ?_, ?_⟩
    · show max ‖P.g x0‖ (maxh (P.h x0)) / (1 + max ‖x0‖ ‖s.z‖) < δ / (1 + max ‖x0‖ ‖s.z‖)
      refine div_lt_div_of_pos_right (max_lt ?_ ?_) hpos
      · exact lt_of_le_of_lt ((pi_norm_le_iff_of_nonneg he).2 fun j => by rw [Real.norm_eq_abs]; exact hg j) hδ
      · unfold maxh
        split_ifs with hne
        · exact lt_of_le_of_lt (Finset.sup'_le _ _ fun i _ => hh i) hδ0
        · exact hδ0
    · exact lt_of_le_of_lt (le_abs_self _) (lt_add_one _)
    · exact lt_of_le_of_lt (le_abs_self _) (lt_add_one _)
    · exact lt_add_one _
  refine ⟨o, by norm_num [o], by simp only [o]; positivity, by simp only [o]; positivity, by simp only [o]; positivity, fun solve => ?_⟩
  have hr : (run P o solve x0).st = Pips.init P o x0 := by simp [Pips.run, hc]
  refine ⟨by simp [pips, Pips.run, hc], by show (run P o solve x0).st.x = x0; rw [hr]; rfl, ?_⟩
  rw [hr]
  show δ / (1 + max ‖x0‖ ‖s.z‖) * (1 + max ‖x0‖ ‖s.z‖) = δ
  field_simp

end Verif.Pips

namespace Verif.Opf

variable {nb ng nl : ℕ}

/-- **Acceptance by the DC solver**: started at a point at which all variables and constraints of the model are within their bounds, the run succeeds and returns it. -/
theorem dc_accepts {d : Case nb ng nl} {extra : List Op} {m : Model} (hm : OpfModel.run (dcOps d ++ extra) = some m) (g : Good (dcOps d ++ extra))
    (H : Matrix (Fin m.var.total) (Fin m.var.total) ℝ) (C : Fin m.var.total → ℝ) (C0 : ℝ) (y : ℕ → ℝ) (hy : Holds (varBlocks (dcOps d ++ extra)) (dcOps d ++ extra) y)
    (δ : ℝ) (hδ : 1 / 2 ^ 52 < δ) :
    ∃ o : Opt, 0 < o.costMult ∧ 0 < o.feastol ∧ 0 < o.gradtol ∧ 0 < o.comptol ∧ ∀ solve : AnySolver, ∃ s : DcRes nb ng nl,
      dcopfSolver d m H C C0 o solve (fun i => y i) = some s ∧ s.success = true ∧ s.tol = δ ∧ ∀ i < m.var.total, s.x i = y i := by
  obtain ⟨q, hq, -, -, -, -, hqok⟩ := linearOf_spec hm g
  obtain ⟨i1, i2, i3, i4, i5⟩ := dc_idx hm g
  obtain ⟨r1, r2⟩ := (holds_feasible hm g hq H C y hy).residuals hqok
  obtain ⟨o, o1, o2, o3, o4, hsol⟩ := accepted (problem (qp H C) q) (fun i : Fin m.var.total => y i) (1 / 2 ^ 52) δ (by positivity) hδ r1 r2
  refine ⟨o, o1, o2, o3, o4, fun solve => ?_⟩
  obtain ⟨r, hr⟩ := C76_returns (qp H C) q o (solve _ _) (fun i => y i) hqok
  have hs : ∃ s, dcopfSolver d m H C C0 o solve (fun i => y i) = some s := by
    unfold dcopfSolver
    simp only [hq, hr, i1, i2, i3, i4, i5, Option.bind_eq_bind, Option.bind_some]
    exact ⟨_, rfl⟩
  obtain ⟨s, hs⟩ := hs
  obtain ⟨q', r', hq', hr', e1, -, e3, e4, -⟩ := dc_ofSolver hm g hs
  rw [hq] at hq'; cases hq'
  obtain ⟨ex, ef, -, -, -, es, -⟩ := ofFull hr'
  obtain ⟨a1, a2, a3⟩ := hsol (solve _ _)
  refine ⟨s, hs, by rw [e1, ef]; exact a1, ?_, ?_⟩
  · rw [e4, Result.tol, es, ex, a2]; exact a3
  · intro i hi
    rw [e3, ex, a2]
    simp [pad, hi]

end Verif.Opf
