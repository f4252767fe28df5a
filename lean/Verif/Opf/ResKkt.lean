import Verif.Opf.ResBlocks

/-! # Conditions on further variables of the DC formulation; those on reserves -/

open Matrix

namespace Verif.Opf

open Verif.OpfModel Verif.Pips Verif.Network Verif.Cost Verif.OpfCost

variable {nb ng nl n nz : ℕ}

theorem linBlks_append (a b : List Op) : linBlks (a ++ b) = linBlks a ++ linBlks b := by simp [linBlks]
theorem varVals_append (a b : List Op) : varVals (a ++ b) = varVals a ++ varVals b := by simp [varVals]
theorem costBlks_append (a b : List Op) : costBlks (a ++ b) = costBlks a ++ costBlks b := by simp [costBlks]

theorem overRows_append (F : ℝ → ℝ → ℝ) (vb lb : List (String × ℕ)) (a b : List (String × LinBlk)) (j : ℕ) (y : ℕ → ℝ) :
    overRows F vb lb (a ++ b) j y = overRows F vb lb a j y + overRows F vb lb b j y := by
  unfold overRows; rw [List.map_append, List.sum_append]

section general
variable {d : Case nb ng nl} {extra : List Op} {m : Model} (hm : OpfModel.run (dcOps d ++ extra) = some m) (g : Good (dcOps d ++ extra))
  {H : Matrix (Fin m.var.total) (Fin m.var.total) ℝ} {C : Fin m.var.total → ℝ} {C0 : ℝ} {o : Opt} {solve : AnySolver} {x0 : Fin m.var.total → ℝ}
  {s : DcRes nb ng nl} (hs : dcopfSolver d m H C C0 o solve x0 = some s)

include hs in
/-- The multipliers of the bounds on variables are those of the solver. -/
theorem dc_bounds {q : Linear} {r : Result m.var.total (Fin 0) (Fin 0)} (hq : linearOf m = some q) (hr : pipsFull (qp H C) q o (solve _ _) x0 = some r) :
    s.lower = r.lower ∧ s.upper = r.upper := by
  unfold dcopfSolver at hs
  simp only [hq, hr, Option.bind_eq_bind, Option.bind_some, Option.bind_eq_some_iff] at hs
  obtain ⟨_, -, _, -, _, -, _, -, _, -, e⟩ := hs
  cases e
  exact ⟨rfl, rfl⟩

include hm g hs in
/-- No multiplier is negative. -/
theorem extra_signs (hc : 0 < o.costMult) (k : ℕ) : 0 ≤ s.lower k ∧ 0 ≤ s.upper k ∧ 0 ≤ s.mu_l k ∧ 0 ≤ s.mu_u k := by
  obtain ⟨q, r, hq, hr, e1, -, e3, e4, e5, eV, eG, eF, eT, eQ, eL, eSf, eSt, ePl, ePu, el, eu⟩ := dc_ofSolver hm g hs
  obtain ⟨q', hq', ht, hA, hv, hl, hqok⟩ := linearOf_spec hm g
  rw [hq] at hq'; cases hq'
  obtain ⟨-, sg⟩ := C76_signs (qp H C) q o (solve _ _) x0 hqok hc r hr
  obtain ⟨f1, f2⟩ := dc_bounds hs hq hr
  rw [f1, f2, el, eu]
  exact sg k

include hm g hs in
/-- Absent bounds of the further rows have no multipliers. -/
theorem extra_absent (b : String × LinBlk) (hb : b ∈ linBlks extra) (i : ℕ) (hi : i < b.2.A.rows) :
    (LinBlk.lo b.2 i = ⊥ → s.mu_l (start (linBlocks (dcOps d ++ extra)) b.1 + i) = 0) ∧
    (LinBlk.hi b.2 i = ⊤ → s.mu_u (start (linBlocks (dcOps d ++ extra)) b.1 + i) = 0) := by
  obtain ⟨q, r, hq, hr, e1, -, e3, e4, e5, eV, eG, eF, eT, eQ, eL, eSf, eSt, ePl, ePu, el, eu⟩ := dc_ofSolver hm g hs
  obtain ⟨q', hq', ht, hA, hv, hl, hqok⟩ := linearOf_spec hm g
  rw [hq] at hq'; cases hq'
  obtain ⟨-, ab2⟩ := C76_absent (qp H C) q o (solve _ _) x0 hqok r hr
  have hmem : b ∈ linBlks (dcOps d ++ extra) := by rw [linBlks_append]; exact List.mem_append_right _ hb
  have hlo := (hl _ hmem i hi).2
  have hlt : start (linBlocks (dcOps d ++ extra)) b.1 + i < q.nA := by
    rw [hA]
    exact start_lt (linBlocks (dcOps d ++ extra)) (by rw [linBlocks_names]; exact g.linNames) (b.1, b.2.A.rows) (List.mem_map.2 ⟨_, hmem, rfl⟩) i hi
  rw [eu, el]
  exact ⟨fun h => (ab2 _ hlt).1 (by rw [hlo.1, h]; simp), fun h => (ab2 _ hlt).2 (by rw [hlo.2, h]; simp)⟩

include hm g hs in
/-- Complementarity of the bounds of the further variables. -/
theorem extra_comp (hc : 0 < o.costMult) (hft : 0 ≤ o.feastol) (hok : s.success = true) (b : String × VarVals) (hmem : b ∈ varVals extra) (i : ℕ) (hi : i < b.2.n) :
    (∀ u : ℝ, VarVals.hi b.2 i = (u : EReal) → s.upper (start (varBlocks (dcOps d ++ extra)) b.1 + i) * (u - s.x (start (varBlocks (dcOps d ++ extra)) b.1 + i)) ≤
      compGap o ‖fun i : Fin m.var.total => s.x i‖ s.dual s.tol) ∧
    (∀ l : ℝ, VarVals.lo b.2 i = (l : EReal) → s.lower (start (varBlocks (dcOps d ++ extra)) b.1 + i) * (s.x (start (varBlocks (dcOps d ++ extra)) b.1 + i) - l) ≤
      compGap o ‖fun i : Fin m.var.total => s.x i‖ s.dual s.tol) := by
  obtain ⟨q, r, hq, hr, e1, -, e3, e4, e5, eV, eG, eF, eT, eQ, eL, eSf, eSt, ePl, ePu, el, eu⟩ := dc_ofSolver hm g hs
  obtain ⟨hv, hl⟩ := solved_comp hm g hq (qp H C) o solve x0 hc hft r hr (by rw [← e1]; exact hok)
  obtain ⟨f1, f2⟩ := dc_bounds hs hq hr
  have hx : (fun i : Fin m.var.total => s.x i) = r.x := by rw [e3]; funext i; simp [pad]
  rw [hx, e4, e5, e3, f1, f2]
  exact hv b (by rw [varVals_append]; exact List.mem_append_right _ hmem) i hi

include hm g hs in
/-- A bound that is `⊤` has no multiplier. -/
theorem extra_unbounded (b : String × VarVals) (hmem : b ∈ varVals extra) (i : ℕ) (hi : i < b.2.n) (h : VarVals.hi b.2 i = ⊤) :
    s.upper (start (varBlocks (dcOps d ++ extra)) b.1 + i) = 0 := by
  obtain ⟨q, r, hq, hr, e1, -, e3, e4, e5, eV, eG, eF, eT, eQ, eL, eSf, eSt, ePl, ePu, el, eu⟩ := dc_ofSolver hm g hs
  obtain ⟨q', hq', ht, hA, hv, hl, hqok⟩ := linearOf_spec hm g
  rw [hq] at hq'; cases hq'
  obtain ⟨ab1, -⟩ := C76_absent (qp H C) q o (solve _ _) x0 hqok r hr
  have hmem' : b ∈ varVals (dcOps d ++ extra) := by rw [varVals_append]; exact List.mem_append_right _ hmem
  have hlt : start (varBlocks (dcOps d ++ extra)) b.1 + i < m.var.total := by
    rw [ht]
    exact start_lt _ g.varNames (b.1, b.2.n) (by rw [← varVals_blocks]; exact List.mem_map.2 ⟨b, hmem', rfl⟩) i hi
  rw [(dc_bounds hs hq hr).2]
  exact (ab1 _ hlt).2 (by rw [(hv b hmem' i hi).2, h]; simp)

include hm g hs in
/-- Stationarity in a further variable. -/
theorem extra_price (hc : 0 < o.costMult) (hok : s.success = true) (j : ℕ) (hj : nb + ng ≤ j) (hlt : j < m.var.total) :
    |marginal H C s.x j + (s.upper j - s.lower j) + extraTerm d extra s j| ≤
      (o.gradtol * (1 + s.dual) + 1 / 10 ^ 5 * (2 * (1 + extraAbs d extra j))) / o.costMult := by
  obtain ⟨q, r, hq, hr, e1, -, e3, e4, e5, eV, eG, eF, eT, eQ, eL, eSf, eSt, ePl, ePu, el, eu⟩ := dc_ofSolver hm g hs
  obtain ⟨q', hq', ht, hA, hv, hl, hqok⟩ := linearOf_spec hm g
  rw [hq] at hq'; cases hq'
  obtain ⟨f1, f2⟩ := dc_bounds hs hq hr
  have st := C76_stationary (qp H C) q o (solve _ _) x0 hqok hc r hr (by rw [← e1]; exact hok) ⟨j, hlt⟩
  have htot : j < total (varBlocks (dcOps d ++ extra)) := by rw [← ht]; exact hlt
  rw [linearOf_column hm g hq (fun a y => a * y) _ htot fun k => r.mu_u k - r.mu_l k,
    linearOf_column hm g hq (fun a _ => |a|) _ htot 0] at st
  have z : (fun i : Fin nb => (Pi.single j (1 : ℝ) : ℕ → ℝ) i) = 0 := by
    funext i
    rw [Pi.single_eq_of_ne (by have := i.isLt; omega)]; rfl
  have zp : ∀ p : Fin ng, (Pi.single j (1 : ℝ) : ℕ → ℝ) (nb + p) = 0 := fun p => Pi.single_eq_of_ne (by have := p.isLt; omega) _
  have c1 : ∀ b : Fin nb, coef (varBlocks (dcOps d ++ extra)) ⟨hcat (Bbus d.branch) d.negCg, vec d.bmis, vec d.bmis, ["Va", "Pg"]⟩ b j = 0 := by
    intro b
    unfold coef
    rw [Pmis_row, z, Matrix.mulVec_zero, Pi.zero_apply, zero_sub, Finset.sum_eq_zero fun p _ => zp p, neg_zero]
  have c2 : ∀ i : Fin d.il.length, coef (varBlocks (dcOps d ++ extra)) ⟨matOf d.BfIl, List.replicate d.il.length ⊥, vec d.upf, ["Va"]⟩ i j = 0 := by
    intro i
    unfold coef
    rw [Pf_row, z, Matrix.mulVec_zero, Pi.zero_apply]
  have c3 : ∀ i : Fin d.il.length, coef (varBlocks (dcOps d ++ extra)) ⟨matOf (-d.BfIl), List.replicate d.il.length ⊥, vec d.upt, ["Va"]⟩ i j = 0 := by
    intro i
    unfold coef
    rw [Pt_row, z, Matrix.mulVec_zero, Pi.zero_apply, neg_zero]
  rw [dc_overRows, dc_overRows] at st
  simp only [c1, c2, c3, zero_mul, abs_zero, Finset.sum_const_zero, Finset.univ_eq_empty, Finset.sum_empty, add_zero, zero_add] at st
  have hx : (fun i : Fin m.var.total => s.x i) = r.x := by rw [e3]; funext i; simp [pad]
  have hm' : marginal H C s.x j = (qp H C).df r.x ⟨j, hlt⟩ := by
    unfold marginal pad qp
    rw [hx, dif_pos hlt]
  rw [hm', extraTerm, el, eu, extraAbs, e5, f1, f2]
  exact st

end general

section user
variable (d : Case nb ng nl) (gc0 : Fin ng → CostRow ℝ) (hgc : ∀ p, CostOK (gc0 p)) (lin post : List Op) (hlin : varBlocks lin = [])
  (m : Model) (hm : OpfModel.run (dcOps d ++ (lin ++ (pwlOps d.base (fun p => pwl1Row (gc0 p)) ++ post))) = some m)
  (g : Good (dcOps d ++ (lin ++ (pwlOps d.base (fun p => pwl1Row (gc0 p)) ++ post))))
  {V : Type} [Fintype V] [DecidableEq V] (u : UserCost m.var.total V) (hu : u.Convex)
  (D : DcData (Fin m.var.total) {p : Fin ng // (pwl1Row (gc0 p)).model = 2} V)
  (hD : D = dcData d.base (fun p => pwl1Row (gc0 p)) u nb (nb + ng) (dc_width hm g))

include hgc hlin hm g hu hD in
/-- The cost of a changed point, from the marginal costs at the original one. -/
theorem change_user (x y : ℕ → ℝ) :
    ∑ j : Fin m.var.total, marginal (HH D) (CC D) x j * (y j - x j) ≤
      (∑ q : {p : Fin ng // (pwl1Row (gc0 p)).model = 2}, (rowPoly (pwl1Row (gc0 q))).eval (d.base * y (nb + q.1)) +
        ∑ p with (pwl1Row (gc0 p)).model = 1, y (nb + ng + pwlPos (fun p => pwl1Row (gc0 p)) p) + u.value (fun i => y i)) -
      (∑ q : {p : Fin ng // (pwl1Row (gc0 p)).model = 2}, (rowPoly (pwl1Row (gc0 q))).eval (d.base * x (nb + q.1)) +
        ∑ p with (pwl1Row (gc0 p)).model = 1, x (nb + ng + pwlPos (fun p => pwl1Row (gc0 p)) p) + u.value (fun i => x i)) := by
  have hgc' : ∀ p, CostOK ((fun p => pwl1Row (gc0 p)) p) := fun p => costOK_pwl1 (hgc p)
  have hox := objective_eq (fun p => pwl1Row (gc0 p)) hgc' d.base u nb (nb + ng) (dc_width hm g) (y_width d gc0 lin post hlin m hm g) hu.symm x
  have hoy := objective_eq (fun p => pwl1Row (gc0 p)) hgc' d.base u nb (nb + ng) (dc_width hm g) (y_width d gc0 lin post hlin m hm g) hu.symm y
  rw [← hD] at hox hoy
  have hH : ∀ a b, D.H a b = D.H b a := by rw [hD]; exact hu.symm
  have hP : ∀ w : V → ℝ, 0 ≤ ∑ a, ∑ b, w a * D.H a b * w b := by rw [hD]; exact hu.psd
  have hpol : ∀ q, 0 ≤ (polycf D q).1 := by rw [hD]; exact polycf_nonneg (fun p => pwl1Row (gc0 p)) hgc' d.base u nb (nb + ng) (dc_width hm g)
  have ht := qp_tangent (HH D) (CC D) (HH_symm D hH) (HH_psd D hpol hP) (fun i => x i) (fun i => y i)
  have em : ∀ j : Fin m.var.total, marginal (HH D) (CC D) x j = (qp (HH D) (CC D)).df (fun i => x i) j := by
    intro j
    unfold marginal pad
    rw [dif_pos j.isLt]
    rfl
  simp only [em]
  unfold dcObjective at hox hoy
  simp only [qp] at ht ⊢
  linarith

end user

end Verif.Opf
