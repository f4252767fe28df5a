import Verif.Opf.AcProps
import Verif.Pips.CompProps

/-! # C84 in the tables of the DC and AC optimal power flow: shadow prices are paid only at binding limits -/

open Matrix

namespace Verif.Opf

open Verif.OpfModel Verif.Pips Verif.Network Verif.OpfNl Verif.OpfCost

variable {nb ng nl : ℕ}

/-- Complementarity block by block. -/
theorem solved_comp {E I : Type} [Fintype E] [Fintype I] [DecidableEq E] [DecidableEq I] {h : List Op} {m : Model} (hm : OpfModel.run h = some m)
    (g : Good h) {q : Linear} (hq : linearOf m = some q) (c : Callbacks m.var.total E I) (o : Opt) (solve : AnySolver) (x0 : Fin m.var.total → ℝ)
    (hc : 0 < o.costMult) (hft : 0 ≤ o.feastol) (r : Result m.var.total E I) (hr : pipsFull c q o (solve _ _) x0 = some r) (hs : r.eflag = true) :
    (∀ b ∈ varVals h, ∀ i < b.2.n,
      (∀ u : ℝ, VarVals.hi b.2 i = (u : EReal) → r.upper (start (varBlocks h) b.1 + i) * (u - pad r.x (start (varBlocks h) b.1 + i)) ≤ compGap o ‖r.x‖ r.dual (r.tol o)) ∧
      (∀ l : ℝ, VarVals.lo b.2 i = (l : EReal) → r.lower (start (varBlocks h) b.1 + i) * (pad r.x (start (varBlocks h) b.1 + i) - l) ≤ compGap o ‖r.x‖ r.dual (r.tol o))) ∧
    (∀ b ∈ linBlks h, ∀ i < b.2.A.rows,
      (∀ u : ℝ, LinBlk.hi b.2 i = (u : EReal) → r.mu_u (start (linBlocks h) b.1 + i) *
        (u - rowDot b.2.A i (subvec (varBlocks h) (pad r.x) (eff (varBlocks h) b.2.vs))) ≤ compGap o ‖r.x‖ r.dual (r.tol o)) ∧
      (∀ l : ℝ, LinBlk.lo b.2 i = (l : EReal) → r.mu_l (start (linBlocks h) b.1 + i) *
        (rowDot b.2.A i (subvec (varBlocks h) (pad r.x) (eff (varBlocks h) b.2.vs)) - l) ≤ compGap o ‖r.x‖ r.dual (r.tol o))) := by
  obtain ⟨q', hq', ht, hA, hv, hl, hok⟩ := linearOf_spec hm g
  rw [hq] at hq'; cases hq'
  obtain ⟨h1, h2, h3, h4⟩ := C84_binding c q o (solve _ _) x0 hok hc hft r hr hs
  refine ⟨?_, ?_⟩
  · intro b hb i hi
    have hlt : start (varBlocks h) b.1 + i < m.var.total := by
      rw [ht]
      exact start_lt _ g.varNames (b.1, b.2.n) (by rw [← varVals_blocks]; exact List.mem_map.2 ⟨b, hb, rfl⟩) i hi
    obtain ⟨e1, e2⟩ := hv b hb i hi
    have ep : pad r.x (start (varBlocks h) b.1 + i) = r.x ⟨_, hlt⟩ := by simp [pad, hlt]
    rw [ep]
    exact ⟨fun u hu => h1 ⟨_, hlt⟩ u (by rw [← hu]; exact e2), fun l hl' => h2 ⟨_, hlt⟩ l (by rw [← hl']; exact e1)⟩
  · intro b hb i hi
    have hlt : start (linBlocks h) b.1 + i < q.nA := by
      rw [hA]
      exact start_lt (linBlocks h) (by rw [linBlocks_names]; exact g.linNames) (b.1, b.2.A.rows) (List.mem_map.2 ⟨b, hb, rfl⟩) i hi
    obtain ⟨e0, e1, e2⟩ := hl b hb i hi
    have es : ∑ j : Fin m.var.total, q.A (start (linBlocks h) b.1 + i) j * r.x j =
        rowDot b.2.A i (subvec (varBlocks h) (pad r.x) (eff (varBlocks h) b.2.vs)) := by
      rw [← e0, sum_pad]
      exact Finset.sum_congr (by rw [ht]) fun _ _ => rfl
    rw [← es]
    exact ⟨fun u hu => h3 _ hlt u (by rw [← hu]; exact e2), fun l hl' => h4 _ hlt l (by rw [← hl']; exact e1)⟩

section
variable (d : Case nb ng nl) (extra : List Op) (m : Model) (hm : OpfModel.run (dcOps d ++ extra) = some m) (g : Good (dcOps d ++ extra)) (hb : 0 < d.base)
  (H : Matrix (Fin m.var.total) (Fin m.var.total) ℝ) (C : Fin m.var.total → ℝ) (C0 : ℝ) (o : Opt) (solve : AnySolver) (x0 : Fin m.var.total → ℝ)
  (s : DcRes nb ng nl) (hs : dcopfSolver d m H C C0 o solve x0 = some s) (hc : 0 < o.costMult) (hft : 0 ≤ o.feastol) (hok : s.success = true)

include hm g hb hs hc hft hok

/-- **C84 (DC).**  On success the shadow price of a generation limit times the unused margin, and that of a flow limit times the unused capacity, are at most `compGap`. -/
theorem C84_dc :
    (∀ p, s.MU_PMAX p * (d.pmax p - s.PG p) ≤ compGap o ‖fun i : Fin m.var.total => s.x i‖ s.dual s.tol) ∧
    (∀ p, s.MU_PMIN p * (s.PG p - d.pmin p) ≤ compGap o ‖fun i : Fin m.var.total => s.x i‖ s.dual s.tol) ∧
    (∀ l, d.rateA l ≠ 0 ∧ d.rateA l < 10 ^ 10 → s.MU_SF l * (d.rateA l - s.PF l) ≤ compGap o ‖fun i : Fin m.var.total => s.x i‖ s.dual s.tol) ∧
    (∀ l, d.rateA l ≠ 0 ∧ d.rateA l < 10 ^ 10 → s.MU_ST l * (d.rateA l - s.PT l) ≤ compGap o ‖fun i : Fin m.var.total => s.x i‖ s.dual s.tol) := by
  obtain ⟨q, r, hq, hr, e1, -, e3, e4, e5, eV, eG, eF, eT, eQ, eL, eSf, eSt, ePl, ePu, el, eu⟩ := dc_ofSolver hm g hs
  obtain ⟨hv, hl⟩ := solved_comp hm g hq (qp H C) o solve x0 hc hft r hr (by rw [← e1]; exact hok)
  have hx : (fun i : Fin m.var.total => s.x i) = r.x := by rw [e3]; funext i; simp [pad]
  rw [hx, e4, e5]
  obtain ⟨-, s2, -, -, s3, s4, s5⟩ := dc_starts d extra
  have pg := hv ("Pg", _) (by rw [dc_varVals]; exact List.mem_cons_of_mem _ List.mem_cons_self)
  refine ⟨fun p => ?_, fun p => ?_, fun l h => ?_, fun l h => ?_⟩
  · have := (pg p p.isLt).1 _ (varHi_vec _ _ _ _ p.isLt)
    simp only [s2, Fin.eta] at this
    refine le_trans (le_of_eq ?_) this
    rw [ePu, eG]
    field_simp
  · have := (pg p p.isLt).2 _ (varLo_vec _ _ _ _ p.isLt)
    simp only [s2, Fin.eta] at this
    refine le_trans (le_of_eq ?_) this
    rw [ePl, eG]
    field_simp
  · obtain ⟨k, hk⟩ := List.mem_iff_get.1 ((mem_il d l).2 h)
    have := (hl ("Pf", _) (by rw [dc_linBlks]; exact List.mem_cons_of_mem _ List.mem_cons_self) k k.isLt).1 _ (linHi_vec _ _ _ _ _ k.isLt)
    rw [Pf_row] at this
    simp only [s4, Fin.eta] at this
    refine le_trans (le_of_eq ?_) this
    have eidx : d.il.idxOf l = k := by rw [← hk]; exact List.get_idxOf (il_nodup d) k
    rw [eSf, eF]
    unfold atIl Case.upf
    rw [if_pos ((mem_il d l).2 h), eidx, hk]
    field_simp
    ring
  · obtain ⟨k, hk⟩ := List.mem_iff_get.1 ((mem_il d l).2 h)
    have := (hl ("Pt", _) (by rw [dc_linBlks]; exact List.mem_cons_of_mem _ (List.mem_cons_of_mem _ List.mem_cons_self)) k k.isLt).1 _ (linHi_vec _ _ _ _ _ k.isLt)
    rw [Pt_row] at this
    simp only [s5, Fin.eta] at this
    refine le_trans (le_of_eq ?_) this
    have eidx : d.il.idxOf l = k := by rw [← hk]; exact List.get_idxOf (il_nodup d) k
    rw [eSt, eT, eF]
    unfold atIl Case.upt
    rw [if_pos ((mem_il d l).2 h), eidx, hk]
    field_simp
    ring

omit hb in
/-- **C84 (DC, further constraints).**  The same for every further block of linear constraints. -/
theorem C84_dc_extra (b : String × LinBlk) (hmem : b ∈ linBlks extra) (i : ℕ) (hi : i < b.2.A.rows) :
    (∀ u : ℝ, LinBlk.hi b.2 i = (u : EReal) → s.mu_u (start (linBlocks (dcOps d ++ extra)) b.1 + i) *
      (u - rowDot b.2.A i (subvec (varBlocks (dcOps d ++ extra)) s.x (eff (varBlocks (dcOps d ++ extra)) b.2.vs))) ≤
        compGap o ‖fun i : Fin m.var.total => s.x i‖ s.dual s.tol) ∧
    (∀ l : ℝ, LinBlk.lo b.2 i = (l : EReal) → s.mu_l (start (linBlocks (dcOps d ++ extra)) b.1 + i) *
      (rowDot b.2.A i (subvec (varBlocks (dcOps d ++ extra)) s.x (eff (varBlocks (dcOps d ++ extra)) b.2.vs)) - l) ≤
        compGap o ‖fun i : Fin m.var.total => s.x i‖ s.dual s.tol) := by
  obtain ⟨q, r, hq, hr, e1, -, e3, e4, e5, eV, eG, eF, eT, eQ, eL, eSf, eSt, ePl, ePu, el, eu⟩ := dc_ofSolver hm g hs
  obtain ⟨hv, hl⟩ := solved_comp hm g hq (qp H C) o solve x0 hc hft r hr (by rw [← e1]; exact hok)
  have hx : (fun i : Fin m.var.total => s.x i) = r.x := by rw [e3]; funext i; simp [pad]
  rw [hx, e4, e5, e3, el, eu]
  exact hl b (by rw [dc_linBlks]; exact List.mem_cons_of_mem _ (List.mem_cons_of_mem _ (List.mem_cons_of_mem _ hmem))) i hi

end

section
variable (d : Case nb ng nl) (extra : List Op) (m : Model) (hm : OpfModel.run (acOps d ++ extra) = some m) (g : Good (acOps d ++ extra))
  (hn : (names (nlnBlocks (acOps d ++ extra))).Nodup) (hb : 0 < d.base) (lim : Int) (c : AcData) (o : Opt) (solve : AnySolver) (x0 : Fin m.var.total → ℝ)
  (s : AcRes nb ng nl) (hs : pipsopfSolver d lim c m o solve x0 = some s) (hc : 0 < o.costMult) (hft : 0 ≤ o.feastol) (hok : s.success = true)

include hm g hn hb hs hc hft hok

/-- **C84 (AC).**  On success the shadow price of every voltage limit and of every active and reactive generation limit, times the unused margin, is at most `compGap`. -/
theorem C84_ac :
    (∀ b, s.MU_VMAX b * (d.vmax b - s.VM b) ≤ compGap o ‖fun i : Fin m.var.total => s.x i‖ s.dual s.tol) ∧
    (∀ b, s.MU_VMIN b * (s.VM b - d.vmin b) ≤ compGap o ‖fun i : Fin m.var.total => s.x i‖ s.dual s.tol) ∧
    (∀ p, s.MU_PMAX p * (d.pmax p - s.PG p) ≤ compGap o ‖fun i : Fin m.var.total => s.x i‖ s.dual s.tol) ∧
    (∀ p, s.MU_PMIN p * (s.PG p - d.pmin p) ≤ compGap o ‖fun i : Fin m.var.total => s.x i‖ s.dual s.tol) ∧
    (∀ p, s.MU_QMAX p * (d.qmax p - s.QG p) ≤ compGap o ‖fun i : Fin m.var.total => s.x i‖ s.dual s.tol) ∧
    (∀ p, s.MU_QMIN p * (s.QG p - d.qmin p) ≤ compGap o ‖fun i : Fin m.var.total => s.x i‖ s.dual s.tol) := by
  obtain ⟨-, q, r, hq, hr, e1, -, e3, e4, e5, eL, eU, -, -, -, -, -, eV, eG, -, eMv, eMp, eMq, -⟩ := ac_ofSolver hm g hn hb.ne' hs
  obtain ⟨hv, -⟩ := solved_comp hm g hq (callbacks (acNl d lim c) m.var.total) o solve x0 hc hft r hr (by rw [← e1]; exact hok)
  have hx : (fun i : Fin m.var.total => s.x i) = r.x := by rw [e3]; funext i; simp [pad]
  rw [hx, e4, e5]
  rw [← e3] at hv
  rw [eL, eU] at eMv eMp eMq
  obtain ⟨s1, s2, s3, s4, -⟩ := ac_starts d extra
  have vm := hv ("Vm", _) (by rw [ac_varVals]; exact List.mem_cons_of_mem _ List.mem_cons_self)
  have pg := hv ("Pg", _) (by rw [ac_varVals]; exact List.mem_cons_of_mem _ (List.mem_cons_of_mem _ List.mem_cons_self))
  have qg := hv ("Qg", _) (by rw [ac_varVals]; exact List.mem_cons_of_mem _ (List.mem_cons_of_mem _ (List.mem_cons_of_mem _ List.mem_cons_self)))
  refine ⟨fun b => ?_, fun b => ?_, fun p => ?_, fun p => ?_, fun p => ?_, fun p => ?_⟩
  · have := (vm b b.isLt).1 _ (varHi_vec _ _ _ _ b.isLt)
    simp only [s2, Fin.eta] at this
    rw [(eMv b).1, (eV b).2]
    exact this
  · have := (vm b b.isLt).2 _ (varLo_vec _ _ _ _ b.isLt)
    simp only [s2, Fin.eta] at this
    rw [(eMv b).2, (eV b).2]
    exact this
  · have := (pg p p.isLt).1 _ (varHi_vec _ _ _ _ p.isLt)
    simp only [s3, Fin.eta] at this
    refine le_trans (le_of_eq ?_) this
    rw [(eMp p).1, (eG p).1]
    field_simp
  · have := (pg p p.isLt).2 _ (varLo_vec _ _ _ _ p.isLt)
    simp only [s3, Fin.eta] at this
    refine le_trans (le_of_eq ?_) this
    rw [(eMp p).2, (eG p).1]
    field_simp
  · have := (qg p p.isLt).1 _ (varHi_vec _ _ _ _ p.isLt)
    simp only [s4, Fin.eta] at this
    refine le_trans (le_of_eq ?_) this
    rw [(eMq p).1, (eG p).2.1]
    field_simp
  · have := (qg p p.isLt).2 _ (varLo_vec _ _ _ _ p.isLt)
    simp only [s4, Fin.eta] at this
    refine le_trans (le_of_eq ?_) this
    rw [(eMq p).2, (eG p).2.1]
    field_simp

end

/-- A successful DC run on the example, its branch being limited, with a nonnegative feasibility tolerance. -/
example : ∃ (m : Model) (o : Opt) (s : DcRes 2 1 1), OpfModel.run (dcOps exCase ++ []) = some m ∧ Good (dcOps exCase ++ []) ∧ 0 < exCase.base ∧
    0 < o.costMult ∧ 0 ≤ o.feastol ∧ dcopfSolver exCase m 0 1 0 o (fun _ _ _ _ => none) 0 = some s ∧ s.success = true ∧
    (exCase.rateA 0 ≠ 0 ∧ exCase.rateA 0 < 10 ^ 10) := by
  obtain ⟨m, hm, hg, hall⟩ := C77_completes exCase exCase_ok
  obtain ⟨q, hq, -, -, -, -, hok⟩ := linearOf_spec hm hg
  obtain ⟨o, h1, h3, h2⟩ := exists_success (problem (qp (n := m.var.total) 0 1) q) 0
  obtain ⟨s, hs⟩ := hall 0 1 0 o (fun _ _ _ _ => none) 0
  have hm' : OpfModel.run (dcOps exCase ++ []) = some m := by rw [List.append_nil]; exact hm
  have g' : Good (dcOps exCase ++ []) := by rw [List.append_nil]; exact hg
  obtain ⟨q', r, hq', hr, e1, -⟩ := dc_ofSolver hm' g' hs
  rw [hq] at hq'; cases hq'
  refine ⟨m, o, s, hm', g', exCase_ok.base, h1, h3.le, hs, ?_, ?_⟩
  · rw [e1, (ofFull hr).2.1]; exact h2 _
  · norm_num [exCase]

/-- A successful AC run on the example, with a nonnegative feasibility tolerance. -/
example : ∃ (m : Model) (o : Opt) (s : AcRes 2 1 1) (x0 : Fin m.var.total → ℝ), OpfModel.run (acOps exCase ++ []) = some m ∧ Good (acOps exCase ++ []) ∧
    (names (nlnBlocks (acOps exCase ++ []))).Nodup ∧ 0 < exCase.base ∧ 0 < o.costMult ∧ 0 ≤ o.feastol ∧
    pipsopfSolver exCase 0 exCost m o (fun _ _ _ _ => none) x0 = some s ∧ s.success = true := by
  have hl : ∃ l, exCase.rateA l ≠ 0 ∧ exCase.rateA l < 10 ^ 10 := ⟨0, by norm_num [exCase]⟩
  obtain ⟨m, hm, hall⟩ := C81_completes_partial exCase exCase_acok 0 exCost exCost_ok rfl (Or.inr ⟨0, by simp [exCost], rfl⟩) hl
  obtain ⟨g, hn⟩ := exCase_acok.good
  obtain ⟨q, hq, ht, -, -, -, hok⟩ := linearOf_spec hm g
  obtain ⟨o, h1, h3, h2⟩ := exists_success_at (problem (callbacks (acNl exCase 0 exCost) m.var.total) q) fun _ => 1
  obtain ⟨s, hs⟩ := hall o (fun _ _ _ _ => none) fun _ => 1
  have hm' : OpfModel.run (acOps exCase ++ []) = some m := by rw [List.append_nil]; exact hm
  have g' : Good (acOps exCase ++ []) := by rw [List.append_nil]; exact g
  have n' : (names (nlnBlocks (acOps exCase ++ []))).Nodup := by rw [List.append_nil]; exact hn
  obtain ⟨-, q', r, hq', hr, e1, -⟩ := ac_ofSolver hm' g' n' exCase_acok.base.ne' hs
  rw [hq] at hq'; cases hq'
  refine ⟨m, o, s, _, hm', g', n', exCase_acok.base, h1, h3.le, hs, ?_⟩
  rw [e1, (ofFull hr).2.1]; exact (h2 ((fun _ _ _ _ => none : AnySolver) _ _)).1

end Verif.Opf
