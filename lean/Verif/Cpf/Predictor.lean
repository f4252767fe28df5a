import Verif.Cpf.Props
import Mathlib.Algebra.BigOperators.Field

/-!
# C72: the predictor follows the tangent of the curve
-/

open Matrix ComplexConjugate

namespace Verif.Cpf

open Verif.Solvers

set_option linter.unusedSectionVars false

noncomputable section

variable {B : Type} [Fintype B] [DecidableEq B]

theorem lookup_some {α β : Type*} [DecidableEq α] (l : List (α × β)) (a : α) (h : a ∈ l.map Prod.fst) : ∃ v, l.lookup a = some v := by
  induction l with
  | nil => simp at h
  | cons p l ih =>
    rw [List.lookup_cons]
    cases hb : a == p.1 with
    | true => exact ⟨_, rfl⟩
    | false =>
      simp only [List.map_cons, List.mem_cons] at h
      rcases h with h | h
      · simp [h] at hb
      · exact ih h

/-- Overwriting the listed entries of a vector that is zero elsewhere. -/
theorem setAt_eq_dir (x : B → ℝ) (idx : List B) (d : List ℝ) (hl : d.length = idx.length) (hx : ∀ b, b ∉ idx → x b = 0) (b : B) :
    setAt x idx d b = dir idx d b := by
  unfold setAt dir
  by_cases hb : b ∈ idx
  · obtain ⟨v, hv⟩ := lookup_some (idx.zip d).reverse b (by
      rw [List.map_reverse, List.mem_reverse, List.map_fst_zip (by omega)]; exact hb)
    rw [hv]; rfl
  · rw [lookup_none, hx b hb]
    rw [List.map_reverse, List.mem_reverse, List.map_fst_zip (by omega)]; exact hb

/-- The tangent vanishes at coordinates that are not solved for. -/
def Tan.Free (z : Tan B) (pv pq : List B) : Prop := (∀ b, b ∉ pv ++ pq → z.a b = 0) ∧ ∀ b, b ∉ pq → z.m b = 0

/-- A row of the augmented Jacobian applied to the solver's vector. -/
theorem aug_dot (pv pq : List B) (hn : (pv ++ pq).Nodup) (ga gm : B → ℝ) (gl : ℝ) (x : List ℝ) (hx : x.length = pv.length + 2 * pq.length + 1) (z : Tan B)
    (hz : z.Free pv pq) :
    (List.zipWith (· * ·) ((pv ++ pq).map ga ++ pq.map gm ++ [gl]) x).sum
      = ∑ b, ga b * (setTan z pv pq x).a b + ∑ b, gm b * (setTan z pv pq x).m b + gl * (setTan z pv pq x).l := by
  have hpq : pq.Nodup := (List.nodup_append.1 hn).2.1
  have h1 : ∀ b, (setTan z pv pq x).a b = dir (pv ++ pq) (x.take (pv.length + pq.length)) b :=
    setAt_eq_dir _ _ _ (by simp; omega) hz.1
  have h2 : ∀ b, (setTan z pv pq x).m b = dir pq ((x.drop (pv.length + pq.length)).take pq.length) b :=
    setAt_eq_dir _ _ _ (by simp; omega) hz.2
  simp only [h1, h2, dir_sum _ _ _ hn, dir_sum _ _ _ hpq]
  have hx1 : x = x.take (pv.length + pq.length) ++ ((x.drop (pv.length + pq.length)).take pq.length ++ x.drop (pv.length + 2 * pq.length)) := by
    conv_lhs => rw [← List.take_append_drop (pv.length + pq.length) x, ← List.take_append_drop pq.length (x.drop (pv.length + pq.length)), List.drop_drop]
    congr 3; omega
  obtain ⟨v, hv⟩ : ∃ v, x.drop (pv.length + 2 * pq.length) = [v] := by
    have : (x.drop (pv.length + 2 * pq.length)).length = 1 := by simp; omega
    exact List.length_eq_one_iff.1 this
  have hl : (setTan z pv pq x).l = v := by simp [setTan, hv]
  rw [hl]
  conv_lhs => rw [hx1, hv, List.append_assoc]
  rw [List.zipWith_append (by simp; omega), List.zipWith_append (by simp; omega), List.sum_append, List.sum_append]
  simp [add_assoc]

/-- Scaling. -/
theorem unit_spec (z z' : Tan B) (h : z.unit = some z') :
    0 < z.norm ∧ (∀ b, z'.a b = z.a b / z.norm) ∧ (∀ b, z'.m b = z.m b / z.norm) ∧ z'.l = z.l / z.norm
      ∧ ∑ b, z'.a b ^ 2 + ∑ b, z'.m b ^ 2 + z'.l ^ 2 = 1 := by
  unfold Tan.unit at h
  split at h
  · cases h
  · rename_i hne
    have hne : z.norm ≠ 0 := fun h => hne (by simpa using h)
    cases h
    have hpos : 0 < z.norm := lt_of_le_of_ne (Real.sqrt_nonneg _) (Ne.symm hne)
    refine ⟨hpos, fun _ => rfl, fun _ => rfl, rfl, ?_⟩
    have hsq : z.norm ^ 2 = ∑ b, z.a b ^ 2 + ∑ b, z.m b ^ 2 + z.l ^ 2 := by
      unfold Tan.norm
      rw [Real.sq_sqrt]
      have h1 : 0 ≤ ∑ b, z.a b ^ 2 := Finset.sum_nonneg fun b _ => sq_nonneg _
      have h2 : 0 ≤ ∑ b, z.m b ^ 2 := Finset.sum_nonneg fun b _ => sq_nonneg _
      nlinarith [sq_nonneg z.l]
    simp only [div_pow]
    rw [← Finset.sum_div, ← Finset.sum_div, ← add_div, ← add_div, hsq, div_self]
    rw [← hsq]; positivity

/-- Derivative of the mismatch at loading lambda along a direction. -/
theorem misL_deriv (Y : Matrix B B ℂ) (S X V : B → ℂ) (lam : ℝ) (da dm : B → ℝ) (dl : ℝ) (hz : ∀ k, V k ≠ 0 ∨ dm k = 0) (b : B) :
    HasDerivAt (fun t : ℝ => misL Y S X (line V da dm t) (lam + t * dl) b)
      (∑ k, (Derivs.dSbus_dVa Y V b k * (da k : ℂ) + Derivs.dSbus_dVm Y V b k * (dm k : ℂ)) - (dl : ℂ) * X b) 0 := by
  have h1 := mis_deriv Y S V dm da hz b
  have h2 : HasDerivAt (fun t : ℝ => ((lam + t * dl : ℝ) : ℂ) * X b) ((dl : ℂ) * X b) 0 := ((lin_deriv lam dl).ofReal_comp).mul_const _
  exact h1.fun_sub h2

/-- **C72.** If the linear solver solves the predictor's system exactly, no bus is listed twice, PQ voltages are not zero and the previous tangent vanishes
at coordinates that are not solved for (as the initial one does), then: the new tangent has unit length, vanishes at coordinates that are not solved for,
and is tangent to the curve: along it the active balance at PV and PQ buses and the reactive balance at PQ buses do not change to first order; it points
forward according to the parameterisation; and the predicted point is `step` along it from the current point. -/
theorem C72 (n : Net B) (p : Pt B) (step : ℝ) (z : Tan B) (prv : Pt B) (par : Par) (hn : (n.pv ++ n.pq).Nodup) (hV : ∀ b ∈ n.pq, p.1 b ≠ 0)
    (hz : z.Free n.pv n.pq) (p0 : Pt B) (z' : Tan B) (h : predictor n p step z prv par = some (p0, z'))
    (hlin : let J := jacAug n.Y n.X n.pv n.pq p.1 (dPdV par z p.1 prv.1 n.pv n.pq) (dPdlam par z p.2 prv.2)
      let F := List.replicate (n.pv.length + 2 * n.pq.length) 0 ++ [1]
      ∀ x, n.lin p.1 J F = some x → x.length = F.length ∧ J.map (fun row => (List.zipWith (· * ·) row x).sum) = F) :
    ∑ b, z'.a b ^ 2 + ∑ b, z'.m b ^ 2 + z'.l ^ 2 = 1 ∧ z'.Free n.pv n.pq
      ∧ (∀ b, b ∈ n.pv ∨ b ∈ n.pq → HasDerivAt (fun t : ℝ => (misL n.Y n.S n.X (line p.1 z'.a z'.m t) (p.2 + t * z'.l) b).re) 0 0)
      ∧ (∀ b ∈ n.pq, HasDerivAt (fun t : ℝ => (misL n.Y n.S n.X (line p.1 z'.a z'.m t) (p.2 + t * z'.l) b).im) 0 0)
      ∧ 0 < (List.zipWith (· * ·) (dPdV par z p.1 prv.1 n.pv n.pq) (coords n.pv n.pq z'.a z'.m)).sum + dPdlam par z p.2 prv.2 * z'.l
      ∧ p0 = (line p.1 z'.a z'.m step, p.2 + step * z'.l) := by
  unfold predictor at h
  cases hx : n.lin p.1 (jacAug n.Y n.X n.pv n.pq p.1 (dPdV par z p.1 prv.1 n.pv n.pq) (dPdlam par z p.2 prv.2))
      (List.replicate (n.pv.length + 2 * n.pq.length) 0 ++ [1]) with
  | none => simp [hx] at h
  | some x =>
    simp only [hx, Option.bind_eq_bind, Option.bind_some, Option.bind_eq_some_iff, Option.pure_def, Option.some.injEq] at h
    obtain ⟨zz, hu, heq⟩ := h
    have hzz : zz = z' := congrArg Prod.snd heq
    subst hzz
    have hp0 : p0 = advance n.pv n.pq p step zz := (congrArg Prod.fst heq).symm
    obtain ⟨hpos, ha, hm, hl, hunit⟩ := unit_spec _ _ hu
    obtain ⟨hxl, hsol⟩ := hlin _ hx
    have hxl : x.length = n.pv.length + 2 * n.pq.length + 1 := by simpa using hxl
    set w := setTan z n.pv n.pq x with hw
    have hpq : n.pq.Nodup := (List.nodup_append.1 hn).2.1
    have hfree : zz.Free n.pv n.pq := by
      constructor
      · intro b hb
        rw [ha, hw]
        have : (setTan z n.pv n.pq x).a b = 0 := by
          unfold setTan setAt
          simp only
          rw [lookup_none _ _ (by rw [List.map_reverse, List.mem_reverse, List.map_fst_zip (by simp; omega)]; exact hb)]
          exact hz.1 b hb
        rw [this, zero_div]
      · intro b hb
        rw [hm, hw]
        have : (setTan z n.pv n.pq x).m b = 0 := by
          unfold setTan setAt
          simp only
          rw [lookup_none _ _ (by rw [List.map_reverse, List.mem_reverse, List.map_fst_zip (by simp; omega)]; exact hb)]
          exact hz.2 b hb
        rw [this, zero_div]
    -- the rows
    have hrows : List.zipWith (fun row d => row ++ [d]) (jacobian n.Y n.pv n.pq p.1) (dFdlam n.X n.pv n.pq)
        = ((n.pv ++ n.pq).map fun i => ((n.pv ++ n.pq).map fun j => (Derivs.dSbus_dVa n.Y p.1 i j).re) ++ (n.pq.map fun j => (Derivs.dSbus_dVm n.Y p.1 i j).re)
            ++ [-(n.X i).re])
          ++ (n.pq.map fun i => ((n.pv ++ n.pq).map fun j => (Derivs.dSbus_dVa n.Y p.1 i j).im) ++ (n.pq.map fun j => (Derivs.dSbus_dVm n.Y p.1 i j).im)
            ++ [-(n.X i).im]) := by
      unfold jacobian dFdlam
      rw [List.zipWith_append (by simp), List.zipWith_map, List.zipWith_map, List.zipWith_self, List.zipWith_self]
    rw [jacAug, hrows, List.map_append, List.map_append, List.map_map, List.map_map, List.map_cons, List.map_nil] at hsol
    have hsplit := List.append_inj hsol (by simp; omega)
    have hlast := (List.cons.inj hsplit.2).1
    have hzero : ∀ v ∈ (n.pv ++ n.pq).map ((fun row => (List.zipWith (· * ·) row x).sum) ∘ fun i => ((n.pv ++ n.pq).map fun j => (Derivs.dSbus_dVa n.Y p.1 i j).re) ++ (n.pq.map fun j => (Derivs.dSbus_dVm n.Y p.1 i j).re)
            ++ [-(n.X i).re])
          ++ n.pq.map ((fun row => (List.zipWith (· * ·) row x).sum) ∘ fun i => ((n.pv ++ n.pq).map fun j => (Derivs.dSbus_dVa n.Y p.1 i j).im) ++ (n.pq.map fun j => (Derivs.dSbus_dVm n.Y p.1 i j).im)
            ++ [-(n.X i).im]), v = 0 := by
      intro v hv
      rw [hsplit.1] at hv
      exact List.eq_of_mem_replicate hv
    have hVz : ∀ k, p.1 k ≠ 0 ∨ zz.m k = 0 := by
      intro k
      by_cases hk : k ∈ n.pq
      · exact Or.inl (hV k hk)
      · exact Or.inr (hfree.2 k hk)
    have hder := fun b => misL_deriv n.Y n.S n.X p.1 p.2 zz.a zz.m zz.l hVz b
    refine ⟨hunit, hfree, ?_, ?_, ?_, ?_⟩
    · intro b hb
      have h0 := hzero _ (List.mem_append_left _ (List.mem_map_of_mem (List.mem_append.2 hb)))
      simp only [Function.comp_apply] at h0
      rw [aug_dot n.pv n.pq hn _ _ _ x hxl z hz, ← hw] at h0
      refine (Derivs.re_deriv (hder b)).congr_deriv ?_
      have hcalc : (∑ k, (Derivs.dSbus_dVa n.Y p.1 b k * (zz.a k : ℂ) + Derivs.dSbus_dVm n.Y p.1 b k * (zz.m k : ℂ)) - (zz.l : ℂ) * n.X b).re
          = (∑ k, (Derivs.dSbus_dVa n.Y p.1 b k).re * w.a k + ∑ k, (Derivs.dSbus_dVm n.Y p.1 b k).re * w.m k + -(n.X b).re * w.l) / w.norm := by
        rw [Complex.sub_re, Complex.re_sum, ← Finset.sum_add_distrib, add_div, Finset.sum_div, sub_eq_add_neg]
        congr 1
        · refine Finset.sum_congr rfl fun k _ => ?_
          simp only [Complex.add_re, Complex.mul_re, Complex.ofReal_re, Complex.ofReal_im, mul_zero, sub_zero, ha, hm]
          ring
        · simp only [Complex.mul_re, Complex.ofReal_re, Complex.ofReal_im, zero_mul, sub_zero, hl]
          ring
      rw [hcalc, h0, zero_div]
    · intro b hb
      have h0 := hzero _ (List.mem_append_right _ (List.mem_map_of_mem hb))
      simp only [Function.comp_apply] at h0
      rw [aug_dot n.pv n.pq hn _ _ _ x hxl z hz, ← hw] at h0
      refine (Derivs.im_deriv (hder b)).congr_deriv ?_
      have hcalc : (∑ k, (Derivs.dSbus_dVa n.Y p.1 b k * (zz.a k : ℂ) + Derivs.dSbus_dVm n.Y p.1 b k * (zz.m k : ℂ)) - (zz.l : ℂ) * n.X b).im
          = (∑ k, (Derivs.dSbus_dVa n.Y p.1 b k).im * w.a k + ∑ k, (Derivs.dSbus_dVm n.Y p.1 b k).im * w.m k + -(n.X b).im * w.l) / w.norm := by
        rw [Complex.sub_im, Complex.im_sum, ← Finset.sum_add_distrib, add_div, Finset.sum_div, sub_eq_add_neg]
        congr 1
        · refine Finset.sum_congr rfl fun k _ => ?_
          simp only [Complex.add_im, Complex.mul_im, Complex.ofReal_re, Complex.ofReal_im, mul_zero, zero_add, ha, hm]
          ring
        · simp only [Complex.mul_im, Complex.ofReal_re, Complex.ofReal_im, zero_mul, add_zero, hl]
          ring
      rw [hcalc, h0, zero_div]
    · -- forward
      obtain ⟨ga, gm, hg⟩ : ∃ ga gm : B → ℝ, dPdV par z p.1 prv.1 n.pv n.pq = (n.pv ++ n.pq).map ga ++ n.pq.map gm := by
        cases par with
        | natural =>
          refine ⟨fun _ => 0, fun _ => 0, ?_⟩
          unfold dPdV
          simp only [List.map_const', List.length_append, List.replicate_append_replicate]
          congr 1; omega
        | arc => exact ⟨_, _, rfl⟩
        | pseudo => exact ⟨_, _, rfl⟩
      rw [hg, aug_dot n.pv n.pq hn _ _ _ x hxl z hz, ← hw] at hlast
      have hsum : (List.zipWith (· * ·) (dPdV par z p.1 prv.1 n.pv n.pq) (coords n.pv n.pq zz.a zz.m)).sum
          = (∑ b, ga b * w.a b + ∑ b, gm b * w.m b) / w.norm := by
        rw [hg, coords, List.zipWith_append (by simp), List.sum_append, zip_sum, zip_sum, add_div, Finset.sum_div, Finset.sum_div]
        congr 1
        · simp only [ha]
          have hsup : ∀ b, b ∉ n.pv ++ n.pq → ga b * w.a b / w.norm = 0 := by
            intro b hb
            have := hfree.1 b hb
            rw [ha b] at this
            rw [mul_div_assoc, this, mul_zero]
          rw [← List.sum_toFinset _ hn]
          rw [← Finset.sum_subset (Finset.subset_univ (n.pv ++ n.pq).toFinset)]
          · exact Finset.sum_congr rfl fun b _ => by rw [mul_div_assoc]
          · intro b _ hb
            exact hsup b (by simpa using hb)
        · simp only [hm]
          have hsup : ∀ b, b ∉ n.pq → gm b * w.m b / w.norm = 0 := by
            intro b hb
            have := hfree.2 b hb
            rw [hm b] at this
            rw [mul_div_assoc, this, mul_zero]
          rw [← List.sum_toFinset _ hpq]
          rw [← Finset.sum_subset (Finset.subset_univ n.pq.toFinset)]
          · exact Finset.sum_congr rfl fun b _ => by rw [mul_div_assoc]
          · intro b _ hb
            exact hsup b (by simpa using hb)
      rw [hsum, hl, ← mul_div_assoc, ← add_div, hlast]
      positivity
    · rw [hp0]
      unfold advance line
      refine Prod.ext ?_ rfl
      have hdir : ∀ (idx : List B) (hi : idx.Nodup) (g : B → ℝ), (∀ b, b ∉ idx → g b = 0) → ∀ b, dir idx (idx.map fun b => step * g b) b = step * g b := by
        intro idx hi g hg b
        induction idx with
        | nil => simp [dir, hg b (by simp)]
        | cons a idx ih =>
          rw [List.nodup_cons] at hi
          rw [List.map_cons, dir_cons a idx _ _ hi.1]
          have hgen : ∀ (idx : List B), idx.Nodup → ∀ b, dir idx (idx.map fun b => step * g b) b = if b ∈ idx then step * g b else 0 := by
            intro idx
            induction idx with
            | nil => intro _ b; simp [dir]
            | cons c idx ihc =>
              intro hc b
              rw [List.nodup_cons] at hc
              rw [List.map_cons, dir_cons c idx _ _ hc.1, ihc hc.2]
              by_cases hbc : b = c
              · subst hbc; simp [hc.1]
              · simp [hbc]
          rw [hgen idx hi.2]
          by_cases hba : b = a
          · subst hba; simp [hi.1]
          · by_cases hbi : b ∈ idx
            · simp [hba, hbi]
            · simp [hba, hbi, hg b (by simp [hba, hbi])]
      funext b
      simp only [polar, addAt_eq]
      rw [hdir _ hn zz.a hfree.1, hdir _ hpq zz.m hfree.2]

end

end Verif.Cpf
