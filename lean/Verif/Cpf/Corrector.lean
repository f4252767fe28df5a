import Verif.Cpf.Predictor

/-!
# C90: the corrector takes Newton steps on the augmented system
-/

open Matrix ComplexConjugate

namespace Verif.Cpf

open Verif.Solvers

set_option linter.unusedSectionVars false

noncomputable section

variable {B : Type} [Fintype B] [DecidableEq B]

/-- The solver solves the corrector's system at `p` exactly. -/
def SolvesCorr (n : Net B) (q : Param B) (p : Pt B) : Prop :=
  let J := jacAug n.Y n.X n.pv n.pq p.1 (dPdV q.par q.z p.1 q.prv.1 n.pv n.pq) (dPdlam q.par q.z p.2 q.prv.2)
  let F := Faug n.Y n.S n.X n.pv n.pq p.1 p.2 (q.P n p)
  ∀ x, n.lin p.1 J F = some x → x.length = F.length ∧ J.map (fun row => (List.zipWith (· * ·) row x).sum) = F

theorem dir_append (pv pq : List B) (hn : (pv ++ pq).Nodup) (x : List ℝ) (hx : pv.length ≤ x.length) (b : B) :
    dir (pv ++ pq) (x.take (pv.length + pq.length)) b = stepA pv pq x b := by
  induction pv generalizing x with
  | nil => simp [stepA, dir]
  | cons a pv ih =>
    cases x with
    | nil => simp at hx
    | cons e x =>
      rw [List.cons_append, List.nodup_cons] at hn
      have h2 : a ∉ pv := fun h => hn.1 (List.mem_append_left _ h)
      have h3 : (a :: pv).length + pq.length = (pv.length + pq.length) + 1 := by simp; omega
      rw [h3, List.take_succ_cons, List.cons_append, dir_cons a _ e _ hn.1, ih hn.2 x (by simpa using hx)]
      unfold stepA
      rw [List.length_cons, List.take_succ_cons, List.drop_succ_cons, dir_cons a pv e _ h2]
      ring

/-- The solution of the corrector's system as a direction. -/
theorem corr_dir (n : Net B) (q : Param B) (p p' : Pt B) (hn : (n.pv ++ n.pq).Nodup) (h : corrStep n q p = some p') (hlin : SolvesCorr n q p) :
    ∃ w : Tan B, w.Free n.pv n.pq ∧ p' = (line p.1 (fun b => -w.a b) (fun b => -w.m b) 1, p.2 + 1 * -w.l)
      ∧ (∀ b, b ∈ n.pv ∨ b ∈ n.pq → ∑ k, (Derivs.dSbus_dVa n.Y p.1 b k).re * w.a k + ∑ k, (Derivs.dSbus_dVm n.Y p.1 b k).re * w.m k + -(n.X b).re * w.l
          = (misL n.Y n.S n.X p.1 p.2 b).re)
      ∧ (∀ b ∈ n.pq, ∑ k, (Derivs.dSbus_dVa n.Y p.1 b k).im * w.a k + ∑ k, (Derivs.dSbus_dVm n.Y p.1 b k).im * w.m k + -(n.X b).im * w.l
          = (misL n.Y n.S n.X p.1 p.2 b).im)
      ∧ (List.zipWith (· * ·) (dPdV q.par q.z p.1 q.prv.1 n.pv n.pq) (coords n.pv n.pq w.a w.m)).sum + dPdlam q.par q.z p.2 q.prv.2 * w.l = q.P n p := by
  unfold corrStep at h
  cases hx : n.lin p.1 (jacAug n.Y n.X n.pv n.pq p.1 (dPdV q.par q.z p.1 q.prv.1 n.pv n.pq) (dPdlam q.par q.z p.2 q.prv.2))
      (Faug n.Y n.S n.X n.pv n.pq p.1 p.2 (q.P n p)) with
  | none => simp [hx] at h
  | some x =>
    rw [hx, Option.map_some, Option.some.injEq] at h
    obtain ⟨hxl, hsol⟩ := hlin _ hx
    have hxl : x.length = n.pv.length + 2 * n.pq.length + 1 := by
      rw [hxl]; simp [Faug]; omega
    have hpq : n.pq.Nodup := (List.nodup_append.1 hn).2.1
    have hz : (⟨0, 0, 0⟩ : Tan B).Free n.pv n.pq := ⟨fun _ _ => rfl, fun _ _ => rfl⟩
    set w := setTan (⟨0, 0, 0⟩ : Tan B) n.pv n.pq x with hw
    have h1 : ∀ b, w.a b = dir (n.pv ++ n.pq) (x.take (n.pv.length + n.pq.length)) b :=
      setAt_eq_dir _ _ _ (by simp; omega) hz.1
    have h2 : ∀ b, w.m b = dir n.pq ((x.drop (n.pv.length + n.pq.length)).take n.pq.length) b :=
      setAt_eq_dir _ _ _ (by simp; omega) hz.2
    have hfree : w.Free n.pv n.pq := by
      constructor
      · intro b hb
        rw [h1]
        unfold dir
        rw [lookup_none _ _ (by rw [List.map_reverse, List.mem_reverse, List.map_fst_zip (by simp; omega)]; exact hb)]
        rfl
      · intro b hb
        rw [h2]
        unfold dir
        rw [lookup_none _ _ (by rw [List.map_reverse, List.mem_reverse, List.map_fst_zip (by simp; omega)]; exact hb)]
        rfl
    have hrows : List.zipWith (fun row d => row ++ [d]) (jacobian n.Y n.pv n.pq p.1) (dFdlam n.X n.pv n.pq)
        = ((n.pv ++ n.pq).map fun i => ((n.pv ++ n.pq).map fun j => (Derivs.dSbus_dVa n.Y p.1 i j).re) ++ (n.pq.map fun j => (Derivs.dSbus_dVm n.Y p.1 i j).re)
            ++ [-(n.X i).re])
          ++ (n.pq.map fun i => ((n.pv ++ n.pq).map fun j => (Derivs.dSbus_dVa n.Y p.1 i j).im) ++ (n.pq.map fun j => (Derivs.dSbus_dVm n.Y p.1 i j).im)
            ++ [-(n.X i).im]) := by
      unfold jacobian dFdlam
      rw [List.zipWith_append (by simp), List.zipWith_map, List.zipWith_map, List.zipWith_self, List.zipWith_self]
    rw [jacAug, hrows, Faug, List.map_append, List.map_append, List.map_map, List.map_map, List.map_cons, List.map_nil] at hsol
    have hsplit := List.append_inj hsol (by simp)
    have hlast := (List.cons.inj hsplit.2).1
    obtain ⟨hre, him⟩ := List.append_inj hsplit.1 (by simp)
    rw [List.map_inj_left] at hre him
    refine ⟨w, hfree, ?_, ?_, ?_, ?_⟩
    · rw [← h]
      refine Prod.ext ?_ ?_
      · funext b
        change newtonUpdate n.pv n.pq p.1 x b = line p.1 (fun b => -w.a b) (fun b => -w.m b) 1 b
        rw [newtonUpdate_eq]
        simp only [stepA_smul, stepM_smul, line, polar]
        have ha : ∀ b, stepA n.pv n.pq x b = w.a b := fun b => by
          rw [h1, dir_append n.pv n.pq hn x (by omega)]
        have hm : ∀ b, stepM n.pv n.pq x b = w.m b := fun b => by rw [h2]; rfl
        simp only [ha, hm, one_mul, neg_mul]
      · simp only [hw, setTan]
        ring
    · intro b hb
      have := hre b (List.mem_append.2 hb)
      simp only [Function.comp_apply] at this
      rwa [aug_dot n.pv n.pq hn _ _ _ x hxl ⟨0, 0, 0⟩ hz, ← hw] at this
    · intro b hb
      have := him b hb
      simp only [Function.comp_apply] at this
      rwa [aug_dot n.pv n.pq hn _ _ _ x hxl ⟨0, 0, 0⟩ hz, ← hw] at this
    · obtain ⟨ga, gm, hg⟩ : ∃ ga gm : B → ℝ, dPdV q.par q.z p.1 q.prv.1 n.pv n.pq = (n.pv ++ n.pq).map ga ++ n.pq.map gm := by
        cases q.par with
        | natural =>
          refine ⟨fun _ => 0, fun _ => 0, ?_⟩
          unfold dPdV
          simp only [List.map_const', List.length_append, List.replicate_append_replicate]
          congr 1; omega
        | arc => exact ⟨_, _, rfl⟩
        | pseudo => exact ⟨_, _, rfl⟩
      rw [hg, aug_dot n.pv n.pq hn _ _ _ x hxl ⟨0, 0, 0⟩ hz, ← hw] at hlast
      rw [← hlast, hg, coords, List.zipWith_append (by simp), List.sum_append, zip_sum, zip_sum]
      congr 2
      · rw [← List.sum_toFinset _ hn]
        refine Finset.sum_subset (Finset.subset_univ _) fun b _ hb => ?_
        rw [hfree.1 b (by simpa using hb), mul_zero]
      · rw [← List.sum_toFinset _ hpq]
        refine Finset.sum_subset (Finset.subset_univ _) fun b _ hb => ?_
        rw [hfree.2 b (by simpa using hb), mul_zero]

/-- **C90 (balances).** If the linear solver solves the corrector's system exactly, no bus is listed twice and PQ voltages are not zero, the new point is the
end (`t = 1`) of a straight line in angles, magnitudes and lambda that starts at the current point, moves angles of PV and PQ buses, magnitudes of PQ buses and
lambda only, and along which every balance at loading lambda (active at PV and PQ buses, reactive at PQ buses) sets out to vanish at `t = 1`; the Jacobian row
of the parameterisation, too, predicts that the parameterisation function vanishes at `t = 1`. -/
theorem C90_balance (n : Net B) (q : Param B) (p p' : Pt B) (hn : (n.pv ++ n.pq).Nodup) (hV : ∀ b ∈ n.pq, p.1 b ≠ 0)
    (h : corrStep n q p = some p') (hlin : SolvesCorr n q p) :
    ∃ (da dm : B → ℝ) (dl : ℝ), (∀ b, b ∉ n.pv → b ∉ n.pq → da b = 0) ∧ (∀ b, b ∉ n.pq → dm b = 0)
      ∧ p' = (polar (fun b => ‖p.1 b‖ + dm b) (fun b => (p.1 b).arg + da b), p.2 + dl)
      ∧ (∀ b, b ∈ n.pv ∨ b ∈ n.pq →
          HasDerivAt (fun t : ℝ => let V := line p.1 da dm t; (V b * conj ((n.Y *ᵥ V) b) - (n.S b + ((p.2 + t * dl : ℝ) : ℂ) * n.X b)).re)
            (-(p.1 b * conj ((n.Y *ᵥ p.1) b) - (n.S b + (p.2 : ℂ) * n.X b)).re) 0)
      ∧ (∀ b ∈ n.pq,
          HasDerivAt (fun t : ℝ => let V := line p.1 da dm t; (V b * conj ((n.Y *ᵥ V) b) - (n.S b + ((p.2 + t * dl : ℝ) : ℂ) * n.X b)).im)
            (-(p.1 b * conj ((n.Y *ᵥ p.1) b) - (n.S b + (p.2 : ℂ) * n.X b)).im) 0)
      ∧ (List.zipWith (· * ·) (dPdV q.par q.z p.1 q.prv.1 n.pv n.pq) (coords n.pv n.pq da dm)).sum + dPdlam q.par q.z p.2 q.prv.2 * dl
          = -cpfP q.par q.step q.z p.1 p.2 q.prv.1 q.prv.2 n.pv n.pq := by
  obtain ⟨w, hfree, hp, hre, him, hP⟩ := corr_dir n q p p' hn h hlin
  have hVz : ∀ k, p.1 k ≠ 0 ∨ -w.m k = 0 := by
    intro k
    by_cases hk : k ∈ n.pq
    · exact Or.inl (hV k hk)
    · exact Or.inr (by rw [hfree.2 k hk, neg_zero])
  have hder := fun b => misL_deriv n.Y n.S n.X p.1 p.2 (fun b => -w.a b) (fun b => -w.m b) (-w.l) hVz b
  refine ⟨fun b => -w.a b, fun b => -w.m b, -w.l, fun b h1 h2 => ?_, fun b hb => ?_, ?_, fun b hb => ?_, fun b hb => ?_, ?_⟩
  · beta_reduce; rw [hfree.1 b (by simp [h1, h2]), neg_zero]
  · beta_reduce; rw [hfree.2 b hb, neg_zero]
  · rw [hp]
    simp only [line, one_mul]
  · have e : ∀ V : B → ℂ, ∀ l : ℝ, V b * conj ((n.Y *ᵥ V) b) - (n.S b + (l : ℂ) * n.X b) = misL n.Y n.S n.X V l b := fun V l => by
      unfold misL; ring
    simp only [e]
    refine (Derivs.re_deriv (hder b)).congr_deriv ?_
    rw [← hre b hb, Complex.sub_re, Complex.re_sum, ← Finset.sum_add_distrib, neg_add, ← Finset.sum_neg_distrib, sub_eq_add_neg]
    congr 1
    · refine Finset.sum_congr rfl fun k _ => ?_
      simp only [Complex.add_re, Complex.mul_re, Complex.ofReal_re, Complex.ofReal_im, mul_zero, sub_zero]
      ring
    · simp only [Complex.mul_re, Complex.ofReal_re, Complex.ofReal_im, zero_mul, sub_zero]
      ring
  · have e : ∀ V : B → ℂ, ∀ l : ℝ, V b * conj ((n.Y *ᵥ V) b) - (n.S b + (l : ℂ) * n.X b) = misL n.Y n.S n.X V l b := fun V l => by
      unfold misL; ring
    simp only [e]
    refine (Derivs.im_deriv (hder b)).congr_deriv ?_
    rw [← him b hb, Complex.sub_im, Complex.im_sum, ← Finset.sum_add_distrib, neg_add, ← Finset.sum_neg_distrib, sub_eq_add_neg]
    congr 1
    · refine Finset.sum_congr rfl fun k _ => ?_
      simp only [Complex.add_im, Complex.mul_im, Complex.ofReal_re, Complex.ofReal_im, mul_zero, zero_add]
      ring
    · simp only [Complex.mul_im, Complex.ofReal_re, Complex.ofReal_im, zero_mul, add_zero]
      ring
  · have hneg : ∀ l : List ℝ, (List.zipWith (· * ·) l (coords n.pv n.pq (fun b => -w.a b) (fun b => -w.m b))).sum
        = -(List.zipWith (· * ·) l (coords n.pv n.pq w.a w.m)).sum := by
      intro l
      have hc : coords n.pv n.pq (fun b => -w.a b) (fun b => -w.m b) = (coords n.pv n.pq w.a w.m).map fun e => -e := by
        simp [coords, Function.comp_def]
      rw [hc]
      generalize coords n.pv n.pq w.a w.m = c
      induction l generalizing c with
      | nil => simp
      | cons a l ih =>
        cases c with
        | nil => simp
        | cons e c => simp only [List.map_cons, List.zipWith_cons_cons, List.sum_cons, ih]; ring
    rw [hneg, mul_neg, ← neg_add, hP]
    rfl

/-- **C90 (parameterisation, partial).** Where lambda has moved from the previous point (or with pseudo arc length), and no voltage at a PV or PQ bus is zero or at
180 degrees, the parameterisation function sets out to vanish at `t = 1` as well: the iteration is the Newton step of the whole system. Missing: lambda not
moved, where the Jacobian row is not the derivative (`C62_arc_negation`). -/
theorem C90_parameterisation_partial (n : Net B) (q : Param B) (p p' : Pt B) (hn : (n.pv ++ n.pq).Nodup) (hl : q.par = .pseudo ∨ p.2 ≠ q.prv.2)
    (hs : ∀ b, b ∈ n.pv ∨ b ∈ n.pq → p.1 b ∈ Complex.slitPlane) (h : corrStep n q p = some p') (hlin : SolvesCorr n q p) :
    ∃ (da dm : B → ℝ) (dl : ℝ), p' = (polar (fun b => ‖p.1 b‖ + dm b) (fun b => (p.1 b).arg + da b), p.2 + dl)
      ∧ (∀ b, b ∈ n.pv ∨ b ∈ n.pq →
          HasDerivAt (fun t : ℝ => let V := line p.1 da dm t; (V b * conj ((n.Y *ᵥ V) b) - (n.S b + ((p.2 + t * dl : ℝ) : ℂ) * n.X b)).re)
            (-(p.1 b * conj ((n.Y *ᵥ p.1) b) - (n.S b + (p.2 : ℂ) * n.X b)).re) 0)
      ∧ (∀ b ∈ n.pq,
          HasDerivAt (fun t : ℝ => let V := line p.1 da dm t; (V b * conj ((n.Y *ᵥ V) b) - (n.S b + ((p.2 + t * dl : ℝ) : ℂ) * n.X b)).im)
            (-(p.1 b * conj ((n.Y *ᵥ p.1) b) - (n.S b + (p.2 : ℂ) * n.X b)).im) 0)
      ∧ HasDerivAt (fun t : ℝ => cpfP q.par q.step q.z (line p.1 da dm t) (p.2 + t * dl) q.prv.1 q.prv.2 n.pv n.pq)
          (-cpfP q.par q.step q.z p.1 p.2 q.prv.1 q.prv.2 n.pv n.pq) 0 := by
  obtain ⟨da, dm, dl, -, -, h1, h2, h3, h4⟩ := C90_balance n q p p' hn (fun b hb => Complex.slitPlane_ne_zero (hs b (Or.inr hb))) h hlin
  exact ⟨da, dm, dl, h1, h2, h3, h4 ▸ C62_derivative_partial q.par q.step q.z p q.prv n.pv n.pq hl hs da dm dl⟩

/-- Non-vacuity of C90: a PV bus that receives lambda over a unit reactance, at loading 1 with the voltages of loading 0; the step turns the angle of bus 1 by one radian back. -/
def exCorr : Net (Fin 2) where
  Y := !![-Complex.I, Complex.I; Complex.I, -Complex.I]
  S := 0
  X := fun b => if b = 0 then 1 else -1
  pv := [1]
  pq := []
  lin := fun _ _ _ => some [1, 0]
  tol := 1 / 10 ^ 8
  maxIt := 10

example : SolvesCorr exCorr ⟨.pseudo, 1, ⟨0, 0, 1⟩, (fun _ => 1, 0)⟩ (fun _ => 1, 1) := by
  intro x hx
  obtain rfl : x = [1, 0] := (Option.some.inj hx).symm
  have h1 : Derivs.dSbus_dVa exCorr.Y (fun _ => 1) 1 1 = 1 := by
    rw [Derivs.dSbus_dVa_apply]
    simp [Matrix.mulVec, dotProduct, exCorr, Fin.sum_univ_two]
  refine ⟨rfl, ?_⟩
  simp only [jacAug, jacobian, dFdlam, Faug, Param.P, dPdV, dPdlam, cpfP, misL]
  simp [exCorr, Matrix.mulVec, dotProduct, Fin.sum_univ_two] at h1 ⊢
  simp [h1]

end

end Verif.Cpf
