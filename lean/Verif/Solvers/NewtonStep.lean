import Verif.Solvers.Lemmas
import Verif.Derivs.Props

/-!
# C69: the Newton update is the Newton step of the mismatch equations
-/

open Matrix ComplexConjugate

namespace Verif.Solvers

set_option linter.unusedSectionVars false

noncomputable section

variable {B : Type*} [Fintype B] [DecidableEq B]

/-- The increment `addAt` adds at bus `b`. -/
def dir (idx : List B) (d : List ℝ) (b : B) : ℝ := ((idx.zip d).reverse.lookup b).getD 0

theorem addAt_eq (x : B → ℝ) (idx : List B) (d : List ℝ) (b : B) : addAt x idx d b = x b + dir idx d b := by
  unfold addAt dir
  cases (idx.zip d).reverse.lookup b <;> simp

theorem lookup_map {α : Type*} [DecidableEq α] (l : List (α × ℝ)) (t : ℝ) (a : α) :
    (l.map fun p => (p.1, t * p.2)).lookup a = (l.lookup a).map (t * ·) := by
  induction l with
  | nil => rfl
  | cons p l ih =>
    rw [List.map_cons, List.lookup_cons, List.lookup_cons]
    cases h : a == p.1 <;> simp [ih]

theorem dir_smul (idx : List B) (d : List ℝ) (t : ℝ) (b : B) : dir idx (d.map (t * ·)) b = t * dir idx d b := by
  unfold dir
  rw [List.zip_map_right, ← List.map_reverse]
  have := lookup_map (idx.zip d).reverse t b
  have he : (Prod.map id (t * ·) : B × ℝ → B × ℝ) = fun p => (p.1, t * p.2) := by funext p; rfl
  rw [he, this]
  cases (idx.zip d).reverse.lookup b <;> simp

theorem dir_of_not_mem (idx : List B) (d : List ℝ) (b : B) (h : b ∉ idx) : dir idx d b = 0 := by
  have := addAt_of_not_mem (fun _ => 0) idx d b h
  rw [addAt_eq] at this
  simpa using this

theorem dir_cons (a : B) (idx : List B) (e : ℝ) (d : List ℝ) (h : a ∉ idx) (b : B) :
    dir (a :: idx) (e :: d) b = (if b = a then e else 0) + dir idx d b := by
  by_cases hb : b = a
  · subst hb
    rw [dir_of_not_mem idx d b h]
    unfold dir
    rw [List.zip_cons_cons, List.reverse_cons, List.lookup_append]
    have : (idx.zip d).reverse.lookup b = none := by
      apply lookup_none
      intro hm
      simp only [List.mem_map, List.mem_reverse] at hm
      obtain ⟨⟨b', e'⟩, hm, rfl⟩ := hm
      exact h (List.of_mem_zip hm).1
    rw [this]
    simp
  · unfold dir
    rw [List.zip_cons_cons, List.reverse_cons, List.lookup_append]
    have : (b == a) = false := by simpa using hb
    simp [List.lookup_cons, this, hb]

theorem dir_sum (g : B → ℝ) (idx : List B) (d : List ℝ) (h : idx.Nodup) :
    ∑ b, g b * dir idx d b = (List.zipWith (· * ·) (idx.map g) d).sum := by
  induction idx generalizing d with
  | nil => simp [dir]
  | cons a idx ih =>
    cases d with
    | nil => simp [dir]
    | cons e d =>
      rw [List.nodup_cons] at h
      simp only [dir_cons a idx e d h.1, mul_add, Finset.sum_add_distrib, ih d h.2, List.map_cons, List.zipWith_cons_cons, List.sum_cons]
      congr 1
      simp

/-- Angle and magnitude increments of the step. -/
def stepA (pv pq : List B) (dx : List ℝ) (b : B) : ℝ := dir pv (dx.take pv.length) b + dir pq ((dx.drop pv.length).take pq.length) b
def stepM (pv pq : List B) (dx : List ℝ) (b : B) : ℝ := dir pq ((dx.drop (pv.length + pq.length)).take pq.length) b

theorem newtonUpdate_eq (pv pq : List B) (V : B → ℂ) (x : List ℝ) (b : B) :
    newtonUpdate pv pq V x b = polar (fun b => ‖V b‖ + stepM pv pq (x.map fun e => -1 * e) b) (fun b => (V b).arg + stepA pv pq (x.map fun e => -1 * e) b) b := by
  unfold newtonUpdate stepA stepM
  by_cases hv : pv.length ≠ 0 <;> by_cases hq : pq.length ≠ 0 <;>
    simp only [ne_eq, not_not] at hv hq <;>
    simp [hv, hq, addAt_eq, polar, add_assoc, dir]

theorem stepA_smul (pv pq : List B) (dx : List ℝ) (t : ℝ) (b : B) : stepA pv pq (dx.map (t * ·)) b = t * stepA pv pq dx b := by
  unfold stepA
  rw [← List.map_take, ← List.map_drop, ← List.map_take, dir_smul, dir_smul, mul_add]

theorem stepM_smul (pv pq : List B) (dx : List ℝ) (t : ℝ) (b : B) : stepM pv pq (dx.map (t * ·)) b = t * stepM pv pq dx b := by
  unfold stepM
  rw [← List.map_drop, ← List.map_take, dir_smul]

/-- A straight line in angles and magnitudes. -/
theorem line_deriv (m a dm da : ℝ) :
    HasDerivAt (fun t : ℝ => ((m + t * dm : ℝ) : ℂ) * Complex.exp (Complex.I * ((a + t * da : ℝ) : ℂ)))
      ((dm : ℂ) * Complex.exp (Complex.I * a) + (m : ℂ) * (Complex.I * Complex.exp (Complex.I * a)) * da) 0 := by
  have h1 : HasDerivAt (fun t : ℝ => m + t * dm) dm 0 := by
    simpa using ((hasDerivAt_id (0 : ℝ)).mul_const dm).const_add m
  have h2 : HasDerivAt (fun t : ℝ => a + t * da) da 0 := by
    simpa using ((hasDerivAt_id (0 : ℝ)).mul_const da).const_add a
  have h3 : HasDerivAt (fun t : ℝ => ((m + t * dm : ℝ) : ℂ)) (dm : ℂ) 0 := h1.ofReal_comp
  have h4 : HasDerivAt (fun t : ℝ => ((a + t * da : ℝ) : ℂ)) (da : ℂ) 0 := h2.ofReal_comp
  have h5 := (h4.const_mul Complex.I).cexp
  refine (h3.fun_mul h5).congr_deriv ?_
  simp only [zero_mul, add_zero]
  ring

/-- The directional derivative of a mismatch is the Jacobian applied to the direction. -/
theorem mis_deriv (Y : Matrix B B ℂ) (S V : B → ℂ) (dm da : B → ℝ) (hz : ∀ k, V k ≠ 0 ∨ dm k = 0) (b : B) :
    HasDerivAt (fun t : ℝ => mis Y S (polar (fun k => ‖V k‖ + t * dm k) (fun k => (V k).arg + t * da k)) b)
      (∑ k, (Derivs.dSbus_dVa Y V b k * (da k : ℂ) + Derivs.dSbus_dVm Y V b k * (dm k : ℂ))) 0 := by
  have hV : ∀ k, HasDerivAt (fun t : ℝ => polar (fun k => ‖V k‖ + t * dm k) (fun k => (V k).arg + t * da k) k)
      (Derivs.Vnorm V k * (dm k : ℂ) + Complex.I * V k * (da k : ℂ)) 0 := by
    intro k
    refine (line_deriv ‖V k‖ (V k).arg (dm k) (da k)).congr_deriv ?_
    have he := polar_arg V k
    unfold polar at he
    have hn : (dm k : ℂ) * Complex.exp (Complex.I * ((V k).arg : ℂ)) = Derivs.Vnorm V k * (dm k : ℂ) := by
      rcases hz k with h | h
      · unfold Derivs.Vnorm
        have hnz : (‖V k‖ : ℂ) ≠ 0 := by exact_mod_cast norm_ne_zero_iff.2 h
        field_simp
        linear_combination (dm k : ℂ) * he
      · rw [h]; simp
    rw [hn]
    linear_combination (Complex.I * (da k : ℂ)) * he
  have h0 : ∀ k, polar (fun k => ‖V k‖ + 0 * dm k) (fun k => (V k).arg + 0 * da k) k = V k := by
    intro k
    rw [← polar_arg V k]
    simp [polar]
  have hI : HasDerivAt (fun t : ℝ => ∑ j, Y b j * polar (fun k => ‖V k‖ + t * dm k) (fun k => (V k).arg + t * da k) j)
      (∑ j, Y b j * (Derivs.Vnorm V j * (dm j : ℂ) + Complex.I * V j * (da j : ℂ))) 0 :=
    HasDerivAt.fun_sum fun j _ => (hV j).const_mul _
  refine (((hV b).fun_mul (Derivs.conj_deriv hI)).sub_const (S b)).congr_deriv ?_
  simp only [h0, map_sum, map_mul, map_add, Complex.conj_I, Complex.conj_ofReal, Finset.mul_sum]
  have hsplit : ∀ k, Derivs.dSbus_dVa Y V b k * (da k : ℂ) + Derivs.dSbus_dVm Y V b k * (dm k : ℂ) =
      (if b = k then (Derivs.Vnorm V b * (dm b : ℂ) + Complex.I * V b * (da b : ℂ)) * conj ((Y *ᵥ V) b) else 0) +
      V b * (conj (Y b k) * (conj (Derivs.Vnorm V k) * (dm k : ℂ) + -Complex.I * conj (V k) * (da k : ℂ))) := by
    intro k
    rw [Derivs.dSbus_dVa_apply, Derivs.dSbus_dVm_apply]
    by_cases h : b = k
    · subst h; simp only [if_true, map_sub, map_mul]; ring
    · simp only [if_neg h, map_sub, map_mul, map_zero]; ring
  simp only [hsplit, Finset.sum_add_distrib, Finset.sum_ite_eq, Finset.mem_univ, if_true]
  congr 1
  simp only [Matrix.mulVec, dotProduct, map_sum, map_mul, Finset.mul_sum]

/-- One Jacobian row applied to the solver's vector. -/
theorem row_dot (pv pq : List B) (hn : (pv ++ pq).Nodup) (ga gm : B → ℝ) (x : List ℝ) (hx : x.length = pv.length + pq.length + pq.length) :
    (List.zipWith (· * ·) ((pv ++ pq).map ga ++ pq.map gm) x).sum = ∑ k, (ga k * stepA pv pq x k + gm k * stepM pv pq x k) := by
  rw [List.nodup_append] at hn
  obtain ⟨hpv, hpq, -⟩ := hn
  have hx1 : x = x.take pv.length ++ ((x.drop pv.length).take pq.length ++ x.drop (pv.length + pq.length)) := by
    conv_lhs => rw [← List.take_append_drop pv.length x, ← List.take_append_drop pq.length (x.drop pv.length), List.drop_drop]
  have h3 : (x.drop (pv.length + pq.length)).take pq.length = x.drop (pv.length + pq.length) := by
    apply List.take_of_length_le
    rw [List.length_drop]
    omega
  have hs : ∑ k, (ga k * stepA pv pq x k + gm k * stepM pv pq x k) =
      (List.zipWith (· * ·) (pv.map ga) (x.take pv.length)).sum + ((List.zipWith (· * ·) (pq.map ga) ((x.drop pv.length).take pq.length)).sum +
        (List.zipWith (· * ·) (pq.map gm) (x.drop (pv.length + pq.length))).sum) := by
    unfold stepA stepM
    simp only [mul_add, Finset.sum_add_distrib, dir_sum _ _ _ hpv, dir_sum _ _ _ hpq, h3]
    ring
  rw [hs]
  conv_lhs => rw [hx1, List.map_append, List.append_assoc]
  rw [List.zipWith_append (by simp; omega), List.zipWith_append (by simp; omega), List.sum_append, List.sum_append]

/-- **C69.** When the linear solver solves its system `J x = F` exactly, no bus is listed twice and no PQ bus has zero voltage, the update of `newtonpf` is the Newton step:
moving from `V` along the update (`t = 0` is `V`, `t = 1` the new voltages), every mismatch the solver drives to zero starts to decrease at the rate that would
make it vanish at `t = 1`. -/
theorem C69 (Y : Matrix B B ℂ) (S V : B → ℂ) (pv pq : List B) (hn : (pv ++ pq).Nodup) (hz : ∀ b ∈ pq, V b ≠ 0) (x : List ℝ)
    (hx : x.length = pv.length + pq.length + pq.length)
    (hsol : (jacobian Y pv pq V).map (fun row => (List.zipWith (· * ·) row x).sum) = Fvec Y S pv pq V) :
    newtonUpdate pv pq V (x.map ((0 : ℝ) * ·)) = V ∧ newtonUpdate pv pq V (x.map ((1 : ℝ) * ·)) = newtonUpdate pv pq V x ∧
    (∀ b, b ∈ pv ∨ b ∈ pq → HasDerivAt (fun t : ℝ => (mis Y S (newtonUpdate pv pq V (x.map (t * ·))) b).re) (-(mis Y S V b).re) 0) ∧
    (∀ b ∈ pq, HasDerivAt (fun t : ℝ => (mis Y S (newtonUpdate pv pq V (x.map (t * ·))) b).im) (-(mis Y S V b).im) 0) := by
  have hcurve : ∀ t : ℝ, newtonUpdate pv pq V (x.map (t * ·)) =
      polar (fun k => ‖V k‖ + t * (-stepM pv pq x k)) (fun k => (V k).arg + t * (-stepA pv pq x k)) := by
    intro t
    funext b
    rw [newtonUpdate_eq]
    have hA : ∀ k, stepA pv pq ((x.map (t * ·)).map fun e => -1 * e) k = t * (-stepA pv pq x k) := by
      intro k
      rw [stepA_smul, stepA_smul]; ring
    have hM : ∀ k, stepM pv pq ((x.map (t * ·)).map fun e => -1 * e) k = t * (-stepM pv pq x k) := by
      intro k
      rw [stepM_smul, stepM_smul]; ring
    simp only [hA, hM]
  have hz' : ∀ k, V k ≠ 0 ∨ -stepM pv pq x k = 0 := by
    intro k
    by_cases hk : k ∈ pq
    · exact Or.inl (hz k hk)
    · right; unfold stepM; rw [dir_of_not_mem _ _ _ hk, neg_zero]
  have hd := fun b => mis_deriv Y S V (fun k => -stepM pv pq x k) (fun k => -stepA pv pq x k) hz' b
  have hF : Fvec Y S pv pq V = ((pv ++ pq).map fun b => (mis Y S V b).re) ++ (pq.map fun b => (mis Y S V b).im) := by
    rw [Fvec, List.map_append]
  rw [hF, jacobian, List.map_append, List.map_map, List.map_map] at hsol
  obtain ⟨h1, h2⟩ := List.append_inj hsol (by simp)
  rw [List.map_inj_left] at h1 h2
  refine ⟨?_, ?_, ?_, ?_⟩
  · rw [hcurve]
    funext b
    rw [← polar_arg V b]
    simp [polar]
  · simp
  · intro b hb
    have := h1 b (List.mem_append.2 hb)
    simp only [Function.comp_apply] at this
    rw [row_dot pv pq hn _ _ x hx] at this
    simp only [hcurve]
    refine (Derivs.re_deriv (hd b)).congr_deriv ?_
    rw [← this, Complex.re_sum, ← Finset.sum_neg_distrib]
    refine Finset.sum_congr rfl fun k _ => ?_
    simp only [Complex.add_re, Complex.mul_re, Complex.ofReal_re, Complex.ofReal_im, mul_zero, sub_zero]
    ring
  · intro b hb
    have := h2 b hb
    simp only [Function.comp_apply] at this
    rw [row_dot pv pq hn _ _ x hx] at this
    simp only [hcurve]
    refine (Derivs.im_deriv (hd b)).congr_deriv ?_
    rw [← this, Complex.im_sum, ← Finset.sum_neg_distrib]
    refine Finset.sum_congr rfl fun k _ => ?_
    simp only [Complex.add_im, Complex.mul_im, Complex.ofReal_re, Complex.ofReal_im, mul_zero, zero_add]
    ring

/-- Non-vacuity of C69: one PQ bus with a unit shunt and no load; the mismatch is 1 and the solution of `J x = F` lowers the magnitude by one half. -/
example : (jacobian (B := Fin 1) 1 [] [0] fun _ => 1).map (fun row => (List.zipWith (· * ·) row [0, 1 / 2]).sum) =
    Fvec (B := Fin 1) 1 0 [] [0] fun _ => 1 := by
  have h1 : Derivs.dSbus_dVa (B := Fin 1) 1 (fun _ => 1) 0 0 = 0 := by
    rw [Derivs.dSbus_dVa_apply]; simp [Matrix.mulVec, dotProduct]
  have h2 : Derivs.dSbus_dVm (B := Fin 1) 1 (fun _ => 1) 0 0 = 2 := by
    rw [Derivs.dSbus_dVm_apply]; simp [Matrix.mulVec, dotProduct, Derivs.Vnorm]; norm_num
  simp [jacobian, Fvec, h1, h2, mis, Matrix.mulVec, dotProduct]

end

end Verif.Solvers
