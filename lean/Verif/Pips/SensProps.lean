import Verif.Pips.CompProps

/-!
# C128: on success, multipliers are the marginal costs of the limits

For a convex problem: if bounds and right-hand sides are changed, no point within the changed ones is cheaper than the returned point plus what the multipliers say the changes are
worth, up to the tolerances.
-/

open Matrix

namespace Verif.Pips

section
variable {X E I : Type*} [Fintype X] [Fintype E] [Fintype I] [DecidableEq X] [DecidableEq E] [DecidableEq I]

/-- Internal: the Lagrangian at any point `y`, feasible or not. -/
theorem lagrange_iter (P : Problem X E I) (hH : P.ConvexH) (hG : P.AffineG) (o : Opt) (solve : Solver X E) (x0 : X → ℝ) (hc : 0 < o.costMult)
    (h : (pips P o solve x0).eflag = true) (hf : AboveTangent P.f (P.df (pips P o solve x0).x) (pips P o solve x0).x) (y : X → ℝ) :
    o.costMult * (P.f (pips P o solve x0).x - P.f y) ≤
      o.gradtol * (1 + max ‖(run P o solve x0).st.lam‖ ‖(run P o solve x0).st.mu‖) * ∑ v, |y v - (pips P o solve x0).x v| +
        Fintype.card E * (‖(run P o solve x0).st.lam‖ * (o.feastol * (1 + max ‖(pips P o solve x0).x‖ ‖(run P o solve x0).st.z‖))) +
        o.comptol * (1 + ‖(pips P o solve x0).x‖) +
        (∑ j, (run P o solve x0).st.lam j * P.g y j + ∑ i, (run P o solve x0).st.mu i * P.h y i) := by
  obtain ⟨z, lam, mu, f0, ⟨hz, hl, hm, -⟩, zpos, mpos, h1, -, h3, h4, -⟩ := C35_success P o solve x0 h
  rw [← hz, ← hl, ← hm]
  have hsl := fun i => slack_ge P i (hH i) o solve x0
  have hx : (run P o solve x0).st.x = (pips P o solve x0).x := rfl
  rw [hx, ← hz] at hsl
  set x := (pips P o solve x0).x with hxdef
  set t := o.feastol * (1 + max ‖x‖ ‖z‖) with ht
  set G := o.gradtol * (1 + max ‖lam‖ ‖mu‖) with hGdef
  have tang := hf y
  have a1 : ∑ v, (P.df x v * o.costMult + ∑ j, P.dg x v j * lam j + ∑ i, P.dh x v i * mu i) * (x v - y v) ≤ G * ∑ v, |y v - x v| := by
    rw [Finset.mul_sum]
    refine Finset.sum_le_sum fun v _ => (le_abs_self _).trans ?_
    rw [abs_mul, abs_sub_comm (x v)]
    exact mul_le_mul_of_nonneg_right (h3 v).le (abs_nonneg _)
  have e1 : ∑ v, (P.df x v * o.costMult + ∑ j, P.dg x v j * lam j + ∑ i, P.dh x v i * mu i) * (x v - y v) =
      -(o.costMult * ∑ v, P.df x v * (y v - x v)) - ∑ j, lam j * ∑ v, P.dg x v j * (y v - x v) - ∑ i, mu i * ∑ v, P.dh x v i * (y v - x v) := by
    simp only [add_mul, Finset.sum_add_distrib, Finset.sum_mul, Finset.mul_sum]
    rw [Finset.sum_comm (f := fun v j => P.dg x v j * lam j * (x v - y v)), Finset.sum_comm (f := fun v i => P.dh x v i * mu i * (x v - y v))]
    rw [sub_eq_add_neg, sub_eq_add_neg]
    simp only [← Finset.sum_neg_distrib]
    refine congrArg₂ _ (congrArg₂ _ ?_ ?_) ?_
    · exact Finset.sum_congr rfl fun v _ => by ring
    · exact Finset.sum_congr rfl fun j _ => Finset.sum_congr rfl fun v _ => by ring
    · exact Finset.sum_congr rfl fun i _ => Finset.sum_congr rfl fun v _ => by ring
  have a2 : ∑ j, lam j * ∑ v, P.dg x v j * (y v - x v) ≤ Fintype.card E * (‖lam‖ * t) + ∑ j, lam j * P.g y j := by
    have e : ∀ j, lam j * ∑ v, P.dg x v j * (y v - x v) = lam j * -P.g x j + lam j * P.g y j := fun j => by rw [hG j x y]; ring
    rw [Finset.sum_congr rfl fun j _ => e j, Finset.sum_add_distrib]
    refine add_le_add_left ?_ _
    rw [← nsmul_eq_mul, ← Finset.card_univ]
    refine Finset.sum_le_card_nsmul _ _ _ fun j _ => (le_abs_self _).trans ?_
    rw [abs_mul, abs_neg]
    exact mul_le_mul (norm_le_pi_norm lam j) (h1 j).le (abs_nonneg _) (norm_nonneg _)
  have a3 : ∑ i, mu i * ∑ v, P.dh x v i * (y v - x v) ≤ ∑ i, z i * mu i + ∑ i, mu i * P.h y i := by
    rw [← Finset.sum_add_distrib]
    refine Finset.sum_le_sum fun i _ => ?_
    have t1 := hH i x y
    beta_reduce at t1
    have t2 := hsl i
    have := mul_le_mul_of_nonneg_left (show ∑ v, P.dh x v i * (y v - x v) ≤ z i + P.h y i by linarith) (mpos i).le
    linarith
  have a4 := mul_le_mul_of_nonneg_left tang hc.le
  rw [e1] at a1
  nlinarith
end

variable {n : ℕ} {E I : Type} [Fintype E] [Fintype I] [DecidableEq E] [DecidableEq I]

/-- Sum over the positions of a list of numbers below `N`, by number. -/
theorem sum_by {α : Type} [DecidableEq α] (N : ℕ) (xs : List α) (key : α → ℕ) (hlt : ∀ a ∈ xs, key a < N) (v : Fin xs.length → ℝ) :
    ∑ p, v p = ∑ k ∈ Finset.range N, ∑ p, if key (xs.get p) = k then v p else 0 := by
  rw [Finset.sum_comm]
  refine Finset.sum_congr rfl fun p _ => ?_
  rw [Finset.sum_ite_eq, if_pos (Finset.mem_range.2 (hlt _ (List.get_mem _ _)))]

open scoped Classical in
/-- **C128 (multipliers are marginal costs).**  For a convex problem with sensible bounds, let `y` exceed the upper bound of variable or row `k` by at most `ou k` and fall below the lower one by at
most `ol k` (which may be negative: bounds that are tightened).  Then `y` costs at least the returned objective less the multipliers times these amounts, up to `gap`, and up to `1e-5`
(in units of the scaled cost) times the changes of bounds that do not coincide: multipliers below that are reported as zero. -/
theorem C128_solver (c : Callbacks n E I) (hcc : ConvexCons c) (q : Linear) (hq : q.OK n) (o : Opt)
    (solve : Solver (Fin n) (E ⊕ Fin (q.eqRows n).length)) (x0 : Fin n → ℝ) (hc : 0 < o.costMult) (hft : 0 ≤ o.feastol)
    (r : Result n E I) (hr : pipsFull c q o solve x0 = some r) (hs : r.eflag = true) (hf : AboveTangent c.f (c.df r.x) r.x)
    (y : Fin n → ℝ) (hg : ∀ e, c.g y e = 0) (hh : ∀ i, c.h y i ≤ 0) (ou ol : ℕ → ℝ)
    (hou : ∀ k < n + q.nA, ∀ u : ℝ, q.uu n k = u → q.val k y ≤ u + ou k) (hol : ∀ k < n + q.nA, ∀ l : ℝ, q.ll n k = l → l - ol k ≤ q.val k y) :
    r.f ≤ c.f y + gap o (Fintype.card E + (n + q.nA)) ‖r.x‖ r.dual (r.tol o) (∑ v, |y v - r.x v|) +
      (∑ j ∈ Finset.range n, (r.upper j * ou j + r.lower j * ol j) + ∑ k ∈ Finset.range q.nA, (r.mu_u k * ou (n + k) + r.mu_l k * ol (n + k))) +
      1 / 10 ^ 5 / o.costMult * ∑ k ∈ Finset.range (n + q.nA), (if Equal (q.ll n k) (q.uu n k) then 0 else |ou k| + |ol k|) := by
  have hobj := C76_objective c q o solve x0 hc r hr
  obtain ⟨ex, ef, -, -, -, es, ed, L, U, hL, hU, e1, e2, e3, e4⟩ := ofFull hr
  have hsuc : (pips (problem c q) o solve x0).eflag = true := by rw [← ef]; exact hs
  have hH : (problem c q).ConvexH := by
    intro i x y
    rcases i with i | p
    · exact hcc.convex i x y
    · simp only [problem, Sum.elim_inr, Matrix.of_apply]
      rw [val_sub q _ x y, mul_add, Finset.mul_sum]
      refine le_of_eq ?_
      rw [Finset.sum_congr rfl fun v _ => (mul_assoc _ _ _)]
      ring
  have hG : (problem c q).AffineG := by
    intro j x y
    rcases j with e | p
    · exact hcc.affine e x y
    · simp only [problem, Sum.elim_inr, Matrix.of_apply]
      rw [val_sub q _ x y]
      ring
  have main := lagrange_iter (problem c q) hH hG o solve x0 hc hsuc (by rw [← ex]; exact hf) y
  obtain ⟨z, lam, mu, f0, ⟨hz, hl, hm, -⟩, zpos, mpos, -, -, -, -, -, h6, h7⟩ := C35_success (problem c q) o solve x0 hsuc
  rw [← ex, ← ed, ← es, ← hl, ← hm] at main
  obtain ⟨L', U', hL', hU', -, -, mT, mF, mE, zT, zF, -⟩ := C36_multipliers (n + q.nA) (q.ll n) (q.uu n)
    (List.ofFn fun p => (pips (problem c q) o solve x0).lam (Sum.inr p)) (List.ofFn fun p => (pips (problem c q) o solve x0).mu (Sum.inr p))
    (by simp) (by simp) (fun k hk => (hq.sane k hk).2.2.2)
  rw [hL] at hL'; rw [hU] at hU'
  cases hL'; cases hU'
  have hlam : ‖lam‖ ≤ r.dual := by rw [ed, ← hl]; exact le_max_left _ _
  have hd : 0 ≤ r.dual := (norm_nonneg _).trans hlam
  have hin : ∀ k < n + q.nA, Equal (q.ll n k) (q.uu n k) → ((-10 ^ 10 : ℝ) : EReal) < q.ll n k ∧ q.uu n k < ((10 ^ 10 : ℝ) : EReal) := fun k hk => (hq.sane k hk).2.2.2
  -- one row
  let T : ℕ → ℝ := fun k => o.costMult * (U.getD k 0 * ou k + L.getD k 0 * ol k) + (r.dual * (1 / 2 ^ 52) + 1 / 10 ^ 5 * (if Equal (q.ll n k) (q.uu n k) then 0 else |ou k| + |ol k|))
  have hdu : 0 ≤ r.dual * (1 / 2 ^ 52) := mul_nonneg hd (by positivity)
  have ineqU : ∀ (p : Fin (q.inRows n).length) (a : ℝ), (problem c q).h y (Sum.inr p) ≤ a →
      mu (Sum.inr p) * (problem c q).h y (Sum.inr p) ≤ o.costMult * ((pips (problem c q) o solve x0).mu (Sum.inr p) * a) + 1 / 10 ^ 5 * |a| := by
    intro p a ha
    have b1 := mul_le_mul_of_nonneg_left ha (mpos (Sum.inr p)).le
    rcases h7 (Sum.inr p) with h | ⟨h, -, h'⟩
    · rw [h]
      have : o.costMult * (mu (Sum.inr p) / o.costMult * a) = mu (Sum.inr p) * a := by field_simp
      rw [this]
      have : 0 ≤ 1 / 10 ^ 5 * |a| := by positivity
      linarith
    · rw [h, zero_mul, mul_zero, zero_add]
      refine b1.trans ?_
      have b2 := mul_le_mul_of_nonneg_left (le_abs_self a) (mpos (Sum.inr p)).le
      exact b2.trans (mul_le_mul_of_nonneg_right h'.le (abs_nonneg _))
  have key : ∀ k ∈ Finset.range (n + q.nA),
      (∑ p, if (q.eqRows n).get p = k then lam (Sum.inr p) * (problem c q).g y (Sum.inr p) else 0) +
        ((∑ p, if (q.inRows n).get p = (true, k) then mu (Sum.inr p) * (problem c q).h y (Sum.inr p) else 0) +
          ∑ p, if (q.inRows n).get p = (false, k) then mu (Sum.inr p) * (problem c q).h y (Sum.inr p) else 0) ≤ T k := by
    intro k hk
    have hk := Finset.mem_range.1 hk
    have hnd := iRows_nodup (n + q.nA) (q.ll n) (q.uu n)
    have hne := ieq_nodup (n + q.nA) (q.ll n) (q.uu n)
    by_cases he : k ∈ q.eqRows n
    · obtain ⟨p, hp⟩ := List.mem_iff_get.1 he
      rw [(sum_pos _ hne (fun p => lam (Sum.inr p) * (problem c q).g y (Sum.inr p)) k).1 p hp,
        (sum_pos _ hnd (fun p => mu (Sum.inr p) * (problem c q).h y (Sum.inr p)) (true, k)).2 (ieq_not_iRows hin he true),
        (sum_pos _ hnd (fun p => mu (Sum.inr p) * (problem c q).h y (Sum.inr p)) (false, k)).2 (ieq_not_iRows hin he false), add_zero, add_zero]
      have heq := (near_iff _ _).1 (mem_ieq.1 he).2
      obtain ⟨a, b, ha, hb, hab⟩ := heq
      have hlen : (p : ℕ) < (List.ofFn fun p => (pips (problem c q) o solve x0).lam (Sum.inr p)).length := by rw [List.length_ofFn]; exact p.isLt
      obtain ⟨a1, a2⟩ := mE p k ((pips (problem c q) o solve x0).lam (Sum.inr p))
        (by rw [← hp, List.get_eq_getElem]; exact List.getElem?_eq_getElem p.isLt) (by rw [List.getElem?_eq_getElem hlen]; simp)
      have hval : (problem c q).g y (Sum.inr p) = q.val k y - b := by
        simp only [problem, Sum.elim_inr]
        rw [hp, hb, EReal.toReal_coe]
      have o1 := hou k hk b hb
      have o2 := hol k hk a ha
      rw [hval]
      have hU' : U.getD k 0 = max (lam (Sum.inr p) / o.costMult) 0 := by rw [List.getD_eq_getElem?_getD, a1, h6]; rfl
      have hL' : L.getD k 0 = max (-(lam (Sum.inr p) / o.costMult)) 0 := by rw [List.getD_eq_getElem?_getD, a2, h6]; rfl
      have hite : (if Equal (q.ll n k) (q.uu n k) then (0 : ℝ) else |ou k| + |ol k|) = 0 := if_pos ⟨a, b, ha, hb, hab⟩
      show _ ≤ o.costMult * (U.getD k 0 * ou k + L.getD k 0 * ol k) + (r.dual * (1 / 2 ^ 52) + 1 / 10 ^ 5 * _)
      rw [hite, hU', hL', mul_zero, add_zero]
      rcases le_total 0 (lam (Sum.inr p)) with h | h
      · have h' : 0 ≤ lam (Sum.inr p) / o.costMult := div_nonneg h hc.le
        rw [max_eq_left h', max_eq_right (neg_nonpos.2 h'), zero_mul, add_zero]
        have e : o.costMult * (lam (Sum.inr p) / o.costMult * ou k) = lam (Sum.inr p) * ou k := by field_simp
        rw [e]
        have := mul_le_mul_of_nonneg_left (show q.val k y - b ≤ ou k by linarith) h
        linarith
      · have h' : lam (Sum.inr p) / o.costMult ≤ 0 := div_nonpos_of_nonpos_of_nonneg h hc.le
        rw [max_eq_right h', max_eq_left (neg_nonneg.2 h'), zero_mul, zero_add]
        have e : o.costMult * (-(lam (Sum.inr p) / o.costMult) * ol k) = -lam (Sum.inr p) * ol k := by field_simp
        rw [e]
        have b1 : b - q.val k y ≤ 1 / 2 ^ 52 + ol k := by
          have := (abs_le.1 hab).2
          linarith
        have b2 := mul_le_mul_of_nonneg_left b1 (neg_nonneg.2 h)
        have b3 : -lam (Sum.inr p) ≤ r.dual := ((neg_le_abs _).trans (norm_le_pi_norm lam (Sum.inr p))).trans hlam
        have b4 := mul_le_mul_of_nonneg_right b3 (show (0 : ℝ) ≤ 1 / 2 ^ 52 by positivity)
        nlinarith
    · rw [(sum_pos _ hne (fun p => lam (Sum.inr p) * (problem c q).g y (Sum.inr p)) k).2 he, zero_add]
      have hneq : ¬ Equal (q.ll n k) (q.uu n k) := fun h => he (mem_ieq.2 ⟨hk, (near_iff _ _).2 h⟩)
      obtain ⟨s1, s2, s3, s4⟩ := hq.sane k hk
      have upper : (∑ p, if (q.inRows n).get p = (true, k) then mu (Sum.inr p) * (problem c q).h y (Sum.inr p) else 0) ≤
          o.costMult * (U.getD k 0 * ou k) + 1 / 10 ^ 5 * |ou k| := by
        by_cases hi : (true, k) ∈ q.inRows n
        · obtain ⟨p, hp⟩ := List.mem_iff_get.1 hi
          rw [(sum_pos _ hnd (fun p => mu (Sum.inr p) * (problem c q).h y (Sum.inr p)) (true, k)).1 p hp]
          have hfin := toReal_of_lt_big s2 ((iRows_bound hi).1 rfl)
          have hval : (problem c q).h y (Sum.inr p) ≤ ou k := by
            have := hou k hk _ hfin.symm
            simp only [problem, Sum.elim_inr]
            rw [hp]
            simp only [sgn, Linear.bound, if_true, one_mul]
            linarith
          have e := mT p k (by rw [← hp, List.get_eq_getElem]; exact List.getElem?_eq_getElem p.isLt)
          have hlen : (p : ℕ) < (List.ofFn fun p => (pips (problem c q) o solve x0).mu (Sum.inr p)).length := by rw [List.length_ofFn]; exact p.isLt
          have hU' : U.getD k 0 = (pips (problem c q) o solve x0).mu (Sum.inr p) := by
            rw [List.getD_eq_getElem?_getD, e, List.getElem?_eq_getElem hlen]
            simp
          rw [hU']
          exact ineqU p _ hval
        · rw [(sum_pos _ hnd (fun p => mu (Sum.inr p) * (problem c q).h y (Sum.inr p)) (true, k)).2 hi, List.getD_eq_getElem?_getD, zT k hk hi he]
          simp only [Option.getD_some, zero_mul, mul_zero, zero_add]
          positivity
      have lower : (∑ p, if (q.inRows n).get p = (false, k) then mu (Sum.inr p) * (problem c q).h y (Sum.inr p) else 0) ≤
          o.costMult * (L.getD k 0 * ol k) + 1 / 10 ^ 5 * |ol k| := by
        by_cases hi : (false, k) ∈ q.inRows n
        · obtain ⟨p, hp⟩ := List.mem_iff_get.1 hi
          rw [(sum_pos _ hnd (fun p => mu (Sum.inr p) * (problem c q).h y (Sum.inr p)) (false, k)).1 p hp]
          have hfin := toReal_of_gt_big s3 ((iRows_bound hi).2 rfl)
          have hval : (problem c q).h y (Sum.inr p) ≤ ol k := by
            have := hol k hk _ hfin.symm
            simp only [problem, Sum.elim_inr]
            rw [hp]
            simp only [sgn, Linear.bound, Bool.false_eq_true, if_false]
            linarith
          have e := mF p k (by rw [← hp, List.get_eq_getElem]; exact List.getElem?_eq_getElem p.isLt)
          have hlen : (p : ℕ) < (List.ofFn fun p => (pips (problem c q) o solve x0).mu (Sum.inr p)).length := by rw [List.length_ofFn]; exact p.isLt
          have hL' : L.getD k 0 = (pips (problem c q) o solve x0).mu (Sum.inr p) := by
            rw [List.getD_eq_getElem?_getD, e, List.getElem?_eq_getElem hlen]
            simp
          rw [hL']
          exact ineqU p _ hval
        · rw [(sum_pos _ hnd (fun p => mu (Sum.inr p) * (problem c q).h y (Sum.inr p)) (false, k)).2 hi, List.getD_eq_getElem?_getD, zF k hk hi he]
          simp only [Option.getD_some, zero_mul, mul_zero, zero_add]
          positivity
      show _ ≤ o.costMult * (U.getD k 0 * ou k + L.getD k 0 * ol k) + (r.dual * (1 / 2 ^ 52) + 1 / 10 ^ 5 * _)
      rw [if_neg hneq]
      linarith
  have total := Finset.sum_le_sum key
  rw [Finset.sum_add_distrib, Finset.sum_add_distrib] at total
  have t1 := sum_by (n + q.nA) (q.eqRows n) id (fun a ha => (mem_ieq.1 ha).1) (fun p => lam (Sum.inr p) * (problem c q).g y (Sum.inr p))
  have t2 := sum_by (n + q.nA) (q.inRows n) Prod.snd (fun a ha => iRows_row_lt ha) (fun p => mu (Sum.inr p) * (problem c q).h y (Sum.inr p))
  have t3 : ∑ k ∈ Finset.range (n + q.nA), (∑ p, if Prod.snd ((q.inRows n).get p) = k then mu (Sum.inr p) * (problem c q).h y (Sum.inr p) else 0) =
      ∑ k ∈ Finset.range (n + q.nA), (∑ p, if (q.inRows n).get p = (true, k) then mu (Sum.inr p) * (problem c q).h y (Sum.inr p) else 0) +
        ∑ k ∈ Finset.range (n + q.nA), (∑ p, if (q.inRows n).get p = (false, k) then mu (Sum.inr p) * (problem c q).h y (Sum.inr p) else 0) := by
    rw [← Finset.sum_add_distrib]
    refine Finset.sum_congr rfl fun k _ => ?_
    rw [← Finset.sum_add_distrib]
    refine Finset.sum_congr rfl fun p _ => ?_
    rcases (q.inRows n).get p with ⟨b, j⟩
    by_cases hj : j = k
    · cases b <;> simp [hj]
    · simp [hj]
  simp only [id] at t1
  rw [← t1, ← t3, ← t2] at total
  have hTs : ∑ k ∈ Finset.range (n + q.nA), T k = o.costMult * (∑ j ∈ Finset.range n, (r.upper j * ou j + r.lower j * ol j) +
      ∑ k ∈ Finset.range q.nA, (r.mu_u k * ou (n + k) + r.mu_l k * ol (n + k))) + ((n + q.nA : ℕ) * (r.dual * (1 / 2 ^ 52)) +
      1 / 10 ^ 5 * ∑ k ∈ Finset.range (n + q.nA), (if Equal (q.ll n k) (q.uu n k) then 0 else |ou k| + |ol k|)) := by
    show ∑ k ∈ Finset.range (n + q.nA), (o.costMult * (U.getD k 0 * ou k + L.getD k 0 * ol k) + (r.dual * (1 / 2 ^ 52) + 1 / 10 ^ 5 * _)) = _
    rw [Finset.sum_add_distrib, Finset.sum_add_distrib, ← Finset.mul_sum, Finset.sum_const, Finset.card_range, nsmul_eq_mul, Finset.mul_sum (a := (1 / 10 ^ 5 : ℝ)),
      Finset.sum_range_add (fun k => U.getD k 0 * ou k + L.getD k 0 * ol k)]
    simp only [e1, e2, e3, e4]
  have hg0 : ∑ j, lam j * (problem c q).g y j = ∑ p, lam (Sum.inr p) * (problem c q).g y (Sum.inr p) := by
    rw [Fintype.sum_sum_type, Finset.sum_eq_zero (fun e _ => ?_), zero_add]
    have : (problem c q).g y (Sum.inl e) = 0 := hg e
    rw [this, mul_zero]
  have hh0 : ∑ i, mu i * (problem c q).h y i ≤ ∑ p, mu (Sum.inr p) * (problem c q).h y (Sum.inr p) := by
    rw [Fintype.sum_sum_type]
    have : ∑ i, mu (Sum.inl i) * (problem c q).h y (Sum.inl i) ≤ 0 := Finset.sum_nonpos fun i _ => mul_nonpos_of_nonneg_of_nonpos (mpos _).le (hh i)
    linarith
  have hcard : (Fintype.card (E ⊕ Fin (q.eqRows n).length) : ℝ) ≤ ((Fintype.card E + (n + q.nA) : ℕ) : ℝ) := by
    rw [Fintype.card_sum, Fintype.card_fin]
    have : (q.eqRows n).length ≤ n + q.nA := by
      have := List.length_filter_le (fun k => @decide _ (Classical.propDecidable (near (q.ll n k) (q.uu n k)))) (List.range (n + q.nA))
      rw [List.length_range] at this
      exact this
    exact_mod_cast Nat.add_le_add_left this _
  have htol : 0 ≤ r.tol o := by
    unfold Result.tol
    have : 0 ≤ max ‖r.x‖ r.slack := (norm_nonneg _).trans (le_max_left _ _)
    positivity
  have b : (Fintype.card (E ⊕ Fin (q.eqRows n).length) : ℝ) * (‖lam‖ * (o.feastol * (1 + max ‖r.x‖ r.slack))) ≤
      ((Fintype.card E + (n + q.nA) : ℕ) : ℝ) * (r.dual * r.tol o) :=
    mul_le_mul hcard (mul_le_mul_of_nonneg_right hlam htol) (mul_nonneg (norm_nonneg _) htol) (Nat.cast_nonneg _)
  have b' : ((n + q.nA : ℕ) : ℝ) * (r.dual * (1 / 2 ^ 52)) ≤ ((Fintype.card E + (n + q.nA) : ℕ) : ℝ) * (r.dual * (1 / 2 ^ 52)) :=
    mul_le_mul_of_nonneg_right (by exact_mod_cast Nat.le_add_left _ _) hdu
  have e : (problem c q).f = c.f := rfl
  rw [e] at main
  rw [hTs] at total
  rw [hobj]
  set S := ∑ j ∈ Finset.range n, (r.upper j * ou j + r.lower j * ol j) + ∑ k ∈ Finset.range q.nA, (r.mu_u k * ou (n + k) + r.mu_l k * ol (n + k)) with hS
  set Z := ∑ k ∈ Finset.range (n + q.nA), (if Equal (q.ll n k) (q.uu n k) then 0 else |ou k| + |ol k|) with hZ
  have fin : o.costMult * (c.f r.x - c.f y) ≤ o.gradtol * (1 + r.dual) * ∑ v, |y v - r.x v| + ((Fintype.card E + (n + q.nA) : ℕ) : ℝ) * (r.dual * (r.tol o + 1 / 2 ^ 52)) +
      o.comptol * (1 + ‖r.x‖) + o.costMult * S + 1 / 10 ^ 5 * Z := by
    have : ((Fintype.card E + (n + q.nA) : ℕ) : ℝ) * (r.dual * (r.tol o + 1 / 2 ^ 52)) =
        ((Fintype.card E + (n + q.nA) : ℕ) : ℝ) * (r.dual * r.tol o) + ((Fintype.card E + (n + q.nA) : ℕ) : ℝ) * (r.dual * (1 / 2 ^ 52)) := by ring
    rw [this]
    linarith
  have e5 : c.f y + gap o (Fintype.card E + (n + q.nA)) ‖r.x‖ r.dual (r.tol o) (∑ v, |y v - r.x v|) + S + 1 / 10 ^ 5 / o.costMult * Z =
      c.f y + (o.gradtol * (1 + r.dual) * ∑ v, |y v - r.x v| + ((Fintype.card E + (n + q.nA) : ℕ) : ℝ) * (r.dual * (r.tol o + 1 / 2 ^ 52)) +
      o.comptol * (1 + ‖r.x‖) + o.costMult * S + 1 / 10 ^ 5 * Z) / o.costMult := by
    unfold gap
    field_simp
    ring
  rw [e5, ← sub_le_iff_le_add', le_div_iff₀ hc]
  linarith

/-! ### Non-vacuity -/

/-- Minimise `x²` over `1 ≤ x ≤ 3` with `2 x = 4`, and the point `5/2`, which meets `2 x = 5`. -/
example : ∃ (o : Opt) (r : Result 1 (Fin 0) (Fin 0)) (y : Fin 1 → ℝ) (ou ol : ℕ → ℝ), ConvexCons exC ∧ exQ.OK 1 ∧ 0 < o.costMult ∧ 0 ≤ o.feastol ∧
    pipsFull exC exQ o (fun _ _ => none) (fun _ => 2) = some r ∧ r.eflag = true ∧ AboveTangent exC.f (exC.df r.x) r.x ∧ ou 1 = 1 ∧ ol 1 = -1 ∧
    (∀ k < 1 + exQ.nA, ∀ u : ℝ, exQ.uu 1 k = u → exQ.val k y ≤ u + ou k) ∧ ∀ k < 1 + exQ.nA, ∀ l : ℝ, exQ.ll 1 k = l → l - ol k ≤ exQ.val k y := by
  obtain ⟨o, h1, h1', h2⟩ := exists_success (problem exC exQ) (fun _ => 2)
  obtain ⟨r, hr⟩ := C76_returns exC exQ o (fun _ _ => none) (fun _ => 2) exQ_ok
  refine ⟨o, r, fun _ => 5 / 2, fun k => if k = 1 then 1 else 0, fun k => if k = 1 then -1 else 0, ⟨fun e => e.elim0, fun i => i.elim0⟩, exQ_ok, h1, h1'.le, hr,
    by rw [(ofFull hr).2.1]; exact h2 _, ?_, by simp, by simp, ?_, ?_⟩
  · intro y
    simp only [exC, Finset.univ_unique, Finset.sum_singleton, Fin.default_eq_zero]
    nlinarith [sq_nonneg (y 0 - r.x 0)]
  · intro k hk u hu
    rcases (show k = 0 ∨ k = 1 by simp only [exQ] at hk; omega) with rfl | rfl
    · have : u = 3 := by simpa [Linear.uu, exQ] using (EReal.coe_eq_coe_iff.1 (hu.symm.trans (by simp [Linear.uu, exQ] : exQ.uu 1 0 = ((3 : ℝ) : EReal))))
      simp [Linear.val, Linear.AA, this]
      norm_num
    · have : u = 4 := EReal.coe_eq_coe_iff.1 (hu.symm.trans (by simp [Linear.uu, exQ] : exQ.uu 1 1 = ((4 : ℝ) : EReal)))
      simp [Linear.val, Linear.AA, exQ, this]
      norm_num
  · intro k hk u hu
    rcases (show k = 0 ∨ k = 1 by simp only [exQ] at hk; omega) with rfl | rfl
    · have : u = 1 := EReal.coe_eq_coe_iff.1 (hu.symm.trans (by simp [Linear.ll, exQ] : exQ.ll 1 0 = ((1 : ℝ) : EReal)))
      simp [Linear.val, Linear.AA, this]
      norm_num
    · have : u = 4 := EReal.coe_eq_coe_iff.1 (hu.symm.trans (by simp [Linear.ll, exQ] : exQ.ll 1 1 = ((4 : ℝ) : EReal)))
      simp [Linear.val, Linear.AA, exQ, this]
      norm_num

end Verif.Pips
