import Verif.Pips.FullLemmas

/-!
# C76: what `pips` returns for a problem with bounds and linear constraints

Bounds beyond `±1e10` count as infinite (pips.py:245-248).  The tolerance of the feasibility test is relative to the size of the solution and of the
internal slacks, that of the gradient test to the size of the internal multipliers.
-/

open Matrix

namespace Verif.Pips

variable {n : ℕ} {E I : Type} [Fintype E] [Fintype I] [DecidableEq E] [DecidableEq I]

/-! ### Specification -/

/-- Sensible bounds: lower ≤ upper, no upper bound `-∞`, no lower bound `+∞`, and bounds that coincide are inside `(-1e10, 1e10)`. -/
def Sane (l u : EReal) : Prop :=
  l ≤ u ∧ u ≠ ⊥ ∧ l ≠ ⊤ ∧ (Equal l u → ((-10 ^ 10 : ℝ) : EReal) < l ∧ u < ((10 ^ 10 : ℝ) : EReal))

/-- `v` respects the bounds up to `t`. -/
def Within (l u : EReal) (v t : ℝ) : Prop :=
  (u < ((10 ^ 10 : ℝ) : EReal) → (v : EReal) < u + (t : EReal)) ∧ (((-10 ^ 10 : ℝ) : EReal) < l → l < ((v + t : ℝ) : EReal))

/-- All bounds of a problem are sensible. -/
def Linear.OK (q : Linear) (n : ℕ) : Prop := (∀ j < n, Sane (q.xmin j) (q.xmax j)) ∧ ∀ k < q.nA, Sane (q.l k) (q.u k)

/-! ### Lemmas -/

theorem Linear.OK.sane {q : Linear} {n : ℕ} (h : q.OK n) (k : ℕ) (hk : k < n + q.nA) : Sane (q.ll n k) (q.uu n k) := by
  unfold Linear.ll Linear.uu
  by_cases hkn : k < n
  · simp only [if_pos hkn]; exact h.1 k hkn
  · simp only [if_neg hkn]; exact h.2 (k - n) (by omega)

theorem toReal_of_lt_big {u : EReal} (h1 : u ≠ ⊥) (h2 : u < big) : ((u.toReal : ℝ) : EReal) = u :=
  EReal.coe_toReal (fun h => by rw [h] at h2; exact absurd h2 (by simp)) h1

theorem toReal_of_gt_big {l : EReal} (h1 : l ≠ ⊤) (h2 : -big < l) : ((l.toReal : ℝ) : EReal) = l :=
  EReal.coe_toReal h1 (fun h => by rw [h] at h2; exact absurd h2 (by simp))

/-- Every row of the split system being satisfied up to `t`, every original row is. -/
theorem within_of_split (q : Linear) (hq : q.OK n) (x : Fin n → ℝ) (t : ℝ)
    (hg : ∀ p, |q.val ((q.eqRows n).get p) x - (q.uu n ((q.eqRows n).get p)).toReal| < t)
    (hh : ∀ p, sgn ((q.inRows n).get p).1 * q.val ((q.inRows n).get p).2 x - q.bound n ((q.inRows n).get p) < t)
    (k : ℕ) (hk : k < n + q.nA) : Within (q.ll n k) (q.uu n k) (q.val k x) t := by
  obtain ⟨s1, s2, s3, s4⟩ := hq.sane k hk
  obtain ⟨c1, c2⟩ := C36_covered (n + q.nA) (q.ll n) (q.uu n) k hk
  have eqcase : k ∈ q.eqRows n → (q.val k x : EReal) < q.uu n k + (t : EReal) ∧ q.ll n k < ((q.val k x + t : ℝ) : EReal) := by
    intro he
    obtain ⟨p, hp⟩ := List.mem_iff_get.1 he
    have h1 := hg p
    rw [hp] at h1
    have hE := (near_iff _ _).1 (mem_ieq.1 he).2
    have hu := (s4 hE).2
    have e := toReal_of_lt_big s2 hu
    rw [abs_lt] at h1
    constructor
    · rw [← e, ← EReal.coe_add, EReal.coe_lt_coe_iff]; linarith
    · refine lt_of_le_of_lt s1 ?_
      rw [← e, EReal.coe_lt_coe_iff]; linarith
  constructor
  · intro hu
    rcases c1 hu with he | hr
    · exact (eqcase he).1
    · obtain ⟨p, hp⟩ := List.mem_iff_get.1 hr
      have h1 := hh p
      rw [hp] at h1
      simp only [sgn, Linear.bound, if_true, one_mul] at h1
      rw [← toReal_of_lt_big s2 hu, ← EReal.coe_add, EReal.coe_lt_coe_iff]; linarith
  · intro hl
    rcases c2 hl with he | hr
    · exact (eqcase he).2
    · obtain ⟨p, hp⟩ := List.mem_iff_get.1 hr
      have h1 := hh p
      rw [hp] at h1
      simp only [sgn, Linear.bound, Bool.false_eq_true, if_false] at h1
      rw [← toReal_of_gt_big s3 (by rw [neg_big]; exact hl), EReal.coe_lt_coe_iff]; linarith

theorem val_var (q : Linear) (x : Fin n → ℝ) (j : Fin n) : q.val (j : ℕ) x = x j := by
  unfold Linear.val Linear.AA
  simp only [j.isLt, if_true]
  rw [Finset.sum_eq_single j]
  · simp
  · intro i _ hne
    rw [if_neg (fun h => hne (Fin.ext h)), zero_mul]
  · intro h; exact absurd (Finset.mem_univ j) h

theorem val_row (q : Linear) (x : Fin n → ℝ) (k : ℕ) : q.val (n + k) x = ∑ j : Fin n, q.A k j * x j := by
  unfold Linear.val Linear.AA
  simp

omit [DecidableEq E] in
theorem ofFull {c : Callbacks n E I} {q : Linear} {o : Opt} {solve : Solver (Fin n) (E ⊕ Fin (q.eqRows n).length)} {x0 : Fin n → ℝ}
    {r : Result n E I} (h : pipsFull c q o solve x0 = some r) :
    r.x = (pips (problem c q) o solve x0).x ∧ r.eflag = (pips (problem c q) o solve x0).eflag ∧
    r.f = (pips (problem c q) o solve x0).f ∧
    (∀ e, r.eqnonlin e = (pips (problem c q) o solve x0).lam (Sum.inl e)) ∧
    (∀ i, r.ineqnonlin i = (pips (problem c q) o solve x0).mu (Sum.inl i)) ∧
    r.slack = ‖(run (problem c q) o solve x0).st.z‖ ∧
    r.dual = max ‖(run (problem c q) o solve x0).st.lam‖ ‖(run (problem c q) o solve x0).st.mu‖ ∧
    ∃ L U, muL (n + q.nA) (q.ll n) (q.uu n) (List.ofFn fun p => (pips (problem c q) o solve x0).lam (Sum.inr p))
        (List.ofFn fun p => (pips (problem c q) o solve x0).mu (Sum.inr p)) = some L ∧
      muU (n + q.nA) (q.ll n) (q.uu n) (List.ofFn fun p => (pips (problem c q) o solve x0).lam (Sum.inr p))
        (List.ofFn fun p => (pips (problem c q) o solve x0).mu (Sum.inr p)) = some U ∧
      (∀ k, r.lower k = L.getD k 0) ∧ (∀ k, r.upper k = U.getD k 0) ∧ (∀ k, r.mu_l k = L.getD (n + k) 0) ∧ (∀ k, r.mu_u k = U.getD (n + k) 0) := by
  unfold pipsFull at h
  simp only [Option.bind_eq_bind, Option.bind_eq_some_iff, Option.some.injEq] at h
  obtain ⟨L, hL, U, hU, rfl⟩ := h
  exact ⟨rfl, rfl, rfl, fun _ => rfl, fun _ => rfl, rfl, rfl, L, U, hL, hU, fun _ => rfl, fun _ => rfl, fun _ => rfl, fun _ => rfl⟩

/-! ### Theorems -/

omit [DecidableEq E] in
/-- **C76 (returns).**  With sensible bounds the multipliers can always be packed: `pips` returns. -/
theorem C76_returns (c : Callbacks n E I) (q : Linear) (o : Opt) (solve : Solver (Fin n) (E ⊕ Fin (q.eqRows n).length)) (x0 : Fin n → ℝ)
    (hq : q.OK n) : ∃ r, pipsFull c q o solve x0 = some r := by
  obtain ⟨L, U, hL, hU, -⟩ := regroup (n + q.nA) (q.ll n) (q.uu n) (fun p => (pips (problem c q) o solve x0).lam (Sum.inr p))
    (fun p => (pips (problem c q) o solve x0).mu (Sum.inr p)) (fun k hk => (hq.sane k hk).2.2.2)
  unfold pipsFull
  simp only [hL, hU, Option.bind_eq_bind, Option.bind_some]
  exact ⟨_, rfl⟩

/-- **C76 (feasibility).**  On success every nonlinear equality and inequality, every variable bound and every linear row holds up to the
feasibility tolerance. -/
theorem C76_feasible (c : Callbacks n E I) (q : Linear) (o : Opt) (solve : Solver (Fin n) (E ⊕ Fin (q.eqRows n).length)) (x0 : Fin n → ℝ)
    (hq : q.OK n) (r : Result n E I) (hr : pipsFull c q o solve x0 = some r) (hs : r.eflag = true) :
    (∀ e, |c.g r.x e| < r.tol o) ∧ (∀ i, c.h r.x i < r.tol o) ∧
    (∀ j : Fin n, Within (q.xmin j) (q.xmax j) (r.x j) (r.tol o)) ∧
    (∀ k < q.nA, Within (q.l k) (q.u k) (∑ j : Fin n, q.A k j * r.x j) (r.tol o)) := by
  obtain ⟨ex, ef, -, -, -, es, -, -⟩ := ofFull hr
  obtain ⟨z, lam, mu, f0, ⟨hz, -, -, -⟩, -, -, h1, h2, -⟩ := C35_success (problem c q) o solve x0 (by rw [← ef]; exact hs)
  have ht : o.feastol * (1 + max ‖(pips (problem c q) o solve x0).x‖ ‖z‖) = r.tol o := by rw [Result.tol, es, ex, hz]
  simp only [ht] at h1 h2
  rw [← ex] at h1 h2
  have hw := fun k hk => within_of_split q hq r.x (r.tol o) (fun p => h1 (Sum.inr p)) (fun p => h2 (Sum.inr p)) k hk
  refine ⟨fun e => h1 (Sum.inl e), fun i => h2 (Sum.inl i), ?_, ?_⟩
  · intro j
    have := hw j (by have := j.isLt; omega)
    rw [val_var] at this
    simpa [Linear.ll, Linear.uu] using this
  · intro k hk
    have := hw (n + k) (by omega)
    rw [val_row] at this
    simpa [Linear.ll, Linear.uu] using this

/-- **C76 (signs).**  The returned multipliers of bounds, linear rows and nonlinear inequalities are never negative, whether or not `pips` succeeds. -/
theorem C76_signs (c : Callbacks n E I) (q : Linear) (o : Opt) (solve : Solver (Fin n) (E ⊕ Fin (q.eqRows n).length)) (x0 : Fin n → ℝ)
    (hq : q.OK n) (hc : 0 < o.costMult) (r : Result n E I) (hr : pipsFull c q o solve x0 = some r) :
    (∀ i, 0 ≤ r.ineqnonlin i) ∧ ∀ k, 0 ≤ r.lower k ∧ 0 ≤ r.upper k ∧ 0 ≤ r.mu_l k ∧ 0 ≤ r.mu_u k := by
  obtain ⟨-, -, -, -, ei, -, -, L', U', hL', hU', e1, e2, e3, e4⟩ := ofFull hr
  obtain ⟨L, U, hL, hU, -, -, -, hp⟩ := regroup (n + q.nA) (q.ll n) (q.uu n) (fun p => (pips (problem c q) o solve x0).lam (Sum.inr p))
    (fun p => (pips (problem c q) o solve x0).mu (Sum.inr p)) (fun k hk => (hq.sane k hk).2.2.2)
  rw [hL] at hL'; rw [hU] at hU'
  cases hL'; cases hU'
  have h := hp fun p => C34_returned_nonneg (problem c q) o solve x0 hc (Sum.inr p)
  refine ⟨fun i => by rw [ei]; exact C34_returned_nonneg (problem c q) o solve x0 hc (Sum.inl i), fun k => ?_⟩
  rw [e1, e2, e3, e4]
  exact ⟨(h k).1, (h k).2, (h (n + k)).1, (h (n + k)).2⟩

/-- **C76 (stationarity).**  On success the *returned* multipliers make the gradient of the Lagrangian small in every variable: cost gradient plus nonlinear
constraints plus `upper - lower` plus `Aᵀ (mu_u - mu_l)` vanishes up to the gradient tolerance (and the multipliers below `1e-5` that are reported
as zero), all in the units of the caller's cost. -/
theorem C76_stationary (c : Callbacks n E I) (q : Linear) (o : Opt) (solve : Solver (Fin n) (E ⊕ Fin (q.eqRows n).length)) (x0 : Fin n → ℝ)
    (hq : q.OK n) (hc : 0 < o.costMult) (r : Result n E I) (hr : pipsFull c q o solve x0 = some r) (hs : r.eflag = true) (j : Fin n) :
    |c.df r.x j + ∑ e, c.dg r.x j e * r.eqnonlin e + ∑ i, c.dh r.x j i * r.ineqnonlin i + (r.upper j - r.lower j) +
        ∑ k ∈ Finset.range q.nA, q.A k j * (r.mu_u k - r.mu_l k)| ≤
      (o.gradtol * (1 + r.dual) +
        1 / 10 ^ 5 * (∑ i, |c.dh r.x j i| + 2 * (1 + ∑ k ∈ Finset.range q.nA, |q.A k j|))) / o.costMult := by
  obtain ⟨ex, ef, -, ee, ei, -, ed, L', U', hL', hU', e1, e2, e3, e4⟩ := ofFull hr
  obtain ⟨z, lam, mu, f0, ⟨-, hl, hm, -⟩, -, hmu, -, -, h3, -, -, h4, h5⟩ := C35_success (problem c q) o solve x0 (by rw [← ef]; exact hs)
  obtain ⟨L, U, hL, hU, -, -, hreg, -⟩ := regroup (n + q.nA) (q.ll n) (q.uu n) (fun p => (pips (problem c q) o solve x0).lam (Sum.inr p))
    (fun p => (pips (problem c q) o solve x0).mu (Sum.inr p)) (fun k hk => (hq.sane k hk).2.2.2)
  rw [hL] at hL'; rw [hU] at hU'
  cases hL'; cases hU'
  have h3 := h3 j
  rw [← ex] at h3
  have hd : max ‖lam‖ ‖mu‖ = r.dual := by rw [ed, hl, hm]
  rw [hd] at h3
  set P := problem c q with hP
  -- regroup by original row
  have hreg := hreg (fun k => q.AA k j)
  have split : ∑ k ∈ Finset.range (n + q.nA), q.AA k j * (U'.getD k 0 - L'.getD k 0) =
      (r.upper j - r.lower j) + ∑ k ∈ Finset.range q.nA, q.A k j * (r.mu_u k - r.mu_l k) := by
    rw [Finset.sum_range_add]
    congr 1
    · rw [Finset.sum_eq_single (j : ℕ)]
      · rw [e1, e2]; simp [Linear.AA]
      · intro k hk hne
        simp [Linear.AA, Finset.mem_range.1 hk, Ne.symm hne]
      · intro h; exact absurd (Finset.mem_range.2 j.isLt) h
    · refine Finset.sum_congr rfl fun k _ => ?_
      rw [e3, e4]; simp [Linear.AA]
  -- the sum with the returned multipliers is the one with the internal multipliers, un-scaled, up to the zeroed ones
  have tot : c.df r.x j + ∑ e, c.dg r.x j e * r.eqnonlin e + ∑ i, c.dh r.x j i * r.ineqnonlin i + (r.upper j - r.lower j) +
        ∑ k ∈ Finset.range q.nA, q.A k j * (r.mu_u k - r.mu_l k) =
      P.df r.x j + ∑ e, P.dg r.x j e * (pips P o solve x0).lam e + ∑ i, P.dh r.x j i * (pips P o solve x0).mu i := by
    rw [add_assoc _ (r.upper j - r.lower j), ← split, hreg, Fintype.sum_sum_type, Fintype.sum_sum_type]
    simp only [hP, problem, Matrix.of_apply, Sum.elim_inl, Sum.elim_inr, ee, ei]
    ring
  rw [tot]
  have dev : ∀ i, |P.dh r.x j i * (pips P o solve x0).mu i - P.dh r.x j i * (mu i / o.costMult)| ≤ |P.dh r.x j i| * (1 / 10 ^ 5 / o.costMult) := by
    intro i
    rw [← mul_sub, abs_mul]
    refine mul_le_mul_of_nonneg_left ?_ (abs_nonneg _)
    rcases h5 i with h | ⟨h, -, h'⟩
    · rw [h, sub_self, abs_zero]; positivity
    · rw [h, zero_sub, abs_neg, abs_of_nonneg (div_nonneg (hmu i).le hc.le)]
      exact (div_le_div_of_nonneg_right h'.le hc.le)
  have e0 : P.df r.x j + ∑ e, P.dg r.x j e * (pips P o solve x0).lam e + ∑ i, P.dh r.x j i * (pips P o solve x0).mu i =
      (P.df r.x j * o.costMult + ∑ e, P.dg r.x j e * lam e + ∑ i, P.dh r.x j i * mu i) / o.costMult +
        ∑ i, (P.dh r.x j i * (pips P o solve x0).mu i - P.dh r.x j i * (mu i / o.costMult)) := by
    rw [Finset.sum_sub_distrib, add_div, add_div, mul_div_cancel_right₀ _ hc.ne']
    simp only [h4, ← mul_div_assoc]
    rw [div_eq_mul_inv (∑ e, _), div_eq_mul_inv (∑ i, P.dh r.x j i * mu i), Finset.sum_mul, Finset.sum_mul]
    simp only [div_eq_mul_inv]
    ring
  rw [e0]
  have b1 : |(P.df r.x j * o.costMult + ∑ e, P.dg r.x j e * lam e + ∑ i, P.dh r.x j i * mu i) / o.costMult| ≤ o.gradtol * (1 + r.dual) / o.costMult := by
    rw [abs_div, abs_of_pos hc]
    exact div_le_div_of_nonneg_right h3.le hc.le
  have b2 : |∑ i, (P.dh r.x j i * (pips P o solve x0).mu i - P.dh r.x j i * (mu i / o.costMult))| ≤
      (∑ i, |P.dh r.x j i|) * (1 / 10 ^ 5 / o.costMult) := by
    refine (Finset.abs_sum_le_sum_abs _ _).trans ?_
    rw [Finset.sum_mul]
    exact Finset.sum_le_sum fun i _ => dev i
  -- each original row occurs at most twice
  have b3 : ∑ i, |P.dh r.x j i| ≤ ∑ i, |c.dh r.x j i| + 2 * (1 + ∑ k ∈ Finset.range q.nA, |q.A k j|) := by
    rw [Fintype.sum_sum_type]
    refine add_le_add (le_of_eq rfl) ?_
    have e5 : ∑ p : Fin (q.inRows n).length, |P.dh r.x j (Sum.inr p)| = ∑ s ∈ (q.inRows n).toFinset, |q.AA s.2 j| := by
      rw [List.sum_toFinset _ (iRows_nodup _ _ _), ← List.sum_ofFn]
      congr 1
      apply List.ext_get
      · simp
      · intro p h1 h2
        have : ∀ b : Bool, |sgn b| = 1 := by intro b; cases b <;> simp [sgn]
        simp [hP, problem, abs_mul, this]
    have e6 : ∑ s ∈ (q.inRows n).toFinset, |q.AA s.2 j| ≤ ∑ s ∈ (Finset.univ : Finset Bool) ×ˢ Finset.range (n + q.nA), |q.AA s.2 j| := by
      refine Finset.sum_le_sum_of_subset_of_nonneg ?_ (fun _ _ _ => abs_nonneg _)
      intro s hs'
      simp only [Finset.mem_product, Finset.mem_univ, true_and, Finset.mem_range]
      exact iRows_row_lt (List.mem_toFinset.1 hs')
    rw [e5]
    refine e6.trans (le_of_eq ?_)
    rw [Finset.sum_product]
    simp only [Finset.sum_const, Finset.card_univ, Fintype.card_bool, nsmul_eq_mul, Nat.cast_ofNat]
    congr 1
    rw [Finset.sum_range_add]
    congr 1
    · rw [Finset.sum_eq_single (j : ℕ)]
      · simp [Linear.AA]
      · intro k hk hne
        simp [Linear.AA, Finset.mem_range.1 hk, Ne.symm hne]
      · intro h; exact absurd (Finset.mem_range.2 j.isLt) h
    · refine Finset.sum_congr rfl fun k _ => ?_
      simp [Linear.AA]
  refine (abs_add_le _ _).trans ((add_le_add b1 (b2.trans (mul_le_mul_of_nonneg_right b3 (by positivity)))).trans (le_of_eq ?_))
  field_simp

omit [DecidableEq E] in
/-- **C76 (absent bounds).**  A bound beyond `±1e10` has multiplier zero. -/
theorem C76_absent (c : Callbacks n E I) (q : Linear) (o : Opt) (solve : Solver (Fin n) (E ⊕ Fin (q.eqRows n).length)) (x0 : Fin n → ℝ)
    (hq : q.OK n) (r : Result n E I) (hr : pipsFull c q o solve x0 = some r) :
    (∀ j < n, (q.xmin j ≤ ((-10 ^ 10 : ℝ) : EReal) → r.lower j = 0) ∧ (((10 ^ 10 : ℝ) : EReal) ≤ q.xmax j → r.upper j = 0)) ∧
    (∀ k < q.nA, (q.l k ≤ ((-10 ^ 10 : ℝ) : EReal) → r.mu_l k = 0) ∧ (((10 ^ 10 : ℝ) : EReal) ≤ q.u k → r.mu_u k = 0)) := by
  obtain ⟨-, -, -, -, -, -, -, L', U', hL', hU', e1, e2, e3, e4⟩ := ofFull hr
  obtain ⟨L, U, hL, hU, -, -, -, -, -, zT, zF, -⟩ := C36_multipliers (n + q.nA) (q.ll n) (q.uu n)
    (List.ofFn fun p => (pips (problem c q) o solve x0).lam (Sum.inr p)) (List.ofFn fun p => (pips (problem c q) o solve x0).mu (Sum.inr p))
    (by simp) (by simp) (fun k hk => (hq.sane k hk).2.2.2)
  rw [hL] at hL'; rw [hU] at hU'
  cases hL'; cases hU'
  have key : ∀ k < n + q.nA, (q.ll n k ≤ ((-10 ^ 10 : ℝ) : EReal) → L'.getD k 0 = 0) ∧ (((10 ^ 10 : ℝ) : EReal) ≤ q.uu n k → U'.getD k 0 = 0) := by
    intro k hk
    have hs := (hq.sane k hk).2.2.2
    constructor
    · intro h
      have := zF k hk (fun hm => absurd ((iRows_bound hm).2 rfl) (by rw [neg_big]; exact not_lt.2 h))
        (fun he => absurd (hs ((near_iff _ _).1 (mem_ieq.1 he).2)).1 (not_lt.2 h))
      rw [List.getD_eq_getElem?_getD, this]; rfl
    · intro h
      have := zT k hk (fun hm => absurd ((iRows_bound hm).1 rfl) (not_lt.2 h))
        (fun he => absurd (hs ((near_iff _ _).1 (mem_ieq.1 he).2)).2 (not_lt.2 h))
      rw [List.getD_eq_getElem?_getD, this]; rfl
  constructor
  · intro j hj
    have := key j (by omega)
    rw [e1, e2]
    simpa [Linear.ll, Linear.uu, hj] using this
  · intro k hk
    have := key (n + k) (by omega)
    rw [e3, e4]
    simpa [Linear.ll, Linear.uu] using this

omit [DecidableEq E] in
/-- **C76 (objective).**  The returned objective is the caller's cost at the returned point, whether or not `pips` succeeds. -/
theorem C76_objective (c : Callbacks n E I) (q : Linear) (o : Opt) (solve : Solver (Fin n) (E ⊕ Fin (q.eqRows n).length)) (x0 : Fin n → ℝ)
    (hc : 0 < o.costMult) (r : Result n E I) (hr : pipsFull c q o solve x0 = some r) : r.f = c.f r.x := by
  obtain ⟨ex, -, ef, -⟩ := ofFull hr
  rw [ef, ex]
  exact mul_div_cancel_right₀ _ hc.ne'

/-! ### Non-vacuity -/

/-- For every problem and starting point there are options with which success is reported (loose ones, at the starting point). -/
theorem exists_success_at {X E I : Type} [Fintype X] [Fintype E] [Fintype I] [DecidableEq X] [DecidableEq I] (P : Problem X E I) (x0 : X → ℝ) :
    ∃ o : Opt, 0 < o.costMult ∧ 0 < o.feastol ∧ ∀ solve : Solver X E, (pips P o solve x0).eflag = true ∧ (pips P o solve x0).x = x0 := by
  let o1 : Opt := ⟨0, 0, 0, 0, 0, 0, false, 1⟩
  let s := init P o1 x0
  let o : Opt := ⟨|feascond P s.x s.z| + 1, gradcond P o1 s.x s.lam s.mu + 1, compcond s.x s.z s.mu + 1, costcond (cost P o1 s.x) s.f0 + 1, 0, 0, false, 1⟩
  refine ⟨o, by norm_num [o], by simp only [o]; positivity, fun solve => ?_⟩
  have hc : conv P o (init P o x0) := by
    refine ⟨?_, ?_, ?_, ?_⟩
    · exact lt_of_le_of_lt (le_abs_self _) (lt_add_one _)
    · exact lt_add_one _
    · exact lt_add_one _
    · exact lt_add_one _
  simp [pips, run, hc]
  rfl

theorem exists_success {X E I : Type} [Fintype X] [Fintype E] [Fintype I] [DecidableEq X] [DecidableEq I] (P : Problem X E I) (x0 : X → ℝ) :
    ∃ o : Opt, 0 < o.costMult ∧ 0 < o.feastol ∧ ∀ solve : Solver X E, (pips P o solve x0).eflag = true := by
  obtain ⟨o, h1, h2, h3⟩ := exists_success_at P x0
  exact ⟨o, h1, h2, fun solve => (h3 solve).1⟩

/-- Minimise `x²` over `1 ≤ x ≤ 3` subject to the linear row `2 x = 4`. -/
noncomputable def exC : Callbacks 1 (Fin 0) (Fin 0) where
  f := fun x => x 0 ^ 2
  df := fun x _ => 2 * x 0
  g := fun _ i => i.elim0
  dg := fun _ => 0
  h := fun _ i => i.elim0
  dh := fun _ => 0
  hess := fun _ _ _ c => Matrix.of fun _ _ => 2 * c

noncomputable def exQ : Linear where
  nA := 1
  A := fun _ _ => 2
  l := fun _ => ((4 : ℝ) : EReal)
  u := fun _ => ((4 : ℝ) : EReal)
  xmin := fun _ => ((1 : ℝ) : EReal)
  xmax := fun _ => ((3 : ℝ) : EReal)

theorem exQ_ok : exQ.OK 1 := by
  have key : ∀ a b : ℝ, a ≤ b → -10 ^ 10 < a → b < 10 ^ 10 → Sane (a : EReal) (b : EReal) := fun a b h1 h2 h3 =>
    ⟨EReal.coe_le_coe_iff.2 h1, EReal.coe_ne_bot _, EReal.coe_ne_top _, fun _ => ⟨EReal.coe_lt_coe_iff.2 h2, EReal.coe_lt_coe_iff.2 h3⟩⟩
  exact ⟨fun j _ => key 1 3 (by norm_num) (by norm_num) (by norm_num), fun k _ => key 4 4 le_rfl (by norm_num) (by norm_num)⟩

example : ∃ (o : Opt) (r : Result 1 (Fin 0) (Fin 0)), exQ.OK 1 ∧ 0 < o.costMult ∧
    pipsFull exC exQ o (fun _ _ => none) (fun _ => 2) = some r ∧ r.eflag = true := by
  obtain ⟨o, h1, -, h2⟩ := exists_success (problem exC exQ) (fun _ => 2)
  obtain ⟨r, hr⟩ := C76_returns exC exQ o (fun _ _ => none) (fun _ => 2) exQ_ok
  exact ⟨o, r, exQ_ok, h1, hr, by rw [(ofFull hr).2.1]; exact h2 _⟩

end Verif.Pips
