import Verif.Pips.ConvexProps

/-!
# C84: on success, shadow prices are paid only at binding limits

The multiplier of a variable bound or of a linear row, times the distance to that bound, is at most the complementarity tolerance (for a row with equal bounds:
its multiplier times the feasibility tolerance).  Nonlinear constraints may be present and need not be convex.
-/

open Matrix

namespace Verif.Pips

variable {n : ℕ} {E I : Type} [Fintype E] [Fintype I] [DecidableEq E] [DecidableEq I]

/-- How much a shadow price times the distance to its limit can amount to. -/
noncomputable def compGap (o : Opt) (nrm dual tol : ℝ) : ℝ := (o.comptol * (1 + nrm) + dual * (tol + 1 / 2 ^ 52)) / o.costMult

/-- Internal: row `k` of the stacked system. -/
theorem comp_row (c : Callbacks n E I) (q : Linear) (o : Opt) (solve : Solver (Fin n) (E ⊕ Fin (q.eqRows n).length)) (x0 : Fin n → ℝ)
    (hq : q.OK n) (hc : 0 < o.costMult) (hft : 0 ≤ o.feastol) (r : Result n E I) (hr : pipsFull c q o solve x0 = some r) (hs : r.eflag = true)
    (L U : List ℝ) (hL : muL (n + q.nA) (q.ll n) (q.uu n) (List.ofFn fun p => (pips (problem c q) o solve x0).lam (Sum.inr p))
        (List.ofFn fun p => (pips (problem c q) o solve x0).mu (Sum.inr p)) = some L)
    (hU : muU (n + q.nA) (q.ll n) (q.uu n) (List.ofFn fun p => (pips (problem c q) o solve x0).lam (Sum.inr p))
        (List.ofFn fun p => (pips (problem c q) o solve x0).mu (Sum.inr p)) = some U) (k : ℕ) (hk : k < n + q.nA) :
    (∀ u : ℝ, q.uu n k = (u : EReal) → U.getD k 0 * (u - q.val k r.x) ≤ compGap o ‖r.x‖ r.dual (r.tol o)) ∧
    (∀ l : ℝ, q.ll n k = (l : EReal) → L.getD k 0 * (q.val k r.x - l) ≤ compGap o ‖r.x‖ r.dual (r.tol o)) := by
  obtain ⟨ex, ef, -, -, -, es, ed, -⟩ := ofFull hr
  obtain ⟨z, lam, mu, f0, ⟨hz, hl, hm, -⟩, zpos, mpos, h1, -, -, h4, -, h6, h7⟩ := C35_success (problem c q) o solve x0 (by rw [← ef]; exact hs)
  have ht : o.feastol * (1 + max ‖(pips (problem c q) o solve x0).x‖ ‖z‖) = r.tol o := by rw [Result.tol, es, ex, hz]
  simp only [ht] at h1
  rw [← ex] at h1 h4
  obtain ⟨L', U', hL', hU', -, -, mT, mF, mE, zT, zF, -⟩ := C36_multipliers (n + q.nA) (q.ll n) (q.uu n)
    (List.ofFn fun p => (pips (problem c q) o solve x0).lam (Sum.inr p)) (List.ofFn fun p => (pips (problem c q) o solve x0).mu (Sum.inr p))
    (by simp) (by simp) (fun k hk => (hq.sane k hk).2.2.2)
  rw [hL] at hL'; rw [hU] at hU'
  cases hL'; cases hU'
  have hdual : 0 ≤ r.dual := by rw [ed]; exact (norm_nonneg _).trans (le_max_left _ _)
  have htol : 0 ≤ r.tol o + 1 / 2 ^ 52 := by
    unfold Result.tol
    have : 0 ≤ max ‖r.x‖ r.slack := (norm_nonneg _).trans (le_max_left _ _)
    positivity
  have hsum : 0 ≤ ∑ i, z i * mu i := Finset.sum_nonneg fun i _ => (mul_pos (zpos i) (mpos i)).le
  have hcomp : 0 ≤ o.comptol * (1 + ‖r.x‖) := hsum.trans h4.le
  have hgap0 : 0 ≤ compGap o ‖r.x‖ r.dual (r.tol o) := div_nonneg (add_nonneg hcomp (mul_nonneg hdual htol)) hc.le
  -- an inequality row of the split system
  have ineq : ∀ p : Fin (q.inRows n).length, (pips (problem c q) o solve x0).mu (Sum.inr p) * -(problem c q).h r.x (Sum.inr p) ≤
      compGap o ‖r.x‖ r.dual (r.tol o) := by
    intro p
    have hsl := slack_ge (problem c q) (Sum.inr p) (by
      intro x y
      simp only [problem, Sum.elim_inr, Matrix.of_apply]
      rw [val_sub q _ x y, mul_add, Finset.mul_sum]
      refine le_of_eq ?_
      rw [Finset.sum_congr rfl fun v _ => (mul_assoc _ _ _)]
      ring) o solve x0
    have hx : (run (problem c q) o solve x0).st.x = r.x := ex.symm
    rw [hx, ← hz] at hsl
    rcases h7 (Sum.inr p) with h | ⟨h, -, -⟩
    · rw [h]
      have one : z (Sum.inr p) * mu (Sum.inr p) ≤ ∑ i, z i * mu i :=
        Finset.single_le_sum (f := fun i => z i * mu i) (fun i _ => (mul_pos (zpos i) (mpos i)).le) (Finset.mem_univ _)
      have : mu (Sum.inr p) * -(problem c q).h r.x (Sum.inr p) ≤ mu (Sum.inr p) * z (Sum.inr p) :=
        mul_le_mul_of_nonneg_left (by linarith) (mpos _).le
      rw [compGap, div_mul_eq_mul_div]
      refine div_le_div_of_nonneg_right ?_ hc.le
      have := mul_nonneg hdual htol
      linarith
    · rw [h, zero_mul]; exact hgap0
  -- a row with equal bounds
  have eqrow : ∀ (p : Fin (q.eqRows n).length) (s e : ℝ), |s| ≤ |(pips (problem c q) o solve x0).lam (Sum.inr p)| → |e| ≤ r.tol o + 1 / 2 ^ 52 →
      s * e ≤ compGap o ‖r.x‖ r.dual (r.tol o) := by
    intro p s e hs' he
    have hlam : |(pips (problem c q) o solve x0).lam (Sum.inr p)| ≤ r.dual / o.costMult := by
      rw [h6, abs_div, abs_of_pos hc]
      refine div_le_div_of_nonneg_right ?_ hc.le
      rw [ed, ← hl]
      exact (norm_le_pi_norm lam _).trans (le_max_left _ _)
    refine (le_abs_self _).trans ?_
    rw [abs_mul, compGap]
    calc |s| * |e| ≤ r.dual / o.costMult * (r.tol o + 1 / 2 ^ 52) := mul_le_mul (hs'.trans hlam) he (abs_nonneg _) (div_nonneg hdual hc.le)
      _ = r.dual * (r.tol o + 1 / 2 ^ 52) / o.costMult := by ring
      _ ≤ _ := div_le_div_of_nonneg_right (by linarith) hc.le
  have eqval : ∀ p : Fin (q.eqRows n).length, (q.eqRows n).get p = k → ∃ a b : ℝ, q.ll n k = a ∧ q.uu n k = b ∧ |b - a| ≤ 1 / 2 ^ 52 ∧ |q.val k r.x - b| < r.tol o := by
    intro p hp
    have hmem : k ∈ q.eqRows n := by rw [← hp]; exact List.get_mem _ _
    obtain ⟨a, b, ha, hb, hab⟩ := (near_iff _ _).1 (mem_ieq.1 hmem).2
    have := h1 (Sum.inr p)
    simp only [problem, Sum.elim_inr, hp, hb, EReal.toReal_coe] at this
    exact ⟨a, b, ha, hb, hab, this⟩
  have eqmul : ∀ p : Fin (q.eqRows n).length, (q.eqRows n).get p = k →
      U.getD k 0 = max ((pips (problem c q) o solve x0).lam (Sum.inr p)) 0 ∧ L.getD k 0 = max (-(pips (problem c q) o solve x0).lam (Sum.inr p)) 0 := by
    intro p hp
    have hlen : (p : ℕ) < (List.ofFn fun p => (pips (problem c q) o solve x0).lam (Sum.inr p)).length := by rw [List.length_ofFn]; exact p.isLt
    obtain ⟨a1, a2⟩ := mE p k ((pips (problem c q) o solve x0).lam (Sum.inr p))
      (by rw [← hp, List.get_eq_getElem]; exact List.getElem?_eq_getElem p.isLt) (by rw [List.getElem?_eq_getElem hlen]; simp)
    rw [List.getD_eq_getElem?_getD, List.getD_eq_getElem?_getD, a1, a2]
    exact ⟨rfl, rfl⟩
  have absmax : ∀ t : ℝ, |max t 0| ≤ |t| ∧ |max (-t) 0| ≤ |t| := by
    intro t
    constructor
    · rw [abs_of_nonneg (le_max_right _ _)]; exact max_le (le_abs_self _) (abs_nonneg _)
    · rw [abs_of_nonneg (le_max_right _ _)]; exact max_le (neg_le_abs _) (abs_nonneg _)
  constructor
  · intro u hu
    by_cases he : k ∈ q.eqRows n
    · obtain ⟨p, hp⟩ := List.mem_iff_get.1 he
      obtain ⟨a, b, ha, hb, hab, hv⟩ := eqval p hp
      rw [(eqmul p hp).1]
      rw [hu, EReal.coe_eq_coe_iff] at hb
      rw [← hb] at hv
      refine eqrow p _ _ (absmax _).1 ?_
      rw [abs_sub_comm]
      have : (0 : ℝ) ≤ 1 / 2 ^ 52 := by positivity
      linarith
    · by_cases hi : (true, k) ∈ q.inRows n
      · obtain ⟨p, hp⟩ := List.mem_iff_get.1 hi
        have := ineq p
        simp only [problem, Sum.elim_inr, hp, sgn, Linear.bound, if_true, hu, EReal.toReal_coe, one_mul] at this
        have e := mT p k (by rw [← hp, List.get_eq_getElem]; exact List.getElem?_eq_getElem p.isLt)
        rw [List.getD_eq_getElem?_getD, e]
        have hlen : (p : ℕ) < (List.ofFn fun p => (pips (problem c q) o solve x0).mu (Sum.inr p)).length := by rw [List.length_ofFn]; exact p.isLt
        rw [List.getElem?_eq_getElem hlen]
        simp only [List.getElem_ofFn, Option.getD_some, Fin.eta]
        rw [neg_sub] at this
        exact this
      · have := zT k hk hi he
        rw [List.getD_eq_getElem?_getD, this, Option.getD_some, zero_mul]
        exact hgap0
  · intro l hl'
    by_cases he : k ∈ q.eqRows n
    · obtain ⟨p, hp⟩ := List.mem_iff_get.1 he
      obtain ⟨a, b, ha, hb, hab, hv⟩ := eqval p hp
      rw [(eqmul p hp).2]
      rw [hl', EReal.coe_eq_coe_iff] at ha
      rw [← ha] at hab
      refine eqrow p _ _ (absmax _).2 ?_
      rw [abs_le] at hab ⊢
      rw [abs_lt] at hv
      constructor <;> linarith
    · by_cases hi : (false, k) ∈ q.inRows n
      · obtain ⟨p, hp⟩ := List.mem_iff_get.1 hi
        have := ineq p
        simp only [problem, Sum.elim_inr, hp, sgn, Linear.bound, Bool.false_eq_true, if_false, hl', EReal.toReal_coe] at this
        have e := mF p k (by rw [← hp, List.get_eq_getElem]; exact List.getElem?_eq_getElem p.isLt)
        rw [List.getD_eq_getElem?_getD, e]
        have hlen : (p : ℕ) < (List.ofFn fun p => (pips (problem c q) o solve x0).mu (Sum.inr p)).length := by rw [List.length_ofFn]; exact p.isLt
        rw [List.getElem?_eq_getElem hlen]
        simp only [List.getElem_ofFn, Option.getD_some, Fin.eta]
        have e2 : -(-1 * q.val k r.x - -l) = q.val k r.x - l := by ring
        rw [e2] at this
        exact this
      · have := zF k hk hi he
        rw [List.getD_eq_getElem?_getD, this, Option.getD_some, zero_mul]
        exact hgap0

/-- **C84 (binding limits).**  On success the returned multiplier of every variable bound and every linear row, times the distance of the returned point from that
bound, is at most `compGap`: shadow prices are paid only where limits bind. -/
theorem C84_binding (c : Callbacks n E I) (q : Linear) (o : Opt) (solve : Solver (Fin n) (E ⊕ Fin (q.eqRows n).length)) (x0 : Fin n → ℝ)
    (hq : q.OK n) (hc : 0 < o.costMult) (hft : 0 ≤ o.feastol) (r : Result n E I) (hr : pipsFull c q o solve x0 = some r) (hs : r.eflag = true) :
    (∀ (j : Fin n) (u : ℝ), q.xmax j = (u : EReal) → r.upper j * (u - r.x j) ≤ compGap o ‖r.x‖ r.dual (r.tol o)) ∧
    (∀ (j : Fin n) (l : ℝ), q.xmin j = (l : EReal) → r.lower j * (r.x j - l) ≤ compGap o ‖r.x‖ r.dual (r.tol o)) ∧
    (∀ k < q.nA, ∀ u : ℝ, q.u k = (u : EReal) → r.mu_u k * (u - ∑ j : Fin n, q.A k j * r.x j) ≤ compGap o ‖r.x‖ r.dual (r.tol o)) ∧
    (∀ k < q.nA, ∀ l : ℝ, q.l k = (l : EReal) → r.mu_l k * (∑ j : Fin n, q.A k j * r.x j - l) ≤ compGap o ‖r.x‖ r.dual (r.tol o)) := by
  obtain ⟨-, -, -, -, -, -, -, L, U, hL, hU, e1, e2, e3, e4⟩ := ofFull hr
  have key := comp_row c q o solve x0 hq hc hft r hr hs L U hL hU
  refine ⟨fun j u h => ?_, fun j l h => ?_, fun k hk u h => ?_, fun k hk l h => ?_⟩
  · have := (key j (by have := j.isLt; omega)).1 u (by unfold Linear.uu; rw [if_pos j.isLt]; exact h)
    rw [val_var] at this
    rw [e2]; exact this
  · have := (key j (by have := j.isLt; omega)).2 l (by unfold Linear.ll; rw [if_pos j.isLt]; exact h)
    rw [val_var] at this
    rw [e1]; exact this
  · have := (key (n + k) (by omega)).1 u (by unfold Linear.uu; rw [if_neg (by omega), Nat.add_sub_cancel_left]; exact h)
    rw [val_row] at this
    rw [e4]; exact this
  · have := (key (n + k) (by omega)).2 l (by unfold Linear.ll; rw [if_neg (by omega), Nat.add_sub_cancel_left]; exact h)
    rw [val_row] at this
    rw [e3]; exact this

/-- A successful run with a variable bounded on both sides and a linear row. -/
example : ∃ (o : Opt) (r : Result 1 (Fin 0) (Fin 0)), exQ.OK 1 ∧ 0 < o.costMult ∧ 0 ≤ o.feastol ∧
    pipsFull exC exQ o (fun _ _ => none) (fun _ => 2) = some r ∧ r.eflag = true ∧ (∃ u : ℝ, exQ.xmax 0 = u) ∧ (∃ l : ℝ, exQ.xmin 0 = l) ∧
    0 < exQ.nA ∧ (∃ u : ℝ, exQ.u 0 = u) ∧ ∃ l : ℝ, exQ.l 0 = l := by
  obtain ⟨o, h1, h1', h2⟩ := exists_success (problem exC exQ) (fun _ => 2)
  obtain ⟨r, hr⟩ := C76_returns exC exQ o (fun _ _ => none) (fun _ => 2) exQ_ok
  exact ⟨o, r, exQ_ok, h1, h1'.le, hr, by rw [(ofFull hr).2.1]; exact h2 _, ⟨_, rfl⟩, ⟨_, rfl⟩, by simp [exQ], ⟨_, rfl⟩, ⟨_, rfl⟩⟩

end Verif.Pips
