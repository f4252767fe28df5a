import Verif.OpfNl.Lemmas

/-!
# C73, C74: the nonlinear constraints of the AC OPF and their Jacobian
-/

open Matrix ComplexConjugate

namespace Verif.OpfNl

open Verif.Derivs Verif.Network Verif.OpfCost

noncomputable section

variable {nb ng nl : Nat}

/-! ## C73: what the constraints say -/

/-- **C73**, equalities: the vector `g` returned by `opf_consfcn` is zero exactly when at every bus the complex power flowing into the network equals
in-service production minus demand. -/
theorem C73_balance (d : Nl nb ng nl) (x : Nat → ℝ) (hb : d.cost.base ≠ 0) :
    (∀ i, d.g x i = 0) ↔ ∀ b, d.V x b * conj (∑ c, d.Y b c * d.V x c) = injection d x b := by
  have h : ∀ b, d.mis x b = 0 ↔ d.V x b * conj (∑ c, d.Y b c * d.V x c) = injection d x b := by
    intro b; rw [mis_eq d x hb, sub_eq_zero]
  simp only [← h, Complex.ext_iff, Sum.forall, Nl.g, Sum.elim_inl, Sum.elim_inr, Complex.zero_re, Complex.zero_im]
  exact ⟨fun h b => ⟨h.1 b, h.2 b⟩, fun h => ⟨fun b => (h b).1, fun b => (h b).2⟩⟩

/-- **C73**, equalities, values: the entries are the active and reactive mismatches. -/
theorem C73_mismatch (d : Nl nb ng nl) (x : Nat → ℝ) (hb : d.cost.base ≠ 0) (b : Fin nb) :
    d.g x (.inl b) = (d.V x b * conj (∑ c, d.Y b c * d.V x c) - injection d x b).re ∧
    d.g x (.inr b) = (d.V x b * conj (∑ c, d.Y b c * d.V x c) - injection d x b).im := by
  simp only [Nl.g, Sum.elim_inl, Sum.elim_inr, mis_eq d x hb, and_self]

theorem sqFlow_eq (lim : Int) (f : Fin nl → Fin nb) (Y : Matrix (Fin nl) (Fin nb) ℂ) (V : Fin nb → ℂ) (l : Fin nl) :
    sqFlow lim f Y V l = limited lim f Y V l ^ 2 := by
  unfold sqFlow limited
  have e : (Y *ᵥ V) l = ∑ b, Y l b * V b := rfl
  have n : ∀ z : ℂ, (z * conj z).re = ‖z‖ ^ 2 := by
    intro z; rw [Complex.mul_conj, Complex.normSq_eq_norm_sq, Complex.ofReal_re]
  split_ifs
  · rw [n, e]
  · rw [sq_abs, e]
  · rw [n, e]

theorem limited_nonneg (lim : Int) (f : Fin nl → Fin nb) (Y : Matrix (Fin nl) (Fin nb) ℂ) (V : Fin nb → ℂ) (l : Fin nl) :
    0 ≤ limited lim f Y V l := by
  unfold limited
  split_ifs <;> positivity

theorem within (d : Nl nb ng nl) (hb : 0 < d.cost.base) (l : Fin nl) {s : ℝ} (hs : 0 ≤ s) :
    (((s ^ 2 : ℝ) : EReal) - d.flowMax l ≤ 0) ↔ (d.rateA l = 0 ∨ s ≤ |d.rateA l| / d.cost.base) := by
  unfold Nl.flowMax
  by_cases hr : d.rateA l = 0
  · simp [hr]
  · have hne : (d.rateA l / d.cost.base) ^ 2 ≠ 0 := pow_ne_zero 2 (div_ne_zero hr hb.ne')
    simp only [hne, hr, if_false, false_or]
    rw [← EReal.coe_sub, ← EReal.coe_zero, EReal.coe_le_coe_iff, sub_nonpos, sq_le_sq, abs_of_nonneg hs, abs_div, abs_of_pos hb]

/-- **C73**, inequalities: the entry of `h` for an end of a constrained branch is at most zero exactly when the limited quantity at that end (apparent power,
active power or current, by `OPF_FLOW_LIM`) is within the rating; a rating of zero means no limit.  From ends come first. -/
theorem C73_limits (d : Nl nb ng nl) (x : Nat → ℝ) (hb : 0 < d.cost.base) (l : Fin nl) :
    (d.h x (.inl l) ≤ 0 ↔ d.rateA l = 0 ∨ limited d.lim d.f d.Yf (d.V x) l ≤ |d.rateA l| / d.cost.base) ∧
    (d.h x (.inr l) ≤ 0 ↔ d.rateA l = 0 ∨ limited d.lim d.t d.Yt (d.V x) l ≤ |d.rateA l| / d.cost.base) := by
  simp only [Nl.h, Sum.elim_inl, Sum.elim_inr, sqFlow_eq]
  exact ⟨within d hb l (limited_nonneg ..), within d hb l (limited_nonneg ..)⟩

/-! ## C74: the Jacobian -/

theorem re_partialVa {F : (Fin nb → ℂ) → ℂ} {m a : Fin nb → ℝ} {k : Fin nb} {z : ℂ} (h : PartialVa F m a k z) :
    PartialVa (fun V => (F V).re) m a k z.re := re_deriv h
theorem im_partialVa {F : (Fin nb → ℂ) → ℂ} {m a : Fin nb → ℝ} {k : Fin nb} {z : ℂ} (h : PartialVa F m a k z) :
    PartialVa (fun V => (F V).im) m a k z.im := im_deriv h
theorem re_partialVm {F : (Fin nb → ℂ) → ℂ} {m a : Fin nb → ℝ} {k : Fin nb} {z : ℂ} (h : PartialVm F m a k z) :
    PartialVm (fun V => (F V).re) m a k z.re := re_deriv h
theorem im_partialVm {F : (Fin nb → ℂ) → ℂ} {m a : Fin nb → ℝ} {k : Fin nb} {z : ℂ} (h : PartialVm F m a k z) :
    PartialVm (fun V => (F V).im) m a k z.im := im_deriv h

/-- **C74**, equalities: with the variables in the order of `opf_setup`, positive magnitudes and every generator of the (internally ordered) table in service,
column `k` of `dg` is the derivative of `g` with respect to variable `k` -- any variable, also those beyond the four blocks. -/
theorem C74_dg (d : Nl nb ng nl) (hl : Layout d) (x : Nat → ℝ) (hb : d.cost.base ≠ 0) (hm : ∀ b : Fin nb, 0 < x (d.iVm + b))
    (hon : ∀ g, (d.gen g).stat > 0) (i : Fin nb ⊕ Fin nb) (k : Nat) :
    PartialX (fun y => d.g y i) x k (d.dg x i k) := by
  have hre : ∀ (b : Fin nb) (y : Nat → ℝ), (d.mis y b).re = (busInjection d.Y (d.V y) b).re -
      ((∑ g, if (d.gen g).bus = b then y (d.cost.iPg + g) else 0) - (d.bus b).PD / d.cost.base) := by
    intro b y; rw [mis_eq d y hb, Complex.sub_re, injection_re d y b hon]; rfl
  have him : ∀ (b : Fin nb) (y : Nat → ℝ), (d.mis y b).im = (busInjection d.Y (d.V y) b).im -
      ((∑ g, if (d.gen g).bus = b then y (d.cost.iQg + g) else 0) - (d.bus b).QD / d.cost.base) := by
    intro b y; rw [mis_eq d y hb, Complex.sub_im, injection_im d y b hon]; rfl
  have hpg := hl.pg; have hqg := hl.qg; have hva := hl.va; have hvm := hl.vm
  rcases i with i | i
  · simp only [Nl.g, Nl.dg, Sum.elim_inl, hre]
    rcases kinds d hl k with ⟨b, rfl⟩ | ⟨b, rfl⟩ | ⟨g, rfl⟩ | ⟨g, rfl⟩ | hk
    · rw [place_a hl]
      refine ((partial_a hl (re_partialVa (C58 d.Y (d.m x) (d.a x) hm i b).2)).fun_sub ((gensum_deriv d x _ _ i).sub_const _)).congr_deriv ?_
      rw [gensum_zero d i (by intro g; have := b.2; omega), sub_zero]; rfl
    · rw [place_m hl]
      refine ((partial_m hl (re_partialVm (C58 d.Y (d.m x) (d.a x) hm i b).1)).fun_sub ((gensum_deriv d x _ _ i).sub_const _)).congr_deriv ?_
      rw [gensum_zero d i (by intro g; have := b.2; omega), sub_zero]; rfl
    · rw [place_p hl]
      refine ((partial_other hl (fun V => (busInjection d.Y V i).re) x (by omega)).fun_sub ((gensum_deriv d x _ _ i).sub_const _)).congr_deriv ?_
      rw [gensum_one]; ring
    · rw [place_q hl]
      refine ((partial_other hl (fun V => (busInjection d.Y V i).re) x (by omega)).fun_sub ((gensum_deriv d x _ _ i).sub_const _)).congr_deriv ?_
      rw [gensum_zero d i (by intro g'; have := g'.2; have := g.2; omega)]; simp
    · rw [place_other hl _ _ _ _ hk]
      refine ((partial_other hl (fun V => (busInjection d.Y V i).re) x (by omega)).fun_sub ((gensum_deriv d x _ _ i).sub_const _)).congr_deriv ?_
      rw [gensum_zero d i (by intro g'; have := g'.2; omega)]; simp
  · simp only [Nl.g, Nl.dg, Sum.elim_inr, him]
    rcases kinds d hl k with ⟨b, rfl⟩ | ⟨b, rfl⟩ | ⟨g, rfl⟩ | ⟨g, rfl⟩ | hk
    · rw [place_a hl]
      refine ((partial_a hl (im_partialVa (C58 d.Y (d.m x) (d.a x) hm i b).2)).fun_sub ((gensum_deriv d x _ _ i).sub_const _)).congr_deriv ?_
      rw [gensum_zero d i (by intro g; have := b.2; omega), sub_zero]; rfl
    · rw [place_m hl]
      refine ((partial_m hl (im_partialVm (C58 d.Y (d.m x) (d.a x) hm i b).1)).fun_sub ((gensum_deriv d x _ _ i).sub_const _)).congr_deriv ?_
      rw [gensum_zero d i (by intro g; have := b.2; omega), sub_zero]; rfl
    · rw [place_p hl]
      refine ((partial_other hl (fun V => (busInjection d.Y V i).im) x (by omega)).fun_sub ((gensum_deriv d x _ _ i).sub_const _)).congr_deriv ?_
      rw [gensum_zero d i (by intro g'; have := g'.2; have := g.2; omega)]; simp
    · rw [place_q hl]
      refine ((partial_other hl (fun V => (busInjection d.Y V i).im) x (by omega)).fun_sub ((gensum_deriv d x _ _ i).sub_const _)).congr_deriv ?_
      rw [gensum_one]; ring
    · rw [place_other hl _ _ _ _ hk]
      refine ((partial_other hl (fun V => (busInjection d.Y V i).im) x (by omega)).fun_sub ((gensum_deriv d x _ _ i).sub_const _)).congr_deriv ?_
      rw [gensum_zero d i (by intro g'; have := g'.2; omega)]; simp

/-- **C74** (negation): an out-of-service generator does not count in `g`, but its column of `dg` is that of a generator in service (so the hypothesis of `C74_dg`
is needed; `opf` removes such generators beforehand, property C03). -/
theorem C74_negation_offline (d : Nl nb ng nl) (hl : Layout d) (x : Nat → ℝ) (hb : d.cost.base ≠ 0) (g : Fin ng) (hoff : ¬ (d.gen g).stat > 0) :
    PartialX (fun y => d.g y (.inl (d.gen g).bus)) x (d.cost.iPg + g) 0 ∧ d.dg x (.inl (d.gen g).bus) (d.cost.iPg + g) = -1 := by
  constructor
  · have hpg := hl.pg; have hqg := hl.qg
    unfold PartialX
    have : ∀ t, d.g (Function.update x (d.cost.iPg + g) t) (.inl (d.gen g).bus) = d.g x (.inl (d.gen g).bus) := by
      intro t
      rw [(C73_mismatch d _ hb _).1, (C73_mismatch d _ hb _).1, V_update_other hl x (by omega)]
      congr 2
      unfold injection
      congr 1
      refine Finset.sum_congr rfl fun g' hg' => ?_
      have hne : g' ≠ g := by
        rintro rfl; exact hoff (Finset.mem_filter.1 hg').2.1
      have := g.2; have := g'.2
      rw [Function.update_of_ne (by intro he; exact hne (Fin.ext (by omega))), Function.update_of_ne (by omega)]
    simp only [this]
    exact hasDerivAt_const _ _
  · simp only [Nl.dg, Sum.elim_inl]
    rw [place_p hl, negCg_apply, if_pos rfl]

/-- Squared flow at one end: derivatives with respect to angles and magnitudes. -/
theorem limited_deriv (lim : Int) (f : Fin nl → Fin nb) (Y : Matrix (Fin nl) (Fin nb) ℂ) (m a : Fin nb → ℝ) (hm : ∀ b, 0 < m b) (l : Fin nl) (k : Fin nb) :
    PartialVa (fun V => limited lim f Y V l ^ 2) m a k (dAbr (flowVa lim f Y (volt m a)) (flow lim f Y (volt m a)) l k) ∧
    PartialVm (fun V => limited lim f Y V l ^ 2) m a k (dAbr (flowVm lim f Y (volt m a)) (flow lim f Y (volt m a)) l k) := by
  unfold limited flowVa flowVm flow
  split_ifs with h2 h1
  · exact C59_sq_current Y m a hm l k
  · simp only [sq_abs]
    exact C59_sq_real f Y m a hm l k
  · exact C59_sq_power f Y m a hm l k

/-- **C74**, inequalities: column `k` of `dh` is the derivative with respect to variable `k` of the squared limited quantity; the entries of `h` are that
quantity minus a constant (`C74_dh_const`). -/
theorem C74_dh (d : Nl nb ng nl) (hl : Layout d) (x : Nat → ℝ) (hm : ∀ b : Fin nb, 0 < x (d.iVm + b)) (l : Fin nl) (k : Nat) :
    PartialX (fun y => limited d.lim d.f d.Yf (d.V y) l ^ 2) x k (d.dh x (.inl l) k) ∧
    PartialX (fun y => limited d.lim d.t d.Yt (d.V y) l ^ 2) x k (d.dh x (.inr l) k) := by
  have hva := hl.va; have hvm := hl.vm
  simp only [Nl.dh, Sum.elim_inl, Sum.elim_inr]
  by_cases c1 : k < nb
  · obtain ⟨b, rfl⟩ : ∃ b : Fin nb, k = d.iVa + b := ⟨⟨k, c1⟩, by simp [hva]⟩
    rw [placeV_a hl, placeV_a hl]
    exact ⟨partial_a hl (limited_deriv d.lim d.f d.Yf (d.m x) (d.a x) hm l b).1, partial_a hl (limited_deriv d.lim d.t d.Yt (d.m x) (d.a x) hm l b).1⟩
  by_cases c2 : k < 2 * nb
  · obtain ⟨b, rfl⟩ : ∃ b : Fin nb, k = d.iVm + b := ⟨⟨k - nb, by omega⟩, by simp; omega⟩
    rw [placeV_m hl, placeV_m hl]
    exact ⟨partial_m hl (limited_deriv d.lim d.f d.Yf (d.m x) (d.a x) hm l b).2, partial_m hl (limited_deriv d.lim d.t d.Yt (d.m x) (d.a x) hm l b).2⟩
  rw [placeV_other hl _ _ (by omega), placeV_other hl _ _ (by omega)]
  exact ⟨partial_other hl (fun V => limited d.lim d.f d.Yf V l ^ 2) x (by omega), partial_other hl (fun V => limited d.lim d.t d.Yt V l ^ 2) x (by omega)⟩

/-- **C74**, inequalities: with a nonzero rating, the entries of `h` are the squared limited quantities minus the squared rating. -/
theorem C74_dh_const (d : Nl nb ng nl) (hb : d.cost.base ≠ 0) (l : Fin nl) (hr : d.rateA l ≠ 0) (y : Nat → ℝ) :
    d.h y (.inl l) = ((limited d.lim d.f d.Yf (d.V y) l ^ 2 - (d.rateA l / d.cost.base) ^ 2 : ℝ) : EReal) ∧
    d.h y (.inr l) = ((limited d.lim d.t d.Yt (d.V y) l ^ 2 - (d.rateA l / d.cost.base) ^ 2 : ℝ) : EReal) := by
  have hne : (d.rateA l / d.cost.base) ^ 2 ≠ 0 := pow_ne_zero 2 (div_ne_zero hr hb)
  simp only [Nl.h, Sum.elim_inl, Sum.elim_inr, sqFlow_eq, Nl.flowMax, hne, if_false, EReal.coe_sub, and_self]

end

end Verif.OpfNl
