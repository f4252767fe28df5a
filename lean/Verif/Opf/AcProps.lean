import Verif.Opf.AcLemmas
import Verif.Opf.DcProps
import Verif.OpfNl.HessProps

/-!
# C79, C80, C81: what a successful AC optimal power flow reports

The tables are in MW, MVAr, degrees and p.u. voltage; tolerances are those of the interior point solver (C76), converted to these units.
-/

open Matrix ComplexConjugate

namespace Verif.Opf

open Verif.OpfModel Verif.Pips Verif.Network Verif.OpfNl Verif.OpfCost Verif.Cost

variable {nb ng nl : ℕ}

/-! ### Specification -/

/-- Active power produced at bus `b` by generators in service, less demand, less what the shunt conductance draws at the voltage of the bus, less what flows into
the branches, all from a result table. -/
noncomputable def acMismatchP (d : Case nb ng nl) (PG : Fin ng → ℝ) (VM : Fin nb → ℝ) (PF PT : Fin nl → ℝ) (b : Fin nb) : ℝ :=
  ∑ g with (d.gen g).stat > 0 ∧ (d.gen g).bus = b, PG g - (d.bus b).PD - (d.bus b).GS * VM b ^ 2 -
    ∑ l with (d.branch l).f = b, PF l - ∑ l with (d.branch l).t = b, PT l

/-- Reactive power likewise; the shunt susceptance injects. -/
noncomputable def acMismatchQ (d : Case nb ng nl) (QG : Fin ng → ℝ) (VM : Fin nb → ℝ) (QF QT : Fin nl → ℝ) (b : Fin nb) : ℝ :=
  ∑ g with (d.gen g).stat > 0 ∧ (d.gen g).bus = b, QG g - (d.bus b).QD + (d.bus b).BS * VM b ^ 2 -
    ∑ l with (d.branch l).f = b, QF l - ∑ l with (d.branch l).t = b, QT l

/-- The voltage phasors of a result table. -/
noncomputable def phasor (VM VA : Fin nb → ℝ) (b : Fin nb) : ℂ := (VM b : ℂ) * Complex.exp (Complex.I * ((VA b * (Real.pi / 180) : ℝ) : ℂ))

/-! ### Lemmas -/

/-- The phasors of the table are the voltages of the optimisation point. -/
theorem phasor_eq {d : Case nb ng nl} {lim : Int} {c : AcData} {s : AcRes nb ng nl}
    (hV : ∀ b : Fin nb, s.VA b = s.x b * 180 / Real.pi ∧ s.VM b = s.x (nb + b)) : phasor s.VM s.VA = (acNl d lim c).V s.x := by
  funext b
  have hpi := Real.pi_pos
  have : s.VA b * (Real.pi / 180) = s.x (0 + b) := by
    rw [(hV b).1, zero_add]
    field_simp
  show _ * _ = _
  rw [this, (hV b).2]
  rfl

theorem mul_conj_polar (v a : ℝ) : (v : ℂ) * Complex.exp (Complex.I * a) * conj ((v : ℂ) * Complex.exp (Complex.I * a)) = ((v ^ 2 : ℝ) : ℂ) := by
  rw [Complex.mul_conj, Complex.normSq_eq_norm_sq, norm_mul, mul_comm Complex.I, Complex.norm_exp_ofReal_mul_I, mul_one, Complex.norm_real, Real.norm_eq_abs, sq_abs]

/-- The mismatches of the callback are those of the table. -/
theorem mis_table {d : Case nb ng nl} {lim : Int} {c : AcData} (hb : d.base ≠ 0) {s : AcRes nb ng nl}
    (hV : ∀ b : Fin nb, s.VA b = s.x b * 180 / Real.pi ∧ s.VM b = s.x (nb + b))
    (hG : ∀ p : Fin ng, s.PG p = s.x (2 * nb + p) * d.base ∧ s.QG p = s.x (2 * nb + ng + p) * d.base ∧ s.VG p = s.VM (d.gen p).bus)
    (hF : ∀ l, (⟨s.PF l, s.QF l⟩ : ℂ) = (acNl d lim c).V s.x (d.branch l).f * conj ((Network.Yf d.branch *ᵥ (acNl d lim c).V s.x) l) * d.base ∧
        (⟨s.PT l, s.QT l⟩ : ℂ) = (acNl d lim c).V s.x (d.branch l).t * conj ((Network.Yt d.branch *ᵥ (acNl d lim c).V s.x) l) * d.base) (b : Fin nb) :
    (acNl d lim c).mis s.x b * d.base = -(⟨acMismatchP d s.PG s.VM s.PF s.PT b, acMismatchQ d s.QG s.VM s.QF s.QT b⟩ : ℂ) := by
  have hbc : (d.base : ℂ) ≠ 0 := by exact_mod_cast hb
  rw [mis_eq (acNl d lim c) s.x hb b]
  set V := (acNl d lim c).V s.x with hVdef
  have hY : (∑ c', (acNl d lim c).Y b c' * V c') = (Ybus d.base d.bus d.branch *ᵥ V) b := rfl
  have k := (C22_kirchhoff d.base d.bus d.branch V).2.2 b
  have hvv : V b * conj (V b) = ((s.VM b ^ 2 : ℝ) : ℂ) := by
    rw [(hV b).2]; exact mul_conj_polar _ _
  have hf : ∑ l with (d.branch l).f = b, (⟨s.PF l, s.QF l⟩ : ℂ) = V b * (∑ l with (d.branch l).f = b, conj ((Network.Yf d.branch *ᵥ V) l)) * d.base := by
    rw [Finset.mul_sum, Finset.sum_mul]
    refine Finset.sum_congr rfl fun l hl => ?_
    rw [(hF l).1, (Finset.mem_filter.1 hl).2]
  have ht : ∑ l with (d.branch l).t = b, (⟨s.PT l, s.QT l⟩ : ℂ) = V b * (∑ l with (d.branch l).t = b, conj ((Network.Yt d.branch *ᵥ V) l)) * d.base := by
    rw [Finset.mul_sum, Finset.sum_mul]
    refine Finset.sum_congr rfl fun l hl => ?_
    rw [(hF l).2, (Finset.mem_filter.1 hl).2]
  have hg : injection (acNl d lim c) s.x b * d.base =
      ∑ g with (d.gen g).stat > 0 ∧ (d.gen g).bus = b, (⟨s.PG g, s.QG g⟩ : ℂ) - ((d.bus b).PD + Complex.I * (d.bus b).QD) := by
    unfold injection
    rw [sub_mul, Finset.sum_mul]
    congr 1
    · refine Finset.sum_congr rfl fun g _ => ?_
      rw [(hG g).1, (hG g).2.1]
      apply Complex.ext <;> simp [nlOf]
    · exact div_mul_cancel₀ _ hbc
  rw [hY, k, map_add, map_add, map_mul, map_div₀, map_add, map_mul, Complex.conj_ofReal, Complex.conj_ofReal, Complex.conj_ofReal, Complex.conj_I,
    map_sum, map_sum]
  have e1 : (V b * ((((d.bus b).GS : ℂ) + -Complex.I * (d.bus b).BS) / d.base * conj (V b) +
      ∑ l with (d.branch l).f = b, conj ((Network.Yf d.branch *ᵥ V) l) + ∑ l with (d.branch l).t = b, conj ((Network.Yt d.branch *ᵥ V) l)) -
        injection (acNl d lim c) s.x b) * d.base =
      (((d.bus b).GS : ℂ) + -Complex.I * (d.bus b).BS) * (V b * conj (V b)) + ∑ l with (d.branch l).f = b, (⟨s.PF l, s.QF l⟩ : ℂ) +
        ∑ l with (d.branch l).t = b, (⟨s.PT l, s.QT l⟩ : ℂ) - injection (acNl d lim c) s.x b * d.base := by
    rw [hf, ht]
    field_simp
  rw [e1, hvv, hg]
  apply Complex.ext
  · simp only [Complex.sub_re, Complex.add_re, Complex.mul_re, Complex.ofReal_re, Complex.ofReal_im, Complex.re_sum, Complex.neg_re, Complex.I_re, Complex.I_im,
      Complex.neg_im, Complex.add_im, Complex.mul_im, acMismatchP]
    ring
  · simp only [Complex.sub_im, Complex.add_re, Complex.mul_re, Complex.ofReal_re, Complex.ofReal_im, Complex.im_sum, Complex.neg_re, Complex.I_re, Complex.I_im,
      Complex.neg_im, Complex.add_im, Complex.mul_im, acMismatchQ]
    ring

/-! ### C79 -/

section
variable (d : Case nb ng nl) (extra : List Op) (m : Model) (hm : OpfModel.run (acOps d ++ extra) = some m) (g : Good (acOps d ++ extra))
  (hn : (names (nlnBlocks (acOps d ++ extra))).Nodup) (hb : 0 < d.base) (lim : Int) (c : AcData) (o : Opt) (solve : AnySolver) (x0 : Fin m.var.total → ℝ)
  (s : AcRes nb ng nl) (hs : pipsopfSolver d lim c m o solve x0 = some s)

include hm g hn hb hs

/-- **C79 (balance).**  On success the reported generation, demand, shunts and branch flows balance at every bus, active and reactive. -/
theorem C79_balance (hok : s.success = true) (b : Fin nb) :
    |acMismatchP d s.PG s.VM s.PF s.PT b| < s.tol * d.base ∧ |acMismatchQ d s.QG s.VM s.QF s.QT b| < s.tol * d.base := by
  obtain ⟨-, q, r, hq, hr, e1, -, e3, e4, -, -, -, -, -, -, -, -, eV, eG, eF, -⟩ := ac_ofSolver hm g hn hb.ne' hs
  obtain ⟨hgg, -, -, -⟩ := solved_blocks hm g hq (callbacks (acNl d lim c) m.var.total) o solve x0 r hr (by rw [← e1]; exact hok)
  have key := mis_table hb.ne' eV eG eF b
  have h1 : |((acNl d lim c).mis s.x b).re| < s.tol := by rw [e3, e4]; exact hgg (.inl b)
  have h2 : |((acNl d lim c).mis s.x b).im| < s.tol := by rw [e3, e4]; exact hgg (.inr b)
  have kr := congrArg Complex.re key
  have ki := congrArg Complex.im key
  simp only [Complex.mul_re, Complex.mul_im, Complex.ofReal_re, Complex.ofReal_im, mul_zero, sub_zero, zero_add, Complex.neg_re, Complex.neg_im] at kr ki
  constructor
  · rw [← abs_neg, ← kr, abs_mul, abs_of_pos hb]
    exact mul_lt_mul_of_pos_right h1 hb
  · rw [← abs_neg, ← ki, abs_mul, abs_of_pos hb]
    exact mul_lt_mul_of_pos_right h2 hb

/-- **C79 (flows).**  The reported flows are those of the standard branch model at the reported voltages; success or not. -/
theorem C79_flows (l : Fin nl) (hon : InService (d.branch l)) (hz : ((d.branch l).r : ℂ) + Complex.I * (d.branch l).x ≠ 0) :
    ∃ If It : ℂ, PiModel (d.branch l) (phasor s.VM s.VA (d.branch l).f) (phasor s.VM s.VA (d.branch l).t) If It ∧
      (⟨s.PF l, s.QF l⟩ : ℂ) = phasor s.VM s.VA (d.branch l).f * conj If * d.base ∧
      (⟨s.PT l, s.QT l⟩ : ℂ) = phasor s.VM s.VA (d.branch l).t * conj It * d.base := by
  obtain ⟨-, q, r, hq, hr, e1, -, e3, e4, -, -, -, -, -, -, -, -, eV, eG, eF, -⟩ := ac_ofSolver hm g hn hb.ne' hs
  rw [phasor_eq (d := d) (lim := lim) (c := c) eV]
  exact ⟨_, _, (C22_kirchhoff d.base d.bus d.branch _).1 l hon hz, (eF l).1, (eF l).2⟩

/-- **C79 (flow limits).**  On success the reported flow of every branch with a limit stays within `RATE_A` at both ends: apparent power, active power
(`OPF_FLOW_LIM` 1), or current (`OPF_FLOW_LIM` 2; then apparent power stays within `RATE_A` times the voltage at that end).  The limit is on squares. -/
theorem C79_flow_limit (hok : s.success = true) (l : Fin nl) (hl : d.rateA l ≠ 0 ∧ d.rateA l < 10 ^ 10) :
    (lim ≠ 1 → lim ≠ 2 → s.PF l ^ 2 + s.QF l ^ 2 < d.rateA l ^ 2 + s.tol * d.base ^ 2 ∧ s.PT l ^ 2 + s.QT l ^ 2 < d.rateA l ^ 2 + s.tol * d.base ^ 2) ∧
    (lim = 1 → s.PF l ^ 2 < d.rateA l ^ 2 + s.tol * d.base ^ 2 ∧ s.PT l ^ 2 < d.rateA l ^ 2 + s.tol * d.base ^ 2) ∧
    (lim = 2 → s.PF l ^ 2 + s.QF l ^ 2 ≤ s.VM (d.branch l).f ^ 2 * (d.rateA l ^ 2 + s.tol * d.base ^ 2) ∧
      s.PT l ^ 2 + s.QT l ^ 2 ≤ s.VM (d.branch l).t ^ 2 * (d.rateA l ^ 2 + s.tol * d.base ^ 2)) := by
  obtain ⟨-, q, r, hq, hr, e1, -, e3, e4, -, -, -, -, -, -, -, -, eV, eG, eF, -⟩ := ac_ofSolver hm g hn hb.ne' hs
  obtain ⟨-, hh, -, -⟩ := solved_blocks hm g hq (callbacks (acNl d lim c) m.var.total) o solve x0 r hr (by rw [← e1]; exact hok)
  obtain ⟨k, hk⟩ := List.mem_iff_get.1 ((mem_il d l).2 hl)
  have hne : (acNl d lim c).rateA k ≠ 0 := by show d.rateA (d.il.get k) ≠ 0; rw [hk]; exact hl.1
  have hcst := C74_dh_const (acNl d lim c) hb.ne' k hne s.x
  have h1 : ((acNl d lim c).h s.x (.inl k)).toReal < s.tol := by rw [e3, e4]; exact hh (.inl k)
  have h2 : ((acNl d lim c).h s.x (.inr k)).toReal < s.tol := by rw [e3, e4]; exact hh (.inr k)
  rw [hcst.1, EReal.toReal_coe] at h1
  rw [hcst.2, EReal.toReal_coe] at h2
  set V := (acNl d lim c).V s.x with hVdef
  have hrate : (acNl d lim c).rateA k / (acNl d lim c).cost.base = d.rateA l / d.base := by
    show d.rateA (d.il.get k) / d.base = _; rw [hk]
  rw [hrate] at h1 h2
  have hvv : ∀ b, ‖V b‖ ^ 2 = s.VM b ^ 2 := by
    intro b
    have := mul_conj_polar (s.x (nb + b)) (s.x (0 + b))
    have e : V b = (s.x (nb + b) : ℂ) * Complex.exp (Complex.I * (s.x (0 + b) : ℂ)) := rfl
    rw [← e, Complex.mul_conj, Complex.normSq_eq_norm_sq, ← (eV b).2] at this
    exact_mod_cast this
  have lf : limited lim (acNl d lim c).f (acNl d lim c).Yf V k = if lim = 2 then ‖(Network.Yf d.branch *ᵥ V) l‖ else
      if lim = 1 then |(V (d.branch l).f * conj ((Network.Yf d.branch *ᵥ V) l)).re| else ‖V (d.branch l).f * conj ((Network.Yf d.branch *ᵥ V) l)‖ := by
    rw [← hk]; rfl
  have lt : limited lim (acNl d lim c).t (acNl d lim c).Yt V k = if lim = 2 then ‖(Network.Yt d.branch *ᵥ V) l‖ else
      if lim = 1 then |(V (d.branch l).t * conj ((Network.Yt d.branch *ᵥ V) l)).re| else ‖V (d.branch l).t * conj ((Network.Yt d.branch *ᵥ V) l)‖ := by
    rw [← hk]; rfl
  have hlim : (acNl d lim c).lim = lim := rfl
  rw [hlim, lf] at h1
  rw [hlim, lt] at h2
  have hb2 : 0 < d.base ^ 2 := by positivity
  have scale : ∀ y : ℝ, y - (d.rateA l / d.base) ^ 2 < s.tol → y * d.base ^ 2 < d.rateA l ^ 2 + s.tol * d.base ^ 2 := by
    intro y hy
    have : (y - (d.rateA l / d.base) ^ 2) * d.base ^ 2 < s.tol * d.base ^ 2 := mul_lt_mul_of_pos_right hy hb2
    rw [sub_mul, div_pow, div_mul_cancel₀ _ hb2.ne'] at this
    linarith
  have nrm : ∀ (P Q : ℝ) (z : ℂ), (⟨P, Q⟩ : ℂ) = z * d.base → P ^ 2 + Q ^ 2 = ‖z‖ ^ 2 * d.base ^ 2 ∧ P ^ 2 = |z.re| ^ 2 * d.base ^ 2 := by
    intro P Q z h
    have hP : P = z.re * d.base := by have := congrArg Complex.re h; simpa using this
    have hQ : Q = z.im * d.base := by have := congrArg Complex.im h; simpa using this
    rw [← Complex.normSq_eq_norm_sq, Complex.normSq_apply, sq_abs, hP, hQ]
    constructor <;> ring
  obtain ⟨nf1, nf2⟩ := nrm _ _ _ (eF l).1
  obtain ⟨nt1, nt2⟩ := nrm _ _ _ (eF l).2
  refine ⟨fun a1 a2 => ?_, fun a1 => ?_, fun a2 => ?_⟩
  · rw [if_neg a2, if_neg a1] at h1 h2
    rw [nf1, nt1]
    exact ⟨scale _ h1, scale _ h2⟩
  · have a2 : lim ≠ 2 := by omega
    rw [if_neg a2, if_pos a1] at h1 h2
    rw [nf2, nt2]
    exact ⟨scale _ h1, scale _ h2⟩
  · rw [if_pos a2] at h1 h2
    have key : ∀ (b : Fin nb) (w : ℂ), ‖w‖ ^ 2 - (d.rateA l / d.base) ^ 2 < s.tol →
        ‖V b * conj w‖ ^ 2 * d.base ^ 2 ≤ s.VM b ^ 2 * (d.rateA l ^ 2 + s.tol * d.base ^ 2) := by
      intro b w hw
      rw [norm_mul, Complex.norm_conj, mul_pow, hvv, mul_assoc]
      exact mul_le_mul_of_nonneg_left (scale _ hw).le (sq_nonneg _)
    rw [nf1, nt1]
    exact ⟨key _ _ h1, key _ _ h2⟩

/-- **C79 (limits of variables).**  On success the reported dispatch and voltage magnitudes respect their limits, and `VG` is the magnitude at the
generator's bus. -/
theorem C79_limits (hok : s.success = true) :
    (∀ p, (d.pmax p / d.base < 10 ^ 10 → s.PG p < d.pmax p + s.tol * d.base) ∧ (-10 ^ 10 < d.pmin p / d.base → d.pmin p - s.tol * d.base < s.PG p)) ∧
    (∀ p, (d.qmax p / d.base < 10 ^ 10 → s.QG p < d.qmax p + s.tol * d.base) ∧ (-10 ^ 10 < d.qmin p / d.base → d.qmin p - s.tol * d.base < s.QG p)) ∧
    (∀ b, (d.vmax b < 10 ^ 10 → s.VM b < d.vmax b + s.tol) ∧ (-10 ^ 10 < d.vmin b → d.vmin b - s.tol < s.VM b)) ∧
    (∀ p, s.VG p = s.VM (d.gen p).bus) := by
  obtain ⟨-, q, r, hq, hr, e1, -, e3, e4, -, -, -, -, -, -, -, -, eV, eG, eF, -⟩ := ac_ofSolver hm g hn hb.ne' hs
  obtain ⟨-, -, hv, -⟩ := solved_blocks hm g hq (callbacks (acNl d lim c) m.var.total) o solve x0 r hr (by rw [← e1]; exact hok)
  rw [← e3, ← e4] at hv
  obtain ⟨s1, s2, s3, s4, -⟩ := ac_starts d extra
  have up : ∀ (y u t : ℝ), y < u / d.base + t → y * d.base < u + t * d.base := by
    intro y u t h
    have := mul_lt_mul_of_pos_right h hb
    rwa [add_mul, div_mul_cancel₀ _ hb.ne'] at this
  have dn : ∀ (y u t : ℝ), u / d.base - t < y → u - t * d.base < y * d.base := by
    intro y u t h
    have := mul_lt_mul_of_pos_right h hb
    rwa [sub_mul, div_mul_cancel₀ _ hb.ne'] at this
  refine ⟨fun p => ?_, fun p => ?_, fun b => ?_, fun p => (eG p).2.2⟩
  · have h1 := hv ("Pg", _) (by rw [ac_varVals]; exact List.mem_cons_of_mem _ (List.mem_cons_of_mem _ List.mem_cons_self)) p p.isLt
    rw [varLo_vec _ _ _ _ p.isLt, varHi_vec _ _ _ _ p.isLt, s3] at h1
    rw [(eG p).1]
    exact ⟨fun hu => up _ _ _ (within_upper h1 hu), fun hl => dn _ _ _ (within_lower h1 hl)⟩
  · have h1 := hv ("Qg", _) (by rw [ac_varVals]; exact List.mem_cons_of_mem _ (List.mem_cons_of_mem _ (List.mem_cons_of_mem _ List.mem_cons_self))) p p.isLt
    rw [varLo_vec _ _ _ _ p.isLt, varHi_vec _ _ _ _ p.isLt, s4] at h1
    rw [(eG p).2.1]
    exact ⟨fun hu => up _ _ _ (within_upper h1 hu), fun hl => dn _ _ _ (within_lower h1 hl)⟩
  · have h1 := hv ("Vm", _) (by rw [ac_varVals]; exact List.mem_cons_of_mem _ List.mem_cons_self) b b.isLt
    rw [varLo_vec _ _ _ _ b.isLt, varHi_vec _ _ _ _ b.isLt, s2] at h1
    rw [(eV b).2]
    exact ⟨fun hu => within_upper h1 hu, fun hl => within_lower h1 hl⟩

/-- **C79 (angle reference).**  On success the angle of every reference bus is the one given in the case. -/
theorem C79_reference (hok : s.success = true) (b : Fin nb) (hr : d.isRef b = true) : |s.VA b - d.va b| < s.tol * (180 / Real.pi) := by
  obtain ⟨-, q, r, hq, hr', e1, -, e3, e4, -, -, -, -, -, -, -, -, eV, eG, eF, -⟩ := ac_ofSolver hm g hn hb.ne' hs
  obtain ⟨-, -, hv, -⟩ := solved_blocks hm g hq (callbacks (acNl d lim c) m.var.total) o solve x0 r hr' (by rw [← e1]; exact hok)
  rw [← e3, ← e4] at hv
  have hmem : ("Va", (⟨nb, some (vec d.vaRad), some d.val, some d.vau⟩ : VarVals)) ∈ varVals (acOps d ++ extra) := by
    rw [ac_varVals]; exact List.mem_cons_self
  have h1 := hv _ hmem b b.isLt
  have hsane := g.varSane _ hmem b b.isLt
  rw [varLo_val _ _ _ _ b.isLt, varHi_vau _ _ _ _ b.isLt] at h1 hsane
  simp only [Fin.eta, hr, if_true] at h1 hsane
  rw [(ac_starts d extra).1, zero_add] at h1
  have hE := hsane.2.2.2 ⟨_, _, rfl, rfl, by simp⟩
  rw [EReal.coe_lt_coe_iff, EReal.coe_lt_coe_iff] at hE
  have hu := within_upper h1 hE.2
  have hl := within_lower h1 hE.1
  have hpi := Real.pi_pos
  have ev : s.VA b - d.va b = (s.x b - d.vaRad b) * (180 / Real.pi) := by
    rw [(eV b).1, Case.vaRad]
    field_simp
  rw [ev, abs_mul, abs_of_pos (by positivity : 0 < 180 / Real.pi)]
  refine mul_lt_mul_of_pos_right ?_ (by positivity)
  rw [abs_lt]
  constructor <;> linarith

/-- **C79 (further constraints).**  On success every further block of variables is within its bounds and every further block of linear constraints
(capability curves, power factors, angle differences, piecewise linear costs, user constraints, …) holds, at the reported point. -/
theorem C79_extra (hok : s.success = true) :
    (∀ b ∈ varVals extra, ∀ i < b.2.n,
      Within (VarVals.lo b.2 i) (VarVals.hi b.2 i) (s.x (start (varBlocks (acOps d ++ extra)) b.1 + i)) s.tol) ∧
    (∀ b ∈ linBlks extra, ∀ i < b.2.A.rows, Within (LinBlk.lo b.2 i) (LinBlk.hi b.2 i)
      (rowDot b.2.A i (subvec (varBlocks (acOps d ++ extra)) s.x (eff (varBlocks (acOps d ++ extra)) b.2.vs))) s.tol) ∧
    (∀ b : Fin nb, s.VA b = s.x (start (varBlocks (acOps d ++ extra)) "Va" + b) * (180 / Real.pi) ∧
      s.VM b = s.x (start (varBlocks (acOps d ++ extra)) "Vm" + b)) ∧
    (∀ p : Fin ng, s.PG p = s.x (start (varBlocks (acOps d ++ extra)) "Pg" + p) * d.base ∧
      s.QG p = s.x (start (varBlocks (acOps d ++ extra)) "Qg" + p) * d.base) := by
  obtain ⟨-, q, r, hq, hr, e1, -, e3, e4, -, -, -, -, -, -, -, -, eV, eG, eF, -⟩ := ac_ofSolver hm g hn hb.ne' hs
  obtain ⟨-, -, hv, hl⟩ := solved_blocks hm g hq (callbacks (acNl d lim c) m.var.total) o solve x0 r hr (by rw [← e1]; exact hok)
  rw [← e3, ← e4] at hv hl
  obtain ⟨s1, s2, s3, s4, -⟩ := ac_starts d extra
  refine ⟨fun b hb' => hv b ?_, fun b hb' => hl b ?_, fun b => ⟨?_, ?_⟩, fun p => ⟨?_, ?_⟩⟩
  · rw [ac_varVals]; simp [hb']
  · rw [ac_linBlks]; exact hb'
  · rw [(eV b).1, s1, zero_add, mul_div_assoc]
  · rw [(eV b).2, s2]
  · rw [(eG p).1, s3]
  · rw [(eG p).2.1, s4]

/-- **C79 (cost).**  The reported objective is the total cost at the reported point -- polynomial costs at the reported dispatch, piecewise linear cost variables,
user costs -- in the cases in which `opf_costfcn` computes it (C19); success or not. -/
theorem C79_cost (hc : 0 < o.costMult) (hA : AcOk (acNl d lim c).cost)
    (hp : (∃ i, i ≠ 0 ∧ i < c.gencost.length ∧ (c.row i).model = 2) ∨ ∀ i, i < c.gencost.length → (c.row i).model ≠ 2) :
    s.f = (acNl d lim c).cost.total s.x ∧
    ∀ p : Fin ng, (acNl d lim c).cost.rowCost s.x p = if (c.row p).model = 2 then (rowPoly (c.row p)).eval (s.PG p) else 0 := by
  obtain ⟨-, q, r, hq, hr, e1, e2, e3, e4, -, -, -, -, -, -, -, -, eV, eG, eF, -⟩ := ac_ofSolver hm g hn hb.ne' hs
  have h1 := C76_objective (callbacks (acNl d lim c) m.var.total) q o (solve _ _) x0 hc r hr
  have h2 := C19_value_partial (acNl d lim c).cost hA s.x hp
  constructor
  · rw [e2, h1]
    show ((acNl d lim c).cost.f (pad r.x)).getD 0 = _
    rw [← e3, h2]; rfl
  · intro p
    unfold AcData.rowCost AcData.pos
    have hlt : (p : ℕ) < (acNl d lim c).cost.ng := p.isLt
    rw [if_pos hlt, (eG p).1, mul_comm]
    rfl

end

/-! ### C80: prices

The optimisation point `x` of a result (its first four blocks are the tables, `C79_extra`) is the vector of the variables; `PartialX F x k D` says that `D` is the
partial derivative of `F` with respect to variable `k`. -/

/-- Voltages of an optimisation point. -/
noncomputable def voltAt (nb : ℕ) (y : ℕ → ℝ) (b : Fin nb) : ℂ := (y (nb + b) : ℂ) * Complex.exp (Complex.I * (y b : ℂ))

/-- Complex power, in p.u., that leaves bus `b` through the network, less generation in service, plus demand. -/
noncomputable def leaving (d : Case nb ng nl) (y : ℕ → ℝ) (b : Fin nb) : ℂ :=
  voltAt nb y b * conj ((Ybus d.base d.bus d.branch *ᵥ voltAt nb y) b) -
    ((∑ g with (d.gen g).stat > 0 ∧ (d.gen g).bus = b, ((y (2 * nb + g) : ℂ) + Complex.I * (y (2 * nb + ng + g) : ℂ))) -
      ((d.bus b).PD + Complex.I * (d.bus b).QD) / d.base)

/-- What a flow limit limits at the from end (to end) of branch `l`, in p.u. -/
noncomputable def limitedF (d : Case nb ng nl) (lim : Int) (y : ℕ → ℝ) (l : Fin nl) : ℝ :=
  limited lim (fun l => (d.branch l).f) (Network.Yf d.branch) (voltAt nb y) l
noncomputable def limitedT (d : Case nb ng nl) (lim : Int) (y : ℕ → ℝ) (l : Fin nl) : ℝ :=
  limited lim (fun l => (d.branch l).t) (Network.Yt d.branch) (voltAt nb y) l

/-- Contribution of the further linear rows to the stationarity condition of variable `j`. -/
noncomputable def acExtraTerm (d : Case nb ng nl) (extra : List Op) (s : AcRes nb ng nl) (j : ℕ) : ℝ :=
  overRows (fun a y => a * y) (varBlocks (acOps d ++ extra)) (linBlocks (acOps d ++ extra)) (linBlks extra) j fun k => s.mu_u k - s.mu_l k

/-- Sum of the absolute coefficients of variable `j` in the further linear rows. -/
noncomputable def acExtraAbs (d : Case nb ng nl) (extra : List Op) (j : ℕ) : ℝ :=
  overRows (fun a _ => |a|) (varBlocks (acOps d ++ extra)) (linBlocks (acOps d ++ extra)) (linBlks extra) j 0

theorem acNl_V (d : Case nb ng nl) (lim : Int) (c : AcData) (y : ℕ → ℝ) : (acNl d lim c).V y = voltAt nb y := by
  funext b
  show _ * _ = _ * _
  simp [nlOf]

theorem acNl_g (d : Case nb ng nl) (lim : Int) (c : AcData) (hb : d.base ≠ 0) (y : ℕ → ℝ) (b : Fin nb) :
    (acNl d lim c).g y (.inl b) = (leaving d y b).re ∧ (acNl d lim c).g y (.inr b) = (leaving d y b).im := by
  have := C73_mismatch (acNl d lim c) y hb b
  rw [acNl_V] at this
  exact this

theorem acNl_limited (d : Case nb ng nl) (lim : Int) (c : AcData) (y : ℕ → ℝ) (k : Fin d.il.length) :
    limited (acNl d lim c).lim (acNl d lim c).f (acNl d lim c).Yf ((acNl d lim c).V y) k = limitedF d lim y (d.il.get k) ∧
    limited (acNl d lim c).lim (acNl d lim c).t (acNl d lim c).Yt ((acNl d lim c).V y) k = limitedT d lim y (d.il.get k) := by
  rw [acNl_V]
  exact ⟨rfl, rfl⟩

section
variable (d : Case nb ng nl) (extra : List Op) (m : Model) (hm : OpfModel.run (acOps d ++ extra) = some m) (g : Good (acOps d ++ extra))
  (hn : (names (nlnBlocks (acOps d ++ extra))).Nodup) (hb : 0 < d.base) (lim : Int) (c : AcData) (o : Opt) (solve : AnySolver) (x0 : Fin m.var.total → ℝ)
  (s : AcRes nb ng nl) (hs : pipsopfSolver d lim c m o solve x0 = some s) (hc : 0 < o.costMult)

include hm g hn hb hs hc

/-- The stationarity condition with the entries of the callbacks' Jacobians. -/
theorem ac_stationary (hok : s.success = true) (k : ℕ) (hk : k < total (varBlocks (acOps d ++ extra))) (gr : ℕ → ℝ)
    (hgr : (acNl d lim c).cost.df s.x = some gr) :
    |gr k / d.base + ∑ b, (s.LAM_P b * (acNl d lim c).dg s.x (.inl b) k + s.LAM_Q b * (acNl d lim c).dg s.x (.inr b) k) +
        ∑ i : Fin d.il.length, (s.MU_SF (d.il.get i) * (acNl d lim c).dh s.x (.inl i) k + s.MU_ST (d.il.get i) * (acNl d lim c).dh s.x (.inr i) k) *
          (d.base / (2 * d.rateA (d.il.get i))) +
        (s.muVarU k - s.muVarL k) / d.base + acExtraTerm d extra s k / d.base| ≤
      (o.gradtol * (1 + s.dual) +
        1 / 10 ^ 5 * (∑ i : Fin d.il.length, (|(acNl d lim c).dh s.x (.inl i) k| + |(acNl d lim c).dh s.x (.inr i) k|) + 2 * (1 + acExtraAbs d extra k))) /
          o.costMult / d.base := by
  obtain ⟨-, q, r, hq, hr, e1, e2, e3, e4, e5, el, eu, eml, emu, eL, eS, -, eV, eG, eF, -⟩ := ac_ofSolver hm g hn hb.ne' hs
  obtain ⟨q', hq', ht, hA, hv, hl, hqok⟩ := linearOf_spec hm g
  rw [hq] at hq'; cases hq'
  have hlt : k < m.var.total := by rw [ht]; exact hk
  have st := C76_stationary (callbacks (acNl d lim c) m.var.total) q o (solve _ _) x0 hqok hc r hr (by rw [← e1]; exact hok) ⟨k, hlt⟩
  rw [linearOf_column hm g hq (fun a y => a * y) _ hk fun k => r.mu_u k - r.mu_l k, linearOf_column hm g hq (fun a _ => |a|) _ hk 0, ac_linBlks] at st
  have d1 : (callbacks (acNl d lim c) m.var.total).df r.x ⟨k, hlt⟩ = gr k := by
    show ((acNl d lim c).cost.df (pad r.x)).getD 0 k = gr k
    rw [← e3, hgr]; rfl
  have d2 : ∀ e, (callbacks (acNl d lim c) m.var.total).dg r.x ⟨k, hlt⟩ e = (acNl d lim c).dg s.x e k := by
    intro e; rw [e3]; rfl
  have d3 : ∀ e, (callbacks (acNl d lim c) m.var.total).dh r.x ⟨k, hlt⟩ e = (acNl d lim c).dh s.x e k := by
    intro e; rw [e3]; rfl
  rw [d1] at st
  simp only [d2, d3, Fintype.sum_sum_type] at st
  have k1 : ∑ b, (s.LAM_P b * (acNl d lim c).dg s.x (.inl b) k + s.LAM_Q b * (acNl d lim c).dg s.x (.inr b) k) =
      (∑ b, (acNl d lim c).dg s.x (.inl b) k * r.eqnonlin (.inl b) + ∑ b, (acNl d lim c).dg s.x (.inr b) k * r.eqnonlin (.inr b)) / d.base := by
    rw [← Finset.sum_add_distrib, div_eq_mul_inv, Finset.sum_mul]
    exact Finset.sum_congr rfl fun b _ => by rw [(eL b).1, (eL b).2]; ring
  have k2 : ∑ i : Fin d.il.length, (s.MU_SF (d.il.get i) * (acNl d lim c).dh s.x (.inl i) k + s.MU_ST (d.il.get i) * (acNl d lim c).dh s.x (.inr i) k) *
          (d.base / (2 * d.rateA (d.il.get i))) =
      (∑ i, (acNl d lim c).dh s.x (.inl i) k * r.ineqnonlin (.inl i) + ∑ i, (acNl d lim c).dh s.x (.inr i) k * r.ineqnonlin (.inr i)) / d.base := by
    rw [← Finset.sum_add_distrib, div_eq_mul_inv, Finset.sum_mul]
    refine Finset.sum_congr rfl fun i _ => ?_
    have hr0 : d.rateA (d.il.get i) ≠ 0 := ((mem_il d _).1 (List.get_mem d.il i)).1
    rw [(eS i).1, (eS i).2]
    field_simp [hr0, hb.ne']
  have key : gr k / d.base + ∑ b, (s.LAM_P b * (acNl d lim c).dg s.x (.inl b) k + s.LAM_Q b * (acNl d lim c).dg s.x (.inr b) k) +
        ∑ i : Fin d.il.length, (s.MU_SF (d.il.get i) * (acNl d lim c).dh s.x (.inl i) k + s.MU_ST (d.il.get i) * (acNl d lim c).dh s.x (.inr i) k) *
          (d.base / (2 * d.rateA (d.il.get i))) +
        (s.muVarU k - s.muVarL k) / d.base + acExtraTerm d extra s k / d.base =
      (gr k + (∑ b, (acNl d lim c).dg s.x (.inl b) k * r.eqnonlin (.inl b) + ∑ b, (acNl d lim c).dg s.x (.inr b) k * r.eqnonlin (.inr b)) +
        (∑ i, (acNl d lim c).dh s.x (.inl i) k * r.ineqnonlin (.inl i) + ∑ i, (acNl d lim c).dh s.x (.inr i) k * r.ineqnonlin (.inr i)) +
        (r.upper k - r.lower k) + acExtraTerm d extra s k) / d.base := by
    rw [k1, k2, el, eu]
    ring
  rw [key, abs_div, abs_of_pos hb, acExtraTerm, eml, emu, e5, Finset.sum_add_distrib]
  exact div_le_div_of_nonneg_right st hb.le

/-- **C80 (price of a generator).**  On success the gradient entry of every generator's active (reactive) output, in money per MW (MVAr), equals the price `LAM_P`
(`LAM_Q`) at its bus, less the shadow price of its upper limit plus that of its lower limit (and the contribution of further linear constraints on it). -/
theorem C80_generator_price (hok : s.success = true) (p : Fin ng) (gr : ℕ → ℝ) (hgr : (acNl d lim c).cost.df s.x = some gr) :
    |gr (2 * nb + p) / d.base - (s.LAM_P (d.gen p).bus - s.MU_PMAX p + s.MU_PMIN p) + acExtraTerm d extra s (2 * nb + p) / d.base| ≤
      (o.gradtol * (1 + s.dual) + 1 / 10 ^ 5 * (2 * (1 + acExtraAbs d extra (2 * nb + p)))) / o.costMult / d.base ∧
    |gr (2 * nb + ng + p) / d.base - (s.LAM_Q (d.gen p).bus - s.MU_QMAX p + s.MU_QMIN p) + acExtraTerm d extra s (2 * nb + ng + p) / d.base| ≤
      (o.gradtol * (1 + s.dual) + 1 / 10 ^ 5 * (2 * (1 + acExtraAbs d extra (2 * nb + ng + p)))) / o.costMult / d.base := by
  obtain ⟨-, q, r, hq, hr, -, -, -, -, -, -, -, -, -, -, -, -, -, -, -, -, eP, eQ, -⟩ := ac_ofSolver hm g hn hb.ne' hs
  have hL := acNl_layout d lim c
  have htot : 2 * nb + ng + (p : ℕ) < total (varBlocks (acOps d ++ extra)) := by
    have := p.isLt
    rw [ac_varBlocks, total_cons, total_cons, total_cons, total_cons]; simp only; omega
  have gP : ∀ b, (acNl d lim c).dg s.x (.inl b) (2 * nb + p) = if (d.gen p).bus = b then -1 else 0 := by
    intro b
    have := place_p hL (fun b' => (Derivs.dSbus_dVa (acNl d lim c).Y ((acNl d lim c).V s.x) b b').re)
      (fun b' => (Derivs.dSbus_dVm (acNl d lim c).Y ((acNl d lim c).V s.x) b b').re) ((acNl d lim c).negCg b) 0 p
    rw [negCg_apply] at this
    exact this
  have gP' : ∀ b, (acNl d lim c).dg s.x (.inr b) (2 * nb + p) = 0 := fun b =>
    place_p hL (fun b' => (Derivs.dSbus_dVa (acNl d lim c).Y ((acNl d lim c).V s.x) b b').im)
      (fun b' => (Derivs.dSbus_dVm (acNl d lim c).Y ((acNl d lim c).V s.x) b b').im) 0 ((acNl d lim c).negCg b) p
  have gQ : ∀ b, (acNl d lim c).dg s.x (.inr b) (2 * nb + ng + p) = if (d.gen p).bus = b then -1 else 0 := by
    intro b
    have := place_q hL (fun b' => (Derivs.dSbus_dVa (acNl d lim c).Y ((acNl d lim c).V s.x) b b').im)
      (fun b' => (Derivs.dSbus_dVm (acNl d lim c).Y ((acNl d lim c).V s.x) b b').im) 0 ((acNl d lim c).negCg b) p
    rw [negCg_apply] at this
    exact this
  have gQ' : ∀ b, (acNl d lim c).dg s.x (.inl b) (2 * nb + ng + p) = 0 := fun b =>
    place_q hL (fun b' => (Derivs.dSbus_dVa (acNl d lim c).Y ((acNl d lim c).V s.x) b b').re)
      (fun b' => (Derivs.dSbus_dVm (acNl d lim c).Y ((acNl d lim c).V s.x) b b').re) ((acNl d lim c).negCg b) 0 p
  have hz : ∀ i (j : ℕ), 2 * nb ≤ j → (acNl d lim c).dh s.x i j = 0 := by
    intro i j hj
    rcases i with i | i <;> exact placeV_other hL _ _ hj
  have s1 := ac_stationary d extra m hm g hn hb lim c o solve x0 s hs hc hok (2 * nb + p) (by omega) gr hgr
  have s2 := ac_stationary d extra m hm g hn hb lim c o solve x0 s hs hc hok (2 * nb + ng + p) htot gr hgr
  simp only [gP, gP', gQ, gQ', hz _ _ (show 2 * nb ≤ 2 * nb + (p : ℕ) by omega), hz _ _ (show 2 * nb ≤ 2 * nb + ng + (p : ℕ) by omega), mul_ite, mul_neg, mul_one,
    mul_zero, add_zero, zero_add, Finset.sum_ite_eq, Finset.mem_univ, if_true, zero_mul, Finset.sum_const_zero, abs_zero] at s1 s2
  constructor
  · refine le_trans (le_of_eq ?_) s1
    rw [(eP p).1, (eP p).2]
    congr 1
    ring
  · refine le_trans (le_of_eq ?_) s2
    rw [(eQ p).1, (eQ p).2]
    congr 1
    ring

/-- **C80 (price of a generator with a polynomial cost).**  On success the marginal cost of the generator at its reported output is the price at its bus, less
the shadow price of `PMAX` plus that of `PMIN` (without user costs; up to further linear constraints). -/
theorem C80_polynomial_price (hok : s.success = true) (hA : AcOk (acNl d lim c).cost) (hlen : c.gencost.length = ng) (huser : c.user = false)
    (hy : 2 * nb + 2 * ng ≤ c.iy) (p : Fin ng) (hp : (c.row p).model = 2) :
    |(rowPoly (c.row p)).derivative.eval (s.PG p) - (s.LAM_P (d.gen p).bus - s.MU_PMAX p + s.MU_PMIN p) + acExtraTerm d extra s (2 * nb + p) / d.base| ≤
      (o.gradtol * (1 + s.dual) + 1 / 10 ^ 5 * (2 * (1 + acExtraAbs d extra (2 * nb + p)))) / o.costMult / d.base := by
  obtain ⟨-, q, r, hq, hr, -, -, -, -, -, -, -, -, -, -, -, -, eV, eG, -⟩ := ac_ofSolver hm g hn hb.ne' hs
  obtain ⟨v, hv, hget⟩ := dPgQg_spec (acNl d lim c).cost hA s.x (Or.inr ⟨p, by have := p.isLt; show (p : ℕ) < c.gencost.length; omega, hp⟩)
  have hdf : (acNl d lim c).cost.df s.x = some fun j => (acNl d lim c).cost.place v j + (acNl d lim c).cost.ccost j +
      (if (acNl d lim c).cost.user then AAHwC (acNl d lim c).cost.P s.x j else 0) := by
    unfold AcData.df; rw [hv]; rfl
  have := (C80_generator_price d extra m hm g hn hb lim c o solve x0 s hs hc hok p _ hdf).1
  beta_reduce at this
  have hplt := p.isLt
  have u0 : (acNl d lim c).cost.user = false := huser
  have c0 : (acNl d lim c).cost.ccost (2 * nb + p) = 0 := by
    unfold AcData.ccost
    rw [if_neg]
    rintro ⟨h1, -⟩
    have : c.iy ≤ 2 * nb + p := h1
    omega
  have p0 : (acNl d lim c).cost.place v (2 * nb + p) = d.base * (rowPoly (c.row p)).derivative.eval (s.PG p) := by
    have e : (acNl d lim c).cost.place v (2 * nb + p) = v.getD p 0 := by
      unfold AcData.place
      have q1 : ¬((acNl d lim c).cost.iQg ≤ 2 * nb + (p : ℕ) ∧ 2 * nb + (p : ℕ) < (acNl d lim c).cost.iQg + (acNl d lim c).cost.ng) := by
        rintro ⟨h1, -⟩
        have : 2 * nb + ng ≤ 2 * nb + (p : ℕ) := h1
        omega
      have q2 : (acNl d lim c).cost.iPg ≤ 2 * nb + (p : ℕ) ∧ 2 * nb + (p : ℕ) < (acNl d lim c).cost.iPg + (acNl d lim c).cost.ng := by
        show 2 * nb ≤ 2 * nb + (p : ℕ) ∧ 2 * nb + (p : ℕ) < 2 * nb + ng
        omega
      rw [if_neg q1, if_pos q2]
      show v.getD (2 * nb + (p : ℕ) - 2 * nb) 0 = _
      rw [show 2 * nb + (p : ℕ) - 2 * nb = p by omega]
    have hp2 : (p : ℕ) < 2 * (acNl d lim c).cost.ng := by show (p : ℕ) < 2 * ng; omega
    have hp3 : (p : ℕ) < (acNl d lim c).cost.gencost.length ∧ ((acNl d lim c).cost.row p).model = 2 := ⟨by show (p : ℕ) < c.gencost.length; omega, hp⟩
    rw [e, hget p hp2, if_pos hp3]
    have hpos : (acNl d lim c).cost.pos p = 2 * nb + p := by
      unfold AcData.pos
      exact if_pos hplt
    rw [hpos, (eG p).1, mul_comm (s.x _)]
    rfl
  rw [u0, c0, p0] at this
  simp only [Bool.false_eq_true, if_false, add_zero] at this
  rwa [mul_div_cancel_left₀ _ hb.ne'] at this

/-- **C80 (prices in the network).**  On success, for every variable `k` -- an angle, a magnitude, an output, or a further one -- the marginal cost, plus the marginal
power leaving each bus times the price `LAM_P`, `LAM_Q` there, plus the marginal flow at each end of each limited branch times its shadow price `MU_SF`, `MU_ST`, plus
the shadow price of the variable's own bounds and of further linear constraints, vanishes up to the tolerance.  Limits are on squared flows: `D(F²) / (2 RATE_A)` is
the marginal flow when the limit is reached.  All derivatives are derivatives of the physical quantities, not the entries the callbacks return. -/
theorem C80_network_prices (hok : s.success = true) (hA : AcOk (acNl d lim c).cost) (hnx : c.P.nx = m.var.total)
    (hkind : c.kind ≠ .pyFloat ∨ ∃ i, i < c.gencost.length ∧ (c.row i).model = 2)
    (hu : c.user = true → (∀ i, i < c.P.nw → 0 ≤ c.P.kk i) ∧ (∀ i, i < c.P.nw → c.P.kk i = 0 ∨ |c.P.r s.x i| ≠ c.P.kk i) ∧
      ∀ a b, a < c.P.nw → b < c.P.nw → c.P.H a b = c.P.H b a)
    (hVM : ∀ b, 0 < s.VM b) (hon : ∀ p, (d.gen p).stat > 0) (k : ℕ) (hk : k < m.var.total) :
    ∃ (dc : ℝ) (dP dQ : Fin nb → ℝ) (dF dT : Fin nl → ℝ), PartialX (acNl d lim c).cost.total s.x k dc ∧
      (∀ b, PartialX (fun y => (leaving d y b).re) s.x k (dP b) ∧ PartialX (fun y => (leaving d y b).im) s.x k (dQ b)) ∧
      (∀ l, d.rateA l ≠ 0 ∧ d.rateA l < 10 ^ 10 →
        PartialX (fun y => limitedF d lim y l ^ 2) s.x k (dF l) ∧ PartialX (fun y => limitedT d lim y l ^ 2) s.x k (dT l)) ∧
      |dc / d.base + ∑ b, (s.LAM_P b * dP b + s.LAM_Q b * dQ b) +
          ∑ l with d.rateA l ≠ 0 ∧ d.rateA l < 10 ^ 10, (s.MU_SF l * dF l + s.MU_ST l * dT l) * (d.base / (2 * d.rateA l)) +
          (s.muVarU k - s.muVarL k) / d.base + acExtraTerm d extra s k / d.base| ≤
        (o.gradtol * (1 + s.dual) + 1 / 10 ^ 5 * (∑ l with d.rateA l ≠ 0 ∧ d.rateA l < 10 ^ 10, (|dF l| + |dT l|) + 2 * (1 + acExtraAbs d extra k))) /
          o.costMult / d.base := by
  obtain ⟨-, q, r, hq, hr, -, -, -, -, -, -, -, -, -, -, -, -, eV, -⟩ := ac_ofSolver hm g hn hb.ne' hs
  obtain ⟨q', hq', ht, -⟩ := linearOf_spec hm g
  obtain ⟨gr, hgr, -⟩ := C19_gradient (acNl d lim c).cost hA s.x hkind hu
  have st := ac_stationary d extra m hm g hn hb lim c o solve x0 s hs hc hok k (by rw [← ht]; exact hk) gr hgr
  have hL := acNl_layout d lim c
  have hVM' : ∀ b : Fin nb, 0 < s.x ((acNl d lim c).iVm + b) := fun b => by have := hVM b; rw [(eV b).2] at this; exact this
  have hset : ∀ F : Fin nl → ℝ, ∑ i : Fin d.il.length, F (d.il.get i) = ∑ l with d.rateA l ≠ 0 ∧ d.rateA l < 10 ^ 10, F l := by
    intro F
    have := sum_il d fun l _ => F l
    beta_reduce at this
    rw [this, ← Finset.sum_filter]
    exact Finset.sum_congr (Finset.filter_congr fun l _ => mem_il d l) fun _ _ => rfl
  let dF : Fin nl → ℝ := fun l => if h : d.il.idxOf l < d.il.length then (acNl d lim c).dh s.x (.inl ⟨_, h⟩) k else 0
  let dT : Fin nl → ℝ := fun l => if h : d.il.idxOf l < d.il.length then (acNl d lim c).dh s.x (.inr ⟨_, h⟩) k else 0
  have idx : ∀ i : Fin d.il.length, d.il.idxOf (d.il.get i) = i := fun i => List.get_idxOf (il_nodup d) i
  have hdF : ∀ i : Fin d.il.length, dF (d.il.get i) = (acNl d lim c).dh s.x (.inl i) k := by
    intro i
    simp only [dF]
    rw [dif_pos (by rw [idx]; exact i.isLt)]
    congr 2
    exact Fin.ext (idx i)
  have hdT : ∀ i : Fin d.il.length, dT (d.il.get i) = (acNl d lim c).dh s.x (.inr i) k := by
    intro i
    simp only [dT]
    rw [dif_pos (by rw [idx]; exact i.isLt)]
    congr 2
    exact Fin.ext (idx i)
  refine ⟨gr k, fun b => (acNl d lim c).dg s.x (.inl b) k, fun b => (acNl d lim c).dg s.x (.inr b) k, dF, dT, ?_, ?_, ?_, ?_⟩
  · exact total_partial (acNl d lim c).cost hA s.x hgr hkind hu (by show k < c.P.nx; omega)
  · intro b
    have h1 := C74_dg (acNl d lim c) hL s.x hb.ne' hVM' hon (.inl b) k
    have h2 := C74_dg (acNl d lim c) hL s.x hb.ne' hVM' hon (.inr b) k
    simp only [(acNl_g d lim c hb.ne' _ b).1] at h1
    simp only [(acNl_g d lim c hb.ne' _ b).2] at h2
    exact ⟨h1, h2⟩
  · intro l hl
    obtain ⟨i, hi⟩ := List.mem_iff_get.1 ((mem_il d l).2 hl)
    have := C74_dh (acNl d lim c) hL s.x hVM' i k
    simp only [(acNl_limited d lim c _ i).1, (acNl_limited d lim c _ i).2] at this
    rw [← hi, hdF, hdT]
    exact this
  · simp only [← hdF, ← hdT] at st
    rw [hset fun l => (s.MU_SF l * dF l + s.MU_ST l * dT l) * (d.base / (2 * d.rateA l)), hset fun l => |dF l| + |dT l|] at st
    exact st

/-- **C80 (shadow prices).**  Success or not: those of limits are never negative; the tables show those of the variables' own bounds, and an angle that is not a
reference has none; those of branches without a limit are zero; `results["mu"]["nln"]` splits the prices in MW into nonnegative parts. -/
theorem C80_signs (hrate : ∀ l, 0 ≤ d.rateA l) :
    (∀ p, 0 ≤ s.MU_PMIN p ∧ 0 ≤ s.MU_PMAX p ∧ 0 ≤ s.MU_QMIN p ∧ 0 ≤ s.MU_QMAX p) ∧ (∀ b, 0 ≤ s.MU_VMIN b ∧ 0 ≤ s.MU_VMAX b) ∧
    (∀ l, 0 ≤ s.MU_SF l ∧ 0 ≤ s.MU_ST l) ∧ (∀ l, d.rateA l = 0 ∨ 10 ^ 10 ≤ d.rateA l → s.MU_SF l = 0 ∧ s.MU_ST l = 0) ∧
    (∀ b, s.MU_VMIN b = s.muVarL (nb + b) ∧ s.MU_VMAX b = s.muVarU (nb + b)) ∧
    (∀ p, s.MU_PMIN p = s.muVarL (2 * nb + p) / d.base ∧ s.MU_PMAX p = s.muVarU (2 * nb + p) / d.base ∧
      s.MU_QMIN p = s.muVarL (2 * nb + ng + p) / d.base ∧ s.MU_QMAX p = s.muVarU (2 * nb + ng + p) / d.base) ∧
    (∀ b : Fin nb, d.isRef b = false → s.muVarL b = 0 ∧ s.muVarU b = 0) ∧
    (∀ b : Fin nb, (s.muNlnU b - s.muNlnL b = s.LAM_P b * d.base ∧ 0 ≤ s.muNlnU b ∧ 0 ≤ s.muNlnL b) ∧
      s.muNlnU (nb + b) - s.muNlnL (nb + b) = s.LAM_Q b * d.base ∧ 0 ≤ s.muNlnU (nb + b) ∧ 0 ≤ s.muNlnL (nb + b)) ∧
    (∀ l : Fin nl, s.muNlnU (2 * nb + l) = s.MU_SF l * d.base ∧ s.muNlnU (2 * nb + nl + l) = s.MU_ST l * d.base ∧
      s.muNlnL (2 * nb + l) = 0 ∧ s.muNlnL (2 * nb + nl + l) = 0) := by
  obtain ⟨-, q, r, hq, hr, e1, e2, e3, e4, e5, el, eu, eml, emu, eL, eS, eS0, eV, eG, eF, eVm, eP, eQ, eNl, eNu⟩ := ac_ofSolver hm g hn hb.ne' hs
  obtain ⟨q', hq', ht, hA, hv, hl, hqok⟩ := linearOf_spec hm g
  rw [hq] at hq'; cases hq'
  obtain ⟨sg1, sg⟩ := C76_signs (callbacks (acNl d lim c) m.var.total) q o (solve _ _) x0 hqok hc r hr
  obtain ⟨ab1, -⟩ := C76_absent (callbacks (acNl d lim c) m.var.total) q o (solve _ _) x0 hqok r hr
  have flatz : ∀ j, 2 * nb ≤ j → flat r.eqnonlin j = 0 := by
    intro j hj
    unfold flat pad
    by_cases h0 : j < nb
    · omega
    · rw [if_neg h0, dif_neg (by omega)]
  have split : ∀ (j : ℕ) (v : ℝ), flat r.eqnonlin j = v → j < 2 * nb → s.muNlnU j - s.muNlnL j = v ∧ 0 ≤ s.muNlnU j ∧ 0 ≤ s.muNlnL j := by
    intro j v hvj hj
    rw [eNu, eNl, hvj, if_pos hj]
    rcases lt_trichotomy v 0 with h | h | h
    · rw [if_neg (not_lt.2 h.le), if_pos h]; exact ⟨by ring, le_rfl, by linarith⟩
    · subst h; simp
    · rw [if_pos h, if_neg (not_lt.2 h.le)]; exact ⟨by ring, h.le, le_rfl⟩
  refine ⟨fun p => ?_, fun b => ?_, fun l => ?_, fun l h => ?_, fun b => ⟨(eVm b).2, (eVm b).1⟩, fun p => ⟨(eP p).2, (eP p).1, (eQ p).2, (eQ p).1⟩, fun b hbr => ?_,
    fun b => ?_, fun l => ?_⟩
  · rw [(eP p).1, (eP p).2, (eQ p).1, (eQ p).2, el, eu]
    exact ⟨div_nonneg (sg _).1 hb.le, div_nonneg (sg _).2.1 hb.le, div_nonneg (sg _).1 hb.le, div_nonneg (sg _).2.1 hb.le⟩
  · rw [(eVm b).1, (eVm b).2, el, eu]
    exact ⟨(sg _).1, (sg _).2.1⟩
  · by_cases h : l ∈ d.il
    · obtain ⟨i, rfl⟩ := List.mem_iff_get.1 h
      rw [(eS i).1, (eS i).2]
      have h0 := hrate (d.il.get i)
      have h1 := sg1 (.inl i)
      have h2 := sg1 (.inr i)
      constructor <;> positivity
    · rw [(eS0 l h).1, (eS0 l h).2]; exact ⟨le_rfl, le_rfl⟩
  · refine eS0 l fun hmem => ?_
    have := (mem_il d l).1 hmem
    rcases h with h | h
    · exact this.1 h
    · exact absurd this.2 (not_lt.2 h)
  · have hlt : (b : ℕ) < m.var.total := by
      have := b.isLt
      rw [ht, ac_varBlocks, total_cons]; simp only; omega
    have hva := hv ("Va", _) (by rw [ac_varVals]; exact List.mem_cons_self) b b.isLt
    rw [(ac_starts d extra).1, zero_add, varLo_val _ _ _ _ b.isLt, varHi_vau _ _ _ _ b.isLt] at hva
    simp only [Fin.eta, hbr, Bool.false_eq_true, if_false] at hva
    rw [el, eu]
    exact ⟨(ab1 b hlt).1 (by rw [hva.1]; exact bot_le), (ab1 b hlt).2 (by rw [hva.2]; exact le_top)⟩
  · have := b.isLt
    constructor
    · refine split b _ ?_ (by omega)
      rw [flat_inl, (eL b).1, div_mul_cancel₀ _ hb.ne']
    · refine split (nb + b) _ ?_ (by omega)
      rw [flat_inr, (eL b).2, div_mul_cancel₀ _ hb.ne']
  · have := l.isLt
    rw [eNu, eNu, eNl, eNl, flatz _ (by omega), flatz _ (by omega)]
    simp only [lt_irrefl, if_false]
    rw [if_neg (by omega), if_pos (by omega), if_neg (by omega), if_neg (by omega), show 2 * nb + (l : ℕ) - 2 * nb = l by omega,
      show 2 * nb + nl + (l : ℕ) - 2 * nb - nl = l by omega, pad_fin, pad_fin]
    exact ⟨rfl, rfl, trivial, trivial⟩

end

/-! ### Completion, non-vacuity -/

/-- A well-posed case: limits in order and finite per unit. -/
structure Case.AcOK (d : Case nb ng nl) : Prop where
  base : 0 < d.base
  p : ∀ g, d.pmin g ≤ d.pmax g ∧ Finite (d.pmin g / d.base) ∧ Finite (d.pmax g / d.base)
  q : ∀ g, d.qmin g ≤ d.qmax g ∧ Finite (d.qmin g / d.base) ∧ Finite (d.qmax g / d.base)
  v : ∀ b, d.vmin b ≤ d.vmax b ∧ Finite (d.vmin b) ∧ Finite (d.vmax b)
  va : ∀ b, Finite (d.vaRad b)

theorem Case.AcOK.good {d : Case nb ng nl} (h : d.AcOK) : Good (acOps d) ∧ (names (nlnBlocks (acOps d))).Nodup := by
  have hvv := ac_varVals d []
  have hvb := ac_varBlocks d []
  have hlb := ac_linBlks d []
  have hnb := ac_nlnBlocks d []
  rw [List.append_nil] at hvv hvb hlb hnb
  have lenL : d.val.length = nb := by simp [Case.val]
  have lenU : d.vau.length = nb := by simp [Case.vau]
  refine ⟨⟨?_, ?_, ?_, ?_, ?_, ?_⟩, ?_⟩
  · rw [hvb]; simp [names, varBlocks]
  · rw [hlb]; simp [names, linBlks]
  · rw [hvv]
    simp only [List.mem_cons, varVals, List.filterMap_nil, List.not_mem_nil, or_false, forall_eq_or_imp, forall_eq]
    exact ⟨⟨orDefault_len _ _ lenL, orDefault_len _ _ lenU⟩, ⟨orDefault_len _ _ (vec_length _), orDefault_len _ _ (vec_length _)⟩,
      ⟨orDefault_len _ _ (vec_length _), orDefault_len _ _ (vec_length _)⟩, ⟨orDefault_len _ _ (vec_length _), orDefault_len _ _ (vec_length _)⟩⟩
  · rw [hlb]; simp [linBlks]
  · rw [hvv]
    simp only [List.mem_cons, varVals, List.filterMap_nil, List.not_mem_nil, or_false, forall_eq_or_imp, forall_eq]
    refine ⟨?_, ?_, ?_, ?_⟩
    · intro i hi
      rw [varLo_val _ _ _ _ hi, varHi_vau _ _ _ _ hi]
      split_ifs
      · exact sane_real le_rfl (h.va _) (h.va _)
      · exact sane_free
    · intro i hi
      rw [varLo_vec _ _ _ _ hi, varHi_vec _ _ _ _ hi]
      exact sane_real (h.v _).1 (h.v _).2.1 (h.v _).2.2
    · intro i hi
      rw [varLo_vec _ _ _ _ hi, varHi_vec _ _ _ _ hi]
      exact sane_real (div_le_div_of_nonneg_right (h.p _).1 h.base.le) (h.p _).2.1 (h.p _).2.2
    · intro i hi
      rw [varLo_vec _ _ _ _ hi, varHi_vec _ _ _ _ hi]
      exact sane_real (div_le_div_of_nonneg_right (h.q _).1 h.base.le) (h.q _).2.1 (h.q _).2.2
  · rw [hlb]; simp [linBlks]
  · rw [hnb]; simp [names, nlnBlocks]

theorem ac_runs (d : Case nb ng nl) : ∃ m, OpfModel.run (acOps d) = some m := by
  simp only [OpfModel.run, acOps, List.foldlM_cons, List.foldlM_nil, step, Model.addVars, Idx.add, Model.init, Idx.empty]
  simp

/-- The callbacks do not raise for one (active power) cost row per generator and at least one limited branch. -/
theorem evaluable (D : Nl nb ng nl) (hl : Layout D) (hA : AcOk D.cost) (hlen : D.cost.gencost.length = ng) (hnl : nl ≠ 0)
    (hk : D.cost.kind ≠ .pyFloat ∨ ∃ i, i < D.cost.gencost.length ∧ (D.cost.row i).model = 2) : Evaluable D := by
  refine ⟨fun x => ⟨?_, ?_⟩, fun x lamP lamQ muF muT cm => ?_⟩
  · have : ∃ v, D.cost.polyPart x = some v := by
      unfold AcData.polyPart
      split_ifs
      · exact ⟨_, totcost_ipol D.cost hA x⟩
      · exact ⟨_, rfl⟩
    obtain ⟨v, hv⟩ := this
    unfold AcData.f
    rw [hv]; rfl
  · obtain ⟨v, hv, -⟩ := dPgQg_spec D.cost hA x hk
    unfold AcData.df; rw [hv]; rfl
  · obtain ⟨p, hp, -⟩ := d2fPg_spec D.cost hA (by rw [hlen, hl.ng_eq]) x hk
    have hQ : d2fQg D.cost = some () := by unfold d2fQg; rw [if_neg (by rw [hlen, hl.ng_eq]; omega)]
    unfold Nl.hess d2f
    simp only [hp, hQ, Option.bind_eq_bind, Option.bind_some, if_neg hnl]
    rfl

/-- **C81 (completes).**  For a well-posed case with one (active power) cost row per generator and at least one limited branch, the model can be built and
`pipsopf_solver` returns tables, whatever the options, starting point and linear solver. -/
theorem C81_completes_partial (d : Case nb ng nl) (h : d.AcOK) (lim : Int) (c : AcData) (hA : AcOk (acNl d lim c).cost) (hlen : c.gencost.length = ng)
    (hk : c.kind ≠ .pyFloat ∨ ∃ i, i < c.gencost.length ∧ (c.row i).model = 2) (hl : ∃ l, d.rateA l ≠ 0 ∧ d.rateA l < 10 ^ 10) :
    ∃ m, OpfModel.run (acOps d) = some m ∧ ∀ (o : Opt) (solve : AnySolver) (x0 : Fin m.var.total → ℝ), ∃ s, pipsopfSolver d lim c m o solve x0 = some s := by
  obtain ⟨m, hm⟩ := ac_runs d
  obtain ⟨g, hn⟩ := h.good
  refine ⟨m, hm, fun o solve x0 => ?_⟩
  have hm' : OpfModel.run (acOps d ++ []) = some m := by rw [List.append_nil]; exact hm
  obtain ⟨q, hq, -, -, -, -, hok⟩ := linearOf_spec hm g
  obtain ⟨r, hr⟩ := C76_returns (callbacks (acNl d lim c) m.var.total) q o (solve _ _) x0 hok
  obtain ⟨i1, i2, i3, i4, i5, i6⟩ := ac_idx hm' (by rw [List.append_nil]; exact g) (by rw [List.append_nil]; exact hn)
  have hil : d.il.length ≠ 0 := by
    obtain ⟨l, hl⟩ := hl
    have := List.length_pos_of_mem ((mem_il d l).2 hl)
    omega
  have hE : Evaluable (acNl d lim c) := evaluable (acNl d lim c) (acNl_layout d lim c) hA hlen hil hk
  unfold pipsopfSolver
  simp only [hq, i1, i2, i3, i4, i5, i6, Option.bind_eq_bind, Option.bind_some]
  rw [if_neg (not_not.2 hE), hr]
  exact ⟨_, rfl⟩

/-- **C81 (negation).**  Without any limited branch the AC optimal power flow always raises, and so it does with reactive power cost rows. -/
theorem C81_negation (d : Case nb ng nl) (extra : List Op) (m : Model) (hm : OpfModel.run (acOps d ++ extra) = some m) (g : Good (acOps d ++ extra))
    (hn : (names (nlnBlocks (acOps d ++ extra))).Nodup) (hb : d.base ≠ 0) (lim : Int) (c : AcData) (o : Opt) (solve : AnySolver) (x0 : Fin m.var.total → ℝ)
    (hbad : (∀ l, d.rateA l = 0 ∨ 10 ^ 10 ≤ d.rateA l) ∨ (ng ≠ 0 ∧ ng < c.gencost.length)) : pipsopfSolver d lim c m o solve x0 = none := by
  by_contra hne
  obtain ⟨s, hs⟩ := Option.ne_none_iff_exists'.1 hne
  obtain ⟨hE, -⟩ := ac_ofSolver hm g hn hb hs
  have h1 := hE.2 0 0 0 0 0 0
  rcases hbad with h | ⟨h0, h⟩
  · have hil : d.il.length = 0 := by
      rw [List.length_eq_zero_iff, List.eq_nil_iff_forall_not_mem]
      intro l hl
      obtain ⟨ha, hb'⟩ := (mem_il d l).1 hl
      rcases h l with h | h
      · exact ha h
      · exact absurd hb' (not_lt.2 h)
    unfold Nl.hess at h1
    cases hd : d2f (acNl d lim c).cost 0 with
    | none => rw [hd] at h1; cases h1
    | some v => rw [hd] at h1; simp only [Option.bind_eq_bind, Option.bind_some, if_pos hil] at h1; cases h1
  · rw [C75_negation_qcost (acNl d lim c) (acNl_layout d lim c) h0 h 0 0 0 0 0 0] at h1
    cases h1

/-- Quadratic cost for the single generator of `exCase`. -/
noncomputable def exCost : AcData :=
  ⟨100, .pyFloat, 1, [⟨2, 3, [1, 2, 3, 0]⟩], 4, 5, 6, 0, false, ⟨0, 6, fun _ _ => 0, fun _ => 0, fun _ _ => 0, fun _ => 1, fun _ => 0, fun _ => 0, fun _ => 1⟩⟩

theorem exCost_ok : AcOk (acNl exCase 0 exCost).cost where
  len := by simp [exCost, nlOf]
  poly := by
    intro r hr hm
    simp only [exCost, nlOf, List.mem_cons, List.not_mem_nil, or_false] at hr
    rw [hr]
    exact ⟨rfl, by simp, by simp⟩
  hP := by simp [exCost, nlOf]
  hQ := by simp [exCost, nlOf]
  hy := by simp [exCost, nlOf]
  disj := by simp [nlOf]

theorem exCase_acok : exCase.AcOK where
  base := by norm_num [exCase]
  p := fun _ => by norm_num [exCase, Finite]
  q := fun _ => by norm_num [exCase, Finite]
  v := fun _ => by norm_num [exCase, Finite]
  va := fun _ => by norm_num [exCase, Finite, Case.vaRad]

/-- A successful run on the example, with positive voltages, its branch being limited, its first bus the reference, the generator in service with a polynomial cost. -/
example : ∃ (m : Model) (o : Opt) (s : AcRes 2 1 1) (x0 : Fin m.var.total → ℝ), OpfModel.run (acOps exCase ++ []) = some m ∧ Good (acOps exCase ++ []) ∧
    (names (nlnBlocks (acOps exCase ++ []))).Nodup ∧ 0 < exCase.base ∧ 0 < o.costMult ∧ pipsopfSolver exCase 0 exCost m o (fun _ _ _ _ => none) x0 = some s ∧
    s.success = true ∧ (∀ b, 0 < s.VM b) ∧ (exCase.rateA 0 ≠ 0 ∧ exCase.rateA 0 < 10 ^ 10) ∧ InService (exCase.branch 0) ∧ exCase.isRef 0 = true ∧
    exCase.isRef 1 = false ∧ AcOk (acNl exCase 0 exCost).cost ∧ exCost.P.nx = m.var.total ∧ (exCost.row 0).model = 2 := by
  have hl : ∃ l, exCase.rateA l ≠ 0 ∧ exCase.rateA l < 10 ^ 10 := ⟨0, by norm_num [exCase]⟩
  obtain ⟨m, hm, hall⟩ := C81_completes_partial exCase exCase_acok 0 exCost exCost_ok rfl (Or.inr ⟨0, by simp [exCost], rfl⟩) hl
  obtain ⟨g, hn⟩ := exCase_acok.good
  obtain ⟨q, hq, ht, -, -, -, hok⟩ := linearOf_spec hm g
  obtain ⟨o, h1, -, h2⟩ := exists_success_at (problem (callbacks (acNl exCase 0 exCost) m.var.total) q) fun _ => 1
  obtain ⟨s, hs⟩ := hall o (fun _ _ _ _ => none) fun _ => 1
  have hm' : OpfModel.run (acOps exCase ++ []) = some m := by rw [List.append_nil]; exact hm
  have g' : Good (acOps exCase ++ []) := by rw [List.append_nil]; exact g
  have n' : (names (nlnBlocks (acOps exCase ++ []))).Nodup := by rw [List.append_nil]; exact hn
  have htot : m.var.total = 6 := by
    have := ac_varBlocks exCase []
    rw [List.append_nil] at this
    rw [ht, this]; simp [total, varBlocks]
  obtain ⟨-, q', r, hq', hr, e1, -, e3, -, -, -, -, -, -, -, -, -, eV, -⟩ := ac_ofSolver hm' g' n' exCase_acok.base.ne' hs
  rw [hq] at hq'; cases hq'
  have hp := h2 ((fun _ _ _ _ => none : AnySolver) _ _)
  refine ⟨m, o, s, _, hm', g', n', exCase_acok.base, h1, hs, ?_, ?_, by norm_num [exCase], rfl, rfl, rfl, exCost_ok, by rw [htot]; rfl, rfl⟩
  · rw [e1, (ofFull hr).2.1]; exact hp.1
  · intro b
    have hb := b.isLt
    rw [(eV b).2, e3, (ofFull hr).1, hp.2, pad, dif_pos (by omega)]
    exact one_pos

/-- The example without its flow limit is well posed, and raises. -/
example : ∃ m, OpfModel.run (acOps { exCase with rateA := fun _ => 0 } ++ []) = some m ∧
    ∀ (o : Opt) (x0 : Fin m.var.total → ℝ), pipsopfSolver { exCase with rateA := fun _ => 0 } 0 exCost m o (fun _ _ _ _ => none) x0 = none := by
  obtain ⟨m, hm⟩ := ac_runs { exCase with rateA := fun _ => 0 }
  have h : ({ exCase with rateA := fun _ => 0 } : Case 2 1 1).AcOK := ⟨exCase_acok.base, exCase_acok.p, exCase_acok.q, exCase_acok.v, exCase_acok.va⟩
  refine ⟨m, by rw [List.append_nil]; exact hm, fun o x0 => ?_⟩
  exact C81_negation _ [] m (by rw [List.append_nil]; exact hm) (by rw [List.append_nil]; exact h.good.1) (by rw [List.append_nil]; exact h.good.2)
    h.base.ne' 0 exCost o _ x0 (Or.inl fun _ => Or.inl rfl)

end Verif.Opf
