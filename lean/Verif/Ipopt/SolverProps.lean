import Verif.Ipopt.SolverLemmas

/-!
# C105: what a successful optimal power flow by IPOPT reports

`Sound ipopt ε δ γ` (`SolverModel.lean`) is what is expected of IPOPT, which is not part of the repository: it reports success only for points that are feasible up to
`ε`, stationary up to `δ` and complementary up to `γ`, in the units of the problem it is handed (per unit).  Everything below is about the tables, in MW, MVAr, degrees,
p.u. voltage, money per MW.  Vocabulary of `Verif/Opf/AcProps.lean`.
-/

open Matrix ComplexConjugate

namespace Verif.Ipopt

open Verif.Opf Verif.Network Verif.OpfNl Verif.OpfCost Verif.Pips Verif.OpfModel Verif.Cost

variable {nb ng nl : ℕ}

section
variable (d : Case nb ng nl) (extra : List Op) (m : Model) (hm : OpfModel.run (acOps d ++ extra) = some m) (g : Good (acOps d ++ extra))
  (hn : (names (nlnBlocks (acOps d ++ extra))).Nodup) (hb : 0 < d.base) (lim : Int) (c : AcData) (ipopt : AnyIpopt) (ε δ γ : ℝ) (hso : Sound ipopt ε δ γ)
  (x0 : ℕ → ℝ) (s : AcRes nb ng nl) (hs : ipoptSolver d lim c m ipopt x0 = some s)

include hm g hn hb hs

/-- **C105 (flows).**  The reported flows are those of the standard branch model at the reported voltages; success or not. -/
theorem C105_flows (l : Fin nl) (hon : InService (d.branch l)) (hz : ((d.branch l).r : ℂ) + Complex.I * (d.branch l).x ≠ 0) :
    ∃ If It : ℂ, PiModel (d.branch l) (phasor s.VM s.VA (d.branch l).f) (phasor s.VM s.VA (d.branch l).t) If It ∧
      (⟨s.PF l, s.QF l⟩ : ℂ) = phasor s.VM s.VA (d.branch l).f * conj If * d.base ∧
      (⟨s.PT l, s.QT l⟩ : ℂ) = phasor s.VM s.VA (d.branch l).t * conj It * d.base := by
  obtain ⟨hE, q, r, hq, hr, e1, ef, e3, el, eu, emu, eL, eS, eS0, eV, eG, eF, eVm, eP, eQ, eNl, eNu⟩ := ip_ofSolver hm g hn hb.ne' hs
  rw [phasor_eq (d := d) (lim := lim) (c := c) eV]
  exact ⟨_, _, (C22_kirchhoff d.base d.bus d.branch _).1 l hon hz, (eF l).1, (eF l).2⟩

/-- **C105 (cost).**  The reported objective is the total cost at the reported point, in the cases in which `opf_costfcn` computes it (C19); success or not. -/
theorem C105_cost (hA : AcOk (acNl d lim c).cost)
    (hp : (∃ i, i ≠ 0 ∧ i < c.gencost.length ∧ (c.row i).model = 2) ∨ ∀ i, i < c.gencost.length → (c.row i).model ≠ 2) :
    s.f = (acNl d lim c).cost.total s.x ∧
    ∀ p : Fin ng, (acNl d lim c).cost.rowCost s.x p = if (c.row p).model = 2 then (rowPoly (c.row p)).eval (s.PG p) else 0 := by
  obtain ⟨hE, q, r, hq, hr, e1, ef, e3, el, eu, emu, eL, eS, eS0, eV, eG, eF, eVm, eP, eQ, eNl, eNu⟩ := ip_ofSolver hm g hn hb.ne' hs
  have h2 := C19_value_partial (acNl d lim c).cost hA s.x hp
  constructor
  · rw [h2] at ef; exact (Option.some.inj ef).symm
  · intro p
    unfold AcData.rowCost AcData.pos
    have hlt : (p : ℕ) < (acNl d lim c).cost.ng := p.isLt
    rw [if_pos hlt, (eG p).1, mul_comm]
    rfl

/-- The reported shadow prices of limits in terms of those of the variables, zero for branches without limit; the split of prices in `results["mu"]["nln"]`. -/
theorem C105_split :
    (∀ l, d.rateA l = 0 ∨ 10 ^ 10 ≤ d.rateA l → s.MU_SF l = 0 ∧ s.MU_ST l = 0) ∧
    (∀ b, s.MU_VMIN b = s.muVarL (nb + b) ∧ s.MU_VMAX b = s.muVarU (nb + b)) ∧
    (∀ p, s.MU_PMIN p = s.muVarL (2 * nb + p) / d.base ∧ s.MU_PMAX p = s.muVarU (2 * nb + p) / d.base ∧
      s.MU_QMIN p = s.muVarL (2 * nb + ng + p) / d.base ∧ s.MU_QMAX p = s.muVarU (2 * nb + ng + p) / d.base) ∧
    (∀ b : Fin nb, (s.muNlnU b - s.muNlnL b = s.LAM_P b * d.base ∧ 0 ≤ s.muNlnU b ∧ 0 ≤ s.muNlnL b) ∧
      s.muNlnU (nb + b) - s.muNlnL (nb + b) = s.LAM_Q b * d.base ∧ 0 ≤ s.muNlnU (nb + b) ∧ 0 ≤ s.muNlnL (nb + b)) ∧
    (∀ l : Fin nl, s.muNlnU (2 * nb + l) = s.MU_SF l * d.base ∧ s.muNlnU (2 * nb + nl + l) = s.MU_ST l * d.base ∧
      s.muNlnL (2 * nb + l) = 0 ∧ s.muNlnL (2 * nb + nl + l) = 0) := by
  obtain ⟨hE, q, r, hq, hr, e1, ef, e3, el, eu, emu, eL, eS, eS0, eV, eG, eF, eVm, eP, eQ, eNl, eNu⟩ := ip_ofSolver hm g hn hb.ne' hs
  have split : ∀ (j : ℕ) (v : ℝ), r.lmbda j = v → j < 2 * nb → s.muNlnU j - s.muNlnL j = v ∧ 0 ≤ s.muNlnU j ∧ 0 ≤ s.muNlnL j := by
    intro j v hvj hj
    rw [eNu, eNl, hvj, if_pos hj]
    simp only [hj, true_and]
    rcases lt_trichotomy v 0 with h | h | h
    · rw [if_neg (not_lt.2 h.le), if_pos h]; exact ⟨by ring, le_rfl, by linarith⟩
    · subst h; simp
    · rw [if_pos h, if_neg (not_lt.2 h.le)]; exact ⟨by ring, h.le, le_rfl⟩
  refine ⟨fun l h => ?_, fun b => ⟨(eVm b).2, (eVm b).1⟩, fun p => ⟨(eP p).2, (eP p).1, (eQ p).2, (eQ p).1⟩, fun b => ?_, fun l => ?_⟩
  · refine eS0 l fun hmem => ?_
    have := (mem_il d l).1 hmem
    rcases h with h | h
    · exact this.1 h
    · exact absurd this.2 (not_lt.2 h)
  · have := b.isLt
    constructor
    · refine split b _ ?_ (by omega)
      rw [(eL b).1, div_mul_cancel₀ _ hb.ne']
    · refine split (nb + b) _ ?_ (by omega)
      rw [(eL b).2, div_mul_cancel₀ _ hb.ne']
  · have := l.isLt
    rw [eNu, eNu, eNl, eNl]
    rw [if_neg (by omega), if_pos (by omega), if_neg (by omega), if_neg (by omega), if_neg (by omega), if_neg (by omega),
      show 2 * nb + (l : ℕ) - 2 * nb = l by omega, show 2 * nb + nl + (l : ℕ) - 2 * nb - nl = l by omega, pad_fin, pad_fin]
    exact ⟨rfl, rfl, rfl, rfl⟩

include hso

/-- **C105 (balance).**  On success the reported generation, demand, shunts and branch flows balance at every bus, active and reactive. -/
theorem C105_balance (hok : s.success = true) (b : Fin nb) :
    |acMismatchP d s.PG s.VM s.PF s.PT b| ≤ ε * d.base ∧ |acMismatchQ d s.QG s.VM s.QF s.QT b| ≤ ε * d.base := by
  obtain ⟨hE, q, r, hq, hr, e1, ef, e3, el, eu, emu, eL, eS, eS0, eV, eG, eF, eVm, eP, eQ, eNl, eNu⟩ := ip_ofSolver hm g hn hb.ne' hs
  have hso' := hso _ (nlp d lim c m.var.total q) x0 (by rw [← hr]; exact e1.1 hok)
  rw [← hr] at hso'
  obtain ⟨hf, hst, hcp⟩ := hso'
  obtain ⟨hbal, -, -, -⟩ := feasible_blocks hm g hb.ne' (il_ne hE) hq hf
  rw [← e3] at hbal
  have key := mis_table (lim := lim) (c := c) hb.ne' eV eG eF b
  have h1 : |((acNl d lim c).mis s.x b).re| ≤ ε := by have := (hbal b).1; rwa [← (acNl_g d lim c hb.ne' s.x b).1] at this
  have h2 : |((acNl d lim c).mis s.x b).im| ≤ ε := by have := (hbal b).2; rwa [← (acNl_g d lim c hb.ne' s.x b).2] at this
  have kr := congrArg Complex.re key
  have ki := congrArg Complex.im key
  simp only [Complex.mul_re, Complex.mul_im, Complex.ofReal_re, Complex.ofReal_im, mul_zero, sub_zero, zero_add, Complex.neg_re, Complex.neg_im] at kr ki
  constructor
  · rw [← abs_neg, ← kr, abs_mul, abs_of_pos hb]
    exact mul_le_mul_of_nonneg_right h1 hb.le
  · rw [← abs_neg, ← ki, abs_mul, abs_of_pos hb]
    exact mul_le_mul_of_nonneg_right h2 hb.le

/-- **C105 (flow limits).**  On success the reported flow of every branch with a limit stays within `RATE_A` at both ends: apparent power, active power
(`OPF_FLOW_LIM` 1), or current (`OPF_FLOW_LIM` 2; then apparent power stays within `RATE_A` times the voltage at that end).  The limit is on squares. -/
theorem C105_flow_limit (hok : s.success = true) (l : Fin nl) (hl : d.rateA l ≠ 0 ∧ d.rateA l < 10 ^ 10) :
    (lim ≠ 1 → lim ≠ 2 → s.PF l ^ 2 + s.QF l ^ 2 ≤ d.rateA l ^ 2 + ε * d.base ^ 2 ∧ s.PT l ^ 2 + s.QT l ^ 2 ≤ d.rateA l ^ 2 + ε * d.base ^ 2) ∧
    (lim = 1 → s.PF l ^ 2 ≤ d.rateA l ^ 2 + ε * d.base ^ 2 ∧ s.PT l ^ 2 ≤ d.rateA l ^ 2 + ε * d.base ^ 2) ∧
    (lim = 2 → s.PF l ^ 2 + s.QF l ^ 2 ≤ s.VM (d.branch l).f ^ 2 * (d.rateA l ^ 2 + ε * d.base ^ 2) ∧
      s.PT l ^ 2 + s.QT l ^ 2 ≤ s.VM (d.branch l).t ^ 2 * (d.rateA l ^ 2 + ε * d.base ^ 2)) := by
  obtain ⟨hE, q, r, hq, hr, e1, ef, e3, el, eu, emu, eL, eS, eS0, eV, eG, eF, eVm, eP, eQ, eNl, eNu⟩ := ip_ofSolver hm g hn hb.ne' hs
  have hso' := hso _ (nlp d lim c m.var.total q) x0 (by rw [← hr]; exact e1.1 hok)
  rw [← hr] at hso'
  obtain ⟨hf, hst, hcp⟩ := hso'
  obtain ⟨-, hflow, -, -⟩ := feasible_blocks hm g hb.ne' (il_ne hE) hq hf
  rw [← e3] at hflow
  obtain ⟨k, hk⟩ := List.mem_iff_get.1 ((mem_il d l).2 hl)
  obtain ⟨h1, h2⟩ := hflow k
  rw [hk] at h1 h2
  unfold limitedF at h1
  unfold limitedT at h2
  rw [← acNl_V d lim c] at h1 h2
  set V := (acNl d lim c).V s.x with hVdef
  have hvv : ∀ b, ‖V b‖ ^ 2 = s.VM b ^ 2 := by
    intro b
    have := mul_conj_polar (s.x (nb + b)) (s.x (0 + b))
    have e : V b = (s.x (nb + b) : ℂ) * Complex.exp (Complex.I * (s.x (0 + b) : ℂ)) := rfl
    rw [← e, Complex.mul_conj, Complex.normSq_eq_norm_sq, ← (eV b).2] at this
    exact_mod_cast this
  have lf : limited lim (fun l => (d.branch l).f) (Network.Yf d.branch) V l = if lim = 2 then ‖(Network.Yf d.branch *ᵥ V) l‖ else
      if lim = 1 then |(V (d.branch l).f * conj ((Network.Yf d.branch *ᵥ V) l)).re| else ‖V (d.branch l).f * conj ((Network.Yf d.branch *ᵥ V) l)‖ := rfl
  have lt : limited lim (fun l => (d.branch l).t) (Network.Yt d.branch) V l = if lim = 2 then ‖(Network.Yt d.branch *ᵥ V) l‖ else
      if lim = 1 then |(V (d.branch l).t * conj ((Network.Yt d.branch *ᵥ V) l)).re| else ‖V (d.branch l).t * conj ((Network.Yt d.branch *ᵥ V) l)‖ := rfl
  rw [lf] at h1
  rw [lt] at h2
  have hb2 : 0 < d.base ^ 2 := by positivity
  have scale : ∀ y : ℝ, y - (d.rateA l / d.base) ^ 2 ≤ ε → y * d.base ^ 2 ≤ d.rateA l ^ 2 + ε * d.base ^ 2 := by
    intro y hy
    have : (y - (d.rateA l / d.base) ^ 2) * d.base ^ 2 ≤ ε * d.base ^ 2 := mul_le_mul_of_nonneg_right hy hb2.le
    rw [sub_mul, div_pow, div_mul_cancel₀ _ hb2.ne'] at this
    linarith
  have nrm : ∀ (P Q : ℝ) (z : ℂ), (⟨P, Q⟩ : ℂ) = z * d.base → P ^ 2 + Q ^ 2 = ‖z‖ ^ 2 * d.base ^ 2 ∧ P ^ 2 = |z.re| ^ 2 * d.base ^ 2 := by
    intro P Q z h
    have hP : P = z.re * d.base := by have := congrArg Complex.re h; simpa using this
    have hQ : Q = z.im * d.base := by have := congrArg Complex.im h; simpa using this
    rw [← Complex.normSq_eq_norm_sq, Complex.normSq_apply, sq_abs, hP, hQ]
    constructor <;> ring
  obtain ⟨nf1, nf2⟩ := nrm _ _ _ (eF l).1
  obtain ⟨nt1, nt2⟩ := nrm _ _ _ (eF l).2
  refine ⟨fun a1 a2 => ?_, fun a1 => ?_, fun a2 => ?_⟩
  · rw [if_neg a2, if_neg a1] at h1 h2
    rw [nf1, nt1]
    exact ⟨scale _ h1, scale _ h2⟩
  · have a2 : lim ≠ 2 := by omega
    rw [if_neg a2, if_pos a1] at h1 h2
    rw [nf2, nt2]
    exact ⟨scale _ h1, scale _ h2⟩
  · rw [if_pos a2] at h1 h2
    have key : ∀ (b : Fin nb) (w : ℂ), ‖w‖ ^ 2 - (d.rateA l / d.base) ^ 2 ≤ ε →
        ‖V b * conj w‖ ^ 2 * d.base ^ 2 ≤ s.VM b ^ 2 * (d.rateA l ^ 2 + ε * d.base ^ 2) := by
      intro b w hw
      rw [norm_mul, Complex.norm_conj, mul_pow, hvv, mul_assoc]
      exact mul_le_mul_of_nonneg_left (scale _ hw) (sq_nonneg _)
    rw [nf1, nt1]
    exact ⟨key _ _ h1, key _ _ h2⟩

/-- **C105 (limits of variables).**  On success the reported dispatch and voltage magnitudes respect their limits, and `VG` is the magnitude at the
generator's bus. -/
theorem C105_limits (hok : s.success = true) :
    (∀ p, (d.pmax p / d.base < 10 ^ 19 → s.PG p ≤ d.pmax p + ε * d.base) ∧ (-10 ^ 19 < d.pmin p / d.base → d.pmin p - ε * d.base ≤ s.PG p)) ∧
    (∀ p, (d.qmax p / d.base < 10 ^ 19 → s.QG p ≤ d.qmax p + ε * d.base) ∧ (-10 ^ 19 < d.qmin p / d.base → d.qmin p - ε * d.base ≤ s.QG p)) ∧
    (∀ b, (d.vmax b < 10 ^ 19 → s.VM b ≤ d.vmax b + ε) ∧ (-10 ^ 19 < d.vmin b → d.vmin b - ε ≤ s.VM b)) ∧
    (∀ p, s.VG p = s.VM (d.gen p).bus) := by
  obtain ⟨hE, q, r, hq, hr, e1, ef, e3, el, eu, emu, eL, eS, eS0, eV, eG, eF, eVm, eP, eQ, eNl, eNu⟩ := ip_ofSolver hm g hn hb.ne' hs
  have hso' := hso _ (nlp d lim c m.var.total q) x0 (by rw [← hr]; exact e1.1 hok)
  rw [← hr] at hso'
  obtain ⟨hf, hst, hcp⟩ := hso'
  obtain ⟨-, -, hv, -⟩ := feasible_blocks hm g hb.ne' (il_ne hE) hq hf
  rw [← e3] at hv
  obtain ⟨s1, s2, s3, s4, -⟩ := ac_starts d extra
  have up : ∀ (y u t : ℝ), y ≤ u / d.base + t → y * d.base ≤ u + t * d.base := by
    intro y u t h
    have := mul_le_mul_of_nonneg_right h hb.le
    rwa [add_mul, div_mul_cancel₀ _ hb.ne'] at this
  have dn : ∀ (y u t : ℝ), u / d.base - t ≤ y → u - t * d.base ≤ y * d.base := by
    intro y u t h
    have := mul_le_mul_of_nonneg_right h hb.le
    rwa [sub_mul, div_mul_cancel₀ _ hb.ne'] at this
  refine ⟨fun p => ?_, fun p => ?_, fun b => ?_, fun p => (eG p).2.2⟩
  · have h1 := hv ("Pg", _) (by rw [ac_varVals]; exact List.mem_cons_of_mem _ (List.mem_cons_of_mem _ List.mem_cons_self)) p p.isLt
    rw [varLo_vec _ _ _ _ p.isLt, varHi_vec _ _ _ _ p.isLt, s3] at h1
    rw [(eG p).1]
    exact ⟨fun hu => up _ _ _ (obeys_upper h1 hu), fun hl => dn _ _ _ (obeys_lower h1 hl)⟩
  · have h1 := hv ("Qg", _) (by rw [ac_varVals]; exact List.mem_cons_of_mem _ (List.mem_cons_of_mem _ (List.mem_cons_of_mem _ List.mem_cons_self))) p p.isLt
    rw [varLo_vec _ _ _ _ p.isLt, varHi_vec _ _ _ _ p.isLt, s4] at h1
    rw [(eG p).2.1]
    exact ⟨fun hu => up _ _ _ (obeys_upper h1 hu), fun hl => dn _ _ _ (obeys_lower h1 hl)⟩
  · have h1 := hv ("Vm", _) (by rw [ac_varVals]; exact List.mem_cons_of_mem _ List.mem_cons_self) b b.isLt
    rw [varLo_vec _ _ _ _ b.isLt, varHi_vec _ _ _ _ b.isLt, s2] at h1
    rw [(eV b).2]
    exact ⟨fun hu => obeys_upper h1 hu, fun hl => obeys_lower h1 hl⟩

/-- **C105 (angle reference).**  On success the angle of every reference bus is the one given in the case. -/
theorem C105_reference (hok : s.success = true) (b : Fin nb) (hr : d.isRef b = true) : |s.VA b - d.va b| ≤ ε * (180 / Real.pi) := by
  obtain ⟨hE, q, r, hq, hr', e1, ef, e3, el, eu, emu, eL, eS, eS0, eV, eG, eF, eVm, eP, eQ, eNl, eNu⟩ := ip_ofSolver hm g hn hb.ne' hs
  have hso' := hso _ (nlp d lim c m.var.total q) x0 (by rw [← hr']; exact e1.1 hok)
  rw [← hr'] at hso'
  obtain ⟨hf, hst, hcp⟩ := hso'
  obtain ⟨-, -, hv, -⟩ := feasible_blocks hm g hb.ne' (il_ne hE) hq hf
  rw [← e3] at hv
  have hmem : ("Va", (⟨nb, some (vec d.vaRad), some d.val, some d.vau⟩ : VarVals)) ∈ varVals (acOps d ++ extra) := by
    rw [ac_varVals]; exact List.mem_cons_self
  have h1 := hv _ hmem b b.isLt
  have hsane := g.varSane _ hmem b b.isLt
  rw [varLo_val _ _ _ _ b.isLt, varHi_vau _ _ _ _ b.isLt] at h1 hsane
  simp only [Fin.eta, hr, if_true] at h1 hsane
  rw [(ac_starts d extra).1, zero_add] at h1
  have hE := hsane.2.2.2 ⟨_, _, rfl, rfl, by simp⟩
  rw [EReal.coe_lt_coe_iff, EReal.coe_lt_coe_iff] at hE
  have hu := obeys_upper h1 (lt_trans hE.2 (by norm_num))
  have hl := obeys_lower h1 (lt_trans (by norm_num) hE.1)
  have hpi := Real.pi_pos
  have ev : s.VA b - d.va b = (s.x b - d.vaRad b) * (180 / Real.pi) := by
    rw [(eV b).1, Case.vaRad]
    field_simp
  rw [ev, abs_mul, abs_of_pos (by positivity : 0 < 180 / Real.pi)]
  refine mul_le_mul_of_nonneg_right ?_ (by positivity)
  rw [abs_le]
  constructor <;> linarith

/-- **C105 (further constraints).**  On success every further block of variables is within its bounds and every further block of linear constraints
(capability curves, power factors, angle differences, piecewise linear costs, user constraints, …) holds, at the reported point. -/
theorem C105_extra (hok : s.success = true) :
    (∀ b ∈ varVals extra, ∀ i < b.2.n,
      Obeys (VarVals.lo b.2 i) (VarVals.hi b.2 i) (s.x (start (varBlocks (acOps d ++ extra)) b.1 + i)) ε) ∧
    (∀ b ∈ linBlks extra, ∀ i < b.2.A.rows, Obeys (LinBlk.lo b.2 i) (LinBlk.hi b.2 i)
      (rowDot b.2.A i (subvec (varBlocks (acOps d ++ extra)) s.x (eff (varBlocks (acOps d ++ extra)) b.2.vs))) ε) ∧
    (∀ b : Fin nb, s.VA b = s.x (start (varBlocks (acOps d ++ extra)) "Va" + b) * (180 / Real.pi) ∧
      s.VM b = s.x (start (varBlocks (acOps d ++ extra)) "Vm" + b)) ∧
    (∀ p : Fin ng, s.PG p = s.x (start (varBlocks (acOps d ++ extra)) "Pg" + p) * d.base ∧
      s.QG p = s.x (start (varBlocks (acOps d ++ extra)) "Qg" + p) * d.base) := by
  obtain ⟨hE, q, r, hq, hr, e1, ef, e3, el, eu, emu, eL, eS, eS0, eV, eG, eF, eVm, eP, eQ, eNl, eNu⟩ := ip_ofSolver hm g hn hb.ne' hs
  have hso' := hso _ (nlp d lim c m.var.total q) x0 (by rw [← hr]; exact e1.1 hok)
  rw [← hr] at hso'
  obtain ⟨hf, hst, hcp⟩ := hso'
  obtain ⟨-, -, hv, hl⟩ := feasible_blocks hm g hb.ne' (il_ne hE) hq hf
  rw [← e3] at hv hl
  obtain ⟨s1, s2, s3, s4, -⟩ := ac_starts d extra
  refine ⟨fun b hb' => hv b ?_, fun b hb' => hl b ?_, fun b => ⟨?_, ?_⟩, fun p => ⟨?_, ?_⟩⟩
  · rw [ac_varVals]; simp [hb']
  · rw [ac_linBlks]; exact hb'
  · rw [(eV b).1, s1, zero_add, mul_div_assoc]
  · rw [(eV b).2, s2]
  · rw [(eG p).1, s3]
  · rw [(eG p).2.1, s4]

/-- The stationarity condition with the entries of the callbacks' Jacobians. -/
theorem ip_stationary (hok : s.success = true) (k : ℕ) (hk : k < total (varBlocks (acOps d ++ extra))) (gr : ℕ → ℝ)
    (hgr : (acNl d lim c).cost.df s.x = some gr) :
    |gr k / d.base + ∑ b, (s.LAM_P b * (acNl d lim c).dg s.x (.inl b) k + s.LAM_Q b * (acNl d lim c).dg s.x (.inr b) k) +
        ∑ i : Fin d.il.length, (s.MU_SF (d.il.get i) * (acNl d lim c).dh s.x (.inl i) k + s.MU_ST (d.il.get i) * (acNl d lim c).dh s.x (.inr i) k) *
          (d.base / (2 * d.rateA (d.il.get i))) +
        (s.muVarU k - s.muVarL k) / d.base + acExtraTerm d extra s k / d.base| ≤ δ / d.base := by
  obtain ⟨hE, q, r, hq, hr, e1, ef, e3, el, eu, emu, eL, eS, eS0, eV, eG, eF, eVm, eP, eQ, eNl, eNu⟩ := ip_ofSolver hm g hn hb.ne' hs
  have hso' := hso _ (nlp d lim c m.var.total q) x0 (by rw [← hr]; exact e1.1 hok)
  rw [← hr] at hso'
  obtain ⟨hf, hst, hcp⟩ := hso'
  obtain ⟨q', hq', ht, hA, hv, hl, hqok⟩ := linearOf_spec hm g
  rw [hq] at hq'; cases hq'
  have hlt : k < m.var.total := by rw [ht]; exact hk
  have hJ : evalJac d lim c (fun (r : Fin q.nA) j => q.A r j) r.x = some (jac d lim c (fun (r : Fin q.nA) j => q.A r j) r.x) := by
    unfold evalJac
    rw [if_neg (by rw [il_length]; push Not; exact il_ne hE)]
    congr 1
    funext r' j
    split_ifs with h
    · rfl
    · exact (jac_supp d lim c _ _ r' j (not_not.1 h)).symm
  have st := hst.1 gr _ (by rw [e3] at hgr; exact hgr) hJ k hlt
  simp only [Fintype.sum_sum_type] at st
  have p1 : ∀ b, (nlp d lim c m.var.total q).pos (.inl (.inl b)) = b := fun _ => rfl
  have p2 : ∀ b, (nlp d lim c m.var.total q).pos (.inl (.inr b)) = nb + b := fun _ => rfl
  have p3 : ∀ b, (nlp d lim c m.var.total q).pos (.inr (.inl (.inl b))) = 2 * nb + b := fun _ => rfl
  have p4 : ∀ b, (nlp d lim c m.var.total q).pos (.inr (.inl (.inr b))) = 2 * nb + d.il.length + b := fun _ => rfl
  have p5 : ∀ b, (nlp d lim c m.var.total q).pos (.inr (.inr b)) = 2 * nb + (2 * d.il.length + b) := fun _ => rfl
  have j1 : ∀ b, jac d lim c (fun (r : Fin q.nA) j => q.A r j) r.x (.inl b) k = (acNl d lim c).dg s.x b k := fun _ => by rw [e3]; rfl
  have j2 : ∀ b, jac d lim c (fun (r : Fin q.nA) j => q.A r j) r.x (.inr (.inl b)) k = (acNl d lim c).dh s.x b k := fun _ => by rw [e3]; rfl
  have j3 : ∀ b : Fin q.nA, jac d lim c (fun (r : Fin q.nA) j => q.A r j) r.x (.inr (.inr b)) k = q.A b k := fun _ => rfl
  simp only [p1, p2, p3, p4, p5, j1, j2, j3] at st
  have hlin : ∑ b : Fin q.nA, r.lmbda (2 * nb + (2 * d.il.length + b)) * q.A b k = acExtraTerm d extra s k := by
    unfold acExtraTerm
    rw [← ac_linBlks d extra, ← linearOf_column hm g hq (fun a y => a * y) k hk fun j => s.mu_u j - s.mu_l j, Finset.sum_range]
    exact Finset.sum_congr rfl fun j _ => by rw [(emu j j.isLt).1, mul_comm]
  rw [hlin] at st
  have k1 : ∑ b, (s.LAM_P b * (acNl d lim c).dg s.x (.inl b) k + s.LAM_Q b * (acNl d lim c).dg s.x (.inr b) k) =
      (∑ b : Fin nb, r.lmbda b * (acNl d lim c).dg s.x (.inl b) k + ∑ b : Fin nb, r.lmbda (nb + b) * (acNl d lim c).dg s.x (.inr b) k) / d.base := by
    rw [← Finset.sum_add_distrib, div_eq_mul_inv, Finset.sum_mul]
    exact Finset.sum_congr rfl fun b _ => by rw [(eL b).1, (eL b).2]; ring
  have k2 : ∑ i : Fin d.il.length, (s.MU_SF (d.il.get i) * (acNl d lim c).dh s.x (.inl i) k + s.MU_ST (d.il.get i) * (acNl d lim c).dh s.x (.inr i) k) *
          (d.base / (2 * d.rateA (d.il.get i))) =
      (∑ i : Fin d.il.length, r.lmbda (2 * nb + i) * (acNl d lim c).dh s.x (.inl i) k +
        ∑ i : Fin d.il.length, r.lmbda (2 * nb + d.il.length + i) * (acNl d lim c).dh s.x (.inr i) k) / d.base := by
    rw [← Finset.sum_add_distrib, div_eq_mul_inv, Finset.sum_mul]
    refine Finset.sum_congr rfl fun i _ => ?_
    have hr0 : d.rateA (d.il.get i) ≠ 0 := ((mem_il d _).1 (List.get_mem d.il i)).1
    rw [(eS i).1, (eS i).2]
    field_simp [hr0, hb.ne']
  rw [k1, k2, el, eu]
  rw [← add_div, ← add_div, ← add_div, ← add_div, abs_div, abs_of_pos hb]
  refine div_le_div_of_nonneg_right (le_trans (le_of_eq ?_) st) hb.le
  congr 1
  ring

/-- **C105 (price of a generator).**  On success the gradient entry of every generator's active (reactive) output, in money per MW (MVAr), equals the price `LAM_P`
(`LAM_Q`) at its bus, less the shadow price of its upper limit plus that of its lower limit (and the contribution of further linear constraints on it). -/
theorem C105_generator_price (hok : s.success = true) (p : Fin ng) (gr : ℕ → ℝ) (hgr : (acNl d lim c).cost.df s.x = some gr) :
    |gr (2 * nb + p) / d.base - (s.LAM_P (d.gen p).bus - s.MU_PMAX p + s.MU_PMIN p) + acExtraTerm d extra s (2 * nb + p) / d.base| ≤ δ / d.base ∧
    |gr (2 * nb + ng + p) / d.base - (s.LAM_Q (d.gen p).bus - s.MU_QMAX p + s.MU_QMIN p) + acExtraTerm d extra s (2 * nb + ng + p) / d.base| ≤ δ / d.base := by
  obtain ⟨hE, q, r, hq, hr, e1, ef, e3, el, eu, emu, eL, eS, eS0, eV, eG, eF, eVm, eP, eQ, eNl, eNu⟩ := ip_ofSolver hm g hn hb.ne' hs
  have hL := acNl_layout d lim c
  have htot : 2 * nb + ng + (p : ℕ) < total (varBlocks (acOps d ++ extra)) := by
    have := p.isLt
    rw [ac_varBlocks, total_cons, total_cons, total_cons, total_cons]; simp only; omega
  have gP : ∀ b, (acNl d lim c).dg s.x (.inl b) (2 * nb + p) = if (d.gen p).bus = b then -1 else 0 := by
    intro b
    have := place_p hL (fun b' => (Derivs.dSbus_dVa (acNl d lim c).Y ((acNl d lim c).V s.x) b b').re)
      (fun b' => (Derivs.dSbus_dVm (acNl d lim c).Y ((acNl d lim c).V s.x) b b').re) ((acNl d lim c).negCg b) 0 p
    rw [negCg_apply] at this
    exact this
  have gP' : ∀ b, (acNl d lim c).dg s.x (.inr b) (2 * nb + p) = 0 := fun b =>
    place_p hL (fun b' => (Derivs.dSbus_dVa (acNl d lim c).Y ((acNl d lim c).V s.x) b b').im)
      (fun b' => (Derivs.dSbus_dVm (acNl d lim c).Y ((acNl d lim c).V s.x) b b').im) 0 ((acNl d lim c).negCg b) p
  have gQ : ∀ b, (acNl d lim c).dg s.x (.inr b) (2 * nb + ng + p) = if (d.gen p).bus = b then -1 else 0 := by
    intro b
    have := place_q hL (fun b' => (Derivs.dSbus_dVa (acNl d lim c).Y ((acNl d lim c).V s.x) b b').im)
      (fun b' => (Derivs.dSbus_dVm (acNl d lim c).Y ((acNl d lim c).V s.x) b b').im) 0 ((acNl d lim c).negCg b) p
    rw [negCg_apply] at this
    exact this
  have gQ' : ∀ b, (acNl d lim c).dg s.x (.inl b) (2 * nb + ng + p) = 0 := fun b =>
    place_q hL (fun b' => (Derivs.dSbus_dVa (acNl d lim c).Y ((acNl d lim c).V s.x) b b').re)
      (fun b' => (Derivs.dSbus_dVm (acNl d lim c).Y ((acNl d lim c).V s.x) b b').re) ((acNl d lim c).negCg b) 0 p
  have hz : ∀ i (j : ℕ), 2 * nb ≤ j → (acNl d lim c).dh s.x i j = 0 := by
    intro i j hj
    rcases i with i | i <;> exact placeV_other hL _ _ hj
  have s1 := ip_stationary d extra m hm g hn hb lim c ipopt ε δ γ hso x0 s hs hok (2 * nb + p) (by omega) gr hgr
  have s2 := ip_stationary d extra m hm g hn hb lim c ipopt ε δ γ hso x0 s hs hok (2 * nb + ng + p) htot gr hgr
  simp only [gP, gP', gQ, gQ', hz _ _ (show 2 * nb ≤ 2 * nb + (p : ℕ) by omega), hz _ _ (show 2 * nb ≤ 2 * nb + ng + (p : ℕ) by omega), mul_ite, mul_neg, mul_one,
    mul_zero, add_zero, zero_add, Finset.sum_ite_eq, Finset.mem_univ, if_true, zero_mul, Finset.sum_const_zero] at s1 s2
  constructor
  · refine le_trans (le_of_eq ?_) s1
    rw [(eP p).1, (eP p).2]
    congr 1
    ring
  · refine le_trans (le_of_eq ?_) s2
    rw [(eQ p).1, (eQ p).2]
    congr 1
    ring

/-- **C105 (price of a generator with a polynomial cost).**  On success the marginal cost of the generator at its reported output is the price at its bus, less
the shadow price of `PMAX` plus that of `PMIN` (without user costs; up to further linear constraints). -/
theorem C105_polynomial_price (hok : s.success = true) (hA : AcOk (acNl d lim c).cost) (hlen : c.gencost.length = ng) (huser : c.user = false)
    (hy : 2 * nb + 2 * ng ≤ c.iy) (p : Fin ng) (hp : (c.row p).model = 2) :
    |(rowPoly (c.row p)).derivative.eval (s.PG p) - (s.LAM_P (d.gen p).bus - s.MU_PMAX p + s.MU_PMIN p) + acExtraTerm d extra s (2 * nb + p) / d.base| ≤
      δ / d.base := by
  obtain ⟨hE, q, r, hq, hr, e1, ef, e3, el, eu, emu, eL, eS, eS0, eV, eG, eF, eVm, eP, eQ, eNl, eNu⟩ := ip_ofSolver hm g hn hb.ne' hs
  obtain ⟨v, hv, hget⟩ := dPgQg_spec (acNl d lim c).cost hA s.x (Or.inr ⟨p, by have := p.isLt; show (p : ℕ) < c.gencost.length; omega, hp⟩)
  have hdf : (acNl d lim c).cost.df s.x = some fun j => (acNl d lim c).cost.place v j + (acNl d lim c).cost.ccost j +
      (if (acNl d lim c).cost.user then AAHwC (acNl d lim c).cost.P s.x j else 0) := by
    unfold AcData.df; rw [hv]; rfl
  have := (C105_generator_price d extra m hm g hn hb lim c ipopt ε δ γ hso x0 s hs hok p _ hdf).1
  beta_reduce at this
  have hplt := p.isLt
  have u0 : (acNl d lim c).cost.user = false := huser
  have c0 : (acNl d lim c).cost.ccost (2 * nb + p) = 0 := by
    unfold AcData.ccost
    rw [if_neg]
    rintro ⟨h1, -⟩
    have : c.iy ≤ 2 * nb + p := h1
    omega
  have p0 : (acNl d lim c).cost.place v (2 * nb + p) = d.base * (rowPoly (c.row p)).derivative.eval (s.PG p) := by
    have e : (acNl d lim c).cost.place v (2 * nb + p) = v.getD p 0 := by
      unfold AcData.place
      have q1 : ¬((acNl d lim c).cost.iQg ≤ 2 * nb + (p : ℕ) ∧ 2 * nb + (p : ℕ) < (acNl d lim c).cost.iQg + (acNl d lim c).cost.ng) := by
        rintro ⟨h1, -⟩
        have : 2 * nb + ng ≤ 2 * nb + (p : ℕ) := h1
        omega
      have q2 : (acNl d lim c).cost.iPg ≤ 2 * nb + (p : ℕ) ∧ 2 * nb + (p : ℕ) < (acNl d lim c).cost.iPg + (acNl d lim c).cost.ng := by
        show 2 * nb ≤ 2 * nb + (p : ℕ) ∧ 2 * nb + (p : ℕ) < 2 * nb + ng
        omega
      rw [if_neg q1, if_pos q2]
      show v.getD (2 * nb + (p : ℕ) - 2 * nb) 0 = _
      rw [show 2 * nb + (p : ℕ) - 2 * nb = p by omega]
    have hp2 : (p : ℕ) < 2 * (acNl d lim c).cost.ng := by show (p : ℕ) < 2 * ng; omega
    have hp3 : (p : ℕ) < (acNl d lim c).cost.gencost.length ∧ ((acNl d lim c).cost.row p).model = 2 := ⟨by show (p : ℕ) < c.gencost.length; omega, hp⟩
    rw [e, hget p hp2, if_pos hp3]
    have hpos : (acNl d lim c).cost.pos p = 2 * nb + p := by
      unfold AcData.pos
      exact if_pos hplt
    rw [hpos, (eG p).1, mul_comm (s.x _)]
    rfl
  rw [u0, c0, p0] at this
  simp only [Bool.false_eq_true, if_false, add_zero] at this
  rwa [mul_div_cancel_left₀ _ hb.ne'] at this

/-- **C105 (prices in the network).**  On success, for every variable `k` -- an angle, a magnitude, an output, or a further one -- the marginal cost, plus the marginal
power leaving each bus times the price `LAM_P`, `LAM_Q` there, plus the marginal flow at each end of each limited branch times its shadow price `MU_SF`, `MU_ST`, plus
the shadow price of the variable's own bounds and of further linear constraints, vanishes up to the tolerance.  Limits are on squared flows: `D(F²) / (2 RATE_A)` is
the marginal flow when the limit is reached.  All derivatives are derivatives of the physical quantities, not the entries the callbacks return. -/
theorem C105_network_prices (hok : s.success = true) (hA : AcOk (acNl d lim c).cost) (hnx : c.P.nx = m.var.total)
    (hkind : c.kind ≠ .pyFloat ∨ ∃ i, i < c.gencost.length ∧ (c.row i).model = 2)
    (hu : c.user = true → (∀ i, i < c.P.nw → 0 ≤ c.P.kk i) ∧ (∀ i, i < c.P.nw → c.P.kk i = 0 ∨ |c.P.r s.x i| ≠ c.P.kk i) ∧
      ∀ a b, a < c.P.nw → b < c.P.nw → c.P.H a b = c.P.H b a)
    (hVM : ∀ b, 0 < s.VM b) (hon : ∀ p, (d.gen p).stat > 0) (k : ℕ) (hk : k < m.var.total) :
    ∃ (dc : ℝ) (dP dQ : Fin nb → ℝ) (dF dT : Fin nl → ℝ), PartialX (acNl d lim c).cost.total s.x k dc ∧
      (∀ b, PartialX (fun y => (leaving d y b).re) s.x k (dP b) ∧ PartialX (fun y => (leaving d y b).im) s.x k (dQ b)) ∧
      (∀ l, d.rateA l ≠ 0 ∧ d.rateA l < 10 ^ 10 →
        PartialX (fun y => limitedF d lim y l ^ 2) s.x k (dF l) ∧ PartialX (fun y => limitedT d lim y l ^ 2) s.x k (dT l)) ∧
      |dc / d.base + ∑ b, (s.LAM_P b * dP b + s.LAM_Q b * dQ b) +
          ∑ l with d.rateA l ≠ 0 ∧ d.rateA l < 10 ^ 10, (s.MU_SF l * dF l + s.MU_ST l * dT l) * (d.base / (2 * d.rateA l)) +
          (s.muVarU k - s.muVarL k) / d.base + acExtraTerm d extra s k / d.base| ≤ δ / d.base := by
  obtain ⟨hE, q, r, hq, hr, e1, ef, e3, el, eu, emu, eL, eS, eS0, eV, eG, eF, eVm, eP, eQ, eNl, eNu⟩ := ip_ofSolver hm g hn hb.ne' hs
  obtain ⟨q', hq', ht, -⟩ := linearOf_spec hm g
  obtain ⟨gr, hgr, -⟩ := C19_gradient (acNl d lim c).cost hA s.x hkind hu
  have st := ip_stationary d extra m hm g hn hb lim c ipopt ε δ γ hso x0 s hs hok k (by rw [← ht]; exact hk) gr hgr
  have hL := acNl_layout d lim c
  have hVM' : ∀ b : Fin nb, 0 < s.x ((acNl d lim c).iVm + b) := fun b => by have := hVM b; rw [(eV b).2] at this; exact this
  have hset : ∀ F : Fin nl → ℝ, ∑ i : Fin d.il.length, F (d.il.get i) = ∑ l with d.rateA l ≠ 0 ∧ d.rateA l < 10 ^ 10, F l := by
    intro F
    have := sum_il d fun l _ => F l
    beta_reduce at this
    rw [this, ← Finset.sum_filter]
    exact Finset.sum_congr (Finset.filter_congr fun l _ => mem_il d l) fun _ _ => rfl
  let dF : Fin nl → ℝ := fun l => if h : d.il.idxOf l < d.il.length then (acNl d lim c).dh s.x (.inl ⟨_, h⟩) k else 0
  let dT : Fin nl → ℝ := fun l => if h : d.il.idxOf l < d.il.length then (acNl d lim c).dh s.x (.inr ⟨_, h⟩) k else 0
  have idx : ∀ i : Fin d.il.length, d.il.idxOf (d.il.get i) = i := fun i => List.get_idxOf (il_nodup d) i
  have hdF : ∀ i : Fin d.il.length, dF (d.il.get i) = (acNl d lim c).dh s.x (.inl i) k := by
    intro i
    simp only [dF]
    rw [dif_pos (by rw [idx]; exact i.isLt)]
    congr 2
    exact Fin.ext (idx i)
  have hdT : ∀ i : Fin d.il.length, dT (d.il.get i) = (acNl d lim c).dh s.x (.inr i) k := by
    intro i
    simp only [dT]
    rw [dif_pos (by rw [idx]; exact i.isLt)]
    congr 2
    exact Fin.ext (idx i)
  refine ⟨gr k, fun b => (acNl d lim c).dg s.x (.inl b) k, fun b => (acNl d lim c).dg s.x (.inr b) k, dF, dT, ?_, ?_, ?_, ?_⟩
  · exact total_partial (acNl d lim c).cost hA s.x hgr hkind hu (by show k < c.P.nx; omega)
  · intro b
    have h1 := C74_dg (acNl d lim c) hL s.x hb.ne' hVM' hon (.inl b) k
    have h2 := C74_dg (acNl d lim c) hL s.x hb.ne' hVM' hon (.inr b) k
    simp only [(acNl_g d lim c hb.ne' _ b).1] at h1
    simp only [(acNl_g d lim c hb.ne' _ b).2] at h2
    exact ⟨h1, h2⟩
  · intro l hl
    obtain ⟨i, hi⟩ := List.mem_iff_get.1 ((mem_il d l).2 hl)
    have := C74_dh (acNl d lim c) hL s.x hVM' i k
    simp only [(acNl_limited d lim c _ i).1, (acNl_limited d lim c _ i).2] at this
    rw [← hi, hdF, hdT]
    exact this
  · simp only [← hdF, ← hdT] at st
    rw [hset fun l => (s.MU_SF l * dF l + s.MU_ST l * dT l) * (d.base / (2 * d.rateA l))] at st
    exact st

/-- **C105 (shadow prices).**  On success those of limits of variables are not negative, and those of branches not below the tolerance; a limit with slack has a
shadow price that is small: times the slack, in MW (p.u. for voltages; of the squared flow for branches), it is at most the tolerance. -/
theorem C105_slack (hok : s.success = true) (hrate : ∀ l, 0 ≤ d.rateA l) :
    (∀ p, 0 ≤ s.MU_PMIN p ∧ 0 ≤ s.MU_PMAX p ∧ 0 ≤ s.MU_QMIN p ∧ 0 ≤ s.MU_QMAX p) ∧ (∀ b, 0 ≤ s.MU_VMIN b ∧ 0 ≤ s.MU_VMAX b) ∧
    (∀ l, d.rateA l ≠ 0 ∧ d.rateA l < 10 ^ 10 → -δ * (2 * d.rateA l / d.base ^ 2) ≤ s.MU_SF l ∧ -δ * (2 * d.rateA l / d.base ^ 2) ≤ s.MU_ST l) ∧
    (∀ p, s.MU_PMAX p * (d.pmax p - s.PG p) ≤ γ ∧ s.MU_PMIN p * (s.PG p - d.pmin p) ≤ γ ∧
      s.MU_QMAX p * (d.qmax p - s.QG p) ≤ γ ∧ s.MU_QMIN p * (s.QG p - d.qmin p) ≤ γ) ∧
    (∀ b, s.MU_VMAX b * (d.vmax b - s.VM b) ≤ γ ∧ s.MU_VMIN b * (s.VM b - d.vmin b) ≤ γ) ∧
    (∀ l, d.rateA l ≠ 0 ∧ d.rateA l < 10 ^ 10 →
      s.MU_SF l * ((d.rateA l ^ 2 - (limitedF d lim s.x l * d.base) ^ 2) / (2 * d.rateA l)) ≤ γ ∧
      s.MU_ST l * ((d.rateA l ^ 2 - (limitedT d lim s.x l * d.base) ^ 2) / (2 * d.rateA l)) ≤ γ) := by
  obtain ⟨hE, q, r, hq, hr, e1, ef, e3, el, eu, emu, eL, eS, eS0, eV, eG, eF, eVm, eP, eQ, eNl, eNu⟩ := ip_ofSolver hm g hn hb.ne' hs
  have hso' := hso _ (nlp d lim c m.var.total q) x0 (by rw [← hr]; exact e1.1 hok)
  rw [← hr] at hso'
  obtain ⟨hf, ⟨-, hz, hsg⟩, hcp⟩ := hso'
  obtain ⟨q', hq', ht, hA, hv, hl, hqok⟩ := linearOf_spec hm g
  rw [hq] at hq'; cases hq'
  obtain ⟨s1, s2, s3, s4, -⟩ := ac_starts d extra
  have htot : m.var.total = nb + (nb + (ng + (ng + total (varBlocks extra)))) := by
    rw [ht, ac_varBlocks, total_cons, total_cons, total_cons, total_cons]
  obtain ⟨G, hG, h1, h2, h3⟩ := C104_values d lim c m.var.total (fun (r : Fin q.nA) j => q.A r j) hb.ne' (il_ne hE) r.x
  have bnd : ∀ i : Fin d.il.length, (nlp d lim c m.var.total q).gl (2 * nb + i) = ⊥ ∧ (nlp d lim c m.var.total q).gl (2 * nb + d.il.length + i) = ⊥ ∧
      (nlp d lim c m.var.total q).gu (2 * nb + i) = ((0 : ℝ) : EReal) ∧ (nlp d lim c m.var.total q).gu (2 * nb + d.il.length + i) = ((0 : ℝ) : EReal) := by
    intro i
    have hi := i.isLt
    refine ⟨?_, ?_, ?_, ?_⟩ <;> exact (if_neg (by omega)).trans (if_pos (by omega))
  have vr : ∀ k < m.var.total, ∀ lo hi : ℝ, q.xmin k = lo → q.xmax k = hi → r.zu k * (hi - r.x k) ≤ γ ∧ r.zl k * (r.x k - lo) ≤ γ := fun k hk lo hi a b =>
    ⟨(hcp.1 k hk hi).2 b, (hcp.1 k hk lo).1 a⟩
  have conv : ∀ z u y : ℝ, z / d.base * (u - y * d.base) = z * (u / d.base - y) := by
    intro z u y; field_simp
  have conv' : ∀ z u y : ℝ, z / d.base * (y * d.base - u) = z * (y - u / d.base) := by
    intro z u y; field_simp
  refine ⟨fun p => ?_, fun b => ?_, fun l hl' => ?_, fun p => ?_, fun b => ?_, fun l hl' => ?_⟩
  · rw [(eP p).1, (eP p).2, (eQ p).1, (eQ p).2, el, eu]
    exact ⟨div_nonneg (hz _).1 hb.le, div_nonneg (hz _).2 hb.le, div_nonneg (hz _).1 hb.le, div_nonneg (hz _).2 hb.le⟩
  · rw [(eVm b).1, (eVm b).2, el, eu]
    exact ⟨(hz _).1, (hz _).2⟩
  · obtain ⟨i, rfl⟩ := List.mem_iff_get.1 ((mem_il d l).2 hl')
    have a1 := hsg (.inr (.inl (.inl i))) (bnd i).1
    have a2 := hsg (.inr (.inl (.inr i))) (bnd i).2.1
    have h0 := hrate (d.il.get i)
    have c0 : 0 ≤ 2 * d.rateA (d.il.get i) / d.base ^ 2 := by positivity
    have cv : ∀ w : ℝ, 2 * w * d.rateA (d.il.get i) / d.base / d.base = w * (2 * d.rateA (d.il.get i) / d.base ^ 2) := by
      intro w; field_simp
    rw [(eS i).1, (eS i).2, cv, cv]
    exact ⟨mul_le_mul_of_nonneg_right a1 c0, mul_le_mul_of_nonneg_right a2 c0⟩
  · have hp := p.isLt
    have b1 := hv ("Pg", _) (by rw [ac_varVals]; exact List.mem_cons_of_mem _ (List.mem_cons_of_mem _ List.mem_cons_self)) p p.isLt
    rw [varLo_vec _ _ _ _ p.isLt, varHi_vec _ _ _ _ p.isLt, s3] at b1
    have b2 := hv ("Qg", _) (by rw [ac_varVals]; exact List.mem_cons_of_mem _ (List.mem_cons_of_mem _ (List.mem_cons_of_mem _ List.mem_cons_self))) p p.isLt
    rw [varLo_vec _ _ _ _ p.isLt, varHi_vec _ _ _ _ p.isLt, s4] at b2
    have r1 := vr _ (by omega) _ _ b1.1 b1.2
    have r2 := vr _ (by omega) _ _ b2.1 b2.2
    rw [(eP p).1, (eP p).2, (eQ p).1, (eQ p).2, (eG p).1, (eG p).2.1, el, eu, e3, conv, conv, conv', conv']
    exact ⟨r1.1, r1.2, r2.1, r2.2⟩
  · have hp := b.isLt
    have b1 := hv ("Vm", _) (by rw [ac_varVals]; exact List.mem_cons_of_mem _ List.mem_cons_self) b b.isLt
    rw [varLo_vec _ _ _ _ b.isLt, varHi_vec _ _ _ _ b.isLt, s2] at b1
    rw [(eVm b).1, (eVm b).2, (eV b).2, el, eu, e3]
    exact vr _ (by omega) _ _ b1.1 b1.2
  · obtain ⟨i, rfl⟩ := List.mem_iff_get.1 ((mem_il d l).2 hl')
    have a1 := hcp.2 G hG (.inr (.inl (.inl i))) 0 (bnd i).1 (bnd i).2.2.1
    have a2 := hcp.2 G hG (.inr (.inl (.inr i))) 0 (bnd i).2.1 (bnd i).2.2.2
    rw [(h2 i).1] at a1
    rw [(h2 i).2] at a2
    have hr0 := hl'.1
    have cv : ∀ w F : ℝ, 2 * w * d.rateA (d.il.get i) / d.base / d.base * ((d.rateA (d.il.get i) ^ 2 - (F * d.base) ^ 2) / (2 * d.rateA (d.il.get i))) =
        w * (0 - (F ^ 2 - (d.rateA (d.il.get i) / d.base) ^ 2)) := by
      intro w F
      field_simp
      ring
    rw [(eS i).1, (eS i).2, cv, cv, e3]
    exact ⟨a1, a2⟩

end

/-! ### Completion, non-vacuity -/

/-- **C105 (completes).**  For a well-posed case with one (active power) cost row per generator, no user costs and at least one limited branch, `ipoptopf_solver`
returns tables, whatever IPOPT answers. -/
theorem C105_completes_partial (d : Case nb ng nl) (h : d.AcOK) (lim : Int) (c : AcData) (hA : AcOk (acNl d lim c).cost) (hlen : c.gencost.length = ng)
    (huser : c.user = false) (hnw : c.P.nw = 0) (hk : c.kind ≠ .pyFloat ∨ ∃ i, i < c.gencost.length ∧ (c.row i).model = 2)
    (hl : ∃ l, d.rateA l ≠ 0 ∧ d.rateA l < 10 ^ 10) :
    ∃ m, OpfModel.run (acOps d) = some m ∧ ∀ (ipopt : AnyIpopt) (x0 : ℕ → ℝ), ∃ s, ipoptSolver d lim c m ipopt x0 = some s := by
  obtain ⟨m, hm⟩ := ac_runs d
  obtain ⟨g, hn⟩ := h.good
  refine ⟨m, hm, fun ipopt x0 => ?_⟩
  have hm' : OpfModel.run (acOps d ++ []) = some m := by rw [List.append_nil]; exact hm
  obtain ⟨q, hq, -, -, -, -, hok⟩ := linearOf_spec hm g
  obtain ⟨i1, i2, i3, i4, i5, i6⟩ := ac_idx hm' (by rw [List.append_nil]; exact g) (by rw [List.append_nil]; exact hn)
  have hil : d.il.length ≠ 0 := by
    obtain ⟨l, hl⟩ := hl
    have := List.length_pos_of_mem ((mem_il d l).2 hl)
    omega
  have hE : Evaluable (userdata d lim c) := evaluable (acNl d lim c) (acNl_layout d lim c) hA hlen hil hk
  obtain ⟨f2, hf2, -⟩ := costHess_spec d lim c hA hlen huser hnw hk x0
  have hH : ∃ H, Hs d lim c x0 = some H := by unfold Hs; rw [hf2]; exact ⟨_, rfl⟩
  obtain ⟨H, hH⟩ := hH
  obtain ⟨fv, hfv⟩ := Option.isSome_iff_exists.1 (hE.1 (ipopt _ (nlp d lim c m.var.total q) x0).x).1
  unfold ipoptSolver
  simp only [hq, i1, i2, i3, i4, i5, i6, Option.bind_eq_bind, Option.bind_some, hH]
  rw [if_neg (not_not.2 hE), hfv]
  exact ⟨_, rfl⟩

/-- **C105 (negation).**  Without any limited branch, or with reactive power cost rows, it raises, whatever IPOPT would answer. -/
theorem C105_negation (d : Case nb ng nl) (extra : List Op) (m : Model) (hm : OpfModel.run (acOps d ++ extra) = some m) (g : Good (acOps d ++ extra))
    (hn : (names (nlnBlocks (acOps d ++ extra))).Nodup) (hb : d.base ≠ 0) (lim : Int) (c : AcData) (ipopt : AnyIpopt) (x0 : ℕ → ℝ)
    (hbad : (∀ l, d.rateA l = 0 ∨ 10 ^ 10 ≤ d.rateA l) ∨ (ng ≠ 0 ∧ ng < c.gencost.length)) : ipoptSolver d lim c m ipopt x0 = none := by
  by_contra hne
  obtain ⟨s, hs⟩ := Option.ne_none_iff_exists'.1 hne
  obtain ⟨hE, -⟩ := ip_ofSolver hm g hn hb hs
  rcases hbad with h | ⟨h0, h⟩
  · obtain ⟨l, h1, h2⟩ := il_ne hE
    rcases h l with h | h
    · exact h1 h
    · exact absurd h2 (not_lt.2 h)
  · have h1 := hE.2 0 0 0 0 0 0
    rw [C75_negation_qcost (acNl d lim c) (acNl_layout d lim c) h0 h 0 0 0 0 0 0] at h1
    cases h1

open Filter in
theorem eventually_obeys {lo hi : EReal} (hlo : lo ≠ ⊤) (hhi : hi ≠ ⊥) (v : ℝ) : ∀ᶠ ε in atTop, Obeys lo hi v ε := by
  refine Filter.Eventually.and ?_ ?_
  · filter_upwards [eventually_ge_atTop (lo.toReal - v)] with ε hε h
    refine (EReal.le_coe_toReal hlo).trans (EReal.coe_le_coe_iff.2 (by linarith))
  · filter_upwards [eventually_ge_atTop (v - hi.toReal)] with ε hε h
    refine le_trans (EReal.coe_le_coe_iff.2 (by linarith)) (EReal.coe_toReal_le hhi)

/-- The solver that stays where it starts and reports success if the point is as expected. -/
noncomputable def lazy (ε δ γ : ℝ) : AnyIpopt := fun R P x0 =>
  open Classical in
  if ∀ _ : Fintype R, Out.Feasible ⟨x0, 0, 0, 0, 0⟩ P ε ∧ Out.Stationary ⟨x0, 0, 0, 0, 0⟩ P δ ∧ Out.Complementary ⟨x0, 0, 0, 0, 0⟩ P γ then ⟨x0, 0, 0, 0, 0⟩
  else ⟨x0, 0, 0, 2, 0⟩

theorem lazy_sound (ε δ γ : ℝ) : Sound (lazy ε δ γ) ε δ γ := by
  intro R i P x0 h
  unfold lazy at h ⊢
  split_ifs at h ⊢ with hc
  · exact hc i
  · simp at h

open Filter in
/-- A successful run on the example, all hypotheses met. -/
example : ∃ (m : Model) (ε δ γ : ℝ) (s : AcRes 2 1 1), OpfModel.run (acOps exCase ++ []) = some m ∧ Good (acOps exCase ++ []) ∧
    (names (nlnBlocks (acOps exCase ++ []))).Nodup ∧ 0 < exCase.base ∧ Sound (lazy ε δ γ) ε δ γ ∧
    ipoptSolver exCase 0 exCost m (lazy ε δ γ) (fun _ => 1) = some s ∧ s.success = true ∧ (∀ b, 0 < s.VM b) ∧ (exCase.rateA 0 ≠ 0 ∧ exCase.rateA 0 < 10 ^ 10) ∧
    InService (exCase.branch 0) ∧ exCase.isRef 0 = true ∧ AcOk (acNl exCase 0 exCost).cost ∧ exCost.P.nx = m.var.total ∧ (exCost.row 0).model = 2 := by
  obtain ⟨m, hm, hall⟩ := C105_completes_partial exCase exCase_acok 0 exCost exCost_ok rfl rfl rfl (Or.inr ⟨0, by simp [exCost], rfl⟩) ex_limited
  obtain ⟨g, hn⟩ := exCase_acok.good
  obtain ⟨q, hq, ht, -, -, -, hok⟩ := linearOf_spec hm g
  have hm' : OpfModel.run (acOps exCase ++ []) = some m := by rw [List.append_nil]; exact hm
  have g' : Good (acOps exCase ++ []) := by rw [List.append_nil]; exact g
  have n' : (names (nlnBlocks (acOps exCase ++ []))).Nodup := by rw [List.append_nil]; exact hn
  have htot : m.var.total = 6 := by
    have := ac_varBlocks exCase []
    rw [List.append_nil] at this
    rw [ht, this]; simp [total, varBlocks]
  set P := nlp exCase 0 exCost m.var.total q with hP
  have bl : ∀ r, P.gl (P.pos r) ≠ ⊤ ∧ P.gu (P.pos r) ≠ ⊥ := by
    rintro ((b | b) | (i | i) | r)
    · have := b.isLt
      have e : P.pos (.inl (.inl b)) = b := rfl
      rw [e, show P.gl b = 0 from if_pos (by omega), show P.gu b = 0 from if_pos (by omega)]; simp
    · have := b.isLt
      have e : P.pos (.inl (.inr b)) = 2 + b := rfl
      rw [e, show P.gl (2 + b) = 0 from if_pos (by omega), show P.gu (2 + b) = 0 from if_pos (by omega)]; simp
    · have := i.isLt
      have e : P.pos (.inr (.inl (.inl i))) = 2 * 2 + i := rfl
      rw [e, show P.gl (2 * 2 + i) = ⊥ from (if_neg (by omega)).trans (if_pos (by omega)), show P.gu (2 * 2 + i) = 0 from (if_neg (by omega)).trans (if_pos (by omega))]; simp
    · have := i.isLt
      have e : P.pos (.inr (.inl (.inr i))) = 2 * 2 + exCase.il.length + i := rfl
      rw [e, show P.gl (2 * 2 + exCase.il.length + i) = ⊥ from (if_neg (by omega)).trans (if_pos (by omega)),
        show P.gu (2 * 2 + exCase.il.length + i) = 0 from (if_neg (by omega)).trans (if_pos (by omega))]; simp
    · have e : P.pos (.inr (.inr r)) = 2 * 2 + (2 * exCase.il.length + r) := rfl
      have h1 : P.gl (2 * 2 + (2 * exCase.il.length + r)) = q.l r := (if_neg (by omega)).trans ((if_neg (by omega)).trans (congrArg q.l (by omega)))
      have h2 : P.gu (2 * 2 + (2 * exCase.il.length + r)) = q.u r := (if_neg (by omega)).trans ((if_neg (by omega)).trans (congrArg q.u (by omega)))
      rw [e, h1, h2]
      have := hok.2 r r.isLt
      exact ⟨this.2.2.1, this.2.1⟩
  obtain ⟨G, hG, -⟩ := C104_values exCase 0 exCost m.var.total (fun (r : Fin q.nA) j => q.A r j) exCase_acok.base.ne' ex_limited fun _ => 1
  have hf : ∀ᶠ ε in atTop, Out.Feasible ⟨fun _ => 1, 0, 0, 0, 0⟩ P ε := by
    have h1 : ∀ᶠ ε in atTop, ∀ r, Obeys (P.gl (P.pos r)) (P.gu (P.pos r)) (G r) ε := eventually_all.2 fun r => eventually_obeys (bl r).1 (bl r).2 _
    have h2 : ∀ᶠ ε in atTop, ∀ k : Fin m.var.total, Obeys (P.xl k) (P.xu k) 1 ε := eventually_all.2 fun k => by
      have := hok.1 k k.isLt
      exact eventually_obeys this.2.2.1 this.2.1 _
    filter_upwards [h1, h2] with ε a1 a2
    refine ⟨fun G' hG' => ?_, fun k hk => a2 ⟨k, hk⟩⟩
    have : G' = G := by
      have e : P.g (fun _ => 1) = some G := hG
      rw [e] at hG'
      exact (Option.some.inj hG').symm
    rw [this]; exact a1
  obtain ⟨ε, hε⟩ := hf.exists
  have hst : ∃ δ : ℝ, ∀ i : Fintype (Row 2 exCase.il.length q.nA), Out.Stationary ⟨fun _ => 1, 0, 0, 0, 0⟩ P δ := by
    cases hgr : P.grad fun _ => 1 with
    | none =>
      refine ⟨0, fun i => ⟨fun gr J h => ?_, by simp, by simp⟩⟩
      have h' : P.grad (fun _ => 1) = some gr := h
      rw [hgr] at h'
      cases h'
    | some gr =>
      have h2 : ∀ᶠ δ in atTop, ∀ k : Fin m.var.total, |gr k| ≤ δ := eventually_all.2 fun k => eventually_ge_atTop _
      obtain ⟨δ, hδ, hδ0⟩ := (h2.and (eventually_ge_atTop (0 : ℝ))).exists
      refine ⟨δ, fun i => ⟨fun gr' J h hJ k hk => ?_, by simp, fun r hr => by simpa using hδ0⟩⟩
      have h' : P.grad (fun _ => 1) = some gr' := h
      rw [hgr] at h'
      cases h'
      simpa using hδ ⟨k, hk⟩
  obtain ⟨δ, hδ⟩ := hst
  have hc : Out.Complementary ⟨fun _ => 1, 0, 0, 0, 0⟩ P 0 := ⟨fun k hk a => by simp, fun G' hG' r a => by simp⟩
  obtain ⟨s, hs⟩ := hall (lazy ε δ 0) fun _ => 1
  obtain ⟨-, q', r, hq', hr, e1, -, e3, -, -, -, -, -, -, eV, -⟩ := ip_ofSolver hm' g' n' exCase_acok.base.ne' hs
  rw [hq] at hq'; cases hq'
  have hr' : r = ⟨fun _ => 1, 0, 0, 0, 0⟩ := by
    rw [hr]
    unfold lazy
    exact if_pos fun i => ⟨hε, hδ i, hc⟩
  refine ⟨m, ε, δ, 0, s, hm', g', n', exCase_acok.base, lazy_sound _ _ _, hs, e1.2 (by rw [hr']; exact .inl rfl), ?_, by norm_num [exCase], rfl, rfl, exCost_ok,
    by rw [htot]; rfl, rfl⟩
  intro b
  rw [(eV b).2, e3, hr']
  exact one_pos

end Verif.Ipopt
