import Verif.Opf.CurveSpec
import Verif.Opf.CurveLemmas

/-!
# C120: capability curves, constant power factors and angle limits in the tables returned by an AC optimal power flow
-/

namespace Verif.Opf

open Verif.Index (BusRow GenRow BranchRow IsArgsort WF GenInService BranchInService Connected)
open Verif.OpfModel Verif.Pips Verif.Network Verif.OpfCost Verif.NumPy

theorem capU_iff (g : Constr.Gen) : Constr.hasPQcapU g = true ↔ CutsUpper g := by
  unfold Constr.hasPQcapU CutsUpper Constr.BelowUpper
  simp only [decide_eq_true_eq, not_le, mul_div_assoc]

theorem capL_iff (g : Constr.Gen) : Constr.hasPQcapL g = true ↔ CutsLower g := by
  unfold Constr.hasPQcapL CutsLower Constr.AboveLower
  simp only [decide_eq_true_eq, not_le, mul_div_assoc]

/-- A half plane up to a tolerance, before and after normalisation. -/
theorem half_within {base t : ℝ} (hb : 0 < base) (h : Constr.Half) (hne : h.b ≠ 0) (hbig : h.normalise.ub / base < 10 ^ 10) {p q : ℝ}
    (hw : Within ⊥ ((h.normalise.ub / base : ℝ) : EReal) (h.normalise.a * (p / base) + h.normalise.b * (q / base)) t) :
    h.a * p + h.b * q < h.ub + t * base * Real.sqrt (h.a ^ 2 + h.b ^ 2) := by
  have h1 := within_upper hw hbig
  have hr : 0 < Real.sqrt (h.a ^ 2 + h.b ^ 2) := Real.sqrt_pos.2 (by positivity)
  simp only [Constr.Half.normalise] at h1
  set r := Real.sqrt (h.a ^ 2 + h.b ^ 2)
  have e1 : h.a / r * (p / base) + h.b / r * (q / base) = (h.a * p + h.b * q) / (r * base) := by field_simp
  have e2 : h.ub / r / base + t = (h.ub + t * base * r) / (r * base) := by field_simp
  rw [e1, e2, div_lt_div_iff_of_pos_right (mul_pos hr hb)] at h1
  exact h1

theorem half_ub {base : ℝ} (hb : 0 < base) (a b p q : ℝ) (hbig : (|p| + |q|) / base < 10 ^ 10) :
    (⟨a, b, a * p + b * q⟩ : Constr.Half).normalise.ub / base < 10 ^ 10 := by
  refine lt_of_le_of_lt (div_le_div_of_nonneg_right ?_ hb.le) hbig
  simp only [Constr.Half.normalise]
  set r := Real.sqrt (a ^ 2 + b ^ 2) with hr
  have ha : |a| ≤ r := Real.abs_le_sqrt (by nlinarith [sq_nonneg b])
  have hb' : |b| ≤ r := Real.abs_le_sqrt (by nlinarith [sq_nonneg a])
  rcases (Real.sqrt_nonneg (a ^ 2 + b ^ 2)).eq_or_lt with h0 | h0
  · rw [hr, ← h0, div_zero]; positivity
  · rw [div_le_iff₀ (by rw [hr]; exact h0)]
    calc a * p + b * q ≤ |a| * |p| + |b| * |q| := by
          rw [← abs_mul, ← abs_mul]; exact add_le_add (le_abs_self _) (le_abs_self _)
      _ ≤ r * |p| + r * |q| := add_le_add (mul_le_mul_of_nonneg_right ha (abs_nonneg _)) (mul_le_mul_of_nonneg_right hb' (abs_nonneg _))
      _ = (|p| + |q|) * r := by ring

theorem sqrt_le_slope (a b : ℝ) (hb : 0 < b) : Real.sqrt (a ^ 2 + b ^ 2) ≤ b * (1 + |a / b|) := by
  rw [abs_div, abs_of_pos hb]
  have e : b * (1 + |a| / b) = b + |a| := by field_simp
  rw [e]
  refine Real.sqrt_le_iff.2 ⟨by positivity, ?_⟩
  nlinarith [sq_abs a, abs_nonneg a, mul_nonneg hb.le (abs_nonneg a)]

theorem qlim_congr (base : ℝ) {a b : Constr.Gen} (h1 : a.qmin = b.qmin) (h2 : a.qmax = b.qmax) : Constr.qlim base a = Constr.qlim base b := by
  cases a; cases b
  simp only at h1 h2
  subst h1 h2
  rfl

section run
variable {srt : List ℕ → List ℕ} (hs : IsArgsort srt) {base : ℝ} (hb : 0 < base) {lim : Int} {K : Curves} {o : Opt} {solve : AnySolver} {c : Index.Case Tables} (h : WF c)
  (hgood : ∀ c' d, Index.ext2int srt c = some c' → readCase base c' = some d →
    Good (acOps d ++ curveExtra K d c') ∧ (names (nlnBlocks (acOps d ++ curveExtra K d c'))).Nodup)
  {r : Ret} (hrun : opfAcCurve srt base lim K o solve c = some r)

include hs hb h hgood hrun

/-- **C120 (what other runs promise).**  Such a run also keeps every promise of an AC optimal power flow without curves: see `C86_ac`, `C86_ac_flows`, `C86_ac_inputs`,
which hold for it. -/
theorem C120_limits (hok : r.success = true) :
    (∀ b ∈ r.tables.bus, b.typ ≠ 4 → |acBalanceP r.tables b| < r.tol * base ∧ |acBalanceQ r.tables b| < r.tol * base ∧
      (b.data.VMAX < 10 ^ 10 → b.data.VM < b.data.VMAX + r.tol) ∧ (-10 ^ 10 < b.data.VMIN → b.data.VMIN - r.tol < b.data.VM)) ∧
    (∀ g ∈ r.tables.gen, GenInService r.tables g →
      (g.data.PMAX / base < 10 ^ 10 → g.data.PG < g.data.PMAX + r.tol * base) ∧ (-10 ^ 10 < g.data.PMIN / base → g.data.PMIN - r.tol * base < g.data.PG) ∧
      (g.data.QMAX / base < 10 ^ 10 → g.data.QG < g.data.QMAX + r.tol * base) ∧ (-10 ^ 10 < g.data.QMIN / base → g.data.QMIN - r.tol * base < g.data.QG)) ∧
    r.tables.bus.map busInput = c.bus.map busInput ∧ r.tables.gen.map genInput = c.gen.map genInput ∧ r.tables.branch.map branchInput = c.branch.map branchInput := by
  obtain ⟨S, hS, hr⟩ := curve_isAc hrun
  have hg' : ∀ c' d, Index.ext2int srt c = some c' → readCase base c' = some d →
      Good (acOps d ++ S.extra d c') ∧ (names (nlnBlocks (acOps d ++ S.extra d c'))).Nodup := by
    intro c' d h1 h2; rw [hS]; exact hgood c' d h1 h2
  obtain ⟨p1, p2, -, -⟩ := C86_ac hs hb h hg' hr hok
  obtain ⟨i1, i2, i3, -, -⟩ := C86_ac_inputs hs h hr
  exact ⟨p1, fun g hg hon => by obtain ⟨a1, a2, a3, a4, -⟩ := p2 g hg hon; exact ⟨a1, a2, a3, a4⟩, i1, i2, i3⟩

theorem curve_tol_pos (hok : r.success = true) {g : GenRow GenD} (hon : GenInService r.tables g) : 0 < r.tol * base := by
  obtain ⟨-, hc⟩ := hon
  obtain ⟨b, hbm, -, ht⟩ := hc
  exact lt_of_le_of_lt (abs_nonneg _) ((C120_limits hs hb h hgood hrun hok).1 b hbm ht).1

/-- **C120 (capability curves).**  On success every generator in service with valid capability data lies between the two lines of its curve, up to the tolerance. -/
theorem C120_capability (hok : r.success = true) : ∀ g ∈ r.tables.gen, GenInService r.tables g → Constr.ValidCurve (K.row g.data) → CurveRange base (K.row g.data) →
    Constr.BelowUpper (K.row g.data) g.data.PG (g.data.QG - r.tol * base * (1 + |upperSlope (K.row g.data)|)) ∧
    Constr.AboveLower (K.row g.data) g.data.PG (g.data.QG + r.tol * base * (1 + |lowerSlope (K.row g.data)|)) := by
  intro g hg hon hv hR
  have ht := curve_tol_pos hs hb h hgood hrun hok hon
  obtain ⟨b1, -, b3, b4⟩ := (C120_limits hs hb h hgood hrun hok).2.1 g hg hon
  obtain ⟨c', d, m, s, mu, bp, gp, lp, R⟩ := curve_run hs h hgood hrun
  have hok' : s.success = true := by rw [← R.success]; exact hok
  obtain ⟨k, g0, -, -, hrow, e0, e1, e2, e3, e4, e5, e6⟩ := R.genRow hg hon
  obtain ⟨H, L, V, -, -, -, -, -, -, -, hops, hH, hL, -⟩ := curve_blocks d.base K c' rfl
  have hmemH : ("PQh", H) ∈ linBlks (curveExtra K d c') := by unfold curveExtra; rw [hops]; simp [linBlks]
  have hmemL : ("PQl", L) ∈ linBlks (curveExtra K d c') := by unfold curveExtra; rw [hops]; simp [linBlks]
  rw [R.baseEq] at hH hL
  have wH := R.pqRow hb hok' hmemH hH k _ hrow
  have wL := R.pqRow hb hok' hmemL hL k _ hrow
  rw [← e5, ← e6, ← R.tol] at wH wL
  -- the row of the input and that of the returned table differ in the outputs only
  have hpc : 0 < K.pc2 g.data.rest - K.pc1 g.data.rest := sub_pos.2 hv.pc
  have hu : CutsUpper (K.row g0.data) ↔ CutsUpper (K.row g.data) := by
    simp only [CutsUpper, Constr.BelowUpper, Curves.row, e0, e1, e2, e3, e4]
  have hl : CutsLower (K.row g0.data) ↔ CutsLower (K.row g.data) := by
    simp only [CutsLower, Constr.AboveLower, Curves.row, e0, e1, e2, e3, e4]
  have eU : Constr.upperHalf (K.row g0.data) = Constr.upperHalf (K.row g.data) := by simp only [Constr.upperHalf, Curves.row, e0]
  have eL : Constr.lowerHalf (K.row g0.data) = Constr.lowerHalf (K.row g.data) := by simp only [Constr.lowerHalf, Curves.row, e0]
  constructor
  · by_cases hcut : CutsUpper (K.row g.data)
    · have w := half_within hb _ (by rw [eU]; exact hpc.ne') (by rw [eU]; exact half_ub hb _ _ _ _ hR.upper) (wH ((capU_iff _).2 (hu.2 hcut)))
      rw [eU] at w
      rw [← Constr.upperHalf_iff _ hv.pc]
      have hsl := sqrt_le_slope (Constr.upperHalf (K.row g.data)).a (Constr.upperHalf (K.row g.data)).b hpc
      have es : |(Constr.upperHalf (K.row g.data)).a / (Constr.upperHalf (K.row g.data)).b| = |upperSlope (K.row g.data)| := by
        unfold upperSlope Constr.upperHalf
        rw [← abs_neg, ← neg_div, neg_sub]
      rw [es] at hsl
      have := mul_le_mul_of_nonneg_left hsl ht.le
      nlinarith
    · have hin : Constr.BelowUpper (K.row g.data) (K.row g.data).pmax (K.row g.data).qmax := by
        by_contra h0; exact hcut ⟨hv.pc.ne, h0⟩
      have hs0 : upperSlope (K.row g.data) ≤ 0 := div_nonpos_of_nonpos_of_nonneg (sub_nonpos.2 hv.upper) hpc.le
      unfold Constr.BelowUpper at hin ⊢
      change _ ≤ _ + _ * upperSlope (K.row g.data) at hin
      change _ ≤ _ + _ * upperSlope (K.row g.data)
      have q1 := b3 hR.qmax
      have q2 := b1 hR.pmax
      rw [abs_of_nonpos hs0]
      have : (g.data.PMAX + r.tol * base - g.data.PG) * upperSlope (K.row g.data) ≤ 0 := mul_nonpos_of_nonneg_of_nonpos (by linarith) hs0
      generalize upperSlope (K.row g.data) = S at *
      simp only [Curves.row] at hin ⊢
      nlinarith
  · by_cases hcut : CutsLower (K.row g.data)
    · have w := half_within hb _ (by rw [eL]; exact (neg_lt_zero.2 hpc).ne ∘ fun h0 => by simpa [Constr.lowerHalf, Curves.row] using h0)
        (by rw [eL]; exact half_ub hb _ _ _ _ hR.lower) (wL ((capL_iff _).2 (hl.2 hcut)))
      rw [eL] at w
      rw [← Constr.lowerHalf_iff _ hv.pc]
      have hsl := sqrt_le_slope (Constr.lowerHalf (K.row g.data)).a (-(Constr.lowerHalf (K.row g.data)).b) (by simp only [Constr.lowerHalf, Curves.row]; linarith)
      rw [neg_sq] at hsl
      have es : |(Constr.lowerHalf (K.row g.data)).a / -(Constr.lowerHalf (K.row g.data)).b| = |lowerSlope (K.row g.data)| := by
        unfold lowerSlope Constr.lowerHalf
        rw [neg_sub]
      rw [es] at hsl
      have := mul_le_mul_of_nonneg_left hsl ht.le
      nlinarith
    · have hin : Constr.AboveLower (K.row g.data) (K.row g.data).pmax (K.row g.data).qmin := by
        by_contra h0; exact hcut ⟨hv.pc.ne, h0⟩
      have hs0 : 0 ≤ lowerSlope (K.row g.data) := div_nonneg (sub_nonneg.2 hv.lower) hpc.le
      unfold Constr.AboveLower at hin ⊢
      change _ + _ * lowerSlope (K.row g.data) ≤ _ at hin
      change _ + _ * lowerSlope (K.row g.data) ≤ _
      have q1 := b4 hR.qmin
      have q2 := b1 hR.pmax
      rw [abs_of_nonneg hs0]
      have : 0 ≤ (g.data.PMAX + r.tol * base - g.data.PG) * lowerSlope (K.row g.data) := mul_nonneg (by linarith) hs0
      generalize lowerSlope (K.row g.data) = S at *
      simp only [Curves.row] at hin ⊢
      nlinarith

/-- The row of a dispatchable load. -/
theorem vl_within (hok : r.success = true) {g : GenRow GenD} (hg : g ∈ r.tables.gen) (hon : GenInService r.tables g) (hv : Constr.VarLoad (K.row g.data)) :
    |Real.sin (Constr.arctan2 (Constr.qlim base (K.row g.data)) (g.data.PMIN / base)) * (g.data.PG / base) -
      Real.cos (Constr.arctan2 (Constr.qlim base (K.row g.data)) (g.data.PMIN / base)) * (g.data.QG / base)| < r.tol := by
  obtain ⟨c', d, m, s, mu, bp, gp, lp, R⟩ := curve_run hs h hgood hrun
  have hok' : s.success = true := by rw [← R.success]; exact hok
  obtain ⟨k, g0, -, -, hrow, e0, e1, e2, e3, e4, e5, e6⟩ := R.genRow hg hon
  obtain ⟨H, L, V, -, -, -, -, -, -, -, hops, -, -, hV⟩ := curve_blocks d.base K c' rfl
  have hmemV : ("vl", V) ∈ linBlks (curveExtra K d c') := by unfold curveExtra; rw [hops]; simp [linBlks]
  rw [R.baseEq] at hV
  have hv' : Constr.VarLoad (K.row g0.data) := by
    unfold Constr.VarLoad at hv ⊢
    simp only [Curves.row, e1, e2, e3, e4] at hv ⊢
    exact hv
  have w := R.pqRow hb hok' hmemV hV k _ hrow ((Constr.isVarLoad_iff base hb _).2 hv')
  rw [← e5, ← e6, ← R.tol] at w
  have eq : Constr.qlim base (K.row g0.data) = Constr.qlim base (K.row g.data) := qlim_congr base e3.symm e4.symm
  have ep : (K.row g0.data).pmin = g.data.PMIN := by simp only [Curves.row, e1]
  rw [eq, ep] at w
  have w1 := within_upper w (by norm_num)
  have w2 := within_lower w (by norm_num)
  rw [abs_lt]
  constructor <;> linarith

/-- **C120 (constant power factor, partial).**  On success every dispatchable load in service with one nonzero reactive limit `q` keeps the ratio of `q` to `PMIN`, up to
the tolerance.  Missing: loads with two nonzero limits, see `C120_negation_powerfactor`. -/
theorem C120_powerfactor_partial (hok : r.success = true) : ∀ g ∈ r.tables.gen, GenInService r.tables g → Constr.VarLoad (K.row g.data) →
    ∀ q ≠ 0, Constr.PfLimit (K.row g.data) q → |g.data.PG * q - g.data.QG * g.data.PMIN| < r.tol * base * Real.sqrt (g.data.PMIN ^ 2 + q ^ 2) := by
  intro g hg hon hv q hq hpf
  have w := vl_within hs hb h hgood hrun hok hg hon hv
  have hqlim : Constr.qlim base (K.row g.data) = q / base := by
    unfold Constr.qlim
    rcases hpf with ⟨h1, rfl⟩ | ⟨h1, rfl⟩
    · simp [h1, hb.ne', hq]
    · simp [h1, hb.ne', hq]
  have hp0 : g.data.PMIN ≠ 0 := hv.1.ne
  have hpm : g.data.PMIN / base ≠ 0 := div_ne_zero hp0 hb.ne'
  obtain ⟨hsn, hcs, hpos⟩ := Constr.sin_arctan2 (Constr.qlim base (K.row g.data)) (g.data.PMIN / base) hpm
  rw [hsn, hcs, hqlim] at w
  rw [hqlim] at hpos
  have hn : ‖(⟨g.data.PMIN / base, q / base⟩ : ℂ)‖ = Real.sqrt (g.data.PMIN ^ 2 + q ^ 2) / base := by
    rw [Complex.norm_eq_sqrt_sq_add_sq]
    rw [show (g.data.PMIN / base) ^ 2 + (q / base) ^ 2 = (g.data.PMIN ^ 2 + q ^ 2) / base ^ 2 by field_simp, Real.sqrt_div' _ (by positivity), Real.sqrt_sq hb.le]
  rw [hn] at w
  have hr : 0 < Real.sqrt (g.data.PMIN ^ 2 + q ^ 2) := Real.sqrt_pos.2 (by positivity)
  set ρ := Real.sqrt (g.data.PMIN ^ 2 + q ^ 2)
  have e : q / base / (ρ / base) * (g.data.PG / base) - g.data.PMIN / base / (ρ / base) * (g.data.QG / base) = (g.data.PG * q - g.data.QG * g.data.PMIN) / (base * ρ) := by
    field_simp
  rw [e, abs_div, abs_of_pos (mul_pos hb hr), div_lt_iff₀ (mul_pos hb hr)] at w
  linarith

/-- **C120 (constant power factor, negation).**  A dispatchable load in service with two nonzero reactive limits is not rejected: the run succeeds only with its reactive
power (nearly) zero, whatever its limits say. -/
theorem C120_negation_powerfactor (hok : r.success = true) : ∀ g ∈ r.tables.gen, GenInService r.tables g → Constr.VarLoad (K.row g.data) →
    g.data.QMIN ≠ 0 → g.data.QMAX ≠ 0 → |g.data.QG| < r.tol * base := by
  intro g hg hon hv h1 h2
  have w := vl_within hs hb h hgood hrun hok hg hon hv
  have hqlim : Constr.qlim base (K.row g.data) = 0 := by unfold Constr.qlim; simp [Curves.row, h1, h2, hb.ne']
  have hp0 : g.data.PMIN < 0 := hv.1
  have hpm : g.data.PMIN / base ≠ 0 := div_ne_zero hp0.ne hb.ne'
  obtain ⟨hsn, hcs, hpos⟩ := Constr.sin_arctan2 (Constr.qlim base (K.row g.data)) (g.data.PMIN / base) hpm
  rw [hsn, hcs, hqlim] at w
  have hn : ‖(⟨g.data.PMIN / base, 0⟩ : ℂ)‖ = -(g.data.PMIN / base) := by
    rw [Complex.norm_eq_sqrt_sq_add_sq]
    simp only [ne_eq, OfNat.ofNat_ne_zero, not_false_eq_true, zero_pow, add_zero]
    rw [Real.sqrt_sq_eq_abs, abs_of_neg (div_neg_of_neg_of_pos hp0 hb)]
  rw [hn] at w
  rw [zero_div, zero_mul, zero_sub, div_neg, div_self hpm, neg_mul, one_mul, neg_neg, abs_div, abs_of_pos hb, div_lt_iff₀ hb] at w
  exact w

/-- **C120 (angle limits).**  On success every branch in service with an angle limit keeps its angle difference within its limits, up to the tolerance, unless angle
limits are ignored. -/
theorem C120_angles (hok : r.success = true) (hig : K.ang.ignoreAng = false) (θ : ℕ → ℝ) (hθ : ∀ b ∈ r.tables.bus, θ b.num = b.data.VA * (Real.pi / 180)) :
    ∀ l ∈ r.tables.branch, BranchInService r.tables l → Constr.Limited ⟨l.f, l.t, K.ang.angmin l.data.rest, K.ang.angmax l.data.rest⟩ →
      (K.ang.angmin l.data.rest ≠ 0 → -10 ^ 10 < K.ang.angmin l.data.rest * Real.pi / 180 → K.ang.angmin l.data.rest * Real.pi / 180 - r.tol < θ l.f - θ l.t) ∧
      (K.ang.angmax l.data.rest ≠ 0 → K.ang.angmax l.data.rest * Real.pi / 180 < 10 ^ 10 → θ l.f - θ l.t < K.ang.angmax l.data.rest * Real.pi / 180 + r.tol) := by
  obtain ⟨c', d, m, s, mu, bp, gp, lp, R⟩ := curve_run hs h hgood hrun
  have hok' : s.success = true := by rw [← R.success]; exact hok
  have hbd : 0 < d.base := by rw [R.baseEq]; exact hb
  obtain ⟨-, hrows, hVA, -⟩ := C79_extra d _ m R.run R.good.1 R.good.2 hbd lim (K.cost c') o solve _ s R.sol hok'
  obtain ⟨B, hB, hvs, -, -, -, -, hall, -⟩ := ang_block K.ang c'.bus.length c' (readCase_valid R.read K.ang)
  intro l hlm hon hlim
  obtain ⟨k, l0, h0, rfl, ⟨bf, hbf, hnf⟩, ⟨bt, hbt, hnt⟩, -⟩ := R.bridge.brRow hlm hon
  obtain ⟨l1, e0, e1, e2, e3⟩ := R.ends k
  rw [h0] at e0; cases e0
  have hpi := Real.pi_pos
  have ang : ∀ (j : Fin c'.bus.length) b0 n, c.bus[bp j]? = some b0 → b0.num = n → s.x j = θ n := by
    rintro j b0 n hj rfl
    obtain ⟨b1, h1, -, h2, -⟩ := R.bridge.bus j
    rw [hj] at h1; cases h1
    rw [hθ _ (List.mem_of_getElem? h2)]
    simp only [acUpd, (hVA j).1, (ac_starts d _).1, zero_add]
    field_simp
  have hmem : (⟨c'.branch[k].f, c'.branch[k].t, K.ang.angmin c'.branch[k].data.rest, K.ang.angmax c'.branch[k].data.rest⟩ : Constr.Branch) ∈ angRows K.ang c' :=
    List.mem_map.2 ⟨c'.branch[k], List.getElem_mem _, rfl⟩
  obtain ⟨i, hi, hrow⟩ := hall hig _ hmem (by
    unfold Constr.Limited at hlim ⊢
    rw [e1]
    exact hlim)
  have hin : ("ang", B) ∈ linBlks (curveExtra K d c') := by
    unfold curveExtra
    rw [hB]; simp [linBlks]
  have hw := hrows _ hin i hi
  have ef := ac_subvec_Va d (curveExtra K d c') s.x (d.branch k).f
  have et := ac_subvec_Va d (curveExtra K d c') s.x (d.branch k).t
  simp only at hw
  rw [hrow.lo, hrow.hi, hrow.row, hvs] at hw
  simp only [e1, e2, e3] at hw
  rw [ef, et, ang _ _ _ hbf hnf, ang _ _ _ hbt hnt, ← R.tol] at hw
  constructor
  · intro h1 h2
    have h1' : K.ang.angmin l0.data.rest ≠ 0 := h1
    rw [if_pos (by simpa using h1')] at hw
    exact within_lower hw h2
  · intro h1 h2
    have h1' : K.ang.angmax l0.data.rest ≠ 0 := h1
    split_ifs at hw with h3 h4 h4
    · exact within_upper hw h2
    · exact absurd (by simpa using h4) h1'
    · exact within_upper hw h2
    · exact absurd (by simpa using h4) h1'

end run

end Verif.Opf
