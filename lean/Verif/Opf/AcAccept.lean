import Verif.Opf.Accept
import Verif.Opf.AcUserProps
import Verif.Opf.CurveCases

/-!
# Feasible operating points are accepted by the AC optimal power flow: internal numbering

Lemmas for C126 and C127.
-/

open Matrix ComplexConjugate

namespace Verif.Opf

open Verif.OpfModel Verif.Pips Verif.Network Verif.OpfNl Verif.OpfCost

variable {nb ng nl : ℕ}

/-- Voltage phasors from angles in radians. -/
noncomputable def polarV (va vm : Fin nb → ℝ) (b : Fin nb) : ℂ := (vm b : ℂ) * Complex.exp (Complex.I * (va b : ℂ))

/-- An operating point of the case within all its limits, without tolerances. -/
structure AcPoint (d : Case nb ng nl) (lim : Int) (va vm : Fin nb → ℝ) (pg qg : Fin ng → ℝ) (PF QF PT QT : Fin nl → ℝ) : Prop where
  flows : ∀ l, (⟨PF l, QF l⟩ : ℂ) = polarV va vm (d.branch l).f * conj ((Network.Yf d.branch *ᵥ polarV va vm) l) * d.base ∧
    (⟨PT l, QT l⟩ : ℂ) = polarV va vm (d.branch l).t * conj ((Network.Yt d.branch *ᵥ polarV va vm) l) * d.base
  balance : ∀ b, acMismatchP d pg vm PF PT b = 0 ∧ acMismatchQ d qg vm QF QT b = 0
  volt : ∀ b, d.vmin b ≤ vm b ∧ vm b ≤ d.vmax b
  gen : ∀ p, (d.pmin p ≤ pg p ∧ pg p ≤ d.pmax p) ∧ d.qmin p ≤ qg p ∧ qg p ≤ d.qmax p
  ref : ∀ b, d.isRef b = true → va b = d.vaRad b
  rating : ∀ l, d.rateA l ≠ 0 → d.rateA l < 10 ^ 10 →
    (lim ≠ 1 → lim ≠ 2 → PF l ^ 2 + QF l ^ 2 ≤ d.rateA l ^ 2 ∧ PT l ^ 2 + QT l ^ 2 ≤ d.rateA l ^ 2) ∧
    (lim = 1 → PF l ^ 2 ≤ d.rateA l ^ 2 ∧ PT l ^ 2 ≤ d.rateA l ^ 2) ∧
    (lim = 2 → (vm (d.branch l).f ≠ 0 ∧ vm (d.branch l).t ≠ 0) ∧
      PF l ^ 2 + QF l ^ 2 ≤ vm (d.branch l).f ^ 2 * d.rateA l ^ 2 ∧ PT l ^ 2 + QT l ^ 2 ≤ vm (d.branch l).t ^ 2 * d.rateA l ^ 2)

section
variable {d : Case nb ng nl} (hb : 0 < d.base) {lim : Int} {va vm : Fin nb → ℝ} {pg qg : Fin ng → ℝ} {PF QF PT QT : Fin nl → ℝ}
  (P : AcPoint d lim va vm pg qg PF QF PT QT) (c : AcData) (x : ℕ → ℝ)
  (h1 : ∀ b : Fin nb, x b = va b) (h2 : ∀ b : Fin nb, x (nb + b) = vm b) (h3 : ∀ p : Fin ng, x (2 * nb + p) = pg p / d.base)
  (h4 : ∀ p : Fin ng, x (2 * nb + ng + p) = qg p / d.base)

include h1 h2 in
theorem V_polar : (acNl d lim c).V x = polarV va vm := by
  funext b
  show ((x (nb + b) : ℝ) : ℂ) * Complex.exp (Complex.I * ((x (0 + b) : ℝ) : ℂ)) = _
  rw [zero_add, h1, h2]
  rfl

include hb P h1 h2 h3 h4

/-- The power balance of the callback holds. -/
theorem AcPoint.mis (b : Fin nb) : (acNl d lim c).mis x b = 0 := by
  have hV := V_polar (d := d) (lim := lim) c x h1 h2
  have hpi := Real.pi_pos
  let s : AcRes nb ng nl :=
    { success := true, f := 0, VA := fun b => x b * 180 / Real.pi, VM := vm, PG := pg, QG := qg, VG := fun p => vm (d.gen p).bus, PF := PF, QF := QF, PT := PT, QT := QT,
      LAM_P := 0, LAM_Q := 0, MU_VMIN := 0, MU_VMAX := 0, MU_PMIN := 0, MU_PMAX := 0, MU_QMIN := 0, MU_QMAX := 0, MU_SF := 0, MU_ST := 0, x := x, muVarL := 0, muVarU := 0,
      mu_l := 0, mu_u := 0, muNlnL := 0, muNlnU := 0, tol := 0, dual := 0 }
  have key := mis_table (d := d) (lim := lim) (c := c) hb.ne' (s := s) (fun b => ⟨rfl, (h2 b).symm⟩)
    (fun p => ⟨by show pg p = x _ * _; rw [h3, div_mul_cancel₀ _ hb.ne'], by show qg p = x _ * _; rw [h4, div_mul_cancel₀ _ hb.ne'], rfl⟩)
    (fun l => by
      show (⟨PF l, QF l⟩ : ℂ) = (acNl d lim c).V x _ * conj ((_ *ᵥ (acNl d lim c).V x) l) * _ ∧ (⟨PT l, QT l⟩ : ℂ) = (acNl d lim c).V x _ * conj ((_ *ᵥ (acNl d lim c).V x) l) * _
      rw [hV]
      exact P.flows l) b
  have e : (⟨acMismatchP d s.PG s.VM s.PF s.PT b, acMismatchQ d s.QG s.VM s.QF s.QT b⟩ : ℂ) = 0 := Complex.ext (P.balance b).1 (P.balance b).2
  rw [e, neg_zero] at key
  exact (mul_eq_zero.1 key).resolve_right (by exact_mod_cast hb.ne')

omit h3 h4 in
/-- The flow limits of the callback hold. -/
theorem AcPoint.lims : ∀ i, ((acNl d lim c).h x i).toReal ≤ 0 := by
  have hV := V_polar (d := d) (lim := lim) c x h1 h2
  have hb2 : 0 < d.base ^ 2 := by positivity
  have key : ∀ k : Fin d.il.length, ((acNl d lim c).h x (.inl k)).toReal ≤ 0 ∧ ((acNl d lim c).h x (.inr k)).toReal ≤ 0 := by
    intro k
    set l := d.il.get k with hk
    have hl := (mem_il d l).1 (by rw [hk]; exact List.get_mem _ _)
    have hne : (acNl d lim c).rateA k ≠ 0 := hl.1
    have hcst := C74_dh_const (acNl d lim c) hb.ne' k hne x
    have hrate : (acNl d lim c).rateA k / (acNl d lim c).cost.base = d.rateA l / d.base := rfl
    rw [hcst.1, hcst.2, EReal.toReal_coe, EReal.toReal_coe, hrate, hV]
    obtain ⟨ef, et⟩ := P.flows l
    obtain ⟨r0, r1, r2⟩ := P.rating l hl.1 hl.2
    set V := polarV va vm with hVd
    have lf : limited (acNl d lim c).lim (acNl d lim c).f (acNl d lim c).Yf V k = if lim = 2 then ‖(Network.Yf d.branch *ᵥ V) l‖ else
        if lim = 1 then |(V (d.branch l).f * conj ((Network.Yf d.branch *ᵥ V) l)).re| else ‖V (d.branch l).f * conj ((Network.Yf d.branch *ᵥ V) l)‖ := rfl
    have lt : limited (acNl d lim c).lim (acNl d lim c).t (acNl d lim c).Yt V k = if lim = 2 then ‖(Network.Yt d.branch *ᵥ V) l‖ else
        if lim = 1 then |(V (d.branch l).t * conj ((Network.Yt d.branch *ᵥ V) l)).re| else ‖V (d.branch l).t * conj ((Network.Yt d.branch *ᵥ V) l)‖ := rfl
    rw [lf, lt]
    have scale : ∀ y : ℝ, y * d.base ^ 2 ≤ d.rateA l ^ 2 → y - (d.rateA l / d.base) ^ 2 ≤ 0 := by
      intro y hy
      rw [div_pow, sub_nonpos, le_div_iff₀ hb2]
      exact hy
    have nrm : ∀ (P Q : ℝ) (z : ℂ), (⟨P, Q⟩ : ℂ) = z * d.base → P ^ 2 + Q ^ 2 = ‖z‖ ^ 2 * d.base ^ 2 ∧ P ^ 2 = |z.re| ^ 2 * d.base ^ 2 := by
      intro P Q z h
      have hP : P = z.re * d.base := by have := congrArg Complex.re h; simpa using this
      have hQ : Q = z.im * d.base := by have := congrArg Complex.im h; simpa using this
      rw [← Complex.normSq_eq_norm_sq, Complex.normSq_apply, sq_abs, hP, hQ]
      constructor <;> ring
    obtain ⟨nf1, nf2⟩ := nrm _ _ _ ef
    obtain ⟨nt1, nt2⟩ := nrm _ _ _ et
    have hvv : ∀ b, ‖V b‖ ^ 2 = vm b ^ 2 := by
      intro b
      have := mul_conj_polar (vm b) (va b)
      rw [Complex.mul_conj, Complex.normSq_eq_norm_sq] at this
      exact_mod_cast this
    by_cases a2 : lim = 2
    · rw [if_pos a2, if_pos a2]
      obtain ⟨⟨v1, v2⟩, q1, q2⟩ := r2 a2
      have cur : ∀ (b : Fin nb) (w : ℂ), vm b ≠ 0 → ‖V b * conj w‖ ^ 2 * d.base ^ 2 ≤ vm b ^ 2 * d.rateA l ^ 2 → ‖w‖ ^ 2 * d.base ^ 2 ≤ d.rateA l ^ 2 := by
        intro b w hv hw
        rw [norm_mul, Complex.norm_conj, mul_pow, hvv, mul_assoc] at hw
        exact le_of_mul_le_mul_left hw (by positivity)
      rw [nf1] at q1
      rw [nt1] at q2
      exact ⟨scale _ (cur _ _ v1 q1), scale _ (cur _ _ v2 q2)⟩
    · rw [if_neg a2, if_neg a2]
      by_cases a1 : lim = 1
      · rw [if_pos a1, if_pos a1]
        obtain ⟨q1, q2⟩ := r1 a1
        rw [nf2] at q1
        rw [nt2] at q2
        exact ⟨scale _ q1, scale _ q2⟩
      · rw [if_neg a1, if_neg a1]
        obtain ⟨q1, q2⟩ := r0 a1 a2
        rw [nf1] at q1
        rw [nt1] at q2
        exact ⟨scale _ q1, scale _ q2⟩
  rintro (k | k)
  · exact (key k).1
  · exact (key k).2

/-- The standard variables are within their bounds. -/
theorem AcPoint.holds (extra : List Op) : Holds (varBlocks (acOps d ++ extra)) (acOps d) x := by
  have hvv := ac_varVals d []
  have hlb := ac_linBlks d []
  rw [List.append_nil] at hvv hlb
  obtain ⟨s1, s2, s3, s4, -⟩ := ac_starts d extra
  refine ⟨?_, by rw [hlb]; simp [linBlks]⟩
  rw [hvv]
  simp only [varVals, List.filterMap_nil, List.mem_cons, List.not_mem_nil, or_false, forall_eq_or_imp, forall_eq]
  refine ⟨?_, ?_, ?_, ?_⟩
  · intro i hi
    rw [varLo_val _ _ _ _ hi, varHi_vau _ _ _ _ hi, s1, zero_add]
    have e := h1 ⟨i, hi⟩
    simp only at e
    split_ifs with hr
    · rw [e, P.ref _ hr]; exact ⟨le_rfl, le_rfl⟩
    · exact ⟨bot_le, le_top⟩
  · intro i hi
    rw [varLo_vec _ _ _ _ hi, varHi_vec _ _ _ _ hi, s2]
    have e := h2 ⟨i, hi⟩
    simp only at e
    rw [e, EReal.coe_le_coe_iff, EReal.coe_le_coe_iff]
    exact P.volt _
  · intro i hi
    rw [varLo_vec _ _ _ _ hi, varHi_vec _ _ _ _ hi, s3]
    have e := h3 ⟨i, hi⟩
    simp only at e
    rw [e, EReal.coe_le_coe_iff, EReal.coe_le_coe_iff]
    exact ⟨div_le_div_of_nonneg_right (P.gen _).1.1 hb.le, div_le_div_of_nonneg_right (P.gen _).1.2 hb.le⟩
  · intro i hi
    rw [varLo_vec _ _ _ _ hi, varHi_vec _ _ _ _ hi, s4]
    have e := h4 ⟨i, hi⟩
    simp only at e
    rw [e, EReal.coe_le_coe_iff, EReal.coe_le_coe_iff]
    exact ⟨div_le_div_of_nonneg_right (P.gen _).2.1 hb.le, div_le_div_of_nonneg_right (P.gen _).2.2 hb.le⟩

/-- **Acceptance by the AC solver**: started at an operating point within all limits at which everything else added to the model holds, the run succeeds and returns it. -/
theorem ac_accepts {extra : List Op} {m : Model} (hm : OpfModel.run (acOps d ++ extra) = some m) (g : Good (acOps d ++ extra)) (hn : (names (nlnBlocks (acOps d ++ extra))).Nodup)
    (hA : AcOk (acNl d lim c).cost) (hlen : c.gencost.length = ng) (hk : c.kind ≠ .pyFloat ∨ ∃ i, i < c.gencost.length ∧ (c.row i).model = 2)
    (hl : ∃ l, d.rateA l ≠ 0 ∧ d.rateA l < 10 ^ 10) (hx : Holds (varBlocks (acOps d ++ extra)) extra x) (δ : ℝ) (hδ : 1 / 2 ^ 52 < δ) :
    ∃ o : Opt, 0 < o.costMult ∧ 0 < o.feastol ∧ 0 < o.gradtol ∧ 0 < o.comptol ∧ ∀ solve : AnySolver, ∃ s : AcRes nb ng nl,
      pipsopfSolver d lim c m o solve (fun i => x i) = some s ∧ s.success = true ∧ s.tol = δ ∧ ∀ i < m.var.total, s.x i = x i := by
  obtain ⟨q, hq, ht, -, -, -, hqok⟩ := linearOf_spec hm g
  have hall := (P.holds hb x h1 h2 h3 h4 extra).append hx
  have htot : 2 * nb + 2 * ng ≤ m.var.total := by
    rw [ht, ac_varBlocks]
    simp only [total, List.map_cons, List.sum_cons]
    omega
  have hp : ∀ i < m.var.total, pad (fun i : Fin m.var.total => x i) i = x i := by
    intro i hi
    exact pad_fin (fun i : Fin m.var.total => x i) ⟨i, hi⟩
  have p1 : ∀ b : Fin nb, pad (fun i : Fin m.var.total => x i) b = va b := fun b => by rw [hp _ (by omega), h1]
  have p2 : ∀ b : Fin nb, pad (fun i : Fin m.var.total => x i) (nb + b) = vm b := fun b => by rw [hp _ (by omega), h2]
  have p3 : ∀ p : Fin ng, pad (fun i : Fin m.var.total => x i) (2 * nb + p) = pg p / d.base := fun b => by rw [hp _ (by omega), h3]
  have p4 : ∀ p : Fin ng, pad (fun i : Fin m.var.total => x i) (2 * nb + ng + p) = qg p / d.base := fun b => by rw [hp _ (by omega), h4]
  have F := holds_feasible hm g hq 0 0 x hall
  have F' : Feasible (callbacks (acNl d lim c) m.var.total) q (fun i : Fin m.var.total => x i) := by
    refine ⟨?_, ?_, F.box, F.rows⟩
    · rintro (b | b)
      · show ((acNl d lim c).mis _ b).re = 0
        rw [P.mis hb c _ p1 p2 p3 p4]; rfl
      · show ((acNl d lim c).mis _ b).im = 0
        rw [P.mis hb c _ p1 p2 p3 p4]; rfl
    · exact P.lims hb c _ p1 p2
  obtain ⟨r1, r2⟩ := F'.residuals hqok
  obtain ⟨o, o1, o2, o3, o4, hsol⟩ := accepted (problem (callbacks (acNl d lim c) m.var.total) q) (fun i : Fin m.var.total => x i) (1 / 2 ^ 52) δ (by positivity) hδ r1 r2
  refine ⟨o, o1, o2, o3, o4, fun solve => ?_⟩
  obtain ⟨s, hs⟩ := pipsopf_returns d extra hm g hn lim c hA hlen hk hl o solve (fun i => x i)
  obtain ⟨-, q', r', hq', hr', e1, -, e3, e4, -⟩ := ac_ofSolver hm g hn hb.ne' hs
  rw [hq] at hq'; cases hq'
  obtain ⟨ex, ef, -, -, -, es, -⟩ := ofFull hr'
  obtain ⟨a1, a2, a3⟩ := hsol (solve _ _)
  refine ⟨s, hs, by rw [e1, ef]; exact a1, ?_, ?_⟩
  · rw [e4, Result.tol, es, ex, a2]; exact a3
  · intro i hi
    rw [e3, ex, a2]
    exact hp i hi

end

end Verif.Opf
