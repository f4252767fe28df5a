import Verif.Opf.CurvePrice

/-!
# C121: prices and multipliers after AC optimal power flows with capability curves and constant power factors

The statements are in the returned tables: `LAM_P`, `LAM_Q` of the bus of a generator, `MU_PMAX`, … of its row, its cost from the cost table of the case.
-/

namespace Verif.Opf

open Verif.Index (BusRow GenRow BranchRow IsArgsort WF GenInService BranchInService Connected)
open Verif.OpfModel Verif.Pips Verif.Network Verif.OpfCost Verif.NumPy Verif.Cost

noncomputable section

/-! ### Vocabulary -/

/-- The costs of the run are those of the cost table: of active power, without user costs. -/
def TableCosts (srt : List ℕ → List ℕ) (base : ℝ) (lim : Int) (K : Curves) (c : Index.Case Tables) : Prop :=
  ∀ c' d, Index.ext2int srt c = some c' → readCase base c' = some d →
    OpfCost.AcOk (acNl d lim (K.cost c')).cost ∧ (K.cost c').gencost.length = c'.gen.length ∧ (K.cost c').user = false ∧
      2 * c'.bus.length + 2 * c'.gen.length ≤ (K.cost c').iy ∧ ∀ k < c'.gen.length, (K.cost c').row k = costAt c' k

/-- Cost of one more MW from the generator of row `i` of the table at output `P`, if its cost is a polynomial. -/
def marginalCost (c : Index.Case Tables) (i : ℕ) (P : ℝ) : ℝ := (rowPoly (costAt c i)).derivative.eval P

/-- How far from equality prices may be: the tolerance on the gradient, and multipliers below `1e-5` that are dropped. -/
def priceTol (base : ℝ) (o : Opt) (dual : ℝ) : ℝ := (o.gradtol * (1 + dual) + 8 / 10 ^ 5) / o.costMult / base

/-! ### Proofs -/

section internal
variable {srt : List ℕ → List ℕ} {base : ℝ} {lim : Int} {K : Curves} {o : Opt} {solve : AnySolver} {c : Index.Case Tables} {r : Ret}
    {c' : Index.Case Tables} {d : Case c'.bus.length c'.gen.length c'.branch.length} {m : Model}
    {s : AcRes c'.bus.length c'.gen.length c'.branch.length} {mu : List Mupq.GenMu}
    {bp : Fin c'.bus.length → ℕ} {gp : Fin c'.gen.length → ℕ} {lp : Fin c'.branch.length → ℕ}
    (R : CurveRun srt base lim K o solve c r c' d m s mu bp gp lp) (hb : 0 < base) (hmore : K.more d c' = []) (hc : 0 < o.costMult)
    (hcost : TableCosts srt base lim K c) (hok : s.success = true)

include R hb hmore hc hcost hok

theorem CurveRun.price (p : Fin c'.gen.length) (g : Constr.Gen) (hg : (K.rows c')[(p : ℕ)]? = some g) (hpoly : (costAt c' p).model = 2) :
    ∃ M : ℝ, (Constr.isVarLoad base g = false → M = 0) ∧
      |(rowPoly (costAt c' p)).derivative.eval (s.PG p) - (s.LAM_P (d.gen p).bus - (muRow mu p).pmax + (muRow mu p).pmin) +
        Real.sin (Constr.arctan2 (Constr.qlim base g) (g.pmin / base)) * M| ≤ priceTol base o s.dual ∧
      |-(s.LAM_Q (d.gen p).bus - (muRow mu p).qmax + (muRow mu p).qmin) - Real.cos (Constr.arctan2 (Constr.qlim base g) (g.pmin / base)) * M| ≤ priceTol base o s.dual := by
  obtain ⟨c1, c2, c3, c4, c5⟩ := hcost c' d R.ext R.read
  have hbd : 0 < d.base := by rw [R.baseEq]; exact hb
  have hp := p.isLt
  have hmu : curveMu base K c' m s = some mu := by
    have := R.mus
    unfold curveMus at this
    rwa [if_pos hok] at this
  obtain ⟨H, L, V, hops, uB, lB, vB, hid, -⟩ := curveMu_spec R.baseEq R.run R.good.1 hmu
  obtain ⟨A, hA, hvs, -, -, -, hAr, -⟩ := ang_block K.ang c'.bus.length c' (readCase_valid R.read K.ang)
  have hlen : (K.rows c').length = c'.gen.length := by simp [Curves.rows]
  have hex : linBlks (curveExtra K d c') = [("PQh", H), ("PQl", L), ("vl", V), ("ang", A)] := by
    unfold curveExtra
    rw [hops, hA, hmore]
    simp [linBlks]
  obtain ⟨M, hM0, hMP, hMQ⟩ := vl_term d (curveExtra K d c') hlen vB "vl" s.mu_l s.mu_u p g hg
  have hang : ∀ i < A.A.rows, ∀ t, coef (varBlocks (acOps d ++ curveExtra K d c')) A i (2 * c'.bus.length + t) = 0 := by
    intro i hi t
    obtain ⟨b, hbm, -, -, hrow⟩ := hAr i hi
    exact ang_coef d _ (readCase_valid R.read K.ang) hvs hbm hrow t
  have term : ∀ t, acExtraTerm d (curveExtra K d c') s (2 * c'.bus.length + t) =
      blkTerm (varBlocks (acOps d ++ curveExtra K d c')) (linBlocks (acOps d ++ curveExtra K d c')) H "PQh" s.mu_l s.mu_u (2 * c'.bus.length + t) +
      blkTerm (varBlocks (acOps d ++ curveExtra K d c')) (linBlocks (acOps d ++ curveExtra K d c')) L "PQl" s.mu_l s.mu_u (2 * c'.bus.length + t) +
      blkTerm (varBlocks (acOps d ++ curveExtra K d c')) (linBlocks (acOps d ++ curveExtra K d c')) V "vl" s.mu_l s.mu_u (2 * c'.bus.length + t) := by
    intro t
    unfold acExtraTerm overRows
    rw [hex]
    simp only [List.map_cons, List.map_nil, List.sum_cons, List.sum_nil, add_zero]
    have : ∑ i ∈ Finset.range A.A.rows, coef (varBlocks (acOps d ++ curveExtra K d c')) A i (2 * c'.bus.length + t) *
        (s.mu_u (start (linBlocks (acOps d ++ curveExtra K d c')) "ang" + i) - s.mu_l (start (linBlocks (acOps d ++ curveExtra K d c')) "ang" + i)) = 0 :=
      Finset.sum_eq_zero fun i hi => by rw [hang i (Finset.mem_range.1 hi), zero_mul]
    rw [this]
    unfold blkTerm
    ring
  have tabs : ∀ t, t = (p : ℕ) ∨ t = (p : ℕ) + c'.gen.length → acExtraAbs d (curveExtra K d c') (2 * c'.bus.length + t) ≤ 3 := by
    intro t ht
    have a1 := (pq_abs d (curveExtra K d c') hlen uB (fun g => (norm_coef _).1) (fun g => (norm_coef _).2) hp ht).1
    have a2 := (pq_abs d (curveExtra K d c') hlen lB (fun g => (norm_coef _).1) (fun g => (norm_coef _).2) hp ht).1
    have a3 := (pq_abs d (curveExtra K d c') hlen vB (fun g => Real.abs_sin_le_one _) (fun g => by rw [abs_neg]; exact Real.abs_cos_le_one _) hp ht).1
    unfold acExtraAbs overRows
    rw [hex]
    simp only [List.map_cons, List.map_nil, List.sum_cons, List.sum_nil, add_zero]
    have : ∑ i ∈ Finset.range A.A.rows, |coef (varBlocks (acOps d ++ curveExtra K d c')) A i (2 * c'.bus.length + t)| = 0 :=
      Finset.sum_eq_zero fun i hi => by rw [hang i (Finset.mem_range.1 hi), abs_zero]
    rw [this]
    linarith
  have tolle : ∀ a : ℝ, a ≤ 3 → (o.gradtol * (1 + s.dual) + 1 / 10 ^ 5 * (2 * (1 + a))) / o.costMult / d.base ≤ priceTol base o s.dual := by
    intro a ha
    unfold priceTol
    rw [R.baseEq]
    refine div_le_div_of_nonneg_right (div_le_div_of_nonneg_right ?_ hc.le) hb.le
    have : (1 : ℝ) / 10 ^ 5 * (2 * (1 + a)) ≤ 8 / 10 ^ 5 := by
      rw [one_div, ← div_eq_inv_mul]
      exact div_le_div_of_nonneg_right (by linarith) (by positivity)
    linarith
  refine ⟨M / base, fun h0 => ?_, ?_, ?_⟩
  · rw [← R.baseEq] at h0
    rw [hM0 h0, zero_div]
  · have key := C80_polynomial_price d _ m R.run R.good.1 R.good.2 hbd lim (K.cost c') o solve _ s R.sol hc hok c1 c2 c3 c4 p (by rw [c5 p hp]; exact hpoly)
    refine le_trans (le_of_eq ?_) (key.trans (tolle _ (tabs p (Or.inl rfl))))
    rw [c5 p hp, term, hMP, R.baseEq]
    have := (hid p).1
    congr 1
    linear_combination this
  · obtain ⟨v, hv, hget⟩ := dPgQg_spec (acNl d lim (K.cost c')).cost c1 s.x (Or.inr ⟨p, by show (p : ℕ) < (K.cost c').gencost.length; omega,
      by show ((K.cost c').row p).model = 2; rw [c5 p hp]; exact hpoly⟩)
    have hdf : (acNl d lim (K.cost c')).cost.df s.x = some fun j => (acNl d lim (K.cost c')).cost.place v j + (acNl d lim (K.cost c')).cost.ccost j +
        (if (acNl d lim (K.cost c')).cost.user then AAHwC (acNl d lim (K.cost c')).cost.P s.x j else 0) := by
      unfold AcData.df; rw [hv]; rfl
    have key := (C80_generator_price d _ m R.run R.good.1 R.good.2 hbd lim (K.cost c') o solve _ s R.sol hc hok p _ hdf).2
    beta_reduce at key
    have u0 : (acNl d lim (K.cost c')).cost.user = false := c3
    have cc0 : (acNl d lim (K.cost c')).cost.ccost (2 * c'.bus.length + c'.gen.length + p) = 0 := by
      unfold AcData.ccost
      rw [if_neg]
      rintro ⟨h1, -⟩
      have : (K.cost c').iy ≤ 2 * c'.bus.length + c'.gen.length + p := h1
      omega
    have p0 : (acNl d lim (K.cost c')).cost.place v (2 * c'.bus.length + c'.gen.length + p) = 0 := by
      unfold AcData.place
      have q1 : (acNl d lim (K.cost c')).cost.iQg ≤ 2 * c'.bus.length + c'.gen.length + (p : ℕ) ∧
          2 * c'.bus.length + c'.gen.length + (p : ℕ) < (acNl d lim (K.cost c')).cost.iQg + (acNl d lim (K.cost c')).cost.ng := by
        show 2 * c'.bus.length + c'.gen.length ≤ _ ∧ _ < 2 * c'.bus.length + c'.gen.length + c'.gen.length
        omega
      rw [if_pos q1]
      show v.getD (c'.gen.length + (2 * c'.bus.length + c'.gen.length + (p : ℕ) - (2 * c'.bus.length + c'.gen.length))) 0 = 0
      rw [Nat.add_sub_cancel_left, hget _ (by show c'.gen.length + (p : ℕ) < 2 * c'.gen.length; omega), if_neg]
      rintro ⟨h1, -⟩
      have : c'.gen.length + (p : ℕ) < (K.cost c').gencost.length := h1
      omega
    rw [u0, cc0, p0] at key
    simp only [Bool.false_eq_true, if_false, add_zero, zero_div] at key
    rw [Nat.add_assoc] at key
    refine le_trans (le_of_eq ?_) (key.trans (tolle _ (tabs _ (Or.inr (Nat.add_comm _ _)))))
    rw [term, hMQ, R.baseEq]
    have := (hid p).2
    congr 1
    linear_combination this

end internal

section run
variable {srt : List ℕ → List ℕ} (hs : IsArgsort srt) {base : ℝ} (hb : 0 < base) {lim : Int} {K : Curves} {o : Opt} {solve : AnySolver} {c : Index.Case Tables} (h : WF c)
  (hgood : ∀ c' d, Index.ext2int srt c = some c' → readCase base c' = some d →
    Good (acOps d ++ curveExtra K d c') ∧ (names (nlnBlocks (acOps d ++ curveExtra K d c'))).Nodup)
  {r : Ret} (hrun : opfAcCurve srt base lim K o solve c = some r)

include hs h hgood hrun

/-- **C121 (multipliers).**  If some generator in service has a corner cut off by its capability curve, then after success the multipliers of all generators in service are
non-negative, and of the two of a pair at most one is not zero. -/
theorem C121_multipliers (hU : SomeUpper K c ∨ SomeLower K c) (hok : r.success = true) : ∀ g ∈ r.tables.gen, GenInService r.tables g →
    0 ≤ g.data.MU_PMAX ∧ 0 ≤ g.data.MU_PMIN ∧ 0 ≤ g.data.MU_QMAX ∧ 0 ≤ g.data.MU_QMIN ∧ g.data.MU_PMAX * g.data.MU_PMIN = 0 ∧ g.data.MU_QMAX * g.data.MU_QMIN = 0 := by
  intro g hg hon
  have hU' : SomeUpper K c := by
    by_contra hn
    have := C120_negation hs h K (Or.inr ⟨hU.resolve_left hn, hn⟩) lim o solve r hrun
    rw [hok] at this
    cases this
  obtain ⟨c', d, m, s, mu, bp, gp, lp, R⟩ := curve_run hs h hgood hrun
  have hok' : s.success = true := by rw [← R.success]; exact hok
  have hmu : curveMu base K c' m s = some mu := by
    have := R.mus
    unfold curveMus at this
    rwa [if_pos hok'] at this
  obtain ⟨-, -, -, -, -, -, -, -, hpos⟩ := curveMu_spec R.baseEq R.run R.good.1 hmu
  obtain ⟨k, g0, h0, rfl, -⟩ := R.bridge.genRow hg hon
  have := hpos ((upper_iff hs h K R.ext R.read).2 hU') k
  simpa [acUpd, curvePost, hok'] using this

include hb

/-- **C121 (prices).**  After a successful AC optimal power flow with capability curves, constant power factors and angle limits: a generator in service that is not a
dispatchable load with reactive power produces where its marginal cost equals the price `LAM_P` of its bus, less `MU_PMAX`, plus `MU_PMIN`; and where the price `LAM_Q` of
reactive power, which costs it nothing, equals `MU_QMAX − MU_QMIN`: the two pairs of multipliers account for its whole capability curve.  For a dispatchable load with
reactive limit `q` only the two together are settled: what the marginal MW with its `q / PMIN` MVAr is worth equals what it costs at the two prices. -/
theorem C121_prices (hmore : ∀ {nb ng nl : ℕ} (d : Case nb ng nl) c', K.more d c' = []) (hc : 0 < o.costMult) (hcost : TableCosts srt base lim K c) (hok : r.success = true)
    (i : ℕ) (g : GenRow GenD) (hg : r.tables.gen[i]? = some g) (hon : GenInService r.tables g) (hpoly : (costAt c i).model = 2)
    (hgc : ∃ gc, c.gencost = some gc) (b : BusRow BusD) (hbm : b ∈ r.tables.bus) (hbn : b.num = g.bus) :
    (¬ Constr.VarLoad (K.row g.data) →
      |marginalCost c i g.data.PG - (b.data.LAM_P - g.data.MU_PMAX + g.data.MU_PMIN)| ≤ priceTol base o r.dual ∧
      |b.data.LAM_Q - (g.data.MU_QMAX - g.data.MU_QMIN)| ≤ priceTol base o r.dual) ∧
    (Constr.VarLoad (K.row g.data) → ∀ q ≠ 0, Constr.PfLimit (K.row g.data) q →
      |marginalCost c i g.data.PG - (b.data.LAM_P - g.data.MU_PMAX + g.data.MU_PMIN) - q / g.data.PMIN * (b.data.LAM_Q - g.data.MU_QMAX + g.data.MU_QMIN)| ≤
        (1 + |q / g.data.PMIN|) * priceTol base o r.dual) := by
  obtain ⟨c', d, m, s, mu, bp, gp, lp, R⟩ := curve_run hs h hgood hrun
  have hok' : s.success = true := by rw [← R.success]; exact hok
  obtain ⟨g0, hg0, e1, e2, hk, -⟩ := R.bridge.gen_at hg
  obtain ⟨k, rfl, rfl⟩ := hk ((R.bridge.genIn_iff e1 e2).1 hon)
  obtain ⟨g1, hg1, -, -, ⟨b0, hb0, hb0n⟩, -⟩ := R.bridge.gen k
  rw [hg0] at hg1; cases hg1
  have hbb : b = { b0 with data := (acUpd s (curvePost K c' m s mu)).bus (d.gen k).bus b0.data } := R.bridge.busOf hbm _ hb0 (by rw [hbn]; exact hb0n.symm) h
  subst hbb
  have hct : costAt c (gp k) = costAt c' k := by
    obtain ⟨gc, hgc⟩ := hgc
    obtain ⟨gc', e1, e2⟩ := R.costs gc hgc
    unfold costAt
    rw [hgc, e1]
    simp only [Option.getD_some, List.getD_eq_getElem?_getD]
    rw [e2 k]
  obtain ⟨g1, h1, h2⟩ := R.gens k
  rw [hg0] at h1; cases h1
  have hrow : (K.rows c')[(k : ℕ)]? = some (K.row g0.data) := by
    simp only [Curves.rows, List.getElem?_map]
    rw [List.getElem?_eq_getElem k.isLt]
    simp only [Option.map_some, Fin.getElem_fin] at h2 ⊢
    rw [h2]
  obtain ⟨M, hM0, hP, hQ⟩ := R.price hb (hmore d c') hc hcost hok' k _ hrow (by rw [← hct]; exact hpoly)
  rw [← hct, ← R.dual] at hP
  rw [← R.dual] at hQ
  set g' : GenD := (acUpd s (curvePost K c' m s mu)).gen k g0.data with hg'
  have eP : g'.PG = s.PG k := rfl
  have em : g'.MU_PMAX = (muRow mu k).pmax ∧ g'.MU_PMIN = (muRow mu k).pmin ∧ g'.MU_QMAX = (muRow mu k).qmax ∧ g'.MU_QMIN = (muRow mu k).qmin := by
    simp [hg', acUpd, curvePost, hok']
  have hpm : g'.PMIN = g0.data.PMIN := rfl
  have hvl : Constr.VarLoad (K.row g') ↔ Constr.VarLoad (K.row g0.data) := by
    simp only [Constr.VarLoad, Curves.row]; exact Iff.rfl
  have hpf : ∀ q, Constr.PfLimit (K.row g') q ↔ Constr.PfLimit (K.row g0.data) q := by
    intro q
    simp only [Constr.PfLimit, Curves.row]; exact Iff.rfl
  show (¬ Constr.VarLoad (K.row g') →
      |marginalCost c (gp k) g'.PG - (s.LAM_P (d.gen k).bus - g'.MU_PMAX + g'.MU_PMIN)| ≤ priceTol base o r.dual ∧
      |s.LAM_Q (d.gen k).bus - (g'.MU_QMAX - g'.MU_QMIN)| ≤ priceTol base o r.dual) ∧
    (Constr.VarLoad (K.row g') → ∀ q ≠ 0, Constr.PfLimit (K.row g') q →
      |marginalCost c (gp k) g'.PG - (s.LAM_P (d.gen k).bus - g'.MU_PMAX + g'.MU_PMIN) - q / g'.PMIN * (s.LAM_Q (d.gen k).bus - g'.MU_QMAX + g'.MU_QMIN)| ≤
        (1 + |q / g'.PMIN|) * priceTol base o r.dual)
  rw [hvl, eP, em.1, em.2.1, em.2.2.1, em.2.2.2, hpm]
  unfold marginalCost
  constructor
  · intro hn
    have h0 : Constr.isVarLoad base (K.row g0.data) = false := by
      rw [← Bool.not_eq_true, Constr.isVarLoad_iff base hb]
      exact hn
    rw [hM0 h0, mul_zero, add_zero] at hP
    rw [hM0 h0, mul_zero, sub_zero] at hQ
    refine ⟨hP, ?_⟩
    rw [← abs_neg]
    refine le_trans (le_of_eq ?_) hQ
    congr 1
    ring
  · intro hv q hq hpfq
    rw [hpf] at hpfq
    have hqlim : Constr.qlim base (K.row g0.data) = q / base := by
      unfold Constr.qlim
      rcases hpfq with ⟨h1, rfl⟩ | ⟨h1, rfl⟩
      · simp [h1, hb.ne', hq]
      · simp [h1, hb.ne', hq]
    have hp0 : g0.data.PMIN ≠ 0 := hv.1.ne
    have hpm : (K.row g0.data).pmin / base ≠ 0 := div_ne_zero hp0 hb.ne'
    obtain ⟨hsn, hcs, hpos⟩ := Constr.sin_arctan2 (Constr.qlim base (K.row g0.data)) ((K.row g0.data).pmin / base) hpm
    rw [hsn, hqlim] at hP
    rw [hcs, hqlim] at hQ
    rw [hqlim] at hpos
    have ep : (K.row g0.data).pmin = g0.data.PMIN := rfl
    rw [ep] at hP hQ hpos
    generalize ‖(⟨g0.data.PMIN / base, q / base⟩ : ℂ)‖ = ρ at hP hQ hpos
    generalize Polynomial.eval (s.PG k) (Polynomial.derivative (rowPoly (costAt c (gp k)))) - (s.LAM_P (d.gen k).bus - (muRow mu k).pmax + (muRow mu k).pmin) = X at hP ⊢
    generalize (s.LAM_Q (d.gen k).bus - (muRow mu k).qmax + (muRow mu k).qmin) = Y at hQ ⊢
    have e : X - q / g0.data.PMIN * Y = (X + q / base / ρ * M) + q / g0.data.PMIN * (-Y - g0.data.PMIN / base / ρ * M) := by
      field_simp
      ring
    rw [e]
    refine (abs_add_le _ _).trans ?_
    rw [abs_mul, add_mul, one_mul]
    exact add_le_add hP (mul_le_mul_of_nonneg_left hQ (abs_nonneg _))

end run

/-! ### The example -/

/-- The case of C120 with a cost table. -/
def exCosted : Index.Case Tables :=
  { exCurve with gencost := some [⟨2, 3, [1, 2, 3, 0]⟩, ⟨2, 3, [1, 2, 3, 0]⟩, ⟨2, 2, [2, 3, 0, 0]⟩, ⟨2, 2, [2, 3, 0, 0]⟩] }

/-- Cost data read from the cost table. -/
def exTabK : Curves :=
  { exK with
    cost := fun c => ⟨100, .pyFloat, c.gen.length, (List.range c.gen.length).map fun k => costAt c k, 0, 0, 2 * c.bus.length + 2 * c.gen.length, 0, false,
      ⟨0, 2 * c.bus.length + 2 * c.gen.length, fun _ _ => 0, fun _ => 0, fun _ _ => 0, fun _ => 1, fun _ => 0, fun _ => 0, fun _ => 1⟩⟩ }

theorem exCosted_wf : WF exCosted :=
  { exCurve_wf with
    genRef := by simp [exCosted, exCurve, exTables, Index.HasBus]
    fRef := by simp [exCosted, exCurve, exEcon, exTables, Index.HasBus]
    tRef := by simp [exCosted, exCurve, exEcon, exTables, Index.HasBus]
    costRows := by simp [exCosted, exCurve, exTables]
    aCols := by simp [exCosted, exCurve, exTables]
    nCols := by simp [exCosted, exCurve, exTables]
    notInternal := by simp [exCosted, exCurve, exTables] }

theorem exCosted_rows {c' : Index.Case Tables} {d : Case c'.bus.length c'.gen.length c'.branch.length} (he : Index.ext2int Index.stableArgsort exCosted = some c')
    (_hd : readCase 100 c' = some d) (k : ℕ) (hk : k < c'.gen.length) : (costAt c' k).model = 2 ∧ PolyRow (costAt c' k) := by
  obtain ⟨c1, d1, he1, hd1, hw⟩ := bridge_exists Index.stableArgsort_isArgsort 100 exCosted_wf
  rw [he] at he1; cases he1
  obtain ⟨r, hr⟩ := hw ⟨fun _ b => b, fun _ g => g, fun _ l => l⟩
  obtain ⟨bp, gp, lp, B, -, -, -, -, hgc, -⟩ := bridge_at Index.stableArgsort_isArgsort exCosted_wf he hd1 _ hr opfOff
  obtain ⟨gc', e1, e2⟩ := hgc _ rfl
  obtain ⟨g, hg, -⟩ := B.gen ⟨k, hk⟩
  have hl := (List.getElem?_eq_some_iff.1 hg).1
  have e3 := e2 ⟨k, hk⟩
  simp only at e3
  unfold costAt
  rw [e1, Option.getD_some, List.getD_eq_getElem?_getD, e3]
  generalize gp ⟨k, hk⟩ = j at hl
  have hj : j < 4 := by simpa [exCosted, exCurve] using hl
  interval_cases j <;> exact ⟨rfl, rfl, by simp, by simp⟩

theorem exCosted_table : TableCosts Index.stableArgsort 100 0 exTabK exCosted := by
  intro c' d he hd
  refine ⟨⟨?_, ?_, ?_, ?_, ?_, ?_⟩, ?_, rfl, le_refl _, ?_⟩
  · simp [exTabK, nlOf]; omega
  · intro r hr hm
    simp only [exTabK, nlOf, List.mem_map, List.mem_range] at hr
    obtain ⟨k, hk, rfl⟩ := hr
    exact (exCosted_rows he hd k hk).2
  · simp [exTabK, nlOf]; omega
  · simp [exTabK, nlOf]; omega
  · simp [exTabK, nlOf]
  · simp [nlOf]
  · simp [exTabK]
  · intro k hk
    simp [exTabK, AcData.row, hk]

theorem exCosted_fits : CurveCostFits Index.stableArgsort 100 0 exTabK exCosted := by
  intro c' d he hd
  obtain ⟨h1, h2, -, -, h3⟩ := exCosted_table c' d he hd
  have hg : 0 < c'.gen.length := by
    obtain ⟨c1, d1, he1, hd1, hw⟩ := bridge_exists Index.stableArgsort_isArgsort 100 exCosted_wf
    rw [he] at he1; cases he1
    obtain ⟨r, hr⟩ := hw ⟨fun _ b => b, fun _ g => g, fun _ l => l⟩
    obtain ⟨bp, gp, lp, B⟩ := bridge Index.stableArgsort_isArgsort exCosted_wf he hd1 _ hr opfOff
    obtain ⟨k, -⟩ := B.genOn 0 _ rfl (by simp [GenInService, Connected, exCosted, exCurve, exTables])
    exact k.pos
  exact ⟨h1, h2, Or.inr ⟨0, by omega, by rw [h3 0 hg]; exact (exCosted_rows he hd 0 hg).1⟩⟩

/-- The hypotheses hold together on the example: the run succeeds, the costs are those of the table, corners are cut off. -/
example : ∃ o r, WF exCosted ∧ (∀ c' d, Index.ext2int Index.stableArgsort exCosted = some c' → readCase 100 c' = some d →
      Good (acOps d ++ curveExtra exTabK d c') ∧ (names (nlnBlocks (acOps d ++ curveExtra exTabK d c'))).Nodup) ∧
    opfAcCurve Index.stableArgsort 100 0 exTabK o (fun _ _ _ _ => none) exCosted = some r ∧ r.success = true ∧ 0 < o.costMult ∧
    TableCosts Index.stableArgsort 100 0 exTabK exCosted ∧ SomeUpper exTabK exCosted ∧ (costAt exCosted 0).model = 2 := by
  have hU : SomeUpper exTabK exCosted := by
    refine ⟨_, List.mem_cons_self, by simp [GenInService, Connected, exCosted, exCurve, exTables], ?_⟩
    norm_num [CutsUpper, Constr.BelowUpper, Curves.row, exTabK, exK]
  have hL : SomeLower exTabK exCosted := by
    refine ⟨_, List.mem_cons_self, by simp [GenInService, Connected, exCosted, exCurve, exTables], ?_⟩
    norm_num [CutsLower, Constr.AboveLower, Curves.row, exTabK, exK]
  have hin : AcInputs 100 exCosted := ⟨exCurve_ac.pos, exCurve_ac.bus, exCurve_ac.gen, exCurve_ac.limited⟩
  have hang : AngInputs exTabK.ang exCosted := exK_ang
  obtain ⟨o, r, h0, h1, h2⟩ := (C120_completes_partial Index.stableArgsort_isArgsort exCosted_wf hin exTabK hang (fun _ _ => rfl) 0 exCosted_fits
    ⟨fun _ => hL, fun _ => hU⟩).2 (fun _ _ _ _ => none)
  exact ⟨o, r, exCosted_wf, curve_wellposed Index.stableArgsort_isArgsort exCosted_wf hin exTabK hang (fun _ _ => rfl), h1, h2, h0, exCosted_table, hU, rfl⟩

end

end Verif.Opf
