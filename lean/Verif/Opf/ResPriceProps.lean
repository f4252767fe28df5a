import Verif.Opf.ResProps

/-! # C107: prices of reserve -/

namespace Verif.Opf

open Verif.Index (BusRow GenRow BranchRow IsArgsort WF GenInService BranchInService Connected posOf orderOf)
open Verif.OpfModel Verif.Pips Verif.Network Verif.Cost Verif.OpfCost
open Verif.Reserves (Provides providers zoneReserves)

/-! ### Specification -/

/-- What the zones pay for a MW of reserve of the generator in row `i`: the shadow prices of their requirements, weighted by the entries of the zones. -/
noncomputable def zonePay (base : ℝ) (r : Reserves.Res) (lam : List ℝ) (i : ℕ) : ℝ :=
  (∑ z ∈ Finset.range r.zones.length, (r.zones.getD z []).getD i 0 * lam.getD z 0) / base

/-! ### Lemmas -/

theorem dc_gap_nonneg {nb ng nl : ℕ} {d : Case nb ng nl} {extra : List Op} {m : Model} (hm : OpfModel.run (dcOps d ++ extra) = some m) (g : Good (dcOps d ++ extra))
    {H : Matrix (Fin m.var.total) (Fin m.var.total) ℝ} {C : Fin m.var.total → ℝ} {C0 : ℝ} {o : Opt} {solve : AnySolver} {x0 : Fin m.var.total → ℝ}
    {s : DcRes nb ng nl} (hs : dcopfSolver d m H C C0 o solve x0 = some s) (hc : 0 < o.costMult) (hft : 0 ≤ o.feastol) (hok : s.success = true) :
    0 ≤ compGap o ‖fun i : Fin m.var.total => s.x i‖ s.dual s.tol := by
  obtain ⟨q, r, hq, hr, e1, -, e3, e4, e5, -⟩ := dc_ofSolver hm g hs
  have hx : (fun i : Fin m.var.total => s.x i) = r.x := by rw [e3]; funext i; simp [pad]
  rw [hx, e4, e5]
  obtain ⟨ex, ef, -, -, -, es, ed, -⟩ := ofFull hr
  obtain ⟨z, lam, mu, f0, -, zpos, mpos, -, -, -, h4, -⟩ := C35_success (problem (qp H C) q) o (solve _ _) x0 (by rw [← ef, ← e1]; exact hok)
  rw [← ex] at h4
  have hdual : 0 ≤ r.dual := by rw [ed]; exact (norm_nonneg _).trans (le_max_left _ _)
  have htol : 0 ≤ r.tol o + 1 / 2 ^ 52 := by
    unfold Result.tol
    have : 0 ≤ max ‖r.x‖ r.slack := (norm_nonneg _).trans (le_max_left _ _)
    positivity
  have hsum : 0 ≤ ∑ i, z i * mu i := Finset.sum_nonneg fun i _ => (mul_pos (zpos i) (mpos i)).le
  have hcomp : 0 ≤ o.comptol * (1 + ‖r.x‖) := hsum.trans h4.le
  exact div_nonneg (add_nonneg hcomp (mul_nonneg hdual htol)) hc.le

section
variable {srt : List ℕ → List ℕ} {bs : ℝ} {E : Econ} {ramp10 : List ℝ → ℝ} {o : Opt} {solve : AnySolver} {c : Index.Case Tables} {r : Reserves.Res}
    {ret : Ret} {out : ResOut} {c' : Index.Case Tables} {d : Case c'.bus.length c'.gen.length c'.branch.length} {m : Model}
    {s : DcRes c'.bus.length c'.gen.length c'.branch.length} {P : Params} {p : PostMu c'.gen.length c'.branch.length} {bp : Fin c'.bus.length → ℕ}
    {gp : Fin c'.gen.length → ℕ} {lp : Fin c'.branch.length → ℕ} {W : RData c'.gen.length (igOf srt c r).length r.zones.length}
    (X : ResRun srt bs E ramp10 o solve c r ret out c' d m s P p bp gp lp W)

include X

theorem ResRun.lam_at (z : ℕ) (hz : z < r.zones.length) : out.lam.getD z 0 = s.mu_l (start (linBlocks (resCalls E c' d W)) "Rreq" + z) := by
  rw [X.lam, List.getD_eq_getElem?_getD]
  simp [hz]

theorem ResRun.zonePay_eq (k : Fin (igOf srt c r).length) :
    zonePay bs r out.lam (resRow srt c r k) = (∑ z, W.Z z k * s.mu_l (start (linBlocks (resCalls E c' d W)) "Rreq" + z)) / bs := by
  unfold zonePay
  rw [Finset.sum_range]
  congr 1
  refine Finset.sum_congr rfl fun z _ => ?_
  rw [X.lam_at z z.isLt, X.Z, List.getD_eq_getElem _ _ z.isLt]
  rfl

omit X in
theorem Spread.at {L : List ℝ} {w : Fin (igOf srt c r).length → ℝ} (hL : Spread srt c r L w) (k : Fin (igOf srt c r).length) : L.getD (resRow srt c r k) 0 = w k := by
  rw [List.getD_eq_getElem?_getD, hL.on, Option.getD_some]

omit X in
theorem Spread.nonneg (hs : IsArgsort srt) {L : List ℝ} {w : Fin (igOf srt c r).length → ℝ} (hL : Spread srt c r L w) (hw : ∀ k, 0 ≤ w k) (i : ℕ) : 0 ≤ L.getD i 0 := by
  by_cases hi : i < c.gen.length
  · by_cases hm : i ∈ resGens c r
    · rw [resGens_eq hs, Finset.mem_image] at hm
      obtain ⟨k, -, rfl⟩ := hm
      rw [hL.at]
      exact hw k
    · rw [List.getD_eq_getElem?_getD, hL.off i hi hm, Option.getD_some]
  · rw [List.getD_eq_default _ _ (by rw [hL.len]; omega)]

/-- The price equation of a reserve in MW. -/
theorem ResRun.price (hb : 0 < bs) (hcost : EconCosts c) (hc : 0 < o.costMult) (hok : s.success = true) (k : Fin (igOf srt c r).length) :
    |resDatum c.gen.length r r.cost (resRow srt c r k) + (out.mu_u.getD (resRow srt c r k) 0 - out.mu_l.getD (resRow srt c r k) 0) + out.mu_Pmax.getD (resRow srt c r k) 0 -
        zonePay bs r out.lam (resRow srt c r k)| ≤
      (o.gradtol * (1 + ret.dual) + 1 / 10 ^ 5 * (2 * (2 + ∑ z ∈ Finset.range r.zones.length, |(r.zones.getD z []).getD (resRow srt c r k) 0|))) / o.costMult / bs := by
  have hgc : ∀ k : Fin c'.gen.length, CostOK (costAt c' k) := X.costOK hcost
  obtain ⟨hlv, hla⟩ := X.lin
  have key := reserve_price d (fun k : Fin c'.gen.length => costAt c' k) hgc _ (angOps_varBlocks E c') hlv hla W m X.run X.good X.par o solve _ hc _ rfl s X.sol hok k
  rw [X.mu_u.at, X.mu_l.at, X.mu_Pmax.at, X.zonePay_eq, X.dual]
  have e : ∑ z ∈ Finset.range r.zones.length, |(r.zones.getD z []).getD (resRow srt c r k) 0| = ∑ z, |W.Z z k| := by
    rw [Finset.sum_range]
    refine Finset.sum_congr rfl fun z _ => ?_
    rw [X.Z, List.getD_eq_getElem _ _ z.isLt]
    rfl
  rw [e, le_div_iff₀ hb]
  refine le_trans (le_of_eq ?_) key
  rw [← abs_of_pos hb, ← abs_mul, abs_of_pos hb, X.cw]
  congr 1
  field_simp

theorem ResRun.gap_nonneg (hc : 0 < o.costMult) (hft : 0 ≤ o.feastol) (hok : s.success = true) : 0 ≤ compGap o ‖fun i : Fin m.var.total => s.x i‖ s.dual s.tol :=
  dc_gap_nonneg X.run X.good X.sol hc hft hok

theorem ResRun.signs (hb : 0 < bs) (hc : 0 < o.costMult) (k : Fin (igOf srt c r).length) :
    0 ≤ out.mu_l.getD (resRow srt c r k) 0 ∧ 0 ≤ out.mu_u.getD (resRow srt c r k) 0 ∧ 0 ≤ out.mu_Pmax.getD (resRow srt c r k) 0 := by
  have sg := extra_signs X.run X.good X.sol hc
  rw [X.mu_u.at, X.mu_l.at, X.mu_Pmax.at]
  exact ⟨div_nonneg (sg _).1 hb.le, div_nonneg (sg _).2.1 hb.le, div_nonneg (sg _).2.2.2 hb.le⟩

/-- Complementarity. -/
theorem ResRun.comp (hb : 0 < bs) (hc : 0 < o.costMult) (hft : 0 ≤ o.feastol) (hok : s.success = true) (k : Fin (igOf srt c r).length) {g : GenRow Tables.gen}
    (hg : c.gen[resRow srt c r k]? = some g) :
    out.mu_l.getD (resRow srt c r k) 0 * out.R.getD (resRow srt c r k) 0 ≤ compGap o ‖fun i : Fin m.var.total => s.x i‖ s.dual s.tol ∧
    (∀ x, ReserveLimits ramp10 c r (resRow srt c r k) x →
      out.mu_u.getD (resRow srt c r k) 0 * (x - out.R.getD (resRow srt c r k) 0) ≤ compGap o ‖fun i : Fin m.var.total => s.x i‖ s.dual s.tol) ∧
    out.mu_Pmax.getD (resRow srt c r k) 0 * (g.data.PMAX - (pgAt ret.tables (resRow srt c r k) + out.R.getD (resRow srt c r k) 0)) ≤
      compGap o ‖fun i : Fin m.var.total => s.x i‖ s.dual s.tol := by
  have hlin := angOps_varBlocks (nb := c'.bus.length) E c'
  have hmem := res_mem_R d (fun k : Fin c'.gen.length => costAt c' k) (angOps E c'.bus.length c') W
  obtain ⟨cu, cl⟩ := extra_comp X.run X.good X.sol hc hft hok _ hmem k k.isLt
  simp only [W.vars_hi, W.vars_lo, (W.start_R d (gcOf c') _ hlin).1] at cu cl
  obtain ⟨cP, -⟩ := C84_dc_extra d _ m X.run X.good _ _ _ o solve _ s X.sol hc hft hok _
    (res_mem_pgR d (fun k : Fin c'.gen.length => costAt c' k) (angOps E c'.bus.length c') W) k k.isLt
  have cP := cP _ (W.pgR_hi k)
  obtain ⟨-, hx2, -⟩ := X.point hb hok
  simp only at cP
  rw [W.pgR_row d (gcOf c') _ hlin, hx2, X.row, X.pm k g hg] at cP
  have sg := X.signs hb hc k
  rw [X.mu_u.at, X.mu_l.at, X.mu_Pmax.at, X.R.at]
  rw [X.mu_u.at] at sg
  refine ⟨?_, ?_, ?_⟩
  · have := cl 0 rfl
    rw [sub_zero] at this
    refine le_trans (le_of_eq ?_) this
    show s.lower (iROf c' + k) / bs * (s.x (iROf c' + k) * bs) = s.lower (iROf c' + k) * s.x (iROf c' + k)
    field_simp
  · intro x hx
    have hx' := (le_resLimit c r ramp10 hg x).2 hx
    have hW := X.hi k g hg
    have hle : ((x / bs : ℝ) : EReal) ≤ W.hi k := by
      rw [hW, EReal.coe_div]
      exact EReal.div_le_div_right_of_nonneg (EReal.coe_nonneg.2 hb.le) hx'
    have e : s.upper (iROf c' + k) / bs * (x - s.x (iROf c' + k) * bs) = s.upper (iROf c' + k) * (x / bs - s.x (iROf c' + k)) := by field_simp
    rw [e]
    induction hh : W.hi k using EReal.rec with
    | bot => rw [hh, le_bot_iff] at hle; exact absurd hle (EReal.coe_ne_bot _)
    | coe u =>
      rw [hh, EReal.coe_le_coe_iff] at hle
      refine le_trans (mul_le_mul_of_nonneg_left (sub_le_sub_right hle _) ?_) (cu u hh)
      exact (extra_signs X.run X.good X.sol hc _).2.1
    | top =>
      have h0 := extra_unbounded X.run X.good X.sol _ hmem k k.isLt ((W.vars_hi k).trans hh)
      simp only [(W.start_R d (gcOf c') _ hlin).1] at h0
      rw [show s.upper (iROf c' + k) = 0 from h0, zero_mul]
      exact X.gap_nonneg hc hft hok
  · refine le_trans (le_of_eq ?_) cP
    show _ / bs * (_ - (_ + s.x (iROf c' + k) * bs)) = _ * (_ - (_ + s.x (iROf c' + k)))
    field_simp

/-- The reserve of a generator, paid by the zones and charged for the capacity it takes. -/
theorem ResRun.reserve_half (hb : 0 < bs) (hcost : EconCosts c) (hc : 0 < o.costMult) (hft : 0 ≤ o.feastol) (hok : s.success = true) (k : Fin (igOf srt c r).length)
    {g : GenRow Tables.gen} (hg : c.gen[resRow srt c r k]? = some g) (R : ℝ) (h0 : 0 ≤ R) (hR : ReserveLimits ramp10 c r (resRow srt c r k) R) :
    (resDatum c.gen.length r r.cost (resRow srt c r k) - zonePay bs r out.lam (resRow srt c r k)) * out.R.getD (resRow srt c r k) 0 ≤
      (resDatum c.gen.length r r.cost (resRow srt c r k) - zonePay bs r out.lam (resRow srt c r k)) * R +
      out.mu_Pmax.getD (resRow srt c r k) 0 * (R - out.R.getD (resRow srt c r k) 0) +
      (o.gradtol * (1 + ret.dual) + 1 / 10 ^ 5 * (2 * (2 + ∑ z ∈ Finset.range r.zones.length, |(r.zones.getD z []).getD (resRow srt c r k) 0|))) / o.costMult / bs *
        |R - out.R.getD (resRow srt c r k) 0| + 2 * compGap o ‖fun i : Fin m.var.total => s.x i‖ s.dual s.tol := by
  have hpr := X.price hb hcost hc hok k
  obtain ⟨c1, c2, -⟩ := X.comp hb hc hft hok k hg
  obtain ⟨s1, s2, -⟩ := X.signs hb hc k
  have c2 := c2 R hR
  have c3 := mul_nonneg s1 h0
  set R0 := out.R.getD (resRow srt c r k) 0
  set T := (o.gradtol * (1 + ret.dual) + 1 / 10 ^ 5 * (2 * (2 + ∑ z ∈ Finset.range r.zones.length, |(r.zones.getD z []).getD (resRow srt c r k) 0|))) / o.costMult / bs
  have e := neg_abs_le ((resDatum c.gen.length r r.cost (resRow srt c r k) + (out.mu_u.getD (resRow srt c r k) 0 - out.mu_l.getD (resRow srt c r k) 0) +
    out.mu_Pmax.getD (resRow srt c r k) 0 - zonePay bs r out.lam (resRow srt c r k)) * (R - R0))
  rw [abs_mul] at e
  have e2 := mul_le_mul_of_nonneg_right hpr (abs_nonneg (R - R0))
  nlinarith

/-- What the capacity of a generator that provides reserves costs its output. -/
theorem ResRun.capacity_term (hs : IsArgsort srt) (q : Fin c'.gen.length) :
    (∀ k, W.jp k = q → ∑ k with W.jp k = q, s.mu_u (start (linBlocks (resCalls E c' d W)) "Pg_plus_R" + k) = s.mu_u (start (linBlocks (resCalls E c' d W)) "Pg_plus_R" + k)) ∧
    ((∀ k, W.jp k ≠ q) → ∑ k with W.jp k = q, s.mu_u (start (linBlocks (resCalls E c' d W)) "Pg_plus_R" + k) = 0) ∧
    (Finset.univ.filter fun k => W.jp k = q).card ≤ 1 := by
  refine ⟨fun k hk => ?_, fun hk => ?_, ?_⟩
  · have : (Finset.univ.filter fun j => W.jp j = q) = {k} := by
      ext j
      simp only [Finset.mem_filter, Finset.mem_univ, true_and, Finset.mem_singleton]
      exact ⟨fun hj => X.jp_inj hs (hj.trans hk.symm), fun hj => by rw [hj, hk]⟩
    rw [this, Finset.sum_singleton]
  · rw [Finset.filter_false_of_mem fun k _ => hk k, Finset.sum_empty]
  · rw [Finset.card_le_one]
    intro a ha b hb
    exact X.jp_inj hs ((Finset.mem_filter.1 ha).2.trans (Finset.mem_filter.1 hb).2.symm)

/-- No constraint besides those of the cost involves a helper variable. -/
theorem ResRun.helper_untouched (j : ℕ) (h1 : c'.bus.length + c'.gen.length ≤ j) (h2 : j < iROf c') :
    Untouched (varBlocks (resCalls E c' d W)) (linBlks (angOps E c'.bus.length c' ++ W.ops)) j := by
  obtain ⟨hlv, hla⟩ := X.lin
  have hlin := angOps_varBlocks (nb := c'.bus.length) E c'
  intro b hb i hi
  rw [linBlks_append, List.mem_append, W.linBlks_eq] at hb
  rcases hb with hb | hb
  · exact res_lin_untouched d (fun k : Fin c'.gen.length => costAt c' k) _ hlv hla W j (by omega) b hb i hi
  · simp only [List.mem_cons, List.not_mem_nil, or_false] at hb
    rcases hb with rfl | rfl
    · have hi' : i < (igOf srt c r).length := hi
      have := res_coef_pgR d (fun k : Fin c'.gen.length => costAt c' k) _ hlin W ⟨i, hi'⟩ j
      refine this.trans ?_
      have hj := (W.jp ⟨i, hi'⟩).isLt
      have h3 : j < c'.bus.length + c'.gen.length + nyOf (fun k : Fin c'.gen.length => pwl1Row (costAt c' k)) := h2
      rw [if_neg (by omega), if_neg (by simp only; omega), add_zero]
    · have hi' : i < r.zones.length := hi
      have := res_coef_req d (fun k : Fin c'.gen.length => costAt c' k) _ hlin W ⟨i, hi'⟩ j
      refine this.trans (Finset.sum_eq_zero fun k _ => ?_)
      have h3 : j < c'.bus.length + c'.gen.length + nyOf (fun k : Fin c'.gen.length => pwl1Row (costAt c' k)) := h2
      rw [if_neg (by omega), mul_zero]

/-- The output of a generator at the price of its bus, charged for its capacity. -/
theorem ResRun.energy_half (hs : IsArgsort srt) (hb : 0 < bs) (hcost : EconCosts c) (hc : 0 < o.costMult) (hft : 0 ≤ o.feastol) (hok : s.success = true) (q : Fin c'.gen.length)
    (mu : ℝ) (hmu : mu = (∑ k with W.jp k = q, s.mu_u (start (linBlocks (resCalls E c' d W)) "Pg_plus_R" + k)) / bs) (Q : ℝ) (h1 : d.pmin q ≤ Q) (h2 : Q ≤ d.pmax q) :
    (gp q ∉ pwlGens c → genCost c (gp q) (s.PG q) - s.LAM_P (d.gen q).bus * s.PG q ≤ genCost c (gp q) Q - s.LAM_P (d.gen q).bus * Q + mu * (Q - s.PG q) +
      (o.gradtol * (1 + ret.dual) + 1 / 10 ^ 5 * 6) / o.costMult / bs * |Q - s.PG q| + 2 * compGap o ‖fun i : Fin m.var.total => s.x i‖ s.dual s.tol) ∧
    (gp q ∈ pwlGens c → ∀ S, (∀ n, n + 1 < (costAt c (gp q)).ncost → |slope (costAt c (gp q)) n| ≤ S) →
      genCost c (gp q) (s.PG q) - s.LAM_P (d.gen q).bus * s.PG q ≤ genCost c (gp q) Q - s.LAM_P (d.gen q).bus * Q + mu * (Q - s.PG q) +
      (o.gradtol * (1 + ret.dual) + 1 / 10 ^ 5 * (2 * (3 + ((costAt c (gp q)).ncost - 1) * (bs * S)))) / o.costMult / bs * |Q - s.PG q| +
      (o.gradtol * (1 + ret.dual) + 1 / 10 ^ 5 * (2 * (costAt c (gp q)).ncost)) / o.costMult * |genCost c (gp q) Q - helper s gp (gp q)| +
      ((costAt c (gp q)).ncost + 1) * compGap o ‖fun i : Fin m.var.total => s.x i‖ s.dual s.tol + ret.tol) := by
  obtain ⟨hlv, hla⟩ := X.lin
  obtain rfl := X.base
  have hbd : 0 < d.base := hb
  have hgc : ∀ k : Fin c'.gen.length, CostOK (costAt c' k) := X.costOK hcost
  have hlin := angOps_varBlocks (nb := c'.bus.length) E c'
  have hterm := res_gen_term d (fun k : Fin c'.gen.length => costAt c' k) _ hlin hlv hla W m X.run X.good o solve _ _ s X.sol q
  have habs := res_gen_abs d (fun k : Fin c'.gen.length => costAt c' k) _ hlin hlv hla W q
  obtain ⟨-, -, hcard⟩ := X.capacity_term hs q
  have hcard' : ((Finset.univ.filter fun k => W.jp k = q).card : ℝ) ≤ 1 := by exact_mod_cast hcard
  have hval : ∀ P, genCost c (gp q) P = rowVal (costAt c' q) P := fun P => by rw [X.cost]; rfl
  have hN : ∀ a (j : Fin m.var.total), (j : ℕ) < iROf c' → (userOf P m.var.total).N a j = 0 := by
    intro a j hj
    have ha : (a : ℕ) < (igOf srt c r).length := lt_of_lt_of_eq a.isLt X.par.nw
    show P.N a j = 0
    rw [X.par.N a ha j j.isLt, if_neg (by omega)]
  have hir : iROf c' = c'.bus.length + c'.gen.length + nyOf (gcOf c') := rfl
  have hq := q.isLt
  constructor
  · intro hnp
    rw [X.mem_pwlGens hcost] at hnp
    have hm2 : (pwl1Row (costAt c' q)).model = 2 := by
      rcases costOK_cases (costOK_pwl1 (hgc q)) with h | h
      · exact absurd h.1 hnp
      · exact h.1
    have key := polynomial_gen d (fun k : Fin c'.gen.length => costAt c' k) hgc hbd _ W.ops hlin m X.run X.good (userOf P m.var.total) (RParams.convex W X.par) o solve _ hc hft _
      rfl s X.sol hok q hm2 (fun a j hj => hN a j (by omega)) _ _ hterm.symm habs.symm Q h1 h2
    change _ - (_ - (∑ k with W.jp k = q, s.mu_u (start (linBlocks (resCalls E c' d W)) "Pg_plus_R" + k)) / d.base) * _ ≤
      _ - (_ - (∑ k with W.jp k = q, s.mu_u (start (linBlocks (resCalls E c' d W)) "Pg_plus_R" + k)) / d.base) * _ + _ + _ at key
    rw [← hmu] at key
    rw [hval, hval, X.dual]
    have f1 : (o.gradtol * (1 + s.dual) + 1 / 10 ^ 5 * (2 * (2 + ((Finset.univ.filter fun k => W.jp k = q).card : ℝ)))) / o.costMult / d.base * |Q - s.PG q| ≤
        (o.gradtol * (1 + s.dual) + 1 / 10 ^ 5 * 6) / o.costMult / d.base * |Q - s.PG q| := by
      refine mul_le_mul_of_nonneg_right (div_le_div_of_nonneg_right (div_le_div_of_nonneg_right ?_ hc.le) hb.le) (abs_nonneg _)
      linarith
    linarith
  · intro hip S hS
    rw [X.mem_pwlGens hcost] at hip
    have hpos := pwlPos_lt (gcOf c') q hip
    have hfree' := X.helper_untouched (c'.bus.length + c'.gen.length + pwlPos (gcOf c') q) (by omega) (by omega)
    have key := piecewise_gen d (fun k : Fin c'.gen.length => costAt c' k) hgc hbd _ W.ops hlin m X.run X.good (userOf P m.var.total) (RParams.convex W X.par) o solve _ hc hft _
      rfl s X.sol hok q hip (fun a j hj => hN a j (by rcases hj with hj | hj <;> (rw [hj]; first | omega | (rw [hir]; exact Nat.add_lt_add_left hpos _)))) _ hterm.symm hfree'
      (X.big hb hcost) Q h1 h2
    have epw : pwl1Row (costAt c' q) = costAt c' q := by
      have := ((pwl1_model (hgc q)).1 hip).2
      unfold pwl1Row
      rw [if_neg fun h => this h.2]
    obtain ⟨a1, a2⟩ := pwlAbs_le d (gcOf c') hbd (angOps E c'.bus.length c') W.ops hlin (fun q hq => by
      rcases costOK_cases (costOK_pwl1 (hgc q)) with h | h
      · exact h.2.1
      · exact absurd h.1 (by rw [show (pwl1Row (costAt c' q)).model = 1 from hq]; omega)) (linBlocks (resCalls E c' d W)) q hip S (by
        intro n
        show n + 1 < (pwl1Row (costAt c' q)).ncost → |slope (pwl1Row (costAt c' q)) n| ≤ S
        rw [epw, X.cost]
        exact hS n)
    have b1 : extraAbs d (angOps E c'.bus.length c' ++ (pwlOps d.base (gcOf c') ++ W.ops)) (c'.bus.length + q) ≤ 1 + ((costAt c' q).ncost - 1) * (d.base * S) := by
      rw [extraAbs, extra_rows_split d (gcOf c') (angOps E c'.bus.length c') W.ops]
      refine add_le_add (le_trans (le_of_eq habs) hcard') (le_trans a1 (le_of_eq ?_))
      show ((pwl1Row (costAt c' q)).ncost - 1 : ℝ) * _ = _
      rw [epw]
    have b2 : extraAbs d (angOps E c'.bus.length c' ++ (pwlOps d.base (gcOf c') ++ W.ops)) (c'.bus.length + c'.gen.length + pwlPos (gcOf c') q) ≤ (costAt c' q).ncost - 1 := by
      rw [extraAbs, extra_rows d (gcOf c') (angOps E c'.bus.length c') W.ops _ (fun y => abs_zero) _ _ hfree']
      refine le_trans a2 (le_of_eq ?_)
      show ((pwl1Row (costAt c' q)).ncost - 1 : ℝ) = _
      rw [epw]
    change _ - (_ - (∑ k with W.jp k = q, s.mu_u (start (linBlocks (resCalls E c' d W)) "Pg_plus_R" + k)) / d.base) * _ ≤
      _ - (_ - (∑ k with W.jp k = q, s.mu_u (start (linBlocks (resCalls E c' d W)) "Pg_plus_R" + k)) / d.base) * _ + _ + _ + _ + _ at key
    rw [← hmu] at key
    rw [hval, hval, X.dual, X.tol, X.helper_at, ← X.cost]
    have f1 : (o.gradtol * (1 + s.dual) + 1 / 10 ^ 5 * (2 * (2 + extraAbs d (angOps E c'.bus.length c' ++ (pwlOps d.base (gcOf c') ++ W.ops)) (c'.bus.length + q)))) /
          o.costMult / d.base * |Q - s.PG q| ≤
        (o.gradtol * (1 + s.dual) + 1 / 10 ^ 5 * (2 * (3 + ((costAt c' q).ncost - 1) * (d.base * S)))) / o.costMult / d.base * |Q - s.PG q| := by
      refine mul_le_mul_of_nonneg_right (div_le_div_of_nonneg_right (div_le_div_of_nonneg_right ?_ hc.le) hb.le) (abs_nonneg _)
      linarith
    have f2 : (o.gradtol * (1 + s.dual) + 1 / 10 ^ 5 * (2 * (1 + extraAbs d (angOps E c'.bus.length c' ++ (pwlOps d.base (gcOf c') ++ W.ops))
          (c'.bus.length + c'.gen.length + pwlPos (gcOf c') q)))) / o.costMult * |rowVal (costAt c' q) Q - s.x (c'.bus.length + c'.gen.length + pwlPos (gcOf c') q)| ≤
        (o.gradtol * (1 + s.dual) + 1 / 10 ^ 5 * (2 * (costAt c' q).ncost)) / o.costMult *
          |rowVal (costAt c' q) Q - s.x (c'.bus.length + c'.gen.length + pwlPos (gcOf c') q)| := by
      refine mul_le_mul_of_nonneg_right (div_le_div_of_nonneg_right ?_ hc.le) (abs_nonneg _)
      linarith
    linarith

end

/-! ### The claims -/

section
variable {srt : List ℕ → List ℕ} (hs : IsArgsort srt) {base : ℝ} (hb : 0 < base) {E : Econ} {ramp10 : List ℝ → ℝ} {o : Opt} {solve : AnySolver} {c : Index.Case Tables} (h : WF c)
  (hcost : EconCosts c) (hc : 0 < o.costMult) (hft : 0 ≤ o.feastol) (hct : 0 ≤ o.comptol) {r : Reserves.Res} (hv : Reserves.Valid c.gen.length r)
  (hgood : ∀ c' d, Index.ext2int srt c = some c' → readCase base c' = some d → Good (dcOps d ++ (resSetup base E ramp10 r).extra d c'))
  {ret : Ret} {out : ResOut} (hrun : opfDcReserves srt base E ramp10 o solve c r = some (ret, out))

include hs hb h hcost hc hv hgood hrun

/-- **C107 (signs).**  The reported shadow prices have one entry per generator (per zone), none is negative, and those of generators without reserves are zero.  The price of a
generator is the sum of the shadow prices of the zones it belongs to, per MW. -/
theorem C107_signs :
    (out.mu_l.length = c.gen.length ∧ out.mu_u.length = c.gen.length ∧ out.mu_Pmax.length = c.gen.length ∧ out.prc.length = c.gen.length ∧ out.lam.length = r.zones.length) ∧
    (∀ i, 0 ≤ out.mu_l.getD i 0 ∧ 0 ≤ out.mu_u.getD i 0 ∧ 0 ≤ out.mu_Pmax.getD i 0 ∧ 0 ≤ out.prc.getD i 0) ∧ (∀ z, 0 ≤ out.lam.getD z 0) ∧
    (∀ i < c.gen.length, i ∉ resGens c r → out.mu_l[i]? = some 0 ∧ out.mu_u[i]? = some 0 ∧ out.mu_Pmax[i]? = some 0) ∧
    ∀ i < c.gen.length, out.prc[i]? = some ((∑ z ∈ Finset.range r.zones.length, if (r.zones.getD z []).getD i 0 ≠ 0 then out.lam.getD z 0 else 0) / base) := by
  obtain ⟨c', d, m, s, P, p, bp, gp, lp, W, X⟩ := res_run hs hb h hcost.table hv hgood hrun
  have sg := extra_signs X.run X.good X.sol hc
  have hlam : ∀ z, 0 ≤ out.lam.getD z 0 := by
    intro z
    by_cases hz : z < r.zones.length
    · rw [X.lam_at z hz]; exact (sg _).2.2.1
    · rw [List.getD_eq_default _ _ (by rw [X.lam]; simpa using hz)]
  refine ⟨⟨X.mu_l.len, X.mu_u.len, X.mu_Pmax.len, X.prc.1, by rw [X.lam]; simp⟩, fun i => ⟨?_, ?_, ?_, ?_⟩, hlam, fun i hi hn => ⟨X.mu_l.off i hi hn, X.mu_u.off i hi hn, X.mu_Pmax.off i hi hn⟩,
    X.prc.2⟩
  · exact X.mu_l.nonneg hs (fun k => div_nonneg (sg _).1 hb.le) i
  · exact X.mu_u.nonneg hs (fun k => div_nonneg (sg _).2.1 hb.le) i
  · exact X.mu_Pmax.nonneg hs (fun k => div_nonneg (sg _).2.2.2 hb.le) i
  · by_cases hi : i < c.gen.length
    · rw [List.getD_eq_getElem?_getD, X.prc.2 i hi, Option.getD_some]
      refine div_nonneg (Finset.sum_nonneg fun z _ => ?_) hb.le
      split_ifs
      · exact hlam z
      · exact le_refl _
    · rw [List.getD_eq_default _ _ (by rw [X.prc.1]; omega)]

/-- **C107 (price).**  If the zones are given by zeros and ones, the reported price is what the zones pay. -/
theorem C107_prc (h01 : ∀ row ∈ r.zones, ∀ x ∈ row, x = 0 ∨ x = 1) : ∀ i < c.gen.length, out.prc[i]? = some (zonePay base r out.lam i) := by
  intro i hi
  obtain ⟨-, -, -, -, hp⟩ := C107_signs hs hb h hcost hc hv hgood hrun
  rw [hp i hi]
  unfold zonePay
  congr 2
  refine Finset.sum_congr rfl fun z hz => ?_
  have hz' := Finset.mem_range.1 hz
  rw [List.getD_eq_getElem _ _ hz']
  have hl := hv.zones _ (List.getElem_mem hz')
  have hi' : i < r.zones[z].length := by rw [hl]; exact hi
  rw [List.getD_eq_getElem _ _ hi']
  rcases h01 _ (List.getElem_mem hz') _ (List.getElem_mem hi') with h0 | h0 <;> simp [h0]

section
variable (hok : ret.success = true)
include hok

/-- **C107 (cost and price).**  On success, for every generator that provides reserves: the cost of a MW of reserve, plus the shadow prices of its upper limit and of the capacity of
the generator, less that of its lower limit, is what the zones pay for it, up to the tolerance. -/
theorem C107_price : ∀ i ∈ resGens c r,
    |resDatum c.gen.length r r.cost i + (out.mu_u.getD i 0 - out.mu_l.getD i 0) + out.mu_Pmax.getD i 0 - zonePay base r out.lam i| ≤
      (o.gradtol * (1 + ret.dual) + 1 / 10 ^ 5 * (2 * (2 + ∑ z ∈ Finset.range r.zones.length, |(r.zones.getD z []).getD i 0|))) / o.costMult / base := by
  obtain ⟨c', d, m, s, P, p, bp, gp, lp, W, X⟩ := res_run hs hb h hcost.table hv hgood hrun
  intro i hi
  rw [resGens_eq hs, Finset.mem_image] at hi
  obtain ⟨k, -, rfl⟩ := hi
  exact X.price hb hcost hc (by rw [← X.success]; exact hok) k

include hft hct

/-- **C107 (equilibrium).**  On success: paid the price `LAM_P` of its bus for its output and what the zones pay for its reserve, no generator in service earns more with another output
and another reserve within all its limits, up to terms that vanish with the tolerances of the solver.  Shadow prices of reserves are paid only at binding limits: of the lower limit
(zero), the upper limit (RAMP_10, quantity), the capacity of the generator, and the requirements of the zones. -/
theorem C107_equilibrium : ∃ y : ℕ → ℝ,
    (∀ i ∈ pwlGens c, genCost c i (pgAt ret.tables i) ≤ y i + ret.tol) ∧
    ret.f = ∑ i ∈ onGens c \ pwlGens c, genCost c i (pgAt ret.tables i) + ∑ i ∈ pwlGens c, y i + out.totalcost ∧
    ∀ M : ℝ, 0 ≤ M → (∀ i ∈ onBuses c, |vaAt ret.tables i| ≤ M) → (∀ i ∈ onGens c, |pgAt ret.tables i / base| ≤ M) → (∀ i ∈ pwlGens c, |y i| ≤ M) →
      (∀ i ∈ resGens c r, |out.R.getD i 0 / base| ≤ M) →
      (∀ i ∈ resGens c r, out.mu_l.getD i 0 * out.R.getD i 0 ≤ compGap o M ret.dual ret.tol ∧
        (∀ x, ReserveLimits ramp10 c r i x → out.mu_u.getD i 0 * (x - out.R.getD i 0) ≤ compGap o M ret.dual ret.tol) ∧
        ∀ g, c.gen[i]? = some g → out.mu_Pmax.getD i 0 * (g.data.PMAX - (pgAt ret.tables i + out.R.getD i 0)) ≤ compGap o M ret.dual ret.tol) ∧
      (∀ (z : ℕ) row q, r.zones[z]? = some row → r.req[z]? = some q →
        out.lam.getD z 0 / base * (zoneReserves c.gen.length row (fun i => out.R.getD i 0) - q) ≤ compGap o M ret.dual ret.tol) ∧
      ∀ (i : ℕ) g b, ret.tables.gen[i]? = some g → GenInService ret.tables g → b ∈ ret.tables.bus → b.num = g.bus →
        ∀ Q R, g.data.PMIN ≤ Q → 0 ≤ R → Q + R ≤ g.data.PMAX → (i ∉ resGens c r → R = 0) → (i ∈ resGens c r → ReserveLimits ramp10 c r i R) →
        (i ∉ pwlGens c →
          genCost c i g.data.PG + resDatum c.gen.length r r.cost i * out.R.getD i 0 - (b.data.LAM_P * g.data.PG + zonePay base r out.lam i * out.R.getD i 0) ≤
          genCost c i Q + resDatum c.gen.length r r.cost i * R - (b.data.LAM_P * Q + zonePay base r out.lam i * R) +
          (o.gradtol * (1 + ret.dual) + 1 / 10 ^ 5 * 6) / o.costMult / base * |Q - g.data.PG| +
          (o.gradtol * (1 + ret.dual) + 1 / 10 ^ 5 * (2 * (2 + ∑ z ∈ Finset.range r.zones.length, |(r.zones.getD z []).getD i 0|))) / o.costMult / base *
            |R - out.R.getD i 0| + 5 * compGap o M ret.dual ret.tol) ∧
        (i ∈ pwlGens c → ∀ S, (∀ n, n + 1 < (costAt c i).ncost → |slope (costAt c i) n| ≤ S) →
          genCost c i g.data.PG + resDatum c.gen.length r r.cost i * out.R.getD i 0 - (b.data.LAM_P * g.data.PG + zonePay base r out.lam i * out.R.getD i 0) ≤
          genCost c i Q + resDatum c.gen.length r r.cost i * R - (b.data.LAM_P * Q + zonePay base r out.lam i * R) +
          (o.gradtol * (1 + ret.dual) + 1 / 10 ^ 5 * (2 * (3 + ((costAt c i).ncost - 1) * (base * S)))) / o.costMult / base * |Q - g.data.PG| +
          (o.gradtol * (1 + ret.dual) + 1 / 10 ^ 5 * (2 * (costAt c i).ncost)) / o.costMult * |genCost c i Q - y i| +
          (o.gradtol * (1 + ret.dual) + 1 / 10 ^ 5 * (2 * (2 + ∑ z ∈ Finset.range r.zones.length, |(r.zones.getD z []).getD i 0|))) / o.costMult / base *
            |R - out.R.getD i 0| + ((costAt c i).ncost + 4) * compGap o M ret.dual ret.tol + ret.tol) := by
  obtain ⟨c', d, m, s, P, p, bp, gp, lp, W, X⟩ := res_run hs hb h hcost.table hv hgood hrun
  have hok' : s.success = true := by rw [← X.success]; exact hok
  have hlin := angOps_varBlocks (nb := c'.bus.length) E c'
  obtain ⟨h1, h2⟩ := X.helpers hb hcost hc hok'
  refine ⟨helper s gp, h1, h2, ?_⟩
  intro M hM hva hpg hy hR
  have hnorm := X.norm_le hs hb hcost hok' hM hva hpg hy hR
  have hgap : compGap o ‖fun i : Fin m.var.total => s.x i‖ s.dual s.tol ≤ compGap o M ret.dual ret.tol := by
    rw [X.dual, X.tol]
    unfold compGap
    have := mul_le_mul_of_nonneg_left hnorm hct
    refine div_le_div_of_nonneg_right ?_ hc.le
    linarith
  have hgap0 := X.gap_nonneg hc hft hok'
  obtain ⟨hx1, hx2, hx3⟩ := X.point hb hok'
  refine ⟨?_, ?_, ?_⟩
  · intro i hi
    rw [resGens_eq hs, Finset.mem_image] at hi
    obtain ⟨k, -, rfl⟩ := hi
    obtain ⟨g, hg⟩ := X.gen k
    obtain ⟨c1, c2, c3⟩ := X.comp hb hc hft hok' k hg
    refine ⟨c1.trans hgap, fun x hx => (c2 x hx).trans hgap, fun g' hg' => ?_⟩
    rw [hg] at hg'; cases hg'
    exact c3.trans hgap
  · intro z row q hz hq
    obtain ⟨hzl, rfl⟩ := List.getElem?_eq_some_iff.1 hz
    obtain ⟨-, cR⟩ := C84_dc_extra d _ m X.run X.good _ _ _ o solve _ s X.sol hc hft hok' _
      (res_mem_req d (fun k : Fin c'.gen.length => costAt c' k) (angOps E c'.bus.length c') W) z hzl
    have cR := cR _ (W.req_lo ⟨z, hzl⟩)
    have e2 := W.req_row d (gcOf c') _ hlin s.x ⟨z, hzl⟩
    simp only at cR e2
    rw [e2, X.lq, List.getD_eq_getElem?_getD, hq, Option.getD_some] at cR
    have hzero : ∀ i < c.gen.length, i ∉ resGens c r → out.R.getD i 0 = 0 := fun i hi hn => by
      rw [List.getD_eq_getElem?_getD, X.R.off i hi hn, Option.getD_some]
    have e3 : ∑ k, W.Z ⟨z, hzl⟩ k * s.x (c'.bus.length + c'.gen.length + nyOf (gcOf c') + k) = zoneReserves c.gen.length r.zones[z] (fun i => out.R.getD i 0) / base := by
      rw [zone_sum hs _ _ hzero, Finset.sum_div]
      refine Finset.sum_congr rfl fun k _ => ?_
      have : s.x (c'.bus.length + c'.gen.length + nyOf (gcOf c') + k) = _ := hx3 k
      rw [this, X.Z, mul_div_assoc]
      rfl
    rw [e3] at cR
    refine le_trans (le_of_eq ?_) (cR.trans hgap)
    rw [X.lam_at z hzl]
    show _ / base * _ = s.mu_l (start (linBlocks (resCalls E c' d W)) "Rreq" + z) * _
    field_simp
  · intro i g b hg hon hbm hbn Q R hQ hR0 hQR hno hlimR
    obtain ⟨g0, hg0, e1, e2, hk, -⟩ := X.bridge.gen_at hg
    obtain ⟨q, rfl, rfl⟩ := hk ((X.bridge.genIn_iff e1 e2).1 hon)
    obtain ⟨g1, hg1, -, -, ⟨b0, hb0, hb0n⟩, -, hmin, hmax, -⟩ := X.bridge.gen q
    rw [hg0] at hg1; cases hg1
    obtain ⟨b1, hb1, ht1, hb1', -⟩ := X.bridge.bus (d.gen q).bus
    rw [hb0] at hb1; cases hb1
    have hbb : b = { b0 with data := (dcUpd s p).bus (d.gen q).bus b0.data } := X.bridge.busOf hbm _ hb0 (by rw [hbn]; exact hb0n.symm) h
    subst hbb
    have hQ1 : d.pmin q ≤ Q := by rw [hmin]; exact hQ
    have hQR' : Q + R ≤ g0.data.PMAX := hQR
    have hQ2 : Q ≤ d.pmax q := by rw [hmax]; linarith
    obtain ⟨k1, k2⟩ := X.energy_half hs hb hcost hc hft hok' q _ rfl Q hQ1 hQ2
    obtain ⟨t1, t2, -⟩ := X.capacity_term hs q
    -- the reserve
    have key : (∑ k with W.jp k = q, s.mu_u (start (linBlocks (resCalls E c' d W)) "Pg_plus_R" + k)) / base * (Q - s.PG q) +
        resDatum c.gen.length r r.cost (gp q) * out.R.getD (gp q) 0 - zonePay base r out.lam (gp q) * out.R.getD (gp q) 0 ≤
        resDatum c.gen.length r r.cost (gp q) * R - zonePay base r out.lam (gp q) * R +
          (o.gradtol * (1 + ret.dual) + 1 / 10 ^ 5 * (2 * (2 + ∑ z ∈ Finset.range r.zones.length, |(r.zones.getD z []).getD (gp q) 0|))) / o.costMult / base *
            |R - out.R.getD (gp q) 0| + 3 * compGap o M ret.dual ret.tol := by
      by_cases hi : gp q ∈ resGens c r
      · have hlim := hlimR hi
        have hi' := hi
        rw [resGens_eq hs, Finset.mem_image] at hi'
        obtain ⟨k, -, ek⟩ := hi'
        have hjp : W.jp k = q := X.bridge.gInj ((X.row k).trans ek)
        rw [t1 k hjp]
        have hg0' : c.gen[resRow srt c r k]? = some g0 := by rw [ek]; exact hg0
        rw [← ek] at hlim ⊢
        have hh := X.reserve_half hb hcost hc hft hok' k hg0' R hR0 hlim
        obtain ⟨-, -, cP⟩ := X.comp hb hc hft hok' k hg0'
        obtain ⟨-, -, sP⟩ := X.signs hb hc k
        have emu : s.mu_u (start (linBlocks (resCalls E c' d W)) "Pg_plus_R" + k) / base = out.mu_Pmax.getD (resRow srt c r k) 0 := (X.mu_Pmax.at k).symm
        rw [emu]
        have epg : pgAt ret.tables (resRow srt c r k) = s.PG q := by rw [ek, X.pg]
        rw [epg] at cP
        have := mul_le_mul_of_nonneg_left (show Q + R - (s.PG q + out.R.getD (resRow srt c r k) 0) ≤ g0.data.PMAX - (s.PG q + out.R.getD (resRow srt c r k) 0) by linarith) sP
        nlinarith
      · have hR' := hno hi
        have hlt : gp q < c.gen.length := (List.getElem?_eq_some_iff.1 hg0).1
        have hR0' : out.R.getD (gp q) 0 = 0 := by rw [List.getD_eq_getElem?_getD, X.R.off _ hlt hi, Option.getD_some]
        have hnone : ∀ k, W.jp k ≠ q := by
          intro k hk
          refine hi ?_
          rw [resGens_eq hs, Finset.mem_image]
          exact ⟨k, Finset.mem_univ _, by rw [← X.row, hk]⟩
        rw [t2 hnone, hR', hR0']
        simp only [zero_div, zero_mul, mul_zero, sub_self, abs_zero, add_zero, zero_add]
        linarith
    show (_ → genCost c (gp q) (s.PG q) + _ - (s.LAM_P (d.gen q).bus * s.PG q + _) ≤ _ - (s.LAM_P (d.gen q).bus * Q + _) + (_ * |Q - s.PG q|) + _ + _) ∧
      (_ → ∀ S, _ → genCost c (gp q) (s.PG q) + _ - (s.LAM_P (d.gen q).bus * s.PG q + _) ≤ _ - (s.LAM_P (d.gen q).bus * Q + _) + (_ * |Q - s.PG q|) + _ + _ + _ + _)
    constructor
    · intro hnp
      have := k1 hnp
      linarith
    · intro hip S hS
      have := k2 hip S hS
      have n0 : (0 : ℝ) ≤ (costAt c (gp q)).ncost := Nat.cast_nonneg _
      have f3 := mul_le_mul_of_nonneg_left hgap (show (0 : ℝ) ≤ (costAt c (gp q)).ncost + 1 by linarith)
      linarith

end

end

end Verif.Opf
