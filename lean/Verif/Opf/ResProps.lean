import Verif.Opf.ResPoint

/-!
# C106, C107, C108: the DC optimal power flow with zonal reserves

Read off the tables and the reserve data of the caller and `results['reserves']`.
-/

namespace Verif.Opf

open Verif.Index (BusRow GenRow BranchRow IsArgsort WF GenInService BranchInService Connected posOf orderOf)
open Verif.OpfModel Verif.Pips Verif.Network Verif.Cost Verif.OpfCost
open Verif.Reserves (Provides providers zoneReserves)

section
variable {srt : List ℕ → List ℕ} (hs : IsArgsort srt) {base : ℝ} (hb : 0 < base) {E : Econ} {ramp10 : List ℝ → ℝ} {o : Opt} {solve : AnySolver} {c : Index.Case Tables} (h : WF c)
  (hgc : c.gencost.isSome) {r : Reserves.Res} (hv : Reserves.Valid c.gen.length r)
  (hgood : ∀ c' d, Index.ext2int srt c = some c' → readCase base c' = some d → Good (dcOps d ++ (resSetup base E ramp10 r).extra d c'))
  {ret : Ret} {out : ResOut} (hrun : opfDcReserves srt base E ramp10 o solve c r = some (ret, out))

include hrun in
/-- **C106 (tables).**  The tables of a run with reserves are the tables of a DC optimal power flow with further variables and constraints: everything proved of those holds
(`C86_dc`, `C86_dc_flows`, `C86_dc_inputs`, `C86_dc_untouched`, …). -/
theorem C106_tables : opfDc srt base (resSetup base E ramp10 r) o solve c = some ret := by
  unfold opfDcReserves at hrun
  simp only [Option.bind_eq_bind, Option.bind_eq_some_iff] at hrun
  obtain ⟨c', hc', d, hd, ord, hord, F, hF, m, hm, m', hm', s, hs', out', hout, t, ht, e⟩ := hrun
  injection e with e
  obtain ⟨e1, e2⟩ := Prod.mk.inj e
  subst e1 e2
  unfold opfDc
  simp only [hc', hd, hm, Option.bind_eq_bind, Option.bind_some]
  show (dcopfSolver d m ((resSetup base E ramp10 r).H c' m) ((resSetup base E ramp10 r).C c' m) ((resSetup base E ramp10 r).C0 c' m) o solve (E.x0 c' m)).bind _ = _
  rw [hs', Option.bind_some]
  show (Index.int2ext (write c' (dcUpd s (angPost E c' m s)))).bind _ = _
  rw [ht, Option.bind_some]

include hs hb h hgc hv hgood hrun

/-- **C106 (reserves).**  On success the vector of reserves has one entry per row of the caller's generator table.  It is zero except for generators in service that belong to a zone.
Each of these is, up to the tolerance, not negative, within RAMP_10 (if that is not zero) and the quantity (if given), and within what the generator has left beside its returned
output.  Every zone has the reserves it requires, up to the tolerance.  The reported cost is the cost of these reserves. -/
theorem C106_reserves (hok : ret.success = true) :
    out.R.length = c.gen.length ∧ (∀ i < c.gen.length, i ∉ resGens c r → out.R[i]? = some 0) ∧
    (∀ i ∈ resGens c r, -(ret.tol * base) < out.R.getD i 0 ∧
      (∀ g, c.gen[i]? = some g → ramp10 g.data.rest ≠ 0 → ramp10 g.data.rest < 10 ^ 10 * base → out.R.getD i 0 < ramp10 g.data.rest + ret.tol * base) ∧
      (∀ q, r.qty = some q → resDatum c.gen.length r q i < 10 ^ 10 * base → out.R.getD i 0 < resDatum c.gen.length r q i + ret.tol * base) ∧
      (∀ g, c.gen[i]? = some g → g.data.PMAX < 10 ^ 10 * base → pgAt ret.tables i + out.R.getD i 0 < g.data.PMAX + ret.tol * base)) ∧
    (∀ (z : ℕ) row q, r.zones[z]? = some row → r.req[z]? = some q → -(10 ^ 10 * base) < q →
      q < zoneReserves c.gen.length row (fun i => out.R.getD i 0) + ret.tol * base) ∧
    out.totalcost = reserveCost c r fun i => out.R.getD i 0 := by
  obtain ⟨c', d, m, s, P, p, bp, gp, lp, W, X⟩ := res_run hs hb h hgc hv hgood hrun
  have hok' : s.success = true := by rw [← X.success]; exact hok
  obtain ⟨hvars, hrows, -, -⟩ := C77_extra d _ m X.run X.good _ _ _ o solve _ s X.sol hok'
  obtain ⟨-, hx2, hx3⟩ := X.point hb hok'
  have hlin := angOps_varBlocks (nb := c'.bus.length) E c'
  have hzero : ∀ i < c.gen.length, i ∉ resGens c r → out.R.getD i 0 = 0 := fun i hi hn => by
    rw [List.getD_eq_getElem?_getD, X.R.off i hi hn, Option.getD_some]
  have htol := X.tol
  refine ⟨X.R.len, X.R.off, ?_, ?_, ?_⟩
  · intro i hi
    rw [resGens_eq hs, Finset.mem_image] at hi
    obtain ⟨k, -, rfl⟩ := hi
    obtain ⟨g, hg⟩ := X.gen k
    have w := hvars _ (res_mem_R d (fun k : Fin c'.gen.length => costAt c' k) (angOps E c'.bus.length c') W) k k.isLt
    simp only at w
    rw [W.vars_lo, W.vars_hi, (W.start_R d (gcOf c') _ hlin).1, ← htol] at w
    have wx : s.x (c'.bus.length + c'.gen.length + nyOf (gcOf c') + k) = _ := hx3 k
    rw [wx, X.hi k g hg] at w
    have w' := hrows _ (res_mem_pgR d (fun k : Fin c'.gen.length => costAt c' k) (angOps E c'.bus.length c') W) k k.isLt
    simp only at w'
    rw [W.pgR_hi, W.pgR_row d (gcOf c') _ hlin, wx, hx2, X.row, X.pm k g hg, ← htol] at w'
    refine ⟨?_, ?_, ?_, ?_⟩
    · have := within_lower w (by norm_num)
      rw [zero_sub, lt_div_iff₀ hb] at this
      linarith
    · intro g' hg' hr1 hr2
      rw [hg] at hg'; cases hg'
      have := within_upper' w (div_le_coe hb (resLimit_ramp ramp10 _ r _ _ _ hr1)) (by rw [div_lt_iff₀ hb]; exact hr2)
      rw [div_lt_iff₀ hb, add_mul, div_mul_cancel₀ _ hb.ne'] at this
      exact this
    · intro q hq hq2
      have := within_upper' w (div_le_coe hb (resLimit_qty ramp10 _ r _ _ _ hq)) (by rw [div_lt_iff₀ hb]; exact hq2)
      rw [div_lt_iff₀ hb, add_mul, div_mul_cancel₀ _ hb.ne'] at this
      exact this
    · intro g' hg' hp
      rw [hg] at hg'; cases hg'
      have := within_upper w' (by rw [div_lt_iff₀ hb]; exact hp)
      rw [← add_div, div_lt_iff₀ hb, add_mul, div_mul_cancel₀ _ hb.ne'] at this
      exact this
  · intro z row q hz hq hbig
    obtain ⟨hzl, rfl⟩ := List.getElem?_eq_some_iff.1 hz
    have w := hrows _ (res_mem_req d (fun k : Fin c'.gen.length => costAt c' k) (angOps E c'.bus.length c') W) z hzl
    simp only at w
    have e1 := W.req_lo ⟨z, hzl⟩
    have e2 := W.req_row d (gcOf c') _ hlin s.x ⟨z, hzl⟩
    simp only at e1 e2
    rw [e1, e2, X.lq, ← htol, List.getD_eq_getElem?_getD, hq, Option.getD_some] at w
    have := within_lower w (by rw [lt_div_iff₀ hb]; linarith)
    have e3 : ∑ k, W.Z ⟨z, hzl⟩ k * s.x (c'.bus.length + c'.gen.length + nyOf (gcOf c') + k) = zoneReserves c.gen.length r.zones[z] (fun i => out.R.getD i 0) / base := by
      rw [zone_sum hs _ _ hzero, Finset.sum_div]
      refine Finset.sum_congr rfl fun k _ => ?_
      have : s.x (c'.bus.length + c'.gen.length + nyOf (gcOf c') + k) = _ := hx3 k
      rw [this, X.Z, mul_div_assoc]
      rfl
    rw [e3, lt_div_iff₀ hb, sub_mul, div_mul_cancel₀ _ hb.ne'] at this
    linarith
  · rw [X.totalcost]
    unfold reserveCost
    rw [res_sum hs]
    refine Finset.sum_congr rfl fun k _ => ?_
    rw [X.cw, hx3]
    field_simp

/-- **C106 (limits).**  The reported limits: zero below; above, exactly the reserves within RAMP_10 and quantity are within the limit.  Generators without reserves get zeros. -/
theorem C106_limits :
    out.Rmin.length = c.gen.length ∧ out.Rmax.length = c.gen.length ∧ (∀ i < c.gen.length, out.Rmin[i]? = some 0) ∧
    (∀ i < c.gen.length, i ∉ resGens c r → out.Rmax[i]? = some 0) ∧
    ∀ i ∈ resGens c r, ∃ u, out.Rmax[i]? = some u ∧ ∀ x : ℝ, (x : EReal) ≤ u ↔ ReserveLimits ramp10 c r i x := by
  obtain ⟨c', d, m, s, P, p, bp, gp, lp, W, X⟩ := res_run hs hb h hgc hv hgood hrun
  refine ⟨X.Rmin.len, X.Rmax.len, ?_, X.Rmax.off, ?_⟩
  · intro i hi
    by_cases hm : i ∈ resGens c r
    · rw [resGens_eq hs, Finset.mem_image] at hm
      obtain ⟨k, -, rfl⟩ := hm
      exact X.Rmin.on k
    · exact X.Rmin.off i hi hm
  · intro i hi
    rw [resGens_eq hs, Finset.mem_image] at hi
    obtain ⟨k, -, rfl⟩ := hi
    obtain ⟨g, hg⟩ := X.gen k
    refine ⟨_, X.Rmax.on k, fun x => ?_⟩
    rw [X.hi k g hg, EReal.div_mul_cancel (EReal.coe_ne_bot _) (EReal.coe_ne_top _) (by exact_mod_cast hb.ne'), le_resLimit c r ramp10 hg]

end

section
variable {base : ℝ} {E : Econ} {c : Index.Case Tables} {r : Ret} {c' : Index.Case Tables}
    {d : Case c'.bus.length c'.gen.length c'.branch.length} {s : DcRes c'.bus.length c'.gen.length c'.branch.length}
    {p : PostMu c'.gen.length c'.branch.length} {bp : Fin c'.bus.length → ℕ} {gp : Fin c'.gen.length → ℕ} {lp : Fin c'.branch.length → ℕ}
    (R : DcRun base E c r c' d s p bp gp lp)

include R in
/-- Internal: the angle limits hold at another feasible dispatch. -/
theorem DcRun.ang_alt {t : Index.Case Tables} {θ : ℕ → ℝ} (F : DcFeasible d.base E c t θ) (extra : List Op) (x : ℕ → ℝ) (x1 : ∀ k : Fin c'.bus.length, x k = vaAt t (bp k)) :
    Holds (varBlocks (dcOps d ++ extra)) (angOps E c'.bus.length c') x := by
  have key := ang_holds d E c' R.valid extra x fun hig b hbm hlim => by
    obtain ⟨l', hl', rfl⟩ := List.mem_map.1 hbm
    obtain ⟨k, hk, rfl⟩ := List.mem_iff_getElem.1 hl'
    obtain ⟨l, e0, e1, e2, e3⟩ := R.ends ⟨k, hk⟩
    obtain ⟨l0, h0, hon, -, ⟨bf, hbf, hnf⟩, ⟨bt, hbt, hnt⟩, -⟩ := R.bridge.branch ⟨k, hk⟩
    rw [e0] at h0; cases h0
    have hθ : ∀ (j : Fin c'.bus.length) b0 n, c.bus[bp j]? = some b0 → b0.num = n → x j = θ n := by
      rintro j b0 n hj rfl
      obtain ⟨b, hb1, e⟩ := map_at F.bus _ _ hj
      have e1 : b.num = b0.num := by simpa [busInput] using congrArg BusRow.num e
      rw [x1, ← e1, F.angles b (List.mem_of_getElem? hb1)]
      simp [vaAt, hb1]
    simp only [Fin.getElem_fin] at e1 e2 e3
    have key := F.angle hig l (List.mem_of_getElem? e0) hon (by
      unfold Constr.Limited at hlim ⊢
      simp only [e1] at hlim
      exact hlim)
    unfold Constr.AngleOk at key ⊢
    simp only [e1, e2, e3, hθ _ _ _ hbf hnf, hθ _ _ _ hbt hnt] at key ⊢
    exact key
  rwa [List.append_nil] at key

end

section
variable {srt : List ℕ → List ℕ} (hs : IsArgsort srt) {base : ℝ} (hb : 0 < base) {E : Econ} {ramp10 : List ℝ → ℝ} {o : Opt} {solve : AnySolver} {c : Index.Case Tables} (h : WF c)
  (hcost : EconCosts c) (hst : ∀ l ∈ c.branch, l.status = 0 ∨ l.status = 1) (hc : 0 < o.costMult) (hft : 0 ≤ o.feastol) (hct : 0 ≤ o.comptol)
  {r : Reserves.Res} (hv : Reserves.Valid c.gen.length r)
  (hgood : ∀ c' d, Index.ext2int srt c = some c' → readCase base c' = some d → Good (dcOps d ++ (resSetup base E ramp10 r).extra d c'))
  {ret : Ret} {out : ResOut} (hrun : opfDcReserves srt base E ramp10 o solve c r = some (ret, out)) (hok : ret.success = true)

include hs hb h hcost hst hc hft hct hv hgood hrun hok

/-- **C108 (least cost).**  After a successful DC optimal power flow with reserves the reported objective is the cost of the generators with polynomial costs at their returned
outputs, plus the helper values `y` of the others (at least their costs, up to the tolerance), plus the reported cost of the reserves.  It is at most the cost of any other dispatch of
the same system within all its limits together with any reserves that can be held beside it and meet all requirements, up to `gap`, which vanishes with the tolerances of the solver;
`M` bounds the returned angles, outputs and reserves in p.u. and helper values. -/
theorem C108_least_cost : ∃ y : ℕ → ℝ,
    (∀ i ∈ pwlGens c, genCost c i (pgAt ret.tables i) ≤ y i + ret.tol) ∧
    ret.f = ∑ i ∈ onGens c \ pwlGens c, genCost c i (pgAt ret.tables i) + ∑ i ∈ pwlGens c, y i + out.totalcost ∧
    dispatchCost c ret.tables + reserveCost c r (fun i => out.R.getD i 0) ≤ ret.f + (pwlGens c).card * ret.tol ∧
    ∀ t θ R, DcFeasible base E c t θ → ResFeasible ramp10 c r t R → ∀ M : ℝ, 0 ≤ M → (∀ i ∈ onBuses c, |vaAt ret.tables i| ≤ M) →
      (∀ i ∈ onGens c, |pgAt ret.tables i / base| ≤ M) → (∀ i ∈ pwlGens c, |y i| ≤ M) → (∀ i ∈ resGens c r, |out.R.getD i 0 / base| ≤ M) →
      ret.f ≤ dispatchCost c t + reserveCost c r R +
        gap o ret.size M ret.dual ret.tol (dist base c ret.tables t y + ∑ i ∈ resGens c r, |R i - out.R.getD i 0| / base) := by
  obtain ⟨-, -, -, -, htc⟩ := C106_reserves hs hb h hcost.table hv hgood hrun hok
  obtain ⟨c', d, m, s, P, p, bp, gp, lp, W, X⟩ := res_run hs hb h hcost.table hv hgood hrun
  have hbd : 0 < d.base := by rw [X.base]; exact hb
  have hgc : ∀ k : Fin c'.gen.length, CostOK (costAt c' k) := X.costOK hcost
  have hok' : s.success = true := by rw [← X.success]; exact hok
  have hlin := angOps_varBlocks (nb := c'.bus.length) E c'
  obtain ⟨h1, h2⟩ := X.helpers hb hcost hc hok'
  have hval := X.val hcost
  have psum := X.pwlGens_sum hcost
  refine ⟨helper s gp, h1, h2, ?_, ?_⟩
  · have hsub : pwlGens c ⊆ onGens c := Finset.filter_subset _ _
    have e1 := Finset.sum_sdiff (f := fun i => genCost c i (pgAt ret.tables i)) hsub
    have e2 := Finset.sum_le_sum h1
    rw [Finset.sum_add_distrib, Finset.sum_const, nsmul_eq_mul] at e2
    unfold dispatchCost
    linarith
  · intro t θ R F FR M hM hva hpg hy hR
    rw [← X.base] at F
    have ha := feasible_alt X.bridge h F
    have hstat : ∀ k, (d.branch k).stat = 0 ∨ (d.branch k).stat = 1 := by
      intro k
      obtain ⟨l0, h1, -, -, -, -, -, -, -, -, -, h2, -⟩ := X.bridge.branch k
      rw [h2]
      rcases hst l0 (List.mem_of_getElem? h1) with h3 | h3 <;> simp [h3]
    set zz : ℕ → ℝ := fun j => if hj : j < (igOf srt c r).length then R (resRow srt c r ⟨j, hj⟩) / base else 0 with hzz
    set x := stack d (gcOf c') (fun k => vaAt t (bp k)) (fun k => pgAt t (gp k)) zz with hx
    have hir : iROf c' = c'.bus.length + c'.gen.length + nyOf (gcOf c') := rfl
    have x1 : ∀ k : Fin c'.bus.length, x k = vaAt t (bp k) := by intro k; simp [hx, stack]
    have x2 : ∀ k : Fin c'.gen.length, x (c'.bus.length + k) = pgAt t (gp k) / d.base := by intro k; simp [hx, stack]
    have x3 : ∀ j : Fin (nyOf (gcOf c')), x (c'.bus.length + c'.gen.length + j) = rowVal (gcOf c' ((ipwl (gcOf c')).get j)) (pgAt t (gp ((ipwl (gcOf c')).get j))) := by
      intro j
      have n1 : ¬ (c'.bus.length + c'.gen.length + j < c'.bus.length) := by omega
      have n2 : ¬ (c'.bus.length + c'.gen.length + j - c'.bus.length < c'.gen.length) := by omega
      have e : c'.bus.length + c'.gen.length + j - c'.bus.length - c'.gen.length = j := by omega
      simp only [hx, stack, dif_neg n1, dif_neg n2, e, dif_pos j.isLt]
      rfl
    have x4 : ∀ k : Fin (igOf srt c r).length, x (c'.bus.length + c'.gen.length + nyOf (gcOf c') + k) = R (resRow srt c r k) / base := by
      intro k
      have n1 : ¬ (c'.bus.length + c'.gen.length + nyOf (gcOf c') + k < c'.bus.length) := by omega
      have n2 : ¬ (c'.bus.length + c'.gen.length + nyOf (gcOf c') + k - c'.bus.length < c'.gen.length) := by omega
      have n3 : ¬ (c'.bus.length + c'.gen.length + nyOf (gcOf c') + k - c'.bus.length - c'.gen.length < nyOf (gcOf c')) := by omega
      have e : c'.bus.length + c'.gen.length + nyOf (gcOf c') + k - c'.bus.length - c'.gen.length - nyOf (gcOf c') = k := by omega
      simp only [hx, stack, dif_neg n1, dif_neg n2, e, dif_neg n3, hzz, dif_pos k.isLt]
    have hk : ∀ k, resRow srt c r k ∈ resGens c r := fun k => by rw [resGens_eq hs]; simp
    have hang := X.ang_alt F (angOps E c'.bus.length c' ++ (pwlOps d.base (gcOf c') ++ W.ops)) x x1
    have hres : Holds (varBlocks (dcOps d ++ (angOps E c'.bus.length c' ++ (pwlOps d.base (gcOf c') ++ W.ops)))) W.ops x := by
      constructor
      · rw [W.varVals_eq]
        intro b hbm i hi
        rw [List.mem_singleton] at hbm
        subst hbm
        have elo := W.vars_lo ⟨i, hi⟩
        have ehi := W.vars_hi ⟨i, hi⟩
        obtain ⟨g, hg⟩ := X.gen ⟨i, hi⟩
        simp only at elo ehi ⊢
        have ex := x4 ⟨i, hi⟩
        simp only at ex
        rw [elo, ehi, (W.start_R d (gcOf c') _ hlin).1, ex, X.hi _ g hg]
        constructor
        · exact EReal.coe_le_coe_iff.2 (div_nonneg (FR.nonneg _ (hk _)) hb.le)
        · rw [EReal.coe_div]
          exact EReal.div_le_div_right_of_nonneg (EReal.coe_nonneg.2 hb.le) ((le_resLimit c r ramp10 hg _).2 (FR.limits _ (hk _)))
      · rw [W.linBlks_eq]
        intro b hbm i hi
        simp only [List.mem_cons, List.not_mem_nil, or_false] at hbm
        rcases hbm with rfl | rfl
        · have e1 := W.pgR_hi ⟨i, hi⟩
          have e2 := W.pgR_row d (gcOf c') _ hlin x ⟨i, hi⟩
          obtain ⟨g, hg⟩ := X.gen ⟨i, hi⟩
          have ex := x4 ⟨i, hi⟩
          simp only at e1 e2 ex ⊢
          rw [W.pgR_lo, e1, e2, ex, x2, X.row, X.pm _ g hg, X.base]
          refine ⟨bot_le, EReal.coe_le_coe_iff.2 ?_⟩
          rw [← add_div]
          exact div_le_div_of_nonneg_right (FR.capacity _ (hk _) g hg) hb.le
        · have e1 := W.req_lo ⟨i, hi⟩
          have e2 := W.req_row d (gcOf c') _ hlin x ⟨i, hi⟩
          simp only at e1 e2 ⊢
          rw [W.req_hi, e1, e2, X.lq]
          refine ⟨EReal.coe_le_coe_iff.2 ?_, le_top⟩
          simp only [x4]
          have hz : i < r.zones.length := hi
          have hq : i < r.req.length := by rw [← hv.req]; exact hz
          have := FR.required i _ _ (List.getElem?_eq_getElem hz) (List.getElem?_eq_getElem hq)
          rw [zone_sum hs _ _ (fun i _ hn => FR.off i hn)] at this
          have e3 : ∑ k, W.Z ⟨i, hi⟩ k * (R (resRow srt c r k) / base) = (∑ k, r.zones[i].getD (resRow srt c r k) 0 * R (resRow srt c r k)) / base := by
            rw [Finset.sum_div]
            refine Finset.sum_congr rfl fun k _ => ?_
            rw [X.Z, mul_div_assoc]
            rfl
          rw [e3, List.getD_eq_getElem _ _ hq]
          exact div_le_div_of_nonneg_right this hb.le
    obtain ⟨T, hT, hle⟩ := C83_least_cost d (fun k : Fin c'.gen.length => costAt c' k) hgc hbd _ W.ops hlin m X.run X.good (userOf P m.var.total) (RParams.convex W X.par) o
      solve _ hc hft _ rfl s X.sol hok' hstat (fun k => vaAt t (bp k)) (fun k => pgAt t (gp k)) zz ha (hang.append hres)
    obtain ⟨T', hT', hsum⟩ := totcost_sum (fun k : Fin c'.gen.length => costAt c' k) hgc (fun k => pgAt t (gp k))
    rw [hT] at hT'; cases hT'
    have huser : (userOf P m.var.total).value (fun i => x i) = reserveCost c r R := by
      rw [X.user]
      unfold reserveCost
      rw [res_sum hs]
      refine Finset.sum_congr rfl fun k _ => ?_
      have : x (iROf c' + k) = _ := x4 k
      rw [this, X.cw]
      field_simp
    change s.f - _ ≤ _ + (userOf P m.var.total).value (fun i => x i) + gap o _ _ _ _ (∑ i : Fin m.var.total, |x i - s.x i|) at hle
    rw [huser, RParams.offset W X.par, sub_zero, hsum] at hle
    have eC : dispatchCost c t = ∑ k : Fin c'.gen.length, rowVal (pwl1Row (costAt c' k)) (pgAt t (gp k)) := by
      unfold dispatchCost
      rw [X.bridge.onGens_sum]
      exact Finset.sum_congr rfl fun k _ => hval k _
    rw [← eC] at hle
    -- the reported point
    obtain ⟨v1, v2, v3⟩ := X.point hb hok'
    have hdist : ∑ i : Fin m.var.total, |x i - s.x i| = dist base c ret.tables t (helper s gp) + ∑ i ∈ resGens c r, |R i - out.R.getD i 0| / base := by
      rw [Finset.sum_fin_eq_sum_range]
      have e0 : ∀ i ∈ Finset.range m.var.total, (if h : i < m.var.total then |x ((⟨i, h⟩ : Fin m.var.total) : ℕ) - s.x ((⟨i, h⟩ : Fin m.var.total) : ℕ)| else 0) =
          |x i - s.x i| := fun i hi => by rw [dif_pos (Finset.mem_range.1 hi)]
      rw [Finset.sum_congr rfl e0, X.total, Finset.sum_range_add, hir, Finset.sum_range_add, Finset.sum_range_add, Finset.sum_range, Finset.sum_range, Finset.sum_range,
        Finset.sum_range]
      unfold dist
      rw [X.bridge.onBuses_sum, X.bridge.onGens_sum, psum, res_sum hs]
      congr 1
      · congr 1
        · congr 1
          · exact Finset.sum_congr rfl fun k _ => by rw [x1, v1]
          · refine Finset.sum_congr rfl fun k _ => ?_
            rw [x2, v2, X.base, ← sub_div, abs_div, abs_of_pos hb]
        · simp only [x3]
          rw [sum_pwl (gcOf c') (fun k j => |rowVal (pwl1Row (costAt c' k)) (pgAt t (gp k)) - s.x (c'.bus.length + c'.gen.length + j)|)]
          exact Finset.sum_congr rfl fun k _ => by rw [X.helper_at, hval]
      · refine Finset.sum_congr rfl fun k _ => ?_
        have : s.x (c'.bus.length + c'.gen.length + nyOf (gcOf c') + k) = _ := v3 k
        rw [x4, this, ← sub_div, abs_div, abs_of_pos hb]
    have hnorm := X.norm_le hs hb hcost hok' hM hva hpg hy hR
    have hgap : gap o (m.var.total + m.lin.total) ‖fun i : Fin m.var.total => s.x i‖ s.dual s.tol (∑ i : Fin m.var.total, |x i - s.x i|) ≤
        gap o ret.size M ret.dual ret.tol (dist base c ret.tables t (helper s gp) + ∑ i ∈ resGens c r, |R i - out.R.getD i 0| / base) := by
      rw [hdist, X.size, X.dual, X.tol]
      unfold gap
      have := mul_le_mul_of_nonneg_left hnorm hct
      refine div_le_div_of_nonneg_right ?_ hc.le
      linarith
    rw [X.f]
    exact hle.trans (by linarith)

end

end Verif.Opf
