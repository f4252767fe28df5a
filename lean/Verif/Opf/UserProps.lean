import Verif.Opf.UserPoint
import Verif.Opf.ResPriceProps

/-!
# C109, C110: the DC optimal power flow with user-defined constraints, variables and costs

Read off the tables and the user data of the caller and `results`.  `ext2int` should reorder the columns of `A` and `N` but returns sparse matrices as they are (C07), and `opf` accepts
no others: so the columns of the caller are applied to connected buses and generators in service in internal order.
-/

namespace Verif.Opf

open Verif.Index (BusRow GenRow BranchRow IsArgsort WF GenInService BranchInService Connected posOf orderOf)
open Verif.OpfModel Verif.Pips Verif.Network Verif.Cost Verif.OpfCost

section
variable {srt : List ℕ → List ℕ} {base : ℝ} {E : Econ} {U : UserIn} {o : Opt} {solve : AnySolver} {c : Index.Case Tables}
  {ret : Ret} {out : UserOut} (hrun : opfDcUser srt base E U o solve c = some (ret, out))

include hrun in
/-- **C109 (tables).**  The tables of a run with user data are the tables of a DC optimal power flow with further variables and constraints: everything proved of those holds
(`C86_dc`, `C86_dc_flows`, `C86_dc_inputs`, `C86_dc_untouched`, …). -/
theorem C109_tables : opfDc srt base (userSetup base E U) o solve c = some ret := by
  unfold opfDcUser at hrun
  simp only [Option.bind_eq_bind, Option.bind_eq_some_iff] at hrun
  obtain ⟨c', hc', d, hd, hrun⟩ := hrun
  split at hrun
  swap
  · exact absurd hrun (by simp)
  simp only [Option.bind_eq_some_iff] at hrun
  obtain ⟨m, hm, m', hm', s, hs', out', hout, t, ht, e⟩ := hrun
  injection e with e
  obtain ⟨e1, e2⟩ := Prod.mk.inj e
  subst e1 e2
  unfold opfDc
  simp only [hc', hd, hm, Option.bind_eq_bind, Option.bind_some]
  show (dcopfSolver d m ((userSetup base E U).H c' m) ((userSetup base E U).C c' m) ((userSetup base E U).C0 c' m) o solve (E.x0 c' m)).bind _ = _
  rw [hs', Option.bind_some]
  show (Index.int2ext (write c' (dcUpd s (angPost E c' m s)))).bind _ = _
  rw [ht, Option.bind_some]

end

section
variable {srt : List ℕ → List ℕ} (hs : IsArgsort srt) {base : ℝ} (hb : 0 < base) {E : Econ} {U : UserIn} {o : Opt} {solve : AnySolver} {c : Index.Case Tables} (h : WF c)
  (hgc : c.gencost.isSome) (hu : UserShape (onBuses c).card (onGens c).card c U)
  (hgood : ∀ c' d, Index.ext2int srt c = some c' → readCase base c' = some d → Good (dcOps d ++ (userSetup base E U).extra d c'))
  {ret : Ret} {out : UserOut} (hrun : opfDcUser srt base E U o solve c = some (ret, out))

include hs hb h hgc hu hgood hrun

theorem user_applied (hok : ret.success = true) : UserApplied base c U (posOf srt c .bus) (posOf srt c .gen) ret out := by
  obtain ⟨c', d, m, s, P, p, bp, gp, lp, X⟩ := user_run hs h hgc hu hgood hrun
  have hok' : s.success = true := by rw [← X.success]; exact hok
  obtain ⟨hvars, hrows, -, -⟩ := C77_extra d _ m X.run X.good _ _ _ o solve _ s X.sol hok'
  obtain ⟨hx1, hx2⟩ := X.point hb hok'
  have hlin := angOps_varBlocks (nb := c'.bus.length) E c'
  have hx3 : ∀ k < (uW c c' U).nz, s.x (iROf c' + k) = out.z.getD k 0 := fun k hk => (X.z_at hk).symm
  refine ⟨X.zlen.trans X.nz, ?_, ?_, ?_⟩
  · intro i hi
    have hr : (uW c c' U).A.rows ≠ 0 := by
      show rowsOf (colsOf c.A) ≠ 0
      omega
    have w := hrows _ (user_mem_usr hr) i hi
    have e := (uW c c' U).row d (gcOf c') _ hlin (uW c c' U).A (X.fits.A hr) s.x i
    simp only at w
    have e' : rowDot (uW c c' U).blk.A i (subvec (varBlocks (dcOps d ++ (angOps E c'.bus.length c' ++ (pwlOps d.base (gcOf c') ++ (uW c c' U).ops)))) s.x
      (eff (varBlocks (dcOps d ++ (angOps E c'.bus.length c' ++ (pwlOps d.base (gcOf c') ++ (uW c c' U).ops)))) (uW c c' U).blk.vs)) =
      rowValue base ret.tables (posOf srt c .bus) (posOf srt c .gen) out.z (colsOf c.A) i := e.trans (X.row_value hx1 hx2 hx3 (colsOf c.A) (X.fits.A hr) i)
    rw [e', ← X.tol] at w
    exact w
  · intro k hk
    rw [X.zlen] at hk
    have hz : (uW c c' U).nz ≠ 0 := by omega
    have w := hvars _ (user_mem_z hz) k hk
    simp only at w
    rw [(X.zlo hk).1, (X.zlo hk).2, ((uW c c' U).start_z d (gcOf c') _ hlin hz).1, ← X.tol] at w
    rw [X.z_at hk]
    exact w
  · rw [X.ucost]
    exact X.cost_value hx1 hx2 hx3

/-- **C109 (what is applied).**  On success the user constraints hold, the user variables are within their bounds and the reported user cost is the documented one (without `fparm`,
which is lost), with the columns of `A` and `N` applied to the rows of the connected buses in order, then to the rows of the generators in service by bus, then to the user
variables. -/
theorem C109_applied (hok : ret.success = true) : ∃ bs gs, RowOrder c bs gs ∧ UserApplied base c U bs gs ret out :=
  ⟨_, _, rowOrder hs h, user_applied hs hb h hgc hu hgood hrun hok⟩

/-- **C109, as far as it holds.**  The user constraints, bounds and costs hold on the caller's own rows if everything is in service and the generators are listed in the order of their
buses.  Missing: all other cases (`C109_negation`). -/
theorem C109_partial (ho : InOrder srt c) (hok : ret.success = true) : UserApplied base c U (List.range c.bus.length) (List.range c.gen.length) ret out := by
  obtain ⟨e1, e2⟩ := inOrder_pos hs h ho
  rw [← e1, ← e2]
  exact user_applied hs hb h hgc hu hgood hrun hok

end

section
variable {srt : List ℕ → List ℕ} (hs : IsArgsort srt) {base : ℝ} (hb : 0 < base) {E : Econ} {U : UserIn} {o : Opt} {solve : AnySolver} {c : Index.Case Tables} (h : WF c)
  (hcost : EconCosts c) (hc : 0 < o.costMult) (hft : 0 ≤ o.feastol) (hct : 0 ≤ o.comptol) (hu : UserShape (onBuses c).card (onGens c).card c U)
  (hgood : ∀ c' d, Index.ext2int srt c = some c' → readCase base c' = some d → Good (dcOps d ++ (userSetup base E U).extra d c'))
  {ret : Ret} {out : UserOut} (hrun : opfDcUser srt base E U o solve c = some (ret, out)) (hok : ret.success = true)

include hs hb h hcost hc hft hct hu hgood hrun hok

theorem user_prices : ∃ y : ℕ → ℝ, ∀ M : ℝ, 0 ≤ M → (∀ i ∈ onBuses c, |vaAt ret.tables i| ≤ M) → (∀ i ∈ onGens c, |pgAt ret.tables i / base| ≤ M) →
    (∀ i ∈ pwlGens c, |y i| ≤ M) → (∀ v ∈ out.z, |v| ≤ M) →
    UserPrices base c U (posOf srt c .bus) (posOf srt c .gen) ret out (compGap o M ret.dual ret.tol) := by
  obtain ⟨c', d, m, s, P, p, bp, gp, lp, X⟩ := user_run hs h hcost.table hu hgood hrun
  have hok' : s.success = true := by rw [← X.success]; exact hok
  obtain ⟨hx1, hx2⟩ := X.point hb hok'
  have hlin := angOps_varBlocks (nb := c'.bus.length) E c'
  have hx3 : ∀ k < (uW c c' U).nz, s.x (iROf c' + k) = out.z.getD k 0 := fun k hk => (X.z_at hk).symm
  have sg := extra_signs X.run X.good X.sol hc
  refine ⟨helper s gp, fun M hM hva hpg hy hz => ?_⟩
  have hnorm := X.norm_le hb hcost hok' hM hva hpg hy hz
  have hgap : compGap o ‖fun i : Fin m.var.total => s.x i‖ s.dual s.tol ≤ compGap o M ret.dual ret.tol := by
    rw [X.dual, X.tol]
    unfold compGap
    have := mul_le_mul_of_nonneg_left hnorm hct
    refine div_le_div_of_nonneg_right ?_ hc.le
    linarith
  have at_range : ∀ (n : ℕ) (F : ℕ → ℝ) (L : List ℝ), L = (List.range n).map F → ∀ i < n, L.getD i 0 = F i := by
    rintro n F L rfl i hi
    rw [List.getD_eq_getElem?_getD]
    simp [hi]
  have pos_range : ∀ (n : ℕ) (F : ℕ → ℝ) (L : List ℝ), L = (List.range n).map F → (∀ i, 0 ≤ F i) → ∀ v ∈ L, 0 ≤ v := by
    rintro n F L rfl hF v hv
    obtain ⟨i, -, rfl⟩ := List.mem_map.1 hv
    exact hF i
  have hrow : ∀ i < rowsOf (colsOf c.A), rowDot (uW c c' U).blk.A i (subvec (varBlocks (dcOps d ++ (angOps E c'.bus.length c' ++ (pwlOps d.base (gcOf c') ++ (uW c c' U).ops)))) s.x
      (eff (varBlocks (dcOps d ++ (angOps E c'.bus.length c' ++ (pwlOps d.base (gcOf c') ++ (uW c c' U).ops)))) (uW c c' U).blk.vs)) =
      rowValue base ret.tables (posOf srt c .bus) (posOf srt c .gen) out.z (colsOf c.A) i := by
    intro i hi
    have hr : (uW c c' U).A.rows ≠ 0 := by
      show rowsOf (colsOf c.A) ≠ 0
      omega
    rw [← X.row_value hx1 hx2 hx3 (colsOf c.A) (X.fits.A hr) i]
    exact (uW c c' U).row d (gcOf c') _ hlin (uW c c' U).A (X.fits.A hr) s.x i
  have hne : ∀ i < rowsOf (colsOf c.A), (uW c c' U).A.rows ≠ 0 := by
    intro i hi
    show rowsOf (colsOf c.A) ≠ 0
    omega
  refine ⟨⟨?_, ?_, ?_, ?_⟩, ⟨pos_range _ _ _ X.mu_l fun i => (sg _).2.2.1, pos_range _ _ _ X.mu_u fun i => (sg _).2.2.2, pos_range _ _ _ X.z_mu_l fun i => (sg _).1,
    pos_range _ _ _ X.z_mu_u fun i => (sg _).2.1⟩, ?_, ?_, ?_, ?_, ?_⟩
  · rw [X.mu_l]; simp [userData, colMat]
  · rw [X.mu_u]; simp [userData, colMat]
  · rw [X.z_mu_l, X.zlen]; simp
  · rw [X.z_mu_u, X.zlen]; simp
  · intro i hi
    obtain ⟨a1, a2⟩ := extra_absent X.run X.good X.sol _ (user_mem_usr (hne i hi)) i hi
    rw [at_range _ _ _ X.mu_l i hi, at_range _ _ _ X.mu_u i hi]
    exact ⟨a1, a2⟩
  · intro i hi u hu'
    obtain ⟨c1, -⟩ := C84_dc_extra d _ m X.run X.good _ _ _ o solve _ s X.sol hc hft hok' _ (user_mem_usr (hne i hi)) i hi
    have := c1 u hu'
    simp only [hrow i hi] at this
    rw [at_range _ _ _ X.mu_u i hi]
    exact this.trans hgap
  · intro i hi l hl
    obtain ⟨-, c1⟩ := C84_dc_extra d _ m X.run X.good _ _ _ o solve _ s X.sol hc hft hok' _ (user_mem_usr (hne i hi)) i hi
    have := c1 l hl
    simp only [hrow i hi] at this
    rw [at_range _ _ _ X.mu_l i hi]
    exact this.trans hgap
  · intro k hk u hu'
    rw [X.zlen] at hk
    have hz0 : (uW c c' U).nz ≠ 0 := by omega
    obtain ⟨c1, -⟩ := extra_comp X.run X.good X.sol hc hft hok' _ (user_mem_z hz0) k hk
    have := c1 u ((X.zlo hk).2.trans hu')
    simp only [((uW c c' U).start_z d (gcOf c') _ hlin hz0).1] at this
    rw [at_range _ _ _ X.z_mu_u k hk, X.z_at hk]
    exact this.trans hgap
  · intro k hk l hl
    rw [X.zlen] at hk
    have hz0 : (uW c c' U).nz ≠ 0 := by omega
    obtain ⟨-, c1⟩ := extra_comp X.run X.good X.sol hc hft hok' _ (user_mem_z hz0) k hk
    have := c1 l ((X.zlo hk).1.trans hl)
    simp only [((uW c c' U).start_z d (gcOf c') _ hlin hz0).1] at this
    rw [at_range _ _ _ X.z_mu_l k hk, X.z_at hk]
    exact this.trans hgap

/-- **C109 (multipliers).**  On success the multipliers of user constraints and bounds are not negative, zero for absent bounds, and times the unused margin at most `compGap`, which
vanishes with the tolerances of the solver; `M` bounds the returned angles, outputs in p.u., helper values `y` and user variables. -/
theorem C109_multipliers : ∃ bs gs, ∃ y : ℕ → ℝ, RowOrder c bs gs ∧ ∀ M : ℝ, 0 ≤ M → (∀ i ∈ onBuses c, |vaAt ret.tables i| ≤ M) → (∀ i ∈ onGens c, |pgAt ret.tables i / base| ≤ M) →
    (∀ i ∈ pwlGens c, |y i| ≤ M) → (∀ v ∈ out.z, |v| ≤ M) → UserPrices base c U bs gs ret out (compGap o M ret.dual ret.tol) := by
  obtain ⟨y, hy⟩ := user_prices hs hb h hcost hc hft hct hu hgood hrun hok
  exact ⟨_, _, y, rowOrder hs h, hy⟩

variable (hst : ∀ l ∈ c.branch, l.status = 0 ∨ l.status = 1) (hcv : UserConvex c U)

include hst hcv

theorem user_least_cost : ∃ y : ℕ → ℝ,
    (∀ i ∈ pwlGens c, genCost c i (pgAt ret.tables i) ≤ y i + ret.tol) ∧
    ret.f = ∑ i ∈ onGens c \ pwlGens c, genCost c i (pgAt ret.tables i) + ∑ i ∈ pwlGens c, y i + out.cost ∧
    ∀ t θ z, DcFeasible base E c t θ → UserFeasible base c U (posOf srt c .bus) (posOf srt c .gen) t z → ∀ M : ℝ, 0 ≤ M → (∀ i ∈ onBuses c, |vaAt ret.tables i| ≤ M) →
      (∀ i ∈ onGens c, |pgAt ret.tables i / base| ≤ M) → (∀ i ∈ pwlGens c, |y i| ≤ M) → (∀ v ∈ out.z, |v| ≤ M) →
      ret.f ≤ dispatchCost c t + userCost base c U (posOf srt c .bus) (posOf srt c .gen) t z +
        gap o ret.size M ret.dual ret.tol (dist base c ret.tables t y + ∑ k ∈ Finset.range out.z.length, |z.getD k 0 - out.z.getD k 0|) := by
  obtain ⟨c', d, m, s, P, p, bp, gp, lp, X⟩ := user_run hs h hcost.table hu hgood hrun
  have hbd : 0 < d.base := by rw [X.base]; exact hb
  have hgc : ∀ k : Fin c'.gen.length, CostOK (costAt c' k) := X.costOK hcost
  have hok' : s.success = true := by rw [← X.success]; exact hok
  have hlin := angOps_varBlocks (nb := c'.bus.length) E c'
  have hWc : (uW c c' U).Convex := by
    have hn : (uW c c' U).N.rows = rowsOf (colsOf c.N) := rfl
    cases hH : U.H with
    | none =>
      have e : ∀ a b, (uW c c' U).Hval a b = 0 := fun a b => by simp [UData.Hval, userData, hH]
      exact ⟨fun a _ b _ => by rw [e, e], fun w => by simp [e]⟩
    | some H =>
      have e : ∀ a b, (uW c c' U).Hval a b = H.val a b := fun a b => by simp [UData.Hval, userData, hH]
      refine ⟨fun a ha b hb => by rw [e, e]; exact hcv.symm H hH a ha b hb, fun w => ?_⟩
      simp only [e, hn]
      exact hcv.psd H hH w
  obtain ⟨h1, h2⟩ := X.helpers hb hcost hWc hc hok'
  have hval := X.val hcost
  have psum := X.pwlGens_sum hcost
  refine ⟨helper s gp, h1, h2, ?_⟩
  intro t θ z F FU M hM hva hpg hy hz
  rw [← X.base] at F
  have ha := feasible_alt X.bridge h F
  have hstat : ∀ k, (d.branch k).stat = 0 ∨ (d.branch k).stat = 1 := by
    intro k
    obtain ⟨l0, h1, -, -, -, -, -, -, -, -, -, h2, -⟩ := X.bridge.branch k
    rw [h2]
    rcases hst l0 (List.mem_of_getElem? h1) with h3 | h3 <;> simp [h3]
  set zz : ℕ → ℝ := fun j => z.getD j 0 with hzz
  set x := stack d (gcOf c') (fun k => vaAt t (bp k)) (fun k => pgAt t (gp k)) zz with hx
  have hir : iROf c' = c'.bus.length + c'.gen.length + nyOf (gcOf c') := rfl
  have x1 : ∀ k : Fin c'.bus.length, x k = vaAt t (bp k) := by intro k; simp [hx, stack]
  have x2 : ∀ k : Fin c'.gen.length, x (c'.bus.length + k) = pgAt t (gp k) / base := by intro k; rw [← X.base]; simp [hx, stack]
  have x3 : ∀ j : Fin (nyOf (gcOf c')), x (c'.bus.length + c'.gen.length + j) = rowVal (gcOf c' ((ipwl (gcOf c')).get j)) (pgAt t (gp ((ipwl (gcOf c')).get j))) := by
    intro j
    have n1 : ¬ (c'.bus.length + c'.gen.length + j < c'.bus.length) := by omega
    have n2 : ¬ (c'.bus.length + c'.gen.length + j - c'.bus.length < c'.gen.length) := by omega
    have e : c'.bus.length + c'.gen.length + j - c'.bus.length - c'.gen.length = j := by omega
    simp only [hx, stack, dif_neg n1, dif_neg n2, e, dif_pos j.isLt]
    rfl
  have x4 : ∀ k < (uW c c' U).nz, x (iROf c' + k) = z.getD k 0 := by
    intro k _
    have n1 : ¬ (c'.bus.length + c'.gen.length + nyOf (gcOf c') + k < c'.bus.length) := by omega
    have n2 : ¬ (c'.bus.length + c'.gen.length + nyOf (gcOf c') + k - c'.bus.length < c'.gen.length) := by omega
    have n3 : ¬ (c'.bus.length + c'.gen.length + nyOf (gcOf c') + k - c'.bus.length - c'.gen.length < nyOf (gcOf c')) := by omega
    have e : c'.bus.length + c'.gen.length + nyOf (gcOf c') + k - c'.bus.length - c'.gen.length - nyOf (gcOf c') = k := by omega
    show x (c'.bus.length + c'.gen.length + nyOf (gcOf c') + k) = _
    simp only [hx, stack, dif_neg n1, dif_neg n2, e, dif_neg n3, hzz]
  have hzl : z.length = (uW c c' U).nz := FU.size.trans X.nz.symm
  have hang := X.ang_alt F (angOps E c'.bus.length c' ++ (pwlOps d.base (gcOf c') ++ (uW c c' U).ops)) x x1
  have hres : Holds (varBlocks (dcOps d ++ (angOps E c'.bus.length c' ++ (pwlOps d.base (gcOf c') ++ (uW c c' U).ops)))) (uW c c' U).ops x := by
    constructor
    · rw [UData.varVals_eq]
      intro b hbm i hi
      split_ifs at hbm with h0
      · simp at hbm
      · rw [List.mem_singleton] at hbm
        subst hbm
        have hi' : i < (uW c c' U).nz := hi
        simp only
        rw [(X.zlo hi').1, (X.zlo hi').2, ((uW c c' U).start_z d (gcOf c') _ hlin h0).1]
        have ex : x (c'.bus.length + c'.gen.length + nyOf (gcOf c') + i) = _ := x4 i hi'
        rw [ex]
        exact FU.vars i (by rw [hzl]; exact hi')
    · rw [UData.linBlks_eq]
      intro b hbm i hi
      split_ifs at hbm with h0
      · simp at hbm
      · rw [List.mem_singleton] at hbm
        subst hbm
        have e : rowDot (uW c c' U).blk.A i (subvec (varBlocks (dcOps d ++ (angOps E c'.bus.length c' ++ (pwlOps d.base (gcOf c') ++ (uW c c' U).ops)))) x
            (eff (varBlocks (dcOps d ++ (angOps E c'.bus.length c' ++ (pwlOps d.base (gcOf c') ++ (uW c c' U).ops)))) (uW c c' U).blk.vs)) =
            rowValue base t (posOf srt c .bus) (posOf srt c .gen) z (colsOf c.A) i := by
          rw [← X.row_value x1 x2 x4 (colsOf c.A) (X.fits.A h0) i]
          exact (uW c c' U).row d (gcOf c') _ hlin (uW c c' U).A (X.fits.A h0) x i
        simp only [e]
        exact FU.rows i hi
  obtain ⟨T, hT, hle⟩ := C83_least_cost d (fun k : Fin c'.gen.length => costAt c' k) hgc hbd _ (uW c c' U).ops hlin m X.run X.good (userOf P m.var.total)
    (UParams.convex _ X.par hWc) o solve _ hc hft _ rfl s X.sol hok' hstat (fun k => vaAt t (bp k)) (fun k => pgAt t (gp k)) zz ha (hang.append hres)
  obtain ⟨T', hT', hsum⟩ := totcost_sum (fun k : Fin c'.gen.length => costAt c' k) hgc (fun k => pgAt t (gp k))
  rw [hT] at hT'; cases hT'
  have huser : (userOf P m.var.total).value (fun i => x i) = userCost base c U (posOf srt c .bus) (posOf srt c .gen) t z := by
    rw [UParams.value _ X.par, X.cost_value x1 x2 x4]
  change s.f - _ ≤ _ + (userOf P m.var.total).value (fun i => x i) + gap o _ _ _ _ (∑ i : Fin m.var.total, |x i - s.x i|) at hle
  rw [huser, UParams.offset _ X.par, sub_zero, hsum] at hle
  have eC : dispatchCost c t = ∑ k : Fin c'.gen.length, rowVal (pwl1Row (costAt c' k)) (pgAt t (gp k)) := by
    unfold dispatchCost
    rw [X.bridge.onGens_sum]
    exact Finset.sum_congr rfl fun k _ => hval k _
  rw [← eC] at hle
  -- the reported point
  obtain ⟨v1, v2⟩ := X.point hb hok'
  have hdist : ∑ i : Fin m.var.total, |x i - s.x i| = dist base c ret.tables t (helper s gp) + ∑ k ∈ Finset.range out.z.length, |z.getD k 0 - out.z.getD k 0| := by
    rw [Finset.sum_fin_eq_sum_range]
    have e0 : ∀ i ∈ Finset.range m.var.total, (if h : i < m.var.total then |x ((⟨i, h⟩ : Fin m.var.total) : ℕ) - s.x ((⟨i, h⟩ : Fin m.var.total) : ℕ)| else 0) =
        |x i - s.x i| := fun i hi => by rw [dif_pos (Finset.mem_range.1 hi)]
    rw [Finset.sum_congr rfl e0, X.total, Finset.sum_range_add, hir, Finset.sum_range_add, Finset.sum_range_add, Finset.sum_range, Finset.sum_range, Finset.sum_range]
    unfold dist
    rw [X.bridge.onBuses_sum, X.bridge.onGens_sum, psum, X.zlen]
    congr 1
    · congr 1
      · congr 1
        · exact Finset.sum_congr rfl fun k _ => by rw [x1, v1]
        · refine Finset.sum_congr rfl fun k _ => ?_
          rw [x2, v2, ← sub_div, abs_div, abs_of_pos hb]
      · simp only [x3]
        rw [sum_pwl (gcOf c') (fun k j => |rowVal (pwl1Row (costAt c' k)) (pgAt t (gp k)) - s.x (c'.bus.length + c'.gen.length + j)|)]
        exact Finset.sum_congr rfl fun k _ => by rw [X.helper_at, hval]
    · refine Finset.sum_congr rfl fun k hk => ?_
      have hk' := Finset.mem_range.1 hk
      rw [X.z_at hk']
      have : x (c'.bus.length + c'.gen.length + nyOf (gcOf c') + k) = _ := x4 k hk'
      rw [this]
  have hnorm := X.norm_le hb hcost hok' hM hva hpg hy hz
  have hgap : gap o (m.var.total + m.lin.total) ‖fun i : Fin m.var.total => s.x i‖ s.dual s.tol (∑ i : Fin m.var.total, |x i - s.x i|) ≤
      gap o ret.size M ret.dual ret.tol (dist base c ret.tables t (helper s gp) + ∑ k ∈ Finset.range out.z.length, |z.getD k 0 - out.z.getD k 0|) := by
    rw [hdist, X.size, X.dual, X.tol]
    unfold gap
    have := mul_le_mul_of_nonneg_left hnorm hct
    refine div_le_div_of_nonneg_right ?_ hc.le
    linarith
  rw [X.f]
  exact hle.trans (by linarith)

/-- **C110 (least cost of what is applied).**  After a successful DC optimal power flow with user data the reported objective is the cost of the generators with polynomial costs at
their returned outputs, plus the helper values `y` of the others (at least their costs, up to the tolerance), plus the reported user cost.  It is at most the cost of any other dispatch
within all its limits with any user variables that meet the user constraints — in the order in which the code applies the columns —, up to `gap`, which vanishes with the tolerances. -/
theorem C110_applied : ∃ bs gs, ∃ y : ℕ → ℝ, RowOrder c bs gs ∧
    (∀ i ∈ pwlGens c, genCost c i (pgAt ret.tables i) ≤ y i + ret.tol) ∧
    ret.f = ∑ i ∈ onGens c \ pwlGens c, genCost c i (pgAt ret.tables i) + ∑ i ∈ pwlGens c, y i + out.cost ∧
    ∀ t θ z, DcFeasible base E c t θ → UserFeasible base c U bs gs t z → ∀ M : ℝ, 0 ≤ M → (∀ i ∈ onBuses c, |vaAt ret.tables i| ≤ M) →
      (∀ i ∈ onGens c, |pgAt ret.tables i / base| ≤ M) → (∀ i ∈ pwlGens c, |y i| ≤ M) → (∀ v ∈ out.z, |v| ≤ M) →
      ret.f ≤ dispatchCost c t + userCost base c U bs gs t z +
        gap o ret.size M ret.dual ret.tol (dist base c ret.tables t y + ∑ k ∈ Finset.range out.z.length, |z.getD k 0 - out.z.getD k 0|) := by
  obtain ⟨y, h1, h2, h3⟩ := user_least_cost hs hb h hcost hc hft hct hu hgood hrun hok hst hcv
  exact ⟨_, _, y, rowOrder hs h, h1, h2, h3⟩

/-- **C110, as far as it holds.**  With everything in service and the generators listed in the order of their buses: least cost among all dispatches that meet the user constraints on
the caller's own rows.  Missing: all other cases (`C110_negation`). -/
theorem C110_partial (ho : InOrder srt c) : ∃ y : ℕ → ℝ,
    (∀ i ∈ pwlGens c, genCost c i (pgAt ret.tables i) ≤ y i + ret.tol) ∧
    ret.f = ∑ i ∈ onGens c \ pwlGens c, genCost c i (pgAt ret.tables i) + ∑ i ∈ pwlGens c, y i + out.cost ∧
    ∀ t θ z, DcFeasible base E c t θ → UserFeasible base c U (List.range c.bus.length) (List.range c.gen.length) t z → ∀ M : ℝ, 0 ≤ M →
      (∀ i ∈ onBuses c, |vaAt ret.tables i| ≤ M) → (∀ i ∈ onGens c, |pgAt ret.tables i / base| ≤ M) → (∀ i ∈ pwlGens c, |y i| ≤ M) → (∀ v ∈ out.z, |v| ≤ M) →
      ret.f ≤ dispatchCost c t + userCost base c U (List.range c.bus.length) (List.range c.gen.length) t z +
        gap o ret.size M ret.dual ret.tol (dist base c ret.tables t y + ∑ k ∈ Finset.range out.z.length, |z.getD k 0 - out.z.getD k 0|) := by
  obtain ⟨e1, e2⟩ := inOrder_pos hs h ho
  rw [← e1, ← e2]
  exact user_least_cost hs hb h hcost hc hft hct hu hgood hrun hok hst hcv

end

end Verif.Opf
