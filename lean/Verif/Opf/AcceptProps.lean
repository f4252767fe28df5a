import Verif.Opf.Accept
import Verif.Opf.UserRuns

/-!
# C96, C109: no dispatch within its limits is rejected

The converse of the limits of C96 and C109: started at a dispatch that balances the network and respects all limits (and the constraints of the user, as applied), the DC optimal power flow
accepts it with every feasibility tolerance above rounding, and returns it.  So the code does not pose a tighter problem than the one documented, and the theorems about successful runs speak
about runs with small tolerances too.
-/

namespace Verif.Opf

open Verif.Index (BusRow GenRow BranchRow IsArgsort WF GenInService BranchInService Connected posOf orderOf)
open Verif.OpfModel Verif.Pips Verif.Network Verif.Cost Verif.OpfCost

section
variable {nb ng nl : ℕ} (d : Case nb ng nl) (gc0 : Fin ng → CostRow ℝ) (hgc : ∀ p, CostOK (gc0 p)) (hb : 0 < d.base) (lin post : List Op) (hlin : varBlocks lin = [])

include hgc hb hlin in
/-- An alternative, with the cost of each generator as its helper variable, is within all bounds of the model. -/
theorem stack_holds (hstat : ∀ l, (d.branch l).stat = 0 ∨ (d.branch l).stat = 1) (va : Fin nb → ℝ) (pg : Fin ng → ℝ) (z : ℕ → ℝ) (ha : Alternative d va pg)
    (ho : Holds (varBlocks (dcOps d ++ (lin ++ (pwlOps d.base (fun p => pwl1Row (gc0 p)) ++ post)))) (lin ++ post)
      (stack d (fun p => pwl1Row (gc0 p)) va pg z)) :
    Holds (varBlocks (dcOps d ++ (lin ++ (pwlOps d.base (fun p => pwl1Row (gc0 p)) ++ post)))) (dcOps d ++ (lin ++ (pwlOps d.base (fun p => pwl1Row (gc0 p)) ++ post)))
      (stack d (fun p => pwl1Row (gc0 p)) va pg z) := by
  have hgc' : ∀ p, CostOK ((fun p => pwl1Row (gc0 p)) p) := fun p => costOK_pwl1 (hgc p)
  set gc : Fin ng → CostRow ℝ := fun p => pwl1Row (gc0 p) with hgcdef
  set y := stack d gc va pg z with hydef
  have y1 : ∀ b : Fin nb, y b = va b := by
    intro b
    simp [hydef, stack]
  have y2 : ∀ p : Fin ng, y (nb + p) = pg p / d.base := by
    intro p
    simp [hydef, stack]
  have y3 : ∀ p : Fin ng, (gc p).model = 1 → y (nb + ng + pwlPos gc p) = pwlCost (gc p) (pg p) := by
    intro p hp
    have hlt := pwlPos_lt gc p hp
    have hget : (ipwl gc).get ⟨pwlPos gc p, hlt⟩ = p := by
      have := (List.getElem?_eq_some_iff.1 (ipwl_at gc p hp)).2
      simpa using this
    have n1 : ¬ (nb + ng + pwlPos gc p < nb) := by omega
    have n2 : ¬ (nb + ng + pwlPos gc p - nb < ng) := by omega
    have e : nb + ng + pwlPos gc p - nb - ng = pwlPos gc p := by omega
    simp only [hydef, stack, dif_neg n1, dif_neg n2, e, dif_pos hlt, hget]
    simp [rowVal, hp]
  have hbne : d.base ≠ 0 := hb.ne'
  have y2' : ∀ p : Fin ng, d.base * y (nb + p) = pg p := fun p => by rw [y2]; field_simp
  have ho1 : Holds (varBlocks (dcOps d ++ (lin ++ (pwlOps d.base gc ++ post)))) lin y :=
    ⟨fun b hb' => ho.vars b (by simp only [varVals, List.filterMap_append, List.mem_append]; exact Or.inl hb'),
      fun b hb' => ho.rows b (by simp only [linBlks, List.filterMap_append, List.mem_append]; exact Or.inl hb')⟩
  have ho2 : Holds (varBlocks (dcOps d ++ (lin ++ (pwlOps d.base gc ++ post)))) post y :=
    ⟨fun b hb' => ho.vars b (by simp only [varVals, List.filterMap_append, List.mem_append]; exact Or.inr hb'),
      fun b hb' => ho.rows b (by simp only [linBlks, List.filterMap_append, List.mem_append]; exact Or.inr hb')⟩
  exact (alt_holds d hb hstat _ va pg ha y y1 y2).append (ho1.append ((pwl_holds d gc hgc' hb lin post hlin y fun p hp => by
    rw [y2', y3 p hp]).append ho2))

end

section
variable {srt : List ℕ → List ℕ} (hs : IsArgsort srt) {base : ℝ} (hb : 0 < base) {c : Index.Case Tables} (h : WF c) (hin : DcInputs base c) (E : Econ) (hang : AngInputs E c)
  (hcost : EconCosts c) (hst : ∀ l ∈ c.branch, l.status = 0 ∨ l.status = 1)

include hs hb h hin hang hcost hst

/-- **C96 (accepts).**  Every dispatch that balances the network within all limits is accepted: from a suitable starting point, with any absolute feasibility tolerance `δ` above rounding,
the DC optimal power flow succeeds and returns exactly this dispatch. -/
theorem C96_accepts (solve : AnySolver) (t : Index.Case Tables) (θ : ℕ → ℝ) (F : DcFeasible base E c t θ) (δ : ℝ) (hδ : 1 / 2 ^ 52 < δ) :
    ∃ x0 o r, 0 < o.costMult ∧ 0 < o.feastol ∧ 0 < o.gradtol ∧ 0 < o.comptol ∧ opfDcEcon srt base { E with x0 := x0 } o solve c = some r ∧ r.success = true ∧ r.tol = δ ∧
      (∀ i ∈ onBuses c, vaAt r.tables i = vaAt t i) ∧ ∀ i ∈ onGens c, pgAt r.tables i = pgAt t i := by
  have hgood := econ_wellposed hs h hin E hang
  obtain ⟨r0, hr0⟩ := (C96_completes hs h hin E hang).1 ⟨0, 0, 0, 0, 0, 0, false, 1⟩ solve
  obtain ⟨c', d, m, s0, p, bp, gp, lp, R⟩ := econ_run hs h hcost.table hgood hr0
  have hbd : 0 < d.base := by rw [R.base]; exact hb
  have hgc : ∀ k : Fin c'.gen.length, CostOK (costAt c' k) := R.costOK hcost
  have hlin := angOps_varBlocks (nb := c'.bus.length) E c'
  have F' := F
  rw [← R.base] at F'
  have ha := feasible_alt R.bridge h F'
  have hstat : ∀ k, (d.branch k).stat = 0 ∨ (d.branch k).stat = 1 := by
    intro k
    obtain ⟨l0, h1, -, -, -, -, -, -, -, -, -, h2, -⟩ := R.bridge.branch k
    rw [h2]
    rcases hst l0 (List.mem_of_getElem? h1) with h3 | h3 <;> simp [h3]
  set x := stack d (fun k : Fin c'.gen.length => pwl1Row (costAt c' k)) (fun k => vaAt t (bp k)) (fun k => pgAt t (gp k)) (fun _ => 0) with hx
  have x1 : ∀ k : Fin c'.bus.length, x k = vaAt t (bp k) := by intro k; simp [hx, stack]
  have x2 : ∀ k : Fin c'.gen.length, x (c'.bus.length + k) = pgAt t (gp k) / d.base := by intro k; simp [hx, stack]
  have hA := R.toDcRun.ang_alt F' (angOps E c'.bus.length c' ++ (pwlOps d.base (fun k : Fin c'.gen.length => pwl1Row (costAt c' k)) ++ [])) x x1
  have hall := stack_holds d (fun k : Fin c'.gen.length => costAt c' k) hgc hbd _ [] hlin hstat (fun k => vaAt t (bp k)) (fun k => pgAt t (gp k)) (fun _ => 0) ha
    (by rw [List.append_nil (angOps E c'.bus.length c')]; exact hA)
  obtain ⟨o, o1, o2, o3, o4, hsol⟩ := dc_accepts R.run R.good (HH (dcData d.base (fun k : Fin c'.gen.length => pwl1Row (costAt c' k)) (noUser m.var.total) c'.bus.length (c'.bus.length + c'.gen.length) (dc_width R.run R.good)))
    (CC (dcData d.base (fun k : Fin c'.gen.length => pwl1Row (costAt c' k)) (noUser m.var.total) c'.bus.length (c'.bus.length + c'.gen.length) (dc_width R.run R.good)))
    (C0 (dcData d.base (fun k : Fin c'.gen.length => pwl1Row (costAt c' k)) (noUser m.var.total) c'.bus.length (c'.bus.length + c'.gen.length) (dc_width R.run R.good))) x hall δ hδ
  obtain ⟨s, hs', hok, htol, hxs⟩ := hsol solve
  obtain ⟨c1, d1, he1, hd1, hw⟩ := bridge_exists hs base h
  have := R.ext
  rw [he1] at this; cases this
  have := R.read
  rw [hd1] at this; cases this
  obtain ⟨r, hr⟩ := hw (dcUpd s (angPost E c' m s))
  let X0 : ∀ (_ : Index.Case Tables) (m : Model), Fin m.var.total → ℝ := fun _ _ i => x i
  have hrun : opfDcEcon srt base { E with x0 := X0 } o solve c = some ⟨s.success, s.f, s.tol, s.dual, m.var.total + m.lin.total, zeroOff opfOff r⟩ := by
    have hm2 : OpfModel.run (dcOps d ++ (econSetup base { E with x0 := X0 }).extra d c') = some m := R.run
    have hs2 : dcopfSolver d m ((econSetup base { E with x0 := X0 }).H c' m) ((econSetup base { E with x0 := X0 }).C c' m) ((econSetup base { E with x0 := X0 }).C0 c' m) o solve
        ((econSetup base { E with x0 := X0 }).x0 c' m) = some s := by
      have hw := dc_width R.run R.good
      rw [← R.base]
      simp only [econSetup, dif_pos hw]
      exact hs'
    have ht2 : Index.int2ext (write c' (dcUpd s ((econSetup base { E with x0 := X0 }).post c' m s))) = some r := hr
    unfold opfDcEcon opfDc
    simp only [he1, hd1, hm2, hs2, ht2, Option.bind_eq_bind, Option.bind_some]
  refine ⟨X0, o, _, o1, o2, o3, o4, hrun, hok, htol, ?_⟩
  obtain ⟨c2, d2, m2, s2, p2, bp2, gp2, lp2, R2⟩ := econ_run hs h hcost.table (econ_wellposed hs h hin { E with x0 := X0 } hang) hrun
  have := R2.ext
  rw [he1] at this; cases this
  have := R2.read
  rw [hd1] at this; cases this
  have hm : some m = some m2 := R.run.symm.trans R2.run
  cases hm
  have hs3 : some s = some s2 := hs'.symm.trans R2.sol
  cases hs3
  have eb : bp2 = bp := funext fun k => by have := R2.bpos k; rw [R.bpos k] at this; exact (Option.some.inj this).symm
  have eg : gp2 = gp := funext fun k => by have := R2.gpos k; rw [R.gpos k] at this; exact (Option.some.inj this).symm
  subst eb eg
  obtain ⟨v1, v2⟩ := R2.point hb hok
  have htot := R2.total
  constructor
  · intro i hi
    obtain ⟨k, rfl⟩ : ∃ k, bp2 k = i := by
      obtain ⟨-, b, h1, h2⟩ := (@Finset.mem_filter _ _ (Classical.decPred _) _ _).1 hi
      exact R2.bridge.busOn i b h1 h2
    rw [← v1, ← x1, hxs k (by omega)]
  · intro i hi
    obtain ⟨k, rfl⟩ : ∃ k, gp2 k = i := by rw [R2.bridge.onGens_eq] at hi; simpa using hi
    have e := x2 k
    rw [← hxs _ (by omega), v2, R2.base] at e
    exact (div_left_inj' hb.ne').1 e

end

/-- The hypotheses hold on the tables of C96 with an alternative dispatch: a run with a tolerance of `1e-6` that returns it. -/
example : ∃ x0 o r, opfDcEcon Index.stableArgsort 100 { exE with x0 := x0 } o (fun _ _ _ _ => none) exEcon = some r ∧ r.success = true ∧ r.tol = 1 / 10 ^ 6 ∧ pgAt r.tables 0 = 50 := by
  obtain ⟨x0, o, r, -, -, -, -, h1, h2, h3, -, h4⟩ := C96_accepts Index.stableArgsort_isArgsort (by norm_num : (0 : ℝ) < 100) exEcon_wf exEcon_dc exE exE_ang exEcon_costs
    (by simp [exEcon]) (fun _ _ _ _ => none) exAlt exθ exAlt_feasible (1 / 10 ^ 6) (by norm_num)
  refine ⟨x0, o, r, h1, h2, h3, ?_⟩
  rw [h4 0 ?_]
  · simp [pgAt, exAlt]
  · refine (@Finset.mem_filter _ _ (Classical.decPred _) _ _).2 ⟨by simp [exEcon, exTables], _, rfl, by simp, ?_⟩
    exact (exCon 2).2 (Or.inr rfl)

section
variable {srt : List ℕ → List ℕ} (hs : IsArgsort srt) {base : ℝ} (hb : 0 < base) {c : Index.Case Tables} (h : WF c) (hin : DcInputs base c) (E : Econ) (hang : AngInputs E c)
  (hcost : EconCosts c) (hst : ∀ l ∈ c.branch, l.status = 0 ∨ l.status = 1) {U : UserIn} (hu : UserInputs c U)

include hs hb h hin hang hcost hst hu

theorem user_accepts (solve : AnySolver) (t : Index.Case Tables) (θ : ℕ → ℝ) (z : List ℝ) (F : DcFeasible base E c t θ)
    (FU : UserFeasible base c U (posOf srt c .bus) (posOf srt c .gen) t z) (δ : ℝ) (hδ : 1 / 2 ^ 52 < δ) :
    ∃ x0 o ret out, 0 < o.costMult ∧ 0 < o.feastol ∧ 0 < o.gradtol ∧ 0 < o.comptol ∧ opfDcUser srt base { E with x0 := x0 } U o solve c = some (ret, out) ∧ ret.success = true ∧
      ret.tol = δ ∧ (∀ i ∈ onBuses c, vaAt ret.tables i = vaAt t i) ∧ (∀ i ∈ onGens c, pgAt ret.tables i = pgAt t i) ∧ out.z = z := by
  have hgood := user_wellposed hs h hin E hang hu
  obtain ⟨⟨ret0, out0⟩, hr0⟩ := (C109_completes hs h hin E hang hu).1 ⟨0, 0, 0, 0, 0, 0, false, 1⟩ solve
  obtain ⟨c', d, m, s0, P, p, bp, gp, lp, X⟩ := user_run hs h hcost.table hu.shape hgood hr0
  have hbd : 0 < d.base := by rw [X.base]; exact hb
  have hgc : ∀ k : Fin c'.gen.length, CostOK (costAt c' k) := X.costOK hcost
  have hlin := angOps_varBlocks (nb := c'.bus.length) E c'
  rw [← X.base] at F
  have ha := feasible_alt X.bridge h F
  have hstat : ∀ k, (d.branch k).stat = 0 ∨ (d.branch k).stat = 1 := by
    intro k
    obtain ⟨l0, h1, -, -, -, -, -, -, -, -, -, h2, -⟩ := X.bridge.branch k
    rw [h2]
    rcases hst l0 (List.mem_of_getElem? h1) with h3 | h3 <;> simp [h3]
  set zz : ℕ → ℝ := fun j => z.getD j 0 with hzz
  set x := stack d (gcOf c') (fun k => vaAt t (bp k)) (fun k => pgAt t (gp k)) zz with hx
  have hir : iROf c' = c'.bus.length + c'.gen.length + nyOf (gcOf c') := rfl
  have x1 : ∀ k : Fin c'.bus.length, x k = vaAt t (bp k) := by intro k; simp [hx, stack]
  have x2 : ∀ k : Fin c'.gen.length, x (c'.bus.length + k) = pgAt t (gp k) / base := by intro k; rw [← X.base]; simp [hx, stack]
  have x3 : ∀ j : Fin (nyOf (gcOf c')), x (c'.bus.length + c'.gen.length + j) = rowVal (gcOf c' ((ipwl (gcOf c')).get j)) (pgAt t (gp ((ipwl (gcOf c')).get j))) := by
    intro j
    have n1 : ¬ (c'.bus.length + c'.gen.length + j < c'.bus.length) := by omega
    have n2 : ¬ (c'.bus.length + c'.gen.length + j - c'.bus.length < c'.gen.length) := by omega
    have e : c'.bus.length + c'.gen.length + j - c'.bus.length - c'.gen.length = j := by omega
    simp only [hx, stack, dif_neg n1, dif_neg n2, e, dif_pos j.isLt]
    rfl
  have x4 : ∀ k < (uW c c' U).nz, x (iROf c' + k) = z.getD k 0 := by
    intro k _
    have n1 : ¬ (c'.bus.length + c'.gen.length + nyOf (gcOf c') + k < c'.bus.length) := by omega
    have n2 : ¬ (c'.bus.length + c'.gen.length + nyOf (gcOf c') + k - c'.bus.length < c'.gen.length) := by omega
    have n3 : ¬ (c'.bus.length + c'.gen.length + nyOf (gcOf c') + k - c'.bus.length - c'.gen.length < nyOf (gcOf c')) := by omega
    have e : c'.bus.length + c'.gen.length + nyOf (gcOf c') + k - c'.bus.length - c'.gen.length - nyOf (gcOf c') = k := by omega
    show x (c'.bus.length + c'.gen.length + nyOf (gcOf c') + k) = _
    simp only [hx, stack, dif_neg n1, dif_neg n2, e, dif_neg n3, hzz]
  have hzl : z.length = (uW c c' U).nz := FU.size.trans X.nz.symm
  have hangA := X.ang_alt F (angOps E c'.bus.length c' ++ (pwlOps d.base (gcOf c') ++ (uW c c' U).ops)) x x1
  have hres : Holds (varBlocks (dcOps d ++ (angOps E c'.bus.length c' ++ (pwlOps d.base (gcOf c') ++ (uW c c' U).ops)))) (uW c c' U).ops x := by
    constructor
    · rw [UData.varVals_eq]
      intro b hbm i hi
      split_ifs at hbm with h0
      · simp at hbm
      · rw [List.mem_singleton] at hbm
        subst hbm
        have hi' : i < (uW c c' U).nz := hi
        simp only
        rw [(X.zlo hi').1, (X.zlo hi').2, ((uW c c' U).start_z d (gcOf c') _ hlin h0).1]
        have ex : x (c'.bus.length + c'.gen.length + nyOf (gcOf c') + i) = _ := x4 i hi'
        rw [ex]
        exact FU.vars i (by rw [hzl]; exact hi')
    · rw [UData.linBlks_eq]
      intro b hbm i hi
      split_ifs at hbm with h0
      · simp at hbm
      · rw [List.mem_singleton] at hbm
        subst hbm
        have e : rowDot (uW c c' U).blk.A i (subvec (varBlocks (dcOps d ++ (angOps E c'.bus.length c' ++ (pwlOps d.base (gcOf c') ++ (uW c c' U).ops)))) x
            (eff (varBlocks (dcOps d ++ (angOps E c'.bus.length c' ++ (pwlOps d.base (gcOf c') ++ (uW c c' U).ops)))) (uW c c' U).blk.vs)) =
            rowValue base t (posOf srt c .bus) (posOf srt c .gen) z (colsOf c.A) i := by
          rw [← X.row_value x1 x2 x4 (colsOf c.A) (X.fits.A h0) i]
          exact (uW c c' U).row d (gcOf c') _ hlin (uW c c' U).A (X.fits.A h0) x i
        simp only [e]
        exact FU.rows i hi
  have hall := stack_holds d (fun k : Fin c'.gen.length => costAt c' k) hgc hbd _ (uW c c' U).ops hlin hstat (fun k => vaAt t (bp k)) (fun k => pgAt t (gp k)) zz ha
    (hangA.append hres)
  obtain ⟨c1, d1, m1, he1, hd1, hm1, g1, all⟩ := user_core hs h hin E hang hu
  have := X.ext
  rw [he1] at this; cases this
  have := X.read
  rw [hd1] at this; cases this
  obtain ⟨-, -, hextra, -⟩ := user_extra hs h hin E hang hu he1 hd1
  have hm : some m1 = some m := by rw [← hm1, hextra]; exact X.run
  cases hm
  obtain ⟨o, o1, o2, o3, o4, hsol⟩ := dc_accepts X.run X.good ((userSetup base E U).H c' m) ((userSetup base E U).C c' m) ((userSetup base E U).C0 c' m) x hall δ hδ
  obtain ⟨s, hs', hok, htol, hxs⟩ := hsol solve
  let X0 : ∀ (_ : Index.Case Tables) (m : Model), Fin m.var.total → ℝ := fun _ _ i => x i
  obtain ⟨ret, out, hrun, hsuc, htol'⟩ := all X0 o solve s hs'
  have hok' : ret.success = true := by rw [hsuc]; exact hok
  refine ⟨X0, o, ret, out, o1, o2, o3, o4, hrun, hok', by rw [htol', htol], ?_⟩
  obtain ⟨c2, d2, m2, s2, P2, p2, bp2, gp2, lp2, X2⟩ := user_run hs h hcost.table hu.shape (user_wellposed hs h hin { E with x0 := X0 } hang hu) hrun
  have := X2.ext
  rw [he1] at this; cases this
  have := X2.read
  rw [hd1] at this; cases this
  have hm : some m = some m2 := X.run.symm.trans X2.run
  cases hm
  have hs3 : some s = some s2 := hs'.symm.trans X2.solved
  cases hs3
  have eb : bp2 = bp := funext fun k => by have := X2.bpos k; rw [X.bpos k] at this; exact (Option.some.inj this).symm
  have eg : gp2 = gp := funext fun k => by have := X2.gpos k; rw [X.gpos k] at this; exact (Option.some.inj this).symm
  subst eb eg
  obtain ⟨v1, v2⟩ := X2.point hb hok
  have htot := X2.total
  refine ⟨?_, ?_, ?_⟩
  · intro i hi
    obtain ⟨k, rfl⟩ : ∃ k, bp2 k = i := by
      obtain ⟨-, b, h1, h2⟩ := (@Finset.mem_filter _ _ (Classical.decPred _) _ _).1 hi
      exact X2.bridge.busOn i b h1 h2
    rw [← v1, ← x1, hxs k (by omega)]
  · intro i hi
    obtain ⟨k, rfl⟩ : ∃ k, gp2 k = i := by rw [X2.bridge.onGens_eq] at hi; simpa using hi
    have e := x2 k
    rw [← hxs _ (by omega), v2] at e
    exact (div_left_inj' hb.ne').1 e
  · refine List.ext_getElem (by rw [X2.zlen, hzl]) fun k h1 h2 => ?_
    have hk : k < (uW c c' U).nz := by rw [← hzl]; exact h2
    have e := X2.z_at hk
    have e4 := x4 k hk
    rw [← hxs _ (by rw [htot, hir]; omega)] at e4
    rw [List.getD_eq_getElem _ _ h1] at e
    rw [List.getD_eq_getElem _ _ h2] at e4
    rw [e, ← e4]

/-- **C109 (accepts).**  Every dispatch within all limits with user variables that meet the user constraints — in the order in which the code applies the columns — is accepted: from a
suitable starting point, with any absolute feasibility tolerance `δ` above rounding, the run succeeds and returns exactly it. -/
theorem C109_accepts (solve : AnySolver) : ∃ bs gs, RowOrder c bs gs ∧ ∀ t θ z, DcFeasible base E c t θ → UserFeasible base c U bs gs t z → ∀ δ : ℝ, 1 / 2 ^ 52 < δ →
    ∃ x0 o ret out, 0 < o.costMult ∧ 0 < o.feastol ∧ 0 < o.gradtol ∧ 0 < o.comptol ∧ opfDcUser srt base { E with x0 := x0 } U o solve c = some (ret, out) ∧ ret.success = true ∧
      ret.tol = δ ∧ (∀ i ∈ onBuses c, vaAt ret.tables i = vaAt t i) ∧ (∀ i ∈ onGens c, pgAt ret.tables i = pgAt t i) ∧ out.z = z :=
  ⟨_, _, rowOrder hs h, fun t θ z F FU δ hδ => user_accepts hs hb h hin E hang hcost hst hu solve t θ z F FU δ hδ⟩

end

end Verif.Opf
